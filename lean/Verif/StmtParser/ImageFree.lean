import Verif.StmtParser.ImageSpec
import Verif.StmtParser.FormSim
import Verif.StmtParser.Mono
import Verif.StmtParser.Static
/-!
# The grammar without image selectors

On a line without image selectors the parsers do what those of a grammar do in which `image_selector`
never matches.  That grammar is not recursive in `variable`.
-/

namespace FLPR
namespace SP
open Spec

/-- The grammar with an `image_selector` that never matches. -/
def plainBody (r : R) : Body :=
  if r == .image_selector then .comb (.alts Tag.SG_IMAGE_SELECTOR []) else R.body r

/-- `image_selector`, or that or nothing. -/
def P.isImage : P → Bool
  | .rule r => r == .image_selector
  | .opt (.rule r) => r == .image_selector
  | _ => false

mutual
/-- A match ends with a name or ')'. -/
def P.strong : P → Bool
  | .name => true
  | .tok t => t == Tag.TK_PARENR
  | .seq _ ps => P.strongSeq false ps
  | _ => false
/-- A match ends with a name or ')' or takes nothing. -/
def P.weak : P → Bool
  | .opt p => p.strong && p.restores
  | _ => false
def P.strongSeq (b : Bool) : List P → Bool
  | [] => b
  | p :: ps => P.strongSeq (p.strong || (b && p.weak)) ps
end

mutual
/-- `image_selector` is tried only right behind a name or ')'. -/
def P.adj : P → Bool
  | .rule r => r != .image_selector
  | .seq _ ps => P.adjSeq false ps
  | .alts _ ps => P.adjAll ps
  | .star p => p.adj
  | .opt p => p.adj
  | .neg p => p.adj
  | .tagIf _ p => p.adj
  | _ => true
def P.adjSeq (b : Bool) : List P → Bool
  | [] => true
  | p :: ps => ((b && p.isImage) || p.adj) && P.adjSeq (p.strong || (b && (p.weak || p.isImage))) ps
def P.adjAll : List P → Bool
  | [] => true
  | p :: ps => p.adj && P.adjAll ps
end

mutual
/-- No rule is called. -/
def P.noRule : P → Bool
  | .rule _ => false
  | .seq _ ps => P.noRules ps
  | .alts _ ps => P.noRules ps
  | .star p => p.noRule
  | .opt p => p.noRule
  | .neg p => p.noRule
  | .tagIf _ p => p.noRule
  | _ => true
def P.noRules : List P → Bool
  | [] => true
  | p :: ps => p.noRule && P.noRules ps
end

def Body.adj : Body → Bool
  | .comb p => p.adj
  | .expr _ real => real.noRule
  | .procDesignator p => p.adj && p.good
  | .withExts _ p => p.adj
  | _ => true

theorem grammar_adj (r : R) (h : r ≠ .image_selector) : (R.body r).adj = true := by
  have := R.forall_of (q := fun r => r == .image_selector || (R.body r).adj) (by decide +kernel) r
  simpa [h] using this

theorem plainBody_ne {r : R} (h : r ≠ .image_selector) : plainBody r = R.body r := by
  rw [plainBody, if_neg (by simpa using h)]

theorem plain_good (r : R) : (plainBody r).good = true :=
  R.forall_of (q := fun r => (plainBody r).good) (by decide +kernel) r

/-- The rules that call `procedure_designator` in the grammar without image selectors. -/
def R.calling : List R :=
  [.action_stmt, .alloc_opt, .allocate_stmt, .assignment_stmt, .associate_stmt, .association, .call_stmt,
   .component_data_source, .component_def_stmt, .component_spec, .data_pointer_object, .data_stmt, .data_stmt_constant,
   .data_stmt_object, .data_stmt_set, .data_stmt_value, .dealloc_opt, .deallocate_stmt, .event_post_stmt, .event_wait_stmt,
   .form_team_stmt, .forall_assignment_stmt, .forall_stmt, .function_reference, .if_stmt, .input_item, .inquire_stmt,
   .io_implied_do, .io_implied_do_control, .io_implied_do_object, .lock_stmt, .output_item, .image_selector_spec,
   .other_specification_stmt, .pointer_assignment_stmt, .print_stmt, .proc_component_def_stmt, .proc_component_ref,
   .proc_decl, .proc_pointer_init, .proc_pointer_object, .proc_target, .procedure_declaration_stmt,
   .procedure_designator, .read_stmt, .select_rank_stmt, .select_type_stmt, .selector, .structure_constructor,
   .sync_all_stmt, .sync_images_stmt, .sync_memory_stmt, .sync_stat, .sync_team_stmt, .unlock_stmt,
   .«variable», .wait_spec, .wait_stmt, .where_stmt, .write_stmt]

theorem plain_calls (r : R) (h : (plainBody r).calls (fun r => R.calling.contains r) = true) :
    R.calling.contains r = true := by
  have := R.forall_of (q := fun r => !(plainBody r).calls (fun r => R.calling.contains r) ||
    R.calling.contains r) (by decide +kernel) r
  rw [h] at this
  simpa using this

theorem plain_known {x : Exts} (hx : GoodExts x) (n : Nat) :
    Known (fun r => R.calling.contains r) (eval plainBody x n) :=
  eval_safe hx plain_good plain_calls n

/-- Where a parser leaves the stream. -/
theorem plain_post {x : Exts} (hx : GoodExts x) {n : Nat} {p : P} (hp : p.good = true) {s : Strm} (hs : GoodStmt s)
    {o : Out} (h : eval plainBody x n p s = .ok o) : ∃ q, o.s = s.goto q ∧ s.pos ≤ q ∧ q ≤ s.hi := by
  have := (plain_known hx n).safe p s hp hs
  rw [h] at this
  obtain ⟨q, h1, h2, h3, _⟩ := this
  exact ⟨q, h1, h2, h3⟩

/-! ### What is right behind a name or ')' -/

/-- The token before the position is a name or ')'. -/
def Behind (s : Strm) : Prop := ∃ i a, s.pos = i + 1 ∧ s.all[i]? = some a ∧ BeforeImage a.token

theorem take1_behind {s : Strm} (hs : GoodStmt s) {q : Tok → Bool} (hq : ∀ a, q a = true → BeforeImage a.token) {o : Out}
    (h : Agrees (PForm.take1 q (restOf s)) s o.ok o.s) (hok : o.ok = true) : Behind o.s := by
  obtain ⟨j, h1, h2, h3, h4⟩ := agrees_some h hok
  rcases rest_cases hs with ⟨_, h5, _⟩ | ⟨a, h5, h6, _, _, _, h7⟩
  · rw [h5] at h4; cases h4
  · rw [h6, PForm.take1] at h4
    split at h4
    · next hqa =>
      injection h4 with h4
      have hl := congrArg List.length h4
      have e1 : (restOf (s.goto (s.pos + 1))).length = s.hi - (s.pos + 1) :=
        restOf_length (GoodStmt_goto hs (by have := hs.lo_pos; omega) (by omega))
      have e2 : (restOf (s.goto j)).length = s.hi - j :=
        restOf_length (GoodStmt_goto hs (by have := hs.lo_pos; omega) h3)
      rw [e1, e2] at hl
      have : j = s.pos + 1 := by omega
      subst this
      rw [h1]
      exact ⟨s.pos, a, rfl, h7, hq a hqa⟩
    · cases h4

theorem strong_behind {x : Exts} (hx : GoodExts x) : ∀ n, (∀ p s o, p.good = true → GoodStmt s →
    eval plainBody x n p s = .ok o → o.ok = true → (p.strong = true → Behind o.s) ∧
      (p.weak = true → Behind o.s ∨ o.s = s)) := by
  intro n
  induction n with
  | zero => intro p s o _ _ h; cases h
  | succ n ih =>
    intro p s o hg hs h hok
    cases p with
    | name =>
      refine ⟨fun _ => ?_, fun h => by cases h⟩
      rw [eval, step] at h
      refine take1_behind hs (q := fun a => decide (NameTag a.token)) ?_ (runName_agrees hs (up_ok h)).1 hok
      intro a ha
      exact .inl (by simpa using ha)
    | tok t =>
      refine ⟨fun ht => ?_, fun h => by cases h⟩
      have ht : t = Tag.TK_PARENR := by simpa [P.strong] using ht
      rw [eval, step] at h
      have := (runTok_agrees hs (t := t) (by rw [ht]; decide) (up_ok h)).1
      rw [PForm.run] at this
      refine take1_behind hs (q := fun a => a.token == t) ?_ this hok
      intro a ha
      exact .inr (by rw [← ht]; simpa using ha)
    | seq tag ps =>
      refine ⟨fun hst => ?_, fun h => by cases h⟩
      rw [P.strong] at hst
      rw [P.good] at hg
      rw [eval, step] at h
      pbind h with w hw
      have key : ∀ ps b q acc w, P.goodAll ps = true → s.lo ≤ q → q ≤ s.hi → P.strongSeq b ps = true →
          (b = true → Behind (s.goto q)) → seqLoop (eval plainBody x n) ps (s.goto q) acc = .ok w → w.2.1 = true →
          Behind w.2.2 := by
        intro ps
        induction ps with
        | nil =>
          intro b q acc w _ _ _ h1 h2 h3 _
          injection h3 with h3; subst h3
          exact h2 h1
        | cons p ps ihp =>
          intro b q acc w hg h1 h2 h3 h4 h5 h6
          rw [P.goodAll, Bool.and_eq_true] at hg
          rw [seqLoop] at h5
          pbind h5 with o1 ho1
          cases hk : o1.ok with
          | false =>
            rw [hk, if_neg (by simp)] at h5
            injection h5 with h5; subst h5; cases h6
          | true =>
            rw [hk, if_pos rfl] at h5
            have hgs := GoodStmt_goto hs h1 h2
            obtain ⟨q2, e1, e2, e3⟩ := plain_post hx hg.1 hgs ho1
            rw [Strm.goto_goto] at e1
            have e2 : q ≤ q2 := e2
            rw [e1] at h5
            refine ihp _ q2 _ w hg.2 (by omega) e3 h3 ?_ h5 h6
            intro hb
            obtain ⟨i1, i2⟩ := ih p _ _ hg.1 hgs ho1 hk
            rw [← e1]
            rw [Bool.or_eq_true, Bool.and_eq_true] at hb
            rcases hb with hb | ⟨hb, hb2⟩
            · exact i1 hb
            · rcases i2 hb2 with h | h
              · exact h
              · rw [h]; exact h4 hb
      cases hk : w.2.1 with
      | true =>
        rw [hk, if_pos rfl] at h
        pbind h with m hm
        injection h with h; subst h
        exact key ps false s.pos _ w hg hs.lo_pos hs.pos_hi hst (fun h => by cases h)
          (by rw [Strm.goto_self]; exact hw) hk
      | false =>
        rw [hk, if_neg (by simp)] at h
        injection h with h; subst h; cases hok
    | opt p =>
      refine ⟨(fun h => by cases h), fun hw => ?_⟩
      rw [P.weak, Bool.and_eq_true] at hw
      rw [P.good] at hg
      rw [eval, step] at h
      pbind h with o1 h1
      injection h with h; subst h
      cases hk : o1.ok with
      | true => exact .inl ((ih p s o1 hg hs h1 hk).1 hw.1)
      | false => exact .inr ((eval_restores plainBody x n p s o1 hw.2 h1 hk).1)
    | _ => exact ⟨(fun h => by cases h), (fun h => by cases h)⟩

/-! ### Both grammars do the same -/

theorem Le.bind' {α β : Type} {a b : PRes α} {h h' : α → PRes β} (ha : Le a b)
    (hh : ∀ v, b = .ok v → Le (h v) (h' v)) : Le (a >>= h) (b >>= h') := by
  rcases ha with rfl | rfl
  · exact .inl rfl
  · match a with
    | .ok v => exact hh v rfl
    | .error e => exact .inr rfl

theorem altsLoop_congr {f f' : P → Strm → PRes Out} : ∀ ps, (∀ p ∈ ps, ∀ s, f p s = f' p s) → ∀ s,
    altsLoop f ps s = altsLoop f' ps s := by
  intro ps
  induction ps with
  | nil => intro _ s; rfl
  | cons p ps ih =>
    intro h s
    rw [altsLoop, altsLoop, h p (by simp)]
    congr 1; funext o
    rw [ih (fun p hp => h p (by simp [hp]))]

theorem seqLoop_congr {f f' : P → Strm → PRes Out} : ∀ ps, (∀ p ∈ ps, ∀ s, f p s = f' p s) → ∀ s acc,
    seqLoop f ps s acc = seqLoop f' ps s acc := by
  intro ps
  induction ps with
  | nil => intro _ s acc; rfl
  | cons p ps ih =>
    intro h s acc
    rw [seqLoop, seqLoop, h p (by simp)]
    congr 1; funext o
    rw [ih (fun p hp => h p (by simp [hp]))]

theorem starLoop_congr {f f' : P → Strm → PRes Out} {p : P} (h : ∀ s, f p s = f' p s) : ∀ k s acc,
    starLoop f p k s acc = starLoop f' p k s acc := by
  intro k
  induction k with
  | zero => intro s acc; rfl
  | succ k ih =>
    intro s acc
    rw [starLoop, starLoop, h]
    congr 1; funext o
    rw [ih]

theorem untilBreak_congr {f f' : P → Strm → PRes Out} {p : P} (h : ∀ s, f p s = f' p s) : ∀ k s d ks,
    untilBreak f p k s d ks = untilBreak f' p k s d ks := by
  intro k
  induction k with
  | zero => intro s d ks; rfl
  | succ k ih =>
    intro s d ks
    rw [untilBreak, untilBreak]
    congr 1; funext t
    cases breakStep t d with
    | stop => rfl
    | fail => rfl
    | take d' =>
      simp only [h, ih]

theorem noRules_mem {ps : List P} (h : P.noRules ps = true) : ∀ p ∈ ps, p.noRule = true := by
  induction ps with
  | nil => intro p hp; cases hp
  | cons q ps ih =>
    rw [P.noRules, Bool.and_eq_true] at h
    intro p hp
    rcases List.mem_cons.mp hp with rfl | hp
    · exact h.1
    · exact ih h.2 p hp

theorem eval_noRule (g g' : R → Body) (x : Exts) : ∀ n p s, p.noRule = true →
    eval g x n p s = eval g' x n p s := by
  intro n
  induction n with
  | zero => intro p s _; rfl
  | succ n ih =>
    intro p s hp
    rw [eval, eval]
    cases p with
    | alts tag ps =>
      rw [P.noRule] at hp
      rw [step, step, altsLoop_congr ps (fun p hp' s => ih p s (noRules_mem hp p hp'))]
    | seq tag ps =>
      rw [P.noRule] at hp
      rw [step, step, seqLoop_congr ps (fun p hp' s => ih p s (noRules_mem hp p hp'))]
    | star p => rw [P.noRule] at hp; rw [step, step, starLoop_congr (fun s => ih p s hp)]
    | opt p => rw [P.noRule] at hp; rw [step, step, ih p s hp]
    | neg p => rw [P.noRule] at hp; rw [step, step, ih p s hp]
    | tagIf tag p => rw [P.noRule] at hp; rw [step, step, ih p s hp]
    | rule r => cases hp
    | _ => rfl

theorem image_body : ∃ ps, R.body .image_selector = .comb (.seq Tag.SG_IMAGE_SELECTOR (.tok Tag.TK_BRACKETL :: ps)) :=
  ⟨_, rfl⟩

/-- An image selector does not match where no bracket opens. -/
theorem image_fails {x : Exts} {n : Nat} {s : Strm} (hs : GoodStmt s) (hh : PForm.headTag (restOf s) ≠ Tag.TK_BRACKETL) :
    Le (eval R.body x n (.rule .image_selector) s) (eval plainBody x n (.rule .image_selector) s) := by
  obtain ⟨ps, hps⟩ := image_body
  cases n with
  | zero => exact .inl rfl
  | succ n =>
  rw [eval, eval, step, step, hps]
  rw [show plainBody .image_selector = .comb (.alts Tag.SG_IMAGE_SELECTOR []) from rfl]
  rw [runBody, runBody]
  cases n with
  | zero => exact .inl rfl
  | succ n =>
  rw [eval, eval, step, step, seqLoop]
  cases n with
  | zero => exact .inl rfl
  | succ n =>
  rw [show eval R.body x (n + 1) (.tok Tag.TK_BRACKETL) s = .ok (noMatch s) by
    rw [eval, step, runTok, headTag_peek hs, Res.ok_bind, if_pos hh.symm]; rfl]
  refine .inr ?_
  simp only [PRes.ok_bind, noMatch, altsLoop, Bool.false_eq_true, if_false, Strm.goto_self]

/-- The body of a rule, given that its parsers do the same. -/
theorem runBody_plain {x : Exts} {L : List Tok} {n : Nat}
    (ih : ∀ p s, p.good = true → p.adj = true → GoodStmt s → s.all = L →
      Le (eval R.body x n p s) (eval plainBody x n p s)) {r : R} (hr : r ≠ .image_selector) {s : Strm}
    (hs : GoodStmt s) (hl : s.all = L) :
    Le (runBody x (eval R.body x n) n (R.body r) s) (runBody x (eval plainBody x n) n (plainBody r) s) := by
  have hadj := grammar_adj r hr
  have hgood := grammar_good r
  rw [plainBody_ne hr]
  cases hb : R.body r with
  | comb p =>
    rw [hb] at hadj hgood
    exact (ih p s hgood hadj hs hl).bind (fun _ => .refl _)
  | expr tag real =>
    rw [hb] at hadj
    refine .inr ?_
    rw [runBody, runBody, runExpr, runExpr]
    simp only [untilBreak_congr (fun s => eval_noRule R.body plainBody x n real s hadj)]
  | parens => exact .refl _
  | listName => exact .refl _
  | procDesignator p =>
    rw [hb, Body.adj, Bool.and_eq_true] at hadj
    rw [runBody, runBody, runDesignator, runDesignator]
    obtain ⟨e, h1, h2, _, h4⟩ := designatorEnd_good hs
    rw [h1]
    simp only [up_of_ok, PRes.ok_bind, Strm.goto_pos]
    have hlen := hs.hi_len
    by_cases hle : s.pos ≤ e
    · rw [Strm.mkRange, if_pos ⟨hle, by omega⟩]
      simp only [up_of_ok, PRes.ok_bind]
      exact (ih p _ hadj.2 hadj.1 (h4 hle) hl).bind (fun _ => .refl _)
    · rw [Strm.mkRange, if_neg (by omega)]
      exact .refl _
  | withExts a p =>
    rw [hb] at hadj hgood
    rw [Body.good, Bool.and_eq_true] at hgood
    exact (ih p s hgood.1 hadj hs hl).bind (fun _ => .refl _)

/-- On a line without image selectors the parsers of the two grammars do the same. -/
theorem eval_plain {x : Exts} (hx : GoodExts x) {L : List Tok} (hL : NoImages L) : ∀ n p s, p.good = true → p.adj = true →
    GoodStmt s → s.all = L → Le (eval R.body x n p s) (eval plainBody x n p s) := by
  intro n
  induction n with
  | zero => intro p s _ _ _ _; exact .inl rfl
  | succ n ih =>
    intro p s hg ha hs hl
    have imgs : ∀ p q, s.lo ≤ q → q ≤ s.hi → p.isImage = true → Behind (s.goto q) →
        Le (eval R.body x n p (s.goto q)) (eval plainBody x n p (s.goto q)) ∧
        ∀ o, eval plainBody x n p (s.goto q) = .ok o → o.ok = true → Behind o.s := by
      intro p q h1 h2 h3 h4
      have hgs := GoodStmt_goto hs h1 h2
      have hh : PForm.headTag (restOf (s.goto q)) ≠ Tag.TK_BRACKETL := by
        obtain ⟨i, a, e1, e2, e3⟩ := h4
        rcases rest_cases hgs with ⟨_, h5, _⟩ | ⟨b, _, h6, _, _, _, h7⟩
        · rw [h5]; decide
        · rw [h6]
          show b.token ≠ _
          have e1 : q = i + 1 := e1
          have e2 : s.all[i]? = some a := e2
          have h7 : s.all[q]? = some b := h7
          rw [e1] at h7
          rw [hl] at e2 h7
          exact hL i a b e2 h7 e3
      have back : ∀ m o, eval plainBody x m (.rule .image_selector) (s.goto q) = .ok o → o.ok = false ∧ o.s = s.goto q := by
        intro m o h
        cases m with
        | zero => cases h
        | succ m =>
          rw [eval, step, show plainBody .image_selector = .comb (.alts Tag.SG_IMAGE_SELECTOR []) from rfl, runBody] at h
          cases m with
          | zero => cases h
          | succ m =>
            rw [eval, step, altsLoop] at h
            simp only [PRes.ok_bind, noMatch, Bool.false_eq_true, if_false] at h
            injection h with h
            subst h
            exact ⟨rfl, by rw [Strm.goto_goto]; rfl⟩
      match p, h3 with
      | .rule r, h3 =>
        have : r = .image_selector := by simpa [P.isImage] using h3
        subst this
        refine ⟨image_fails hgs hh, fun o ho hk => ?_⟩
        rw [(back _ _ ho).1] at hk; cases hk
      | .opt (.rule r), h3 =>
        have : r = .image_selector := by simpa [P.isImage] using h3
        subst this
        cases n with
        | zero => exact ⟨.inl rfl, fun o ho => by cases ho⟩
        | succ n =>
          refine ⟨?_, fun o ho hk => ?_⟩
          · rw [eval, eval, step, step]
            exact (image_fails hgs hh).bind (fun _ => .refl _)
          · rw [eval, step] at ho
            pbind ho with o1 ho1
            injection ho with ho; subst ho
            show Behind o1.s
            rw [(back _ _ ho1).2]; exact h4
    have ihq : ∀ p q, s.lo ≤ q → q ≤ s.hi → p.good = true → p.adj = true →
        Le (eval R.body x n p (s.goto q)) (eval plainBody x n p (s.goto q)) :=
      fun p q h1 h2 hg ha => ih p _ hg ha (GoodStmt_goto hs h1 h2) hl
    rw [eval, eval]
    cases p with
    | alts tag ps =>
      rw [P.good, Bool.and_eq_true] at hg
      rw [P.adj] at ha
      rw [step, step]
      refine Le.bind ?_ (fun _ => .refl _)
      have key : ∀ ps q, s.lo ≤ q → q ≤ s.hi → P.goodAll ps = true → P.adjAll ps = true →
          Le (altsLoop (eval R.body x n) ps (s.goto q)) (altsLoop (eval plainBody x n) ps (s.goto q)) := by
        intro ps
        induction ps with
        | nil => intro q _ _ _ _; exact .refl _
        | cons p ps ihp =>
          intro q h1 h2 hg ha
          rw [P.goodAll, Bool.and_eq_true] at hg
          rw [P.adjAll, Bool.and_eq_true] at ha
          refine (ihq p q h1 h2 hg.1 ha.1).bind' (fun o ho => .ite (.refl _) ?_)
          obtain ⟨q2, e1, e2, e3⟩ := plain_post hx hg.1 (GoodStmt_goto hs h1 h2) ho
          have e2 : q ≤ q2 := e2
          rw [e1, Strm.goto_goto]
          exact ihp q2 (by omega) e3 hg.2 ha.2
      have := key ps s.pos hs.lo_pos hs.pos_hi hg.1 ha
      rwa [Strm.goto_self] at this
    | seq tag ps =>
      rw [P.good] at hg
      rw [P.adj] at ha
      rw [step, step]
      refine Le.bind ?_ (fun _ => .refl _)
      have key : ∀ ps b q acc, s.lo ≤ q → q ≤ s.hi → P.goodAll ps = true → P.adjSeq b ps = true →
          (b = true → Behind (s.goto q)) →
          Le (seqLoop (eval R.body x n) ps (s.goto q) acc) (seqLoop (eval plainBody x n) ps (s.goto q) acc) := by
        intro ps
        induction ps with
        | nil => intro b q acc _ _ _ _ _; exact .refl _
        | cons p ps ihp =>
          intro b q acc h1 h2 hg ha hb
          rw [P.goodAll, Bool.and_eq_true] at hg
          rw [P.adjSeq, Bool.and_eq_true, Bool.or_eq_true, Bool.and_eq_true] at ha
          have hle : Le (eval R.body x n p (s.goto q)) (eval plainBody x n p (s.goto q)) := by
            rcases ha.1 with ⟨h3, h4⟩ | h3
            · exact (imgs p q h1 h2 h4 (hb h3)).1
            · exact ihq p q h1 h2 hg.1 h3
          refine hle.bind' (fun o ho => ?_)
          cases hk : o.ok with
          | false => simp only [Bool.false_eq_true, if_false]; exact .refl _
          | true =>
            simp only [if_true]
            have hgs := GoodStmt_goto hs h1 h2
            obtain ⟨q2, e1, e2, e3⟩ := plain_post hx hg.1 hgs ho
            have e2 : q ≤ q2 := e2
            rw [e1, Strm.goto_goto]
            refine ihp _ q2 _ (by omega) e3 hg.2 ha.2 ?_
            intro hb2
            rw [Strm.goto_goto] at e1
            rw [← e1]
            rw [Bool.or_eq_true, Bool.and_eq_true, Bool.or_eq_true] at hb2
            obtain ⟨i1, i2⟩ := strong_behind hx n p _ o hg.1 hgs ho hk
            rcases hb2 with hb2 | ⟨hb2, hb3 | hb3⟩
            · exact i1 hb2
            · rcases i2 hb3 with h | h
              · exact h
              · rw [h]; exact hb hb2
            · exact (imgs p q h1 h2 hb3 (hb hb2)).2 o ho hk
      have := key ps false s.pos (.node Tag.UNKNOWN none []) hs.lo_pos hs.pos_hi hg ha (fun h => by cases h)
      rwa [Strm.goto_self] at this
    | star p =>
      rw [P.good] at hg
      rw [P.adj] at ha
      rw [step, step]
      refine Le.bind ?_ (fun _ => .refl _)
      have key : ∀ k q acc, s.lo ≤ q → q ≤ s.hi →
          Le (starLoop (eval R.body x n) p k (s.goto q) acc) (starLoop (eval plainBody x n) p k (s.goto q) acc) := by
        intro k
        induction k with
        | zero => intro q acc _ _; exact .refl _
        | succ k ihk =>
          intro q acc h1 h2
          rw [starLoop, starLoop]
          refine (ihq p q h1 h2 hg ha).bind' (fun o ho => .ite ?_ (.refl _))
          obtain ⟨q2, e1, e2, e3⟩ := plain_post hx hg (GoodStmt_goto hs h1 h2) ho
          have e2 : q ≤ q2 := e2
          rw [e1, Strm.goto_goto]
          exact ihk q2 _ (by omega) e3
      have := key n s.pos (.node Tag.HOIST none []) hs.lo_pos hs.pos_hi
      rwa [Strm.goto_self] at this
    | opt p => rw [P.good] at hg; rw [P.adj] at ha; rw [step, step]; exact (ih p s hg ha hs hl).bind (fun _ => .refl _)
    | neg p => rw [P.good] at hg; rw [P.adj] at ha; rw [step, step]; exact (ih p s hg ha hs hl).bind (fun _ => .refl _)
    | tagIf tag p => rw [P.good] at hg; rw [P.adj] at ha; rw [step, step]; exact (ih p s hg ha hs hl).bind (fun _ => .refl _)
    | rule r =>
      have hr : r ≠ .image_selector := by simpa [P.adj] using ha
      rw [step, step]
      exact (runBody_plain ih hr hs hl).bind (fun _ => .refl _)
    | _ => exact .refl _

/-- The same for a rule function. -/
theorem evalRule_plain {x : Exts} (hx : GoodExts x) {n : Nat} {r : R} (hr : r ≠ .image_selector) {s : Strm}
    (hs : GoodStmt s) (hL : NoImages s.all) : Le (evalRule R.body x n r s) (evalRule plainBody x n r s) :=
  runBody_plain (eval_plain hx hL n) hr hs rfl

end SP
end FLPR
