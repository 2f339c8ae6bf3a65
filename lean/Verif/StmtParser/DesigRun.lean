import Verif.StmtParser.ImageFree
import Verif.StmtParser.FormProps
/-!
# Parsers that call `procedure_designator`, as functions on lists of tokens

`procedure_designator` looks at the end of the statement, so it has no form.  At a place from which the
rest of the statement is properly nested it is defined, and what it does can be said in terms of the last
pair of parentheses.
-/

namespace FLPR
namespace SP
open Spec

/-- From here on the statement is properly nested, and if nothing is left then what was before does not
end in a parenthesis. -/
structure Fresh (s : Strm) : Prop where
  good : GoodStmt s
  wn : WellNested ((restOf s).map (·.token))
  left : restOf s = [] → ¬ EndsInParen s

/-- The parser does not run into undefined behaviour, and does what the list function does. -/
def Does (x : Exts) (p : P) (s : Strm) (r : Option (List Tok)) : Prop :=
  ∀ n, eval plainBody x n p s ≠ .error (.fail .ub) ∧ ∀ o, eval plainBody x n p s = .ok o → Agrees r s o.ok o.s

theorem pushBack_ub (r a : Rng) : r.pushBack a ≠ .error .ub := by
  intro h
  rw [Rng.pushBack.eq_def] at h
  split at h <;> try cases h
  all_goals repeat' split at h
  all_goals cases h

theorem pushAll_ub : ∀ ks r, pushAll r ks ≠ .error .ub := by
  intro ks
  induction ks with
  | nil => intro r h; cases h
  | cons k ks ih =>
    intro r h
    rw [pushAll] at h
    cases hp : r.pushBack k.range with
    | error e =>
      rw [hp] at h
      injection h with h
      subst h
      exact pushBack_ub _ _ hp
    | ok r' => rw [hp, Res.ok_bind] at h; exact ih _ h

theorem cover_ub (t : SNode) : coverBranches t ≠ .error .ub := by
  intro h
  cases t with
  | node t r ks =>
    rw [coverBranches] at h
    split at h
    · cases h
    · rename_i bs _
      cases hp : pushAll none (ks.dropWhile (fun k => k.range.isEmpty)) with
      | error e =>
        rw [hp] at h
        injection h with h
        subst h
        exact pushAll_ub _ _ hp
      | ok r' => rw [hp, Res.ok_bind] at h; cases h

theorem up_ub {α : Type} {a : Res α} (h : up a = .error (.fail .ub)) : a = .error .ub := by
  cases a with
  | ok a => cases h
  | error e =>
    injection h with h
    injection h with h
    rw [h]

theorem bind_ub {α β : Type} {a : PRes α} {f : α → PRes β} (h : (a >>= f) = .error (.fail .ub)) :
    a = .error (.fail .ub) ∨ ∃ y, a = .ok y ∧ f y = .error (.fail .ub) := by
  cases a with
  | ok y => exact .inr ⟨y, rfl, h⟩
  | error e =>
    have h : (Except.error e : PRes β) = .error (.fail .ub) := h
    injection h with h
    exact .inl (by rw [h])

theorem plain_reals (r : R) (tag : Int) (real : P) (h : plainBody r = .expr tag real) : real = G.realLiteral := by
  by_cases hr : r = .image_selector
  · subst hr; cases h
  · rw [plainBody_ne hr] at h
    exact body_expr h

/-- A parser with a form. -/
theorem does_form {x : Exts} (hx : GoodExts x) {k : Nat} {p : P} {F : PForm} (hF : toFormG plainBody k p = some F)
    (hg : p.good = true) (hc : p.calls (fun r => R.calling.contains r) = false) {s : Strm} (hs : GoodStmt s) :
    Does x p s (F.run (restOf s)) := by
  intro n
  refine ⟨fun h => ?_, fun o ho => eval_runG plainBody plain_reals x n k p F s o hF hs ho⟩
  have := (plain_known hx n).safe p s hg hs
  rw [h, hc] at this
  exact absurd this.2.2 (by simp)

/-- What a sequence does, from what its members do. -/
def SeqSpec (x : Exts) : List P → Strm → Option (List Tok) → Prop
  | [], s, r => r = some (restOf s)
  | p :: ps, s, r => ∃ m, Does x p s m ∧ (m = none → r = none) ∧
      ∀ q, s.pos ≤ q → q ≤ s.hi → m = some (restOf (s.goto q)) → SeqSpec x ps (s.goto q) r

theorem seqLoop_does {x : Exts} {n : Nat} : ∀ ps s r acc, s.pos ≤ s.hi → SeqSpec x ps s r →
    seqLoop (eval plainBody x n) ps s acc ≠ .error (.fail .ub) ∧
    ∀ w, seqLoop (eval plainBody x n) ps s acc = .ok w →
      (w.2.1 = false ∧ r = none) ∨ (w.2.1 = true ∧ Agrees r s true w.2.2) := by
  intro ps
  induction ps with
  | nil =>
    intro s r acc hp h
    refine ⟨fun h => (by cases h), fun w hw => ?_⟩
    injection hw with hw; subst hw
    have h : r = some (restOf s) := h
    subst h
    exact .inr ⟨rfl, rfl, s.pos, (Strm.goto_self s).symm, le_refl _, hp, by rw [Strm.goto_self]⟩
  | cons p ps ih =>
    intro s r acc hp h
    obtain ⟨m, hm, hnone, hsome⟩ := h
    obtain ⟨h1, h2⟩ := hm n
    rw [seqLoop]
    have key : ∀ o, eval plainBody x n p s = .ok o → o.ok = true →
        ∃ q, o.s = s.goto q ∧ s.pos ≤ q ∧ q ≤ s.hi ∧ SeqSpec x ps (s.goto q) r := by
      intro o ho hok
      obtain ⟨q, e1, e2, e3, e4⟩ := agrees_some (h2 o ho) hok
      exact ⟨q, e1, e2, e3, hsome q e2 e3 e4⟩
    constructor
    · intro hub
      rcases bind_ub hub with hub | ⟨o, ho, hub⟩
      · exact h1 hub
      · cases hok : o.ok with
        | true =>
          rw [hok, if_pos rfl] at hub
          obtain ⟨q, e1, e2, e3, e4⟩ := key o ho hok
          rw [e1] at hub
          exact (ih (s.goto q) r _ e3 e4).1 hub
        | false => rw [hok, if_neg (by simp)] at hub; cases hub
    · intro w hw
      pbind hw with o ho
      cases hok : o.ok with
      | true =>
        rw [hok, if_pos rfl] at hw
        obtain ⟨q, e1, e2, e3, e4⟩ := key o ho hok
        rw [e1] at hw
        rcases (ih (s.goto q) r _ e3 e4).2 w hw with h | ⟨h, h'⟩
        · exact .inl h
        · exact .inr ⟨h, agrees_trans e2 h' rfl⟩
      | false =>
        rw [hok, if_neg (by simp)] at hw
        injection hw with hw; subst hw
        obtain ⟨hr, _⟩ := agrees_none (h2 o ho) hok
        exact .inl ⟨rfl, hnone hr⟩

theorem does_seq {x : Exts} {tag : Int} {ps : List P} {s : Strm} {r : Option (List Tok)} (hx : GoodExts x)
    (hs : GoodStmt s) (hg : P.goodAll ps = true) (h : SeqSpec x ps s r) : Does x (.seq tag ps) s r := by
  intro n
  cases n with
  | zero => exact ⟨fun h => (by cases h), fun o h => (by cases h)⟩
  | succ n =>
    obtain ⟨h1, h2⟩ := seqLoop_does (n := n) ps s r (.node Tag.UNKNOWN none []) hs.pos_hi h
    rw [eval, step]
    constructor
    · intro hub
      rcases bind_ub hub with hub | ⟨w, hw, hub⟩
      · exact h1 hub
      · split at hub
        · rcases bind_ub hub with hub | ⟨_, _, hub⟩
          · exact cover_ub _ (up_ub hub)
          · cases hub
        · cases hub
    · intro o ho
      pbind ho with w hw
      rcases h2 w hw with ⟨e1, rfl⟩ | ⟨e1, e2⟩
      · rw [e1, if_neg (by simp)] at ho
        injection ho with ho; subst ho
        refine ⟨rfl, ?_⟩
        have hh := seqLoop_safe (plain_known hx n) hs (b := s.pos) (t := Tag.UNKNOWN) (r := none) ps s.pos []
          hg hs.lo_pos hs.pos_hi (by rw [CoversAll])
        rw [Strm.goto_self, hw] at hh
        obtain ⟨q', _, _, e3, _⟩ := hh
        show w.2.2.goto s.pos = s
        rw [e3, Strm.goto_goto, Strm.goto_self]
      · rw [e1, if_pos rfl] at ho
        pbind ho with t ht
        injection ho with ho; subst ho
        exact e2

/-- What a choice does, from what its members do. -/
def AltSpec (x : Exts) (s : Strm) : List P → Option (List Tok) → Prop
  | [], r => r = none
  | p :: ps, r => ∃ m, Does x p s m ∧ (m = none → AltSpec x s ps r) ∧ (m ≠ none → r = m)

theorem altsLoop_does {x : Exts} {n : Nat} {s : Strm} : ∀ ps r, AltSpec x s ps r →
    altsLoop (eval plainBody x n) ps s ≠ .error (.fail .ub) ∧
    ∀ o, altsLoop (eval plainBody x n) ps s = .ok o → Agrees r s o.ok o.s := by
  intro ps
  induction ps with
  | nil =>
    intro r h
    refine ⟨fun h => (by cases h), fun o ho => ?_⟩
    injection ho with ho; subst ho
    have h : r = none := h
    subst h
    exact ⟨rfl, rfl⟩
  | cons p ps ih =>
    intro r h
    obtain ⟨m, hm, hnone, hsome⟩ := h
    obtain ⟨h1, h2⟩ := hm n
    rw [altsLoop]
    have key : ∀ o, eval plainBody x n p s = .ok o → o.ok = false → o.s = s ∧ AltSpec x s ps r := by
      intro o ho hok
      obtain ⟨e1, e2⟩ := agrees_none (h2 o ho) hok
      exact ⟨e2, hnone e1⟩
    constructor
    · intro hub
      rcases bind_ub hub with hub | ⟨o, ho, hub⟩
      · exact h1 hub
      · cases hok : o.ok with
        | true => rw [hok, if_pos rfl] at hub; cases hub
        | false =>
          rw [hok, if_neg (by simp)] at hub
          obtain ⟨e1, e2⟩ := key o ho hok
          rw [e1] at hub
          exact (ih r e2).1 hub
    · intro o' hw
      pbind hw with o ho
      cases hok : o.ok with
      | true =>
        rw [hok, if_pos rfl] at hw
        injection hw with hw; subst hw
        have ha := h2 o ho
        obtain ⟨q, _, _, _, e4⟩ := agrees_some ha hok
        rw [hsome (by rw [e4]; simp)]
        exact ha
      | false =>
        rw [hok, if_neg (by simp)] at hw
        obtain ⟨e1, e2⟩ := key o ho hok
        rw [e1] at hw
        exact (ih r e2).2 o' hw

theorem does_alts {x : Exts} {tag : Int} {ps : List P} {s : Strm} {r : Option (List Tok)}
    (h : AltSpec x s ps r) : Does x (.alts tag ps) s r := by
  intro n
  cases n with
  | zero => exact ⟨fun h => (by cases h), fun o h => (by cases h)⟩
  | succ n =>
    obtain ⟨h1, h2⟩ := altsLoop_does (n := n) ps r h
    rw [eval, step]
    constructor
    · intro hub
      rcases bind_ub hub with hub | ⟨w, hw, hub⟩
      · exact h1 hub
      · split at hub
        · rcases bind_ub hub with hub | ⟨_, _, hub⟩
          · exact cover_ub _ (up_ub hub)
          · cases hub
        · cases hub
    · intro o ho
      pbind ho with w hw
      have ha := h2 w hw
      cases hok : w.ok with
      | true =>
        rw [hok, if_pos rfl] at ho
        pbind ho with t ht
        injection ho with ho; subst ho
        rw [hok] at ha
        exact ha
      | false =>
        rw [hok, if_neg (by simp)] at ho
        injection ho with ho; subst ho
        exact ha

theorem does_rule {x : Exts} {r : R} {q : P} (hq : plainBody r = .comb q) (ht : q.withTree = true) {s : Strm}
    {res : Option (List Tok)} (h : Does x q s res) : Does x (.rule r) s res := by
  intro n
  cases n with
  | zero => exact ⟨fun h => (by cases h), fun o h => (by cases h)⟩
  | succ n =>
    obtain ⟨h1, h2⟩ := h n
    rw [eval, step, hq, runBody]
    constructor
    · intro hub
      rcases bind_ub hub with hub | ⟨w, hw, hub⟩
      · rcases bind_ub hub with hub | ⟨_, _, hub⟩
        · exact h1 hub
        · cases hub
      · split at hub <;> cases hub
    · intro o ho
      pbind ho with w hw
      pbind hw with o1 ho1
      injection hw with hw; subst hw
      have ha := h2 o1 ho1
      have hb := eval_withTree plainBody x n q s o1 ht ho1
      cases htree : o1.tree with
      | none =>
        rw [htree] at ho hb
        injection ho with ho; subst ho
        obtain ⟨e1, e2⟩ := agrees_none ha hb.symm
        rw [e1]
        exact ⟨rfl, by show o1.s.goto s.pos = s; rw [e2, Strm.goto_self]⟩
      | some t =>
        rw [htree] at ho hb
        injection ho with ho; subst ho
        have hb : o1.ok = true := hb.symm
        rw [hb] at ha
        exact ha

/-! ### The last pair of parentheses -/

/-- The tokens in front of the last pair of parentheses, and that pair, if the tokens end in one. -/
def SplitAt (ts u v : List Tok) : Prop :=
  ts = u ++ v ∧
    ((v = [] ∧ (ts.map (·.token)).getLast? ≠ some Tag.TK_PARENR) ∨
      ∃ m, WellNested (u.map (·.token)) ∧ WellNested m ∧
        v.map (·.token) = Tag.TK_PARENL :: (m ++ [Tag.TK_PARENR]))

theorem split_exists {ts : List Tok} (h : WellNested (ts.map (·.token))) : ∃ u v, SplitAt ts u v := by
  by_cases hl : (ts.map (·.token)).getLast? = some Tag.TK_PARENR
  · obtain ⟨l', hl'⟩ := List.getLast?_eq_some_iff.mp hl
    obtain ⟨a, m, h1, h2, h3⟩ := wn_last h l' hl'
    obtain ⟨u, v, rfl, rfl, hv⟩ := List.map_eq_append_iff.mp h1
    exact ⟨u, v, rfl, .inr ⟨m, h2, h3, hv⟩⟩
  · exact ⟨ts, [], by simp, .inl ⟨rfl, hl⟩⟩

theorem designatorEnd_fresh {s : Strm} (h : Fresh s) {u v : List Tok} (hsp : SplitAt (restOf s) u v) :
    designatorEnd s = .ok (s.goto (s.pos + u.length)) ∧ s.pos + u.length ≤ s.hi := by
  have hg := h.good
  have hlen := hg.hi_len
  have hlo := hg.lo_pos
  have hhi := hg.pos_hi
  have hrl := restOf_length hg
  have hgs : GoodStream (s.goto s.hi) := by
    refine ⟨by simp; omega, by simp, by simpa using hlen, ?_⟩
    intro t ht
    exact (hg.tags t.token (List.mem_map.mpr ⟨t, ht, rfl⟩)).2.1
  obtain ⟨hyes, hno⟩ := C24_open (s.goto s.hi) hgs
  simp only [Strm.goto_lo, Strm.goto_pos, Strm.goto_goto] at hyes hno
  have hat : At (tagsOf s) s.pos ((restOf s).map (·.token)) := by
    rw [restOf_map]
    exact slice_at hhi (by rw [Strm.len_tags]; exact hlen)
  obtain ⟨hts, hv⟩ := hsp
  have hul : u.length + v.length = s.hi - s.pos := by rw [← hrl, hts, List.length_append]
  refine ⟨?_, by omega⟩
  rw [designatorEnd, Strm.consumeUntilEol]
  rcases hv with ⟨rfl, hl⟩ | ⟨m, hwu, hwm, hv⟩
  · have hends : ¬ EndsInParen s := by
      by_cases h0 : restOf s = []
      · exact h.left h0
      · rintro ⟨_, h2⟩
        apply hl
        have hne : ((restOf s).map (·.token)).length ≠ 0 := by simpa using h0
        have h3 := hat (((restOf s).map (·.token)).length - 1) (by omega)
        rw [List.length_map, hrl] at hne
        have hidx : s.pos + (((restOf s).map (·.token)).length - 1) = s.hi - 1 := by
          rw [List.length_map, hrl]; omega
        rw [hidx, h2] at h3
        rw [List.getLast?_eq_getElem?, List.getElem?_eq_getElem (by rw [List.length_map, hrl]; omega), ← h3]
    have hnp : ¬ ∃ i, s.lo ≤ i ∧ s.lo < s.hi ∧ ParenPair (tagsOf s) i (s.hi - 1) := by
      rintro ⟨i, _, h2, h3⟩
      apply hends
      refine ⟨h2, ?_⟩
      obtain ⟨mid, hj, _, ha⟩ := parenPair_at.mp h3
      rw [At.cons, At.append, At.cons] at ha
      rw [hj]
      exact ha.2.2.1
    rw [hno hnp, Res.ok_bind, if_neg (by simp)]
    have hends' : ¬ (s.lo < s.hi ∧ (tagsOf (s.goto s.hi))[s.hi - 1]? = some Tag.TK_PARENR) := hends
    simp only [List.length_nil] at hul
    have hpu : s.pos + u.length = s.hi := by clear hno hyes hnp; omega
    rw [hpu]
    exact congrArg Except.ok (if_neg hends')
  · rw [hts, List.map_append, hv, At.append] at hat
    have hvl : v.length = m.length + 2 := by
      have := congrArg List.length hv
      simpa using this
    have hpair : ParenPair (tagsOf s) (s.pos + u.length) (s.hi - 1) := by
      clear hno hyes
      refine parenPair_at.mpr ⟨m, by omega, wn_balanced hwm, ?_⟩
      have := hat.2
      rwa [List.length_map] at this
    rw [hyes _ (by clear hno hyes; omega) (by clear hno hyes; omega) hpair, Res.ok_bind, if_pos rfl, Strm.putBack_ok (by simp; omega)]
    rfl

/-- There is only one way to do this. -/
theorem split_unique {ts u v u' v' : List Tok} (hb : ∀ a ∈ ts, LexerTag a.token) (h : SplitAt ts u v)
    (h' : SplitAt ts u' v') : u = u' ∧ v = v' := by
  suffices u.length = u'.length by
    have := h.1.symm.trans h'.1
    exact List.append_inj this ‹_›
  obtain ⟨e, h⟩ := h
  obtain ⟨e', h'⟩ := h'
  have ends : ∀ {u v : List Tok} {m : List Int}, ts = u ++ v →
      v.map (·.token) = Tag.TK_PARENL :: (m ++ [Tag.TK_PARENR]) →
      (ts.map (·.token)).getLast? = some Tag.TK_PARENR := by
    intro u v m hts hv
    exact List.getLast?_eq_some_iff.mpr ⟨u.map (·.token) ++ Tag.TK_PARENL :: m, by rw [hts, List.map_append, hv]; simp⟩
  have pair : ∀ {u v : List Tok} {m : List Int}, ts = u ++ v → WellNested m →
      v.map (·.token) = Tag.TK_PARENL :: (m ++ [Tag.TK_PARENR]) →
      ParenPair (ts.map (·.token)) u.length (ts.length - 1) := by
    intro u v m hts hm hv
    refine ⟨u.map (·.token), m, [], ?_, by simp, ?_, wn_balanced hm⟩
    · rw [hts, List.map_append, hv]
    · have := congrArg List.length hv
      rw [hts]
      simp at this ⊢
      omega
  rcases h with ⟨rfl, hl⟩ | ⟨m, _, hm, hv⟩ <;> rcases h' with ⟨rfl, hl'⟩ | ⟨m', _, hm', hv'⟩
  · rw [e] at e'; simpa using congrArg List.length e'
  · exact absurd (ends e' hv') hl
  · exact absurd (ends e hv) hl'
  · exact paren_unique (by
      intro t ht
      obtain ⟨a, ha, rfl⟩ := List.mem_map.mp ht
      exact hb a ha) (pair e hm hv) (pair e' hm' hv')

/-- The inner parser of `procedure_designator`. -/
def designatorP : P :=
  .seq Tag.SG_PROCEDURE_DESIGNATOR [.opt (.seq Tag.HOIST [.star (.seq Tag.HOIST [.rule .part_ref,
    .tok Tag.TK_PERCENT])]), .name, .peek Tag.BAD]

def designatorF : PForm := (toFormG plainBody 20 designatorP).getD .never

theorem designatorF_eq : toFormG plainBody 20 designatorP = some designatorF := by decide +kernel

theorem designatorF_ends : endsF designatorF = true := by decide +kernel

/-- The procedure designator tried here ends behind `u`. -/
structure EndsAt (s : Strm) (u v : List Tok) : Prop where
  split : restOf s = u ++ v
  stop : designatorEnd s = .ok (s.goto (s.pos + u.length))
  le : s.pos + u.length ≤ s.hi

theorem endsAt_fresh {s : Strm} (h : Fresh s) {u v : List Tok} (hsp : SplitAt (restOf s) u v) : EndsAt s u v :=
  ⟨hsp.1, (designatorEnd_fresh h hsp).1, (designatorEnd_fresh h hsp).2⟩

theorem does_designator {x : Exts} (hx : GoodExts x) {s : Strm} (h : GoodStmt s) {u v : List Tok}
    (hsp : EndsAt s u v) :
    Does x (.rule .procedure_designator) s (if designatorF.run u = some [] then some v else none) := by
  intro n
  cases n with
  | zero => exact ⟨fun h => (by cases h), fun o h => (by cases h)⟩
  | succ n =>
    obtain ⟨hsp, hd, hle⟩ := hsp
    have hlen := h.hi_len
    obtain ⟨e, h1, h2, h3, h4⟩ := designatorEnd_good h
    rw [hd] at h1
    injection h1 with h1
    have h1 : s.pos + u.length = e := by have := congrArg Strm.pos h1; simpa using this
    subst h1
    have hsub := h4 (by omega)
    have hrest : restOf (Strm.mk' s.all s.pos (s.pos + u.length)) = u := by
      have h5 : (s.all.take s.hi).drop s.pos = u ++ v := hsp
      show (s.all.take (s.pos + u.length)).drop s.pos = u
      have h6 : s.all.take (s.pos + u.length) = (s.all.take s.hi).take (s.pos + u.length) := by
        rw [List.take_take, Nat.min_eq_left (by omega)]
      rw [h6, List.drop_take, h5]
      simp
    have hrest2 : restOf (s.goto (s.pos + u.length)) = v := by
      have h5 : (s.all.take s.hi).drop s.pos = u ++ v := hsp
      show (s.all.take s.hi).drop (s.pos + u.length) = v
      rw [← List.drop_drop, h5]
      simp
    obtain ⟨d1, d2⟩ := does_form hx designatorF_eq (by decide +kernel) (by decide +kernel) hsub n
    rw [hrest] at d2
    rw [eval, step, show plainBody .procedure_designator = .procDesignator designatorP from rfl, runBody, runDesignator, hd]
    simp only [up_of_ok, PRes.ok_bind, Strm.goto_pos]
    rw [Strm.mkRange, if_pos ⟨by omega, by omega⟩]
    simp only [up_of_ok, PRes.ok_bind]
    constructor
    · intro hub
      rcases bind_ub hub with hub | ⟨w, hw, hub⟩
      · rcases bind_ub hub with hub | ⟨_, _, hub⟩
        · exact d1 hub
        · cases hub
      · split at hub <;> cases hub
    · intro o ho
      pbind ho with w hw
      pbind hw with o1 ho1
      injection hw with hw; subst hw
      have ha := d2 o1 ho1
      have hb := eval_withTree plainBody x n designatorP _ o1 rfl ho1
      cases htree : o1.tree with
      | none =>
        rw [htree] at ho hb
        injection ho with ho; subst ho
        obtain ⟨e1, e2⟩ := agrees_none ha hb.symm
        rw [e1, if_neg (by simp)]
        exact ⟨rfl, by simp⟩
      | some t =>
        rw [htree] at ho hb
        injection ho with ho; subst ho
        have hb : o1.ok = true := hb.symm
        obtain ⟨q, _, _, _, e4⟩ := agrees_some ha hb
        have hn := good_nested hsub
        rw [hrest] at hn
        have hnb := good_noBad hsub
        rw [hrest] at hnb
        have := endsF_sound designatorF u _ designatorF_ends hn hnb e4
        rw [this] at e4
        rw [if_pos e4]
        exact ⟨rfl, s.pos + u.length, rfl, by omega, hle, hrest2⟩

end SP
end FLPR
