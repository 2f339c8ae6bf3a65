import Verif.Apps.Caliper
import Verif.Apps.ModuleFind
import Verif.StmtParser.VarLemmas
/-!
# Lemmas for C80: prefixes
-/

namespace FLPR
namespace SP
open Spec

/-! ### The parts of a prefix are determined by the tokens -/

/-- How the tags of a part of a prefix look like. -/
inductive SpecShape : List Int → Prop where
  | one {k : Int} : k ∈ [Tag.KW_ELEMENTAL, Tag.KW_IMPURE, Tag.KW_MODULE, Tag.KW_NON_RECURSIVE, Tag.KW_PURE, Tag.KW_RECURSIVE, Tag.KW_INTEGER, Tag.KW_REAL,
      Tag.KW_COMPLEX, Tag.KW_LOGICAL, Tag.KW_DOUBLEPRECISION, Tag.KW_CHARACTER] → SpecShape [k]
  | double : SpecShape [Tag.KW_DOUBLE, Tag.KW_PRECISION]
  | size {k t : Int} : k ∈ [Tag.KW_INTEGER, Tag.KW_REAL, Tag.KW_COMPLEX, Tag.KW_LOGICAL, Tag.KW_CHARACTER] → t ≠ Tag.TK_PARENL →
      SpecShape [k, Tag.TK_ASTERISK, t]
  | sizes {k : Int} {e : List Int} : k = Tag.KW_CHARACTER → WellNested e →
      SpecShape (k :: Tag.TK_ASTERISK :: Tag.TK_PARENL :: (e ++ [Tag.TK_PARENR]))
  | paren {k : Int} {e : List Int} : k ∈ [Tag.KW_INTEGER, Tag.KW_REAL, Tag.KW_COMPLEX, Tag.KW_LOGICAL, Tag.KW_CHARACTER, Tag.KW_TYPE, Tag.KW_CLASS] → WellNested e →
      SpecShape (k :: Tag.TK_PARENL :: (e ++ [Tag.TK_PARENR]))

theorem paren_tags {F : Form} (hb : balF [] F = some []) {w : List Tok} (h : (Form.paren F).Is w) :
    ∃ e, WellNested e ∧ w.map (·.token) = Tag.TK_PARENL :: (e ++ [Tag.TK_PARENR]) := by
  obtain ⟨u3, v3, rfl, ⟨b, rfl, hb'⟩, u4, v4, rfl, he, u5, v5, rfl, ⟨c, rfl, hc⟩, rfl⟩ := h
  exact ⟨u4.map (·.token), balF_wn hb he, by simp [hb', hc]⟩

theorem nameTag_open {t : Int} (h : NameTag t) : t ≠ Tag.TK_PARENL := by
  rintro rfl
  exact absurd h (by decide)

theorem kind_shape {k : Tok} {v : List Tok} (hk : k.token ∈ [Tag.KW_INTEGER, Tag.KW_REAL, Tag.KW_COMPLEX, Tag.KW_LOGICAL])
    (h : (Form.opt Std.kindSelector).Is v) : SpecShape ((k :: v).map (·.token)) := by
  rcases h with (h | ⟨u, v, rfl, ⟨a, rfl, ha⟩, u', v', rfl, ⟨b, rfl, hb⟩, rfl⟩ | h) | rfl
  · obtain ⟨e, h1, h2⟩ := paren_tags (by decide +kernel) h
    rw [List.map_cons, h2]
    exact .paren (by simp only [List.mem_cons, List.not_mem_nil, or_false] at hk ⊢; tauto) h1
  · simp only [List.map_cons, List.map_nil, List.append_nil, List.cons_append, List.nil_append, ha, hb]
    exact .size (by simp only [List.mem_cons, List.not_mem_nil, or_false] at hk ⊢; tauto) (by decide)
  · exact h.elim
  · exact .one (by simp only [List.mem_cons, List.not_mem_nil, or_false] at hk ⊢; tauto)

theorem char_shape {k : Tok} {v : List Tok} (hk : k.token = Tag.KW_CHARACTER) (h : (Form.opt Std.charSelector).Is v) :
    SpecShape ((k :: v).map (·.token)) := by
  have hp : ∀ {F : Form} {v : List Tok}, balF [] F = some [] → (Form.paren F).Is v → SpecShape ((k :: v).map (·.token)) := by
    intro F v hb h
    obtain ⟨e, h1, h2⟩ := paren_tags hb h
    rw [List.map_cons, h2]
    exact .paren (by rw [hk]; decide) h1
  rcases h with (h | h | h | h | h) | rfl
  · rcases h with h | ⟨u, v, rfl, ⟨a, rfl, ha⟩, u', v', rfl, h, rfl⟩ | h
    · exact hp (by decide +kernel) h
    · rcases h with h | ⟨b, rfl, hb⟩ | ⟨b, rfl, hb⟩ | h
      · obtain ⟨e, h1, h2⟩ := paren_tags (by decide +kernel) h
        simp only [List.map_cons, List.append_nil, List.cons_append, List.nil_append, ha, h2]
        exact .sizes hk h1
      · simp only [List.map_cons, List.map_nil, List.append_nil, List.cons_append, List.nil_append, ha, hb]
        exact .size (by rw [hk]; decide) (by decide)
      · simp only [List.map_cons, List.map_nil, List.append_nil, List.cons_append, List.nil_append, ha]
        exact .size (by rw [hk]; decide) (nameTag_open hb)
      · exact h.elim
    · exact h.elim
  · exact hp (by decide +kernel) h
  · exact hp (by decide +kernel) h
  · exact hp (by decide +kernel) h
  · exact h.elim
  · exact .one (by dsimp only; rw [hk]; decide)

theorem decl_shape {w : List Tok} (h : Std.declarationTypeSpec.Is w) :
    SpecShape (w.map (·.token)) ∧ ∀ k, w.map (·.token) = [k] → k ≠ Tag.KW_PURE ∧ k ≠ Tag.KW_ELEMENTAL := by
  have hp : ∀ {F : Form} {w : List Tok} {k : Int}, k ∈ [Tag.KW_TYPE, Tag.KW_CLASS] → balF [] F = some [] → (Form.seqs [.word k, .paren F]).Is w →
      SpecShape (w.map (·.token)) ∧ ∀ k, w.map (·.token) = [k] → k ≠ Tag.KW_PURE ∧ k ≠ Tag.KW_ELEMENTAL := by
    rintro F w k hk hb ⟨u, v, rfl, ⟨a, rfl, ha⟩, u', v', rfl, h, rfl⟩
    obtain ⟨e, h1, h2⟩ := paren_tags hb h
    simp only [List.map_cons, List.append_nil, List.cons_append, List.nil_append, ha, h2]
    refine ⟨.paren ?_ h1, fun k hk => (by simp at hk)⟩
    simp only [List.mem_cons, List.not_mem_nil, or_false] at hk ⊢
    tauto
  have hd : ∀ {a : Tok} {v : List Tok} {k : Int}, a.token ≠ Tag.KW_PURE → a.token ≠ Tag.KW_ELEMENTAL → (a :: v).map (·.token) = [k] →
      k ≠ Tag.KW_PURE ∧ k ≠ Tag.KW_ELEMENTAL := by
    intro a v k h1 h2 h3
    rw [List.map_cons] at h3
    injection h3 with h3 _
    rw [← h3]
    exact ⟨h1, h2⟩
  rcases h with h | h | h | h | h | h | h
  · rcases h with h | h | h | h | h | h | h | h
    · obtain ⟨u, v, rfl, ⟨a, rfl, ha⟩, u', v', rfl, h, rfl⟩ := h
      rw [List.append_nil]
      exact ⟨kind_shape (by rw [ha]; decide) h, fun k => hd (by rw [ha]; decide) (by rw [ha]; decide)⟩
    · obtain ⟨u, v, rfl, ⟨a, rfl, ha⟩, u', v', rfl, h, rfl⟩ := h
      rw [List.append_nil]
      exact ⟨kind_shape (by rw [ha]; decide) h, fun k => hd (by rw [ha]; decide) (by rw [ha]; decide)⟩
    · obtain ⟨u, v, rfl, ⟨a, rfl, ha⟩, u', v', rfl, h, rfl⟩ := h
      rw [List.append_nil]
      exact ⟨kind_shape (by rw [ha]; decide) h, fun k => hd (by rw [ha]; decide) (by rw [ha]; decide)⟩
    · obtain ⟨u, v, rfl, ⟨a, rfl, ha⟩, u', v', rfl, h, rfl⟩ := h
      rw [List.append_nil]
      exact ⟨kind_shape (by rw [ha]; decide) h, fun k => hd (by rw [ha]; decide) (by rw [ha]; decide)⟩
    · obtain ⟨u, v, rfl, ⟨a, rfl, ha⟩, u', v', rfl, ⟨b, rfl, hb⟩, rfl⟩ := h
      simp only [List.map_cons, List.map_nil, List.append_nil, List.cons_append, List.nil_append, ha, hb]
      exact ⟨.double, fun k hk => (by simp at hk)⟩
    · obtain ⟨a, rfl, ha⟩ := h
      exact ⟨.one (by dsimp only; rw [ha]; decide), fun k => hd (by rw [ha]; decide) (by rw [ha]; decide)⟩
    · obtain ⟨u, v, rfl, ⟨a, rfl, ha⟩, u', v', rfl, h, rfl⟩ := h
      rw [List.append_nil]
      exact ⟨char_shape ha h, fun k => hd (by rw [ha]; decide) (by rw [ha]; decide)⟩
    · exact h.elim
  · exact hp (by decide) (by decide +kernel) h
  · exact hp (by decide) (by decide +kernel) h
  · exact hp (by decide) (by decide +kernel) h
  · exact hp (by decide) (by decide +kernel) h
  · exact hp (by decide) (by decide +kernel) h
  · exact h.elim

theorem spec_shape {w : List Tok} (h : prefixSpec.Is w) : SpecShape (w.map (·.token)) := by
  rcases h with ⟨a, rfl, ha⟩ | ⟨a, rfl, ha⟩ | ⟨a, rfl, ha⟩ | ⟨a, rfl, ha⟩ | ⟨a, rfl, ha⟩ | ⟨a, rfl, ha⟩ | h | h
  · exact .one (by dsimp only; rw [ha]; decide)
  · exact .one (by dsimp only; rw [ha]; decide)
  · exact .one (by dsimp only; rw [ha]; decide)
  · exact .one (by dsimp only; rw [ha]; decide)
  · exact .one (by dsimp only; rw [ha]; decide)
  · exact .one (by dsimp only; rw [ha]; decide)
  · exact (decl_shape h).1
  · exact h.elim

/-- What may follow a part of a prefix. -/
def specNext : List Int :=
  [Tag.KW_ELEMENTAL, Tag.KW_IMPURE, Tag.KW_MODULE, Tag.KW_NON_RECURSIVE, Tag.KW_PURE, Tag.KW_RECURSIVE, Tag.KW_INTEGER, Tag.KW_REAL,
    Tag.KW_COMPLEX, Tag.KW_LOGICAL, Tag.KW_DOUBLEPRECISION, Tag.KW_CHARACTER, Tag.KW_DOUBLE, Tag.KW_TYPE, Tag.KW_CLASS, Tag.KW_FUNCTION, Tag.KW_SUBROUTINE]

theorem shape_head {l : List Int} (h : SpecShape l) : ∃ k r, l = k :: r ∧ k ∈ specNext ∧ k ≠ Tag.KW_FUNCTION ∧ k ≠ Tag.KW_SUBROUTINE := by
  have go : ∀ (ks : List Int) {k : Int}, ks.all (fun k => decide (k ∈ specNext ∧ k ≠ Tag.KW_FUNCTION ∧ k ≠ Tag.KW_SUBROUTINE)) = true → k ∈ ks →
      k ∈ specNext ∧ k ≠ Tag.KW_FUNCTION ∧ k ≠ Tag.KW_SUBROUTINE :=
    fun ks k h hk => of_decide_eq_true (List.all_eq_true.mp h k hk)
  cases h with
  | one h => exact ⟨_, _, rfl, go _ (by decide) h⟩
  | double => exact ⟨_, _, rfl, by decide⟩
  | size h _ => exact ⟨_, _, rfl, go _ (by decide) h⟩
  | sizes h _ => subst h; exact ⟨_, _, rfl, by decide⟩
  | paren h _ => exact ⟨_, _, rfl, go _ (by decide) h⟩

theorem next_not {c : Int} (h : c ∈ specNext) : c ≠ Tag.KW_PRECISION ∧ c ≠ Tag.TK_ASTERISK ∧ c ≠ Tag.TK_PARENL := by
  have : specNext.all (fun c => decide (c ≠ Tag.KW_PRECISION ∧ c ≠ Tag.TK_ASTERISK ∧ c ≠ Tag.TK_PARENL)) = true := by decide
  exact of_decide_eq_true (List.all_eq_true.mp this c h)

theorem close_len {e e' r r' : List Int} (h : WellNested e) (h' : WellNested e') (he : e ++ Tag.TK_PARENR :: r = e' ++ Tag.TK_PARENR :: r') :
    e.length = e'.length := by
  have g := scanP_close (rest := r) h
  have g' := scanP_close (rest := r') h'
  rw [he, g'] at g
  omega

theorem shape_len {l l' r r' : List Int} (h : SpecShape l) (h' : SpecShape l') (he : l ++ r = l' ++ r')
    (hr : ∃ c r1, r = c :: r1 ∧ c ∈ specNext) (hr' : ∃ c r1, r' = c :: r1 ∧ c ∈ specNext) : l.length = l'.length := by
  obtain ⟨c, r1, rfl, hc⟩ := hr
  obtain ⟨c', r1', rfl, hc'⟩ := hr'
  obtain ⟨n1, n2, n3⟩ := next_not hc
  obtain ⟨n1', n2', n3'⟩ := next_not hc'
  cases h <;> cases h' <;> simp only [List.cons_append, List.nil_append, List.append_assoc, List.cons.injEq] at he <;>
    obtain ⟨e1, e2⟩ := he
  all_goals first
    | rfl
    | (exfalso; exact n1 e2.1)
    | (exfalso; exact n2 e2.1)
    | (exfalso; exact n3 e2.1)
    | (exfalso; exact n1' e2.1.symm)
    | (exfalso; exact n2' e2.1.symm)
    | (exfalso; exact n3' e2.1.symm)
    | (exfalso; exact absurd e2.1 (by decide))
    | skip
  case size.sizes h2 _ _ _ _ => exact absurd e2.2.1 h2
  case sizes.size h4 => exact absurd e2.2.1.symm h4
  case sizes.sizes h2 _ _ _ h4 => simp [close_len h2 h4 e2.2.2]
  case paren.paren h2 _ _ _ h4 => simp [close_len h2 h4 e2.2]

theorem prefixed_next {ts : List Tok} {ws : List (List Tok)} (h : Prefixed ts ws) : ∃ c r, ts.map (·.token) = c :: r ∧ c ∈ specNext := by
  obtain ⟨h1, k, rest, rfl, hk⟩ := h
  cases ws with
  | nil =>
    refine ⟨k.token, rest.map (·.token), by simp, ?_⟩
    have : [Tag.KW_FUNCTION, Tag.KW_SUBROUTINE].all (fun c => decide (c ∈ specNext)) = true := by decide
    exact of_decide_eq_true (List.all_eq_true.mp this _ hk)
  | cons w ws =>
    obtain ⟨c, r, e1, e2, _⟩ := shape_head (spec_shape (h1 w (by simp)))
    exact ⟨c, r ++ (ws.flatten ++ k :: rest).map (·.token), by simp [e1], e2⟩

theorem prefixed_tail {w ts : List Tok} {ws : List (List Tok)} (h : Prefixed ts (w :: ws)) : ∃ ts', ts = w ++ ts' ∧ Prefixed ts' ws := by
  obtain ⟨h1, k, rest, rfl, hk⟩ := h
  exact ⟨ws.flatten ++ k :: rest, by simp, fun v hv => h1 v (by simp [hv]), k, rest, rfl, hk⟩

theorem prefixed_end {w ts : List Tok} {ws : List (List Tok)} (h : Prefixed ts []) (h' : Prefixed ts (w :: ws)) : False := by
  obtain ⟨_, k, rest, rfl, hk⟩ := h
  obtain ⟨ts', e, _⟩ := prefixed_tail h'
  obtain ⟨c, r, e1, _, e3, e4⟩ := shape_head (spec_shape (h'.1 w (by simp)))
  have e := congrArg (List.map (·.token)) e
  simp only [List.map_append, e1, List.flatten_nil, List.nil_append, List.map_cons, List.cons_append, List.cons.injEq] at e
  rw [e.1] at hk
  simp only [List.mem_cons, List.not_mem_nil, or_false] at hk
  tauto

/-- The parts of a prefix are determined by the tokens. -/
theorem prefixed_unique : ∀ {ws ws' : List (List Tok)} {ts : List Tok}, Prefixed ts ws → Prefixed ts ws' → ws = ws'
  | [], [], _, _, _ => rfl
  | [], _ :: _, _, h, h' => (prefixed_end h h').elim
  | _ :: _, [], _, h, h' => (prefixed_end h' h).elim
  | w :: ws, w' :: ws', ts, h, h' => by
    obtain ⟨r, e, g⟩ := prefixed_tail h
    obtain ⟨r', e', g'⟩ := prefixed_tail h'
    have hl := shape_len (spec_shape (h.1 w (by simp))) (spec_shape (h'.1 w' (by simp)))
      (by rw [← List.map_append, ← List.map_append, ← e, ← e']) (prefixed_next g) (prefixed_next g')
    simp only [List.length_map] at hl
    obtain ⟨e1, e2⟩ := List.append_inj (e.symm.trans e') hl
    subst e1 e2
    rw [prefixed_unique g g']

/-! ### The tree of a prefix -/

/-- A branch of a prefix and the tokens that it is for. -/
def SpecNode (w : List Tok) (k : SNode) : Prop :=
  prefixSpec.Is w ∧ k.tag = Tag.SG_PREFIX_SPEC ∧ ∃ c more, k.kids = c :: more ∧
    ((c.tag = Tag.KW_PURE ∨ c.tag = Tag.KW_ELEMENTAL) ↔ w.map (·.token) ∈ [[Tag.KW_PURE], [Tag.KW_ELEMENTAL]])

theorem altsLoop_one {x : Exts} {n : Nat} : ∀ (ps : List P) s o, (∀ p ∈ ps, p.restores = true) → altsLoop (eval R.body x n) ps s = .ok o → o.ok = true →
    ∃ p ∈ ps, eval R.body x n p s = .ok o
  | [], s, o, _, h, ho => by rw [altsLoop] at h; injection h with h; subst h; cases ho
  | p :: ps, s, o, hp, h, ho => by
    rw [altsLoop] at h
    pbind h with o1 h1
    by_cases hk : o1.ok = true
    · rw [if_pos hk] at h; injection h with h; subst h; exact ⟨p, by simp, h1⟩
    · rw [if_neg hk, (eval_restores R.body x n _ s o1 (hp p (by simp)) h1 (by simpa using hk)).1] at h
      obtain ⟨r', h2, h3⟩ := altsLoop_one ps s o (fun q hq => hp q (by simp [hq])) h ho
      exact ⟨r', by simp [h2], h3⟩

/-- A parser with a form has taken tokens of the form. -/
theorem eval_took {x : Exts} {n : Nat} {p : P} {F : Form} (hF : (toForm 40 p).any (fun G => sameForm G.erase F) = true) {s : Strm} (hs : GoodStmt s)
    {o : Out} (h : eval R.body x n p s = .ok o) (ho : o.ok = true) :
    ∃ q w, o.s = s.goto q ∧ s.pos ≤ q ∧ q ≤ s.hi ∧ restOf s = w ++ restOf (s.goto q) ∧ F.Is w := by
  cases hF' : toForm 40 p with
  | none => rw [hF'] at hF; cases hF
  | some G =>
    rw [hF', Option.any_some] at hF
    obtain ⟨q, h1, h2, h3, h4⟩ := agrees_some (eval_run x n 40 _ G s o hF' hs h) ho
    obtain ⟨w, w1, w2⟩ := run_sound G _ _ (good_nested hs) h4
    exact ⟨q, w, h1, h2, h3, w1, (sameForm_is hF w).mp w2⟩

theorem part_word {T : Int} (hn : T ≠ Tag.HOIST) {w : List Tok} (hT : prefixSpec.Is w) (hw : ∃ a, w = [a] ∧ a.token = T) {k : SNode} {c : SNode}
    (hk : k.tag = Tag.SG_PREFIX_SPEC) (hkk : k.kids = spread (some c)) (hc : c.tag = T) : SpecNode w k := by
  obtain ⟨a, rfl, ha⟩ := hw
  rw [spread, if_neg (by rw [hc]; exact hn)] at hkk
  exact ⟨hT, hk, c, [], hkk, by simp [hc, ha]⟩

theorem tok_tag {x : Exts} {n : Nat} {T : Int} {s : Strm} {o : Out} (h : eval R.body x n (.tok T) s = .ok o) (ho : o.ok = true) :
    ∃ c, o.tree = some c ∧ c.tag = T := by
  cases n with
  | zero => cases h
  | succ n =>
    rw [eval, step] at h
    have h := up_ok h
    rw [runTok] at h
    rbind h with t ht
    split at h
    · injection h with h; subst h; cases ho
    · obtain ⟨rfl, _⟩ := leaf_ok h
      exact ⟨_, rfl, rfl⟩

/-- What `prefix_spec` makes. -/
theorem prefix_part {x : Exts} {n : Nat} {s : Strm} (hs : GoodStmt s) {o : Out} (h : eval R.body x n (.rule .prefix_spec) s = .ok o) (ho : o.ok = true) :
    ∃ q w k, o.s = s.goto q ∧ s.pos ≤ q ∧ q ≤ s.hi ∧ restOf s = w ++ restOf (s.goto q) ∧ o.tree = some k ∧ SpecNode w k := by
  obtain ⟨m, k, e1, e2⟩ := eval_rule h ho
  have hk : k.tag = Tag.SG_PREFIX_SPEC := by
    rw [eval_tag (x := x) grammar_rootTag n _ s o k _ rfl h e1]; decide +kernel
  rw [evalRule, show R.body .prefix_spec = G.prefix_spec from rfl, G.prefix_spec, runBody] at e2
  pbind e2 with o1 h1
  injection e2 with e2
  injection e2 with e2 e3
  cases m with
  | zero => cases h1
  | succ m =>
  rw [eval, step] at h1
  pbind h1 with o2 h2
  split at h1
  · next hk2 =>
    pbind h1 with c hc
    injection h1 with h1; subst h1
    injection e2 with e2; subst e2
    have hkids := (cover_kids (up_ok hc)).1
    rw [(hoistBack_spread _ _).1] at hkids
    have hkids : c.kids = spread o2.tree := hkids
    obtain ⟨p, hp, hrun⟩ := altsLoop_one _ _ _ (by decide) h2 hk2
    have got : ∀ {F : Form}, (toForm 40 p).any (fun G => sameForm G.erase F) = true →
        ∃ q w, o.s = s.goto q ∧ s.pos ≤ q ∧ q ≤ s.hi ∧ restOf s = w ++ restOf (s.goto q) ∧ F.Is w := by
      intro F hF
      obtain ⟨q, w, a1, a2⟩ := eval_took hF hs hrun hk2
      exact ⟨q, w, by rw [← e3]; exact a1, a2⟩
    have word : ∀ {T : Int}, T ≠ Tag.HOIST → (∀ w, (Form.word T).Is w → prefixSpec.Is w) →
        (toForm 40 (.tok T)).any (fun G => sameForm G.erase (.word T)) = true → p = .tok T →
        ∃ q w k', o.s = s.goto q ∧ s.pos ≤ q ∧ q ≤ s.hi ∧ restOf s = w ++ restOf (s.goto q) ∧ o.tree = some k' ∧ SpecNode w k' := by
      rintro T hT hw hF rfl
      obtain ⟨q, w, a1, a2, a3, a4, a5⟩ := got hF
      obtain ⟨c', c1, c2⟩ := tok_tag hrun hk2
      exact ⟨q, w, c, a1, a2, a3, a4, e1, part_word hT (hw w a5) a5 hk (by rw [hkids, c1]) c2⟩
    simp only [List.mem_cons, List.not_mem_nil, or_false] at hp
    rcases hp with hp | hp | hp | hp | hp | hp | hp
    · exact word (by decide) (fun w hw => .inl hw) (by decide +kernel) hp
    · exact word (by decide) (fun w hw => .inr (.inl hw)) (by decide +kernel) hp
    · exact word (by decide) (fun w hw => .inr (.inr (.inl hw))) (by decide +kernel) hp
    · exact word (by decide) (fun w hw => .inr (.inr (.inr (.inl hw)))) (by decide +kernel) hp
    · exact word (by decide) (fun w hw => .inr (.inr (.inr (.inr (.inl hw))))) (by decide +kernel) hp
    · exact word (by decide) (fun w hw => .inr (.inr (.inr (.inr (.inr (.inl hw)))))) (by decide +kernel) hp
    · subst hp
      obtain ⟨q, w, a1, a2, a3, a4, a5⟩ := got (F := Std.declarationTypeSpec) (by decide +kernel)
      obtain ⟨_, c', c1, _⟩ := eval_rule hrun hk2
      have hct : c'.tag = R.rootTag .declaration_type_spec := eval_tag (x := x) grammar_rootTag m _ s o2 c' _ rfl hrun c1
      refine ⟨q, w, c, a1, a2, a3, a4, e1, .inr (.inr (.inr (.inr (.inr (.inr (.inl a5)))))), hk, c', [], ?_, ?_⟩
      · rw [hkids, c1, spread, if_neg (by rw [hct]; decide +kernel)]
      · refine iff_of_false ?_ ?_
        · rw [hct]; decide +kernel
        · intro hm
          simp only [List.mem_cons, List.not_mem_nil, or_false] at hm
          rcases hm with hm | hm
          · exact ((decl_shape a5).2 _ hm).1 rfl
          · exact ((decl_shape a5).2 _ hm).2 rfl
  · next hk2 =>
    injection h1 with h1; subst h1
    have := eval_restores R.body x (m + 1) (.alts Tag.SG_PREFIX_SPEC _) s o2 rfl (by rw [eval, step, h2]; exact (if_neg hk2)) (by simpa using hk2)
    rw [this.2] at e2
    cases e2

/-- The branches that the loop for a prefix collects. -/
theorem star_parts {x : Exts} {n : Nat} : ∀ (m : Nat) {s : Strm}, GoodStmt s → ∀ {acc : SNode} {r : SNode × Strm},
    starLoop (eval R.body x n) (.rule .prefix_spec) m s acc = .ok r →
    ∃ q ws ks, r.2 = s.goto q ∧ s.pos ≤ q ∧ q ≤ s.hi ∧ restOf s = ws.flatten ++ restOf (s.goto q) ∧ r.1.tag = acc.tag ∧ r.1.kids = acc.kids ++ ks ∧
      List.Forall₂ SpecNode ws ks
  | 0, _, _, _, _, h => by cases h
  | m + 1, s, hs, acc, r, h => by
    rw [starLoop] at h
    pbind h with o ho
    by_cases hk : o.ok = true
    · rw [if_pos hk] at h
      obtain ⟨q, w, k, a1, a2, a3, a4, a5, a6⟩ := prefix_part hs ho hk
      rw [a1] at h
      obtain ⟨q', ws, ks, b1, b2, b3, b4, b5, b6, b7⟩ := star_parts m (goto_good hs a2 a3) h
      obtain ⟨t1, t2⟩ := hoistBack_spread acc o.tree
      rw [a5, spread, if_neg (by rw [a6.2.1]; decide)] at t1
      refine ⟨q', w :: ws, k :: ks, b1, Nat.le_trans a2 b2, b3, ?_, by rw [b5, t2], by rw [b6, a5, t1]; simp, .cons a6 b7⟩
      rw [a4, b4]
      simp
    · rw [if_neg hk] at h
      injection h with h; subst h
      have hr := eval_restores R.body x n _ s o rfl ho (by simpa using hk)
      refine ⟨s.pos, [], [], by rw [Strm.goto_self]; exact hr.1, Nat.le_refl _, hs.pos_hi, by rw [Strm.goto_self]; rfl, ?_, ?_, .nil⟩
      · rw [(hoistBack_spread _ _).2]
      · rw [(hoistBack_spread _ _).1, hr.2]; rfl

/-- A sequence that starts with a prefix: the branch for it. -/
theorem seqLoop_parts {x : Exts} {n : Nat} {ps : List P} {s : Strm} (hs : GoodStmt s) {t : Int} {rg : Rng}
    {r : SNode × Bool × Strm} (h : seqLoop (eval R.body x n) (.opt (.rule .«prefix») :: ps) s (.node t rg []) = .ok r) :
    ∃ q ws ks, s.pos ≤ q ∧ q ≤ s.hi ∧ restOf s = ws.flatten ++ restOf (s.goto q) ∧
      ((ks = [] ∧ ws = []) ∨ ∃ k, ks = [k] ∧ k.tag = Tag.SG_PREFIX ∧ List.Forall₂ SpecNode ws k.kids) ∧
      seqLoop (eval R.body x n) ps (s.goto q) (.node t rg ks) = .ok r := by
  rw [seqLoop] at h
  pbind h with o ho
  cases n with
  | zero => cases ho
  | succ n =>
  rw [eval, step] at ho
  pbind ho with o1 h1
  injection ho with ho; subst ho
  rw [if_pos rfl] at h
  by_cases hk : o1.ok = true
  · obtain ⟨m, k, e1, e2⟩ := eval_rule h1 hk
    have hkt : k.tag = Tag.SG_PREFIX := by
      rw [eval_tag (x := x) grammar_rootTag n _ s o1 k _ rfl h1 e1]; decide +kernel
    rw [evalRule, show R.body .«prefix» = G.«prefix» from rfl, G.«prefix», runBody] at e2
    pbind e2 with o2 h2
    injection e2 with e2
    injection e2 with e2 e3
    cases m with
    | zero => cases h2
    | succ m =>
    rw [eval, step] at h2
    pbind h2 with o3 h3
    cases m with
    | zero => cases h3
    | succ m =>
    rw [eval, step] at h3
    pbind h3 with w hw
    pbind h3 with c hc
    injection h3 with h3; subst h3
    simp only [] at h2
    pbind h2 with d hd
    injection h2 with h2; subst h2
    injection e2 with e2; subst e2
    obtain ⟨q, ws, ks, a1, a2, a3, a4, a5, a6, a7⟩ := star_parts _ hs hw
    have hck := cover_kids (up_ok hc)
    have hdk := (cover_kids (up_ok hd)).1
    rw [(hoistBack_spread _ _).1, spread, if_pos (by rw [hck.2, a5]; rfl), hck.1, a6] at hdk
    refine ⟨q, ws, [d], a2, a3, a4, .inr ⟨d, rfl, hkt, ?_⟩, ?_⟩
    · rw [hdk]
      simpa [SNode.kids] using a7
    · rw [e1, ← e3, a1] at h
      obtain ⟨dt, dr, dk⟩ := d
      rw [hoistBack, if_neg (by rw [show dt = Tag.SG_PREFIX from hkt]; decide)] at h
      exact h
  · have hr := eval_restores R.body x n _ s o1 rfl h1 (by simpa using hk)
    refine ⟨s.pos, [], [], Nat.le_refl _, hs.pos_hi, by rw [Strm.goto_self]; rfl, .inl ⟨rfl, rfl⟩, ?_⟩
    rw [hr.2, hr.1] at h
    rw [Strm.goto_self]
    exact h

end SP

namespace Apps
open PP Reg Proc Spec
open SP (SNode R Exts Strm SpecNode)

theorem pureLoop_parts {ws : List (List Tok)} {ks : List SNode} (h : List.Forall₂ SpecNode ws ks) :
    ∃ b, pureLoop ks = .ok b ∧ (b = true ↔ ∃ w ∈ ws, w.map (·.token) ∈ [[Tag.KW_PURE], [Tag.KW_ELEMENTAL]]) := by
  induction h with
  | nil => exact ⟨false, rfl, by simp⟩
  | @cons w k ws ks h1 _ ih =>
    obtain ⟨_, e1, c, more, e2, e3⟩ := h1
    obtain ⟨b, b1, b2⟩ := ih
    by_cases hc : c.tag = Tag.KW_PURE ∨ c.tag = Tag.KW_ELEMENTAL
    · refine ⟨true, ?_, by simp only [true_iff]; exact ⟨w, by simp, e3.mp hc⟩⟩
      rw [pureLoop, need_ok e1, Res.ok_bind, Cur.down]
      simp only [e2]
      rw [Res.ok_bind, if_pos hc]
    · refine ⟨b, ?_, ?_⟩
      · rw [pureLoop, need_ok e1, Res.ok_bind, Cur.down]
        simp only [e2]
        rw [Res.ok_bind, if_neg hc, b1]
      · rw [b2]
        constructor
        · rintro ⟨w', h1, h2⟩
          exact ⟨w', by simp [h1], h2⟩
        · rintro ⟨w', h1, h2⟩
          rcases List.mem_cons.mp h1 with rfl | h1
          · exact absurd (e3.mpr h2) hc
          · exact ⟨w', h1, h2⟩

theorem exclude_leaf {t : SNode} {kw : Int} {r : SP.Rng} {more : List SNode} (h : t.kids = .node kw r [] :: more) (hk : kw ≠ Tag.SG_PREFIX) :
    excludeTree t = .ok false := by
  rw [excludeTree, Cur.down]
  simp only [h]
  rw [Res.ok_bind, if_neg (by exact hk)]

theorem exclude_prefixed {x : Exts} {m : Nat} {kw : Int} (hm : kw ∈ [Tag.KW_FUNCTION, Tag.KW_SUBROUTINE]) {ps : List SP.P} {s : Strm}
    (hs : GoodStmt s) {w : SNode × Bool × Strm} {t : SNode}
    (hw : SP.seqLoop (SP.eval SP.R.body x m) (.opt (.rule .«prefix») :: .tok kw :: ps) s (.node Tag.UNKNOWN none []) = .ok w)
    (hok : w.2.1 = true) (ht : t.kids = w.1.kids) : ∃ b, excludeTree t = .ok b ∧ (b = true ↔ PurePrefix (restOf s)) := by
  have hkw : kw ≠ Tag.BAD ∧ kw ≠ Tag.HOIST ∧ kw ≠ Tag.SG_PREFIX := by
    simp only [List.mem_cons, List.not_mem_nil, or_false] at hm
    rcases hm with rfl | rfl <;> decide
  obtain ⟨q, ws, ks, q1, q2, q3, q4, hw⟩ := SP.seqLoop_parts hs hw
  obtain ⟨k, k1, k2, k3, _, hw⟩ := SP.seqLoop_tok hkw.1 hkw.2.1 (SP.goto_good hs q1 q2) hw hok
  obtain ⟨more, hmore⟩ := SP.seqLoop_kids _ _ _ _ hw
  have hp : (∀ v ∈ ws, prefixSpec.Is v) → Prefixed (restOf s) ws := fun h => ⟨h, k, _, by rw [q3, k2], by rw [k3]; exact hm⟩
  have hpure : Prefixed (restOf s) ws → (PurePrefix (restOf s) ↔ ∃ v ∈ ws, v.map (·.token) ∈ [[Tag.KW_PURE], [Tag.KW_ELEMENTAL]]) := by
    intro h
    constructor
    · rintro ⟨ws', h1, h2⟩
      rwa [SP.prefixed_unique h h1]
    · exact fun h2 => ⟨ws, h, h2⟩
  rw [hmore] at ht
  rcases q4 with ⟨rfl, rfl⟩ | ⟨n, rfl, n1, n2⟩
  · refine ⟨false, exclude_leaf (by rw [ht]; rfl) hkw.2.2, ?_⟩
    rw [hpure (hp (by simp))]
    simp
  · obtain ⟨b, b1, b2⟩ := pureLoop_parts n2
    refine ⟨b, ?_, ?_⟩
    · have ht : t.kids = n :: (SNode.node kw (some ((s.goto q).pos, (s.goto q).pos + 1)) [] :: more) := by rw [ht]; rfl
      rw [excludeTree, Cur.down]
      simp only [ht]
      rw [Res.ok_bind, if_pos n1, b1]
    · rw [b2, hpure]
      refine hp ?_
      intro v hv
      obtain ⟨i, hi, rfl⟩ := List.mem_iff_getElem.mp hv
      exact ((List.forall₂_iff_get.mp n2).2 i hi (by rw [← n2.length_eq]; exact hi)).1

/-- `exclude_procedure` on the tree of a statement that begins a procedure. -/
theorem exclude_begin {x : Exts} {n : Nat} {r : R} (hr : r ∈ beginRules) {s : Strm} (hs : GoodStmt s) {t : SNode} {q : Strm}
    (h : SP.evalRule SP.R.body x n r s = .ok (some t, q)) :
    ∃ b, excludeTree t = .ok b ∧ (b = true ↔ r.rootTag ∈ [Tag.SG_FUNCTION_STMT, Tag.SG_SUBROUTINE_STMT] ∧ PurePrefix (restOf s)) := by
  simp only [beginRules, List.mem_cons, List.not_mem_nil, or_false] at hr
  rcases hr with rfl | rfl | rfl | rfl
  · obtain ⟨m, w, hw, hok, ht, _⟩ := seq_rule (r := .function_stmt) rfl h
    obtain ⟨b, b1, b2⟩ := exclude_prefixed (by decide) hs hw hok ht
    exact ⟨b, b1, by rw [b2]; exact (and_iff_right (by decide +kernel)).symm⟩
  · obtain ⟨m, w, hw, hok, ht, _⟩ := seq_rule (r := .subroutine_stmt) rfl h
    obtain ⟨b, b1, b2⟩ := exclude_prefixed (by decide) hs hw hok ht
    exact ⟨b, b1, by rw [b2]; exact (and_iff_right (by decide +kernel)).symm⟩
  · obtain ⟨m, w, hw, hok, ht, _⟩ := seq_rule (r := .program_stmt) rfl h
    obtain ⟨k, k1, k2, k3, _, hw⟩ := SP.seqLoop_tok (by decide) (by decide) hs hw hok
    obtain ⟨more, hm⟩ := SP.seqLoop_kids _ _ _ _ hw
    rw [hm] at ht
    exact ⟨false, exclude_leaf (by rw [ht]; rfl) (by decide), iff_of_false (by simp) (fun hh => absurd hh.1 (by decide +kernel))⟩
  · obtain ⟨m, w, hw, hok, ht, _⟩ := seq_rule (r := .mp_subprogram_stmt) rfl h
    obtain ⟨k, k1, k2, k3, _, hw⟩ := SP.seqLoop_tok (by decide) (by decide) hs hw hok
    obtain ⟨more, hm⟩ := SP.seqLoop_kids _ _ _ _ hw
    rw [hm] at ht
    exact ⟨false, exclude_leaf (by rw [ht]; rfl) (by decide), iff_of_false (by simp) (fun hh => absurd hh.1 (by decide +kernel))⟩

end Apps
end FLPR
