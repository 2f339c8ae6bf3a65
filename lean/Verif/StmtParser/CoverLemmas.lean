import Verif.StmtParser.EvalLemmas
import Verif.StmtParser.NestLemmas
/-! # Lemmas: trees cover what was taken, and what can go wrong -/

namespace FLPR
namespace SP
open Spec

/-! ### Trees -/

theorem covers_range {l : List Int} {n : SNode} {b e : Nat} (h : Covers l n b e) :
    RangeIs n.range b e := by
  obtain ⟨t, r, ks⟩ := n
  cases ks with
  | nil =>
    rw [Covers] at h
    rcases h with ⟨rfl, h, _⟩ | ⟨rfl, h⟩
    · exact .inl ⟨by omega, h⟩
    · exact .inr ⟨rfl, h⟩
  | cons k ks => rw [Covers] at h; exact h.1

theorem covers_le {l : List Int} {n : SNode} {b e : Nat} (h : Covers l n b e) : b ≤ e := by
  rcases covers_range h with h | h <;> omega

theorem coversAll_append {l : List Int} : ∀ {ks ks' : List SNode} {b m e : Nat},
    CoversAll l ks b m → CoversAll l ks' m e → CoversAll l (ks ++ ks') b e := by
  intro ks
  induction ks with
  | nil => intro ks' b m e h1 h2; rw [CoversAll] at h1; subst h1; exact h2
  | cons k ks ih =>
    intro ks' b m e h1 h2
    rw [CoversAll] at h1
    obtain ⟨hk, m', h1, h3⟩ := h1
    rw [List.cons_append, CoversAll]
    exact ⟨hk, m', h1, ih h3 h2⟩

theorem coversAll_one {l : List Int} {n : SNode} {b e : Nat} (h : Covers l n b e)
    (ht : n.tag ≠ Tag.HOIST) : CoversAll l [n] b e := by
  rw [CoversAll]
  exact ⟨ht, e, h, by rw [CoversAll]⟩

theorem coversAll_le {l : List Int} : ∀ {ks : List SNode} {b e : Nat}, CoversAll l ks b e → b ≤ e := by
  intro ks
  induction ks with
  | nil => intro b e h; rw [CoversAll] at h; omega
  | cons k ks ih =>
    intro b e h
    rw [CoversAll] at h
    obtain ⟨_, m, h1, h2⟩ := h
    have := covers_le h1
    have := ih h2
    omega

/-- The tree is one over the tokens taken; without a tree none were taken. -/
def TreeOk (l : List Int) (tree : Option SNode) (b e : Nat) : Prop :=
  match tree with
  | none => e = b
  | some n => Covers l n b e

theorem hoist_covers {l : List Int} (hl : ∀ t ∈ l, LexerTag t) {t : Int} {r : Rng} {ks : List SNode}
    {tree : Option SNode} {b m e : Nat} (h1 : CoversAll l ks b m) (h2 : TreeOk l tree m e) :
    ∃ ks', hoistBack (.node t r ks) tree = .node t r ks' ∧ CoversAll l ks' b e := by
  cases tree with
  | none =>
    refine ⟨ks, rfl, ?_⟩
    have : e = m := h2
    subst this
    exact h1
  | some n =>
    obtain ⟨dt, dr, dks⟩ := n
    have h2 : Covers l (.node dt dr dks) m e := h2
    by_cases hd : dt = Tag.HOIST
    · refine ⟨ks ++ dks, by rw [hoistBack, if_pos hd], coversAll_append h1 ?_⟩
      cases dks with
      | nil =>
        rw [Covers] at h2
        rcases h2 with ⟨_, _, h | ⟨h, _⟩⟩ | ⟨h, _⟩
        · exfalso
          exact (hl _ (List.mem_of_getElem? h)).2.2 hd
        · exfalso
          rw [h] at hd
          exact absurd hd (by decide)
        · rw [CoversAll]; exact h.symm
      | cons k ks2 => rw [Covers] at h2; exact h2.2
    · exact ⟨ks ++ [.node dt dr dks], by rw [hoistBack, if_neg hd],
        coversAll_append h1 (coversAll_one (n := .node dt dr dks) h2 hd)⟩

theorem rangeIs_empty {r : Rng} {b e : Nat} (h : RangeIs r b e) : r.isEmpty = true ↔ b = e := by
  rcases h with ⟨h1, rfl⟩ | ⟨h1, h2⟩
  · simp only [Rng.isEmpty, beq_iff_eq]
  · simp [h1, h2]

theorem pushAll_ok {l : List Int} {b : Nat} : ∀ {ks : List SNode} {m e : Nat}, b < m →
    CoversAll l ks m e → pushAll (some (b, m)) ks = .ok (some (b, e)) := by
  intro ks
  induction ks with
  | nil => intro m e _ h; rw [CoversAll] at h; subst h; rfl
  | cons k ks ih =>
    intro m e hb h
    rw [CoversAll] at h
    obtain ⟨_, m', h1, h2⟩ := h
    rcases covers_range h1 with ⟨hlt, hr⟩ | ⟨rfl, hr⟩
    · have : Rng.pushBack (some (b, m)) k.range = .ok (some (b, m')) := by
        rw [hr]
        simp only [Rng.pushBack]
        rw [if_neg (by omega), if_neg (by omega), if_pos (by omega), if_pos trivial]
      rw [pushAll, this, Res.ok_bind]
      exact ih (by omega) h2
    · have : Rng.pushBack (some (b, m)) k.range = .ok (some (b, m)) := by
        cases hk : k.range with
        | none => rfl
        | some q =>
          obtain ⟨q1, q2⟩ := q
          rw [hk] at hr
          have : q1 = q2 := by simpa [Rng.isEmpty] using hr
          simp only [Rng.pushBack, if_pos this]
      rw [pushAll, this, Res.ok_bind]
      exact ih hb h2

theorem dropEmpty {l : List Int} : ∀ {ks : List SNode} {b e : Nat}, CoversAll l ks b e →
    (ks.dropWhile (fun k => k.range.isEmpty) = [] ∧ b = e) ∨
    (∃ k ks' m, ks.dropWhile (fun k => k.range.isEmpty) = k :: ks' ∧ b < m ∧ k.range = some (b, m) ∧
      CoversAll l ks' m e) := by
  intro ks
  induction ks with
  | nil => intro b e h; rw [CoversAll] at h; exact .inl ⟨rfl, h⟩
  | cons k ks ih =>
    intro b e h
    rw [CoversAll] at h
    obtain ⟨_, m, h1, h2⟩ := h
    rcases covers_range h1 with ⟨hlt, hr⟩ | ⟨rfl, hr⟩
    · right
      refine ⟨k, ks, m, ?_, hlt, hr, h2⟩
      rw [List.dropWhile_cons_of_neg]
      rw [hr]
      simp [Rng.isEmpty]
      omega
    · rw [List.dropWhile_cons_of_pos (by simpa using hr)]
      exact ih h2

/-- Covering a node over its branches succeeds. -/
theorem cover_ok {l : List Int} {t : Int} {r : Rng} {ks : List SNode} {b e : Nat}
    (h : CoversAll l ks b e) (hr : b = e → r.isEmpty = true) :
    ∃ r', coverBranches (.node t r ks) = .ok (.node t r' ks) ∧ Covers l (.node t r' ks) b e := by
  have mk : ∀ r', RangeIs r' b e → Covers l (.node t r' ks) b e := by
    intro r' h'
    cases ks with
    | nil =>
      rw [CoversAll] at h
      rw [Covers]
      exact .inr ⟨h.symm, (rangeIs_empty h').mpr h⟩
    | cons k ks => rw [Covers]; exact ⟨h', h⟩
  rw [coverBranches]
  rcases dropEmpty h with ⟨h1, h2⟩ | ⟨k, ks', m, h1, h2, h3, h4⟩
  · rw [h1]
    exact ⟨r, rfl, mk r (.inr ⟨h2, hr h2⟩)⟩
  · rw [h1]
    have hm := coversAll_le h4
    have h5 : pushAll none (k :: ks') = .ok (some (b, e)) := by
      rw [pushAll, h3]
      simp only [Rng.pushBack]
      rw [if_neg (by omega), Res.ok_bind]
      exact pushAll_ok h2 h4
    simp only [h5, Res.ok_bind]
    exact ⟨some (b, e), rfl, mk _ (.inl ⟨by omega, rfl⟩)⟩

/-! ### Outcomes -/

/-- The outcome is a result as wanted, or the bound was too small, or the one thing happened that can
go wrong with a good statement. -/
def Safe {α : Type} (E : Prop) (r : PRes α) (Q : α → Prop) : Prop :=
  match r with
  | .ok a => Q a
  | .error .fuel => True
  | .error (.fail e) => e = .ub ∧ E

theorem Safe.bind {α β : Type} {E : Prop} {r : PRes α} {f : α → PRes β} {Q : α → Prop} {Q' : β → Prop}
    (h : Safe E r Q) (hf : ∀ a, Q a → Safe E (f a) Q') : Safe E (r >>= f) Q' := by
  match r, h with
  | .ok a, h => exact hf a h
  | .error .fuel, _ => trivial
  | .error (.fail e), h => exact h

theorem Safe.mono {α : Type} {E : Prop} {r : PRes α} {Q Q' : α → Prop} (h : Safe E r Q)
    (hq : ∀ a, r = .ok a → Q a → Q' a) : Safe E r Q' := by
  match r, h, hq with
  | .ok a, h, hq => exact hq a rfl h
  | .error .fuel, _, _ => trivial
  | .error (.fail e), h, _ => exact h

theorem Safe.weaken {α : Type} {E E' : Prop} {r : PRes α} {Q : α → Prop} (h : Safe E r Q)
    (he : E → E') : Safe E' r Q := by
  match r, h with
  | .ok a, h => exact h
  | .error .fuel, _ => trivial
  | .error (.fail e), h => exact ⟨h.1, he h.2⟩

theorem GoodStmt_goto {s : Strm} (h : GoodStmt s) {q : Nat} (h1 : s.lo ≤ q) (h2 : q ≤ s.hi) :
    GoodStmt (s.goto q) := ⟨h1, h2, h.hi_len, h.tags, h.nested⟩

/-- What a parser run from `q` leaves behind. -/
def PostAt (s : Strm) (q : Nat) (tree : Option SNode) (s' : Strm) : Prop :=
  ∃ q', s' = s.goto q' ∧ q ≤ q' ∧ q' ≤ s.hi ∧ TreeOk (tagsOf s) tree q q'

/-! ### Leaves -/

theorem isName_bad : Registry.isName Tag.BAD = .ok false := by decide

theorem peek_good {s : Strm} (h : GoodStmt s) :
    (s.pos = s.hi ∧ s.peek = .ok Tag.BAD) ∨
    (∃ t, s.pos < s.hi ∧ (tagsOf s)[s.pos]? = some t ∧ s.peek = .ok t ∧ LexerTag t) := by
  have h1 := h.pos_hi
  have h2 := h.hi_len
  by_cases hp : s.pos = s.hi
  · exact .inl ⟨hp, Strm.peek_end hp⟩
  · right
    have hlt : s.pos < (tagsOf s).length := by rw [Strm.len_tags]; omega
    have ht : (tagsOf s)[s.pos]? = some (tagsOf s)[s.pos] := List.getElem?_eq_getElem hlt
    exact ⟨_, by omega, ht, Strm.peek_of_tags ht hp, h.tags _ (List.mem_of_getElem? ht)⟩

theorem leaf_safe {E : Prop} {s : Strm} (h : GoodStmt s) {tag : Int} (hlt : s.pos < s.hi)
    (ht : LeafTag (tagsOf s) s.pos tag) :
    Safe E (up (leaf tag s)) (fun o => PostAt s s.pos o.tree o.s) := by
  have h2 := h.hi_len
  rw [leaf, digest_of (by omega), Res.ok_bind]
  refine ⟨s.pos + 1, rfl, by omega, by omega, ?_⟩
  show Covers _ _ _ _
  rw [Covers]
  exact .inl ⟨rfl, rfl, ht⟩

theorem noMatch_safe {E : Prop} {s : Strm} (h : GoodStmt s) :
    Safe E (up (.ok (noMatch s))) (fun o => PostAt s s.pos o.tree o.s) :=
  ⟨s.pos, rfl, le_refl _, h.pos_hi, rfl⟩

theorem runTok_safe {E : Prop} {s : Strm} (h : GoodStmt s) {tag : Int} (hb : tag ≠ Tag.BAD) :
    Safe E (up (runTok tag s)) (fun o => PostAt s s.pos o.tree o.s) := by
  rw [runTok]
  rcases peek_good h with ⟨_, hp⟩ | ⟨t, hlt, ht, hp, _⟩
  · rw [hp, Res.ok_bind, if_pos hb]; exact noMatch_safe h
  · rw [hp, Res.ok_bind]
    split
    · exact noMatch_safe h
    · next he =>
      have he : tag = t := by simpa using he
      exact leaf_safe h hlt (.inl (he ▸ ht))

theorem runName_safe {E : Prop} {s : Strm} (h : GoodStmt s) :
    Safe E (up (runName s)) (fun o => PostAt s s.pos o.tree o.s) := by
  rw [runName]
  rcases peek_good h with ⟨_, hp⟩ | ⟨t, hlt, ht, hp, hlx⟩
  · rw [hp, Res.ok_bind, isName_bad, Res.ok_bind, if_neg (by simp)]; exact noMatch_safe h
  · obtain ⟨b, hb⟩ := hlx.1
    rw [hp, Res.ok_bind, hb, Res.ok_bind]
    split
    · next h3 => exact leaf_safe h hlt (.inr ⟨rfl, t, ht, h3 ▸ hb⟩)
    · exact noMatch_safe h

theorem peekTT_one {s : Strm} {t : Int} (h : (tagsOf s)[s.pos]? = some t) (hp : s.pos ≠ s.hi) :
    ∃ k, s.peekTT 1 = .ok k ∧ k.token = t := by
  obtain ⟨k, hk, hkt⟩ := Strm.deref_of_tags h
  have hl : s.pos < s.all.length := by
    have := (List.getElem?_eq_some_iff.mp h).1
    rwa [Strm.len_tags] at this
  refine ⟨k, ?_, hkt⟩
  simp only [Strm.peekTT, Nat.sub_self, Nat.add_zero]
  rw [if_pos (by omega), if_pos hp, hk]

theorem runLetter_safe {E : Prop} {s : Strm} (h : GoodStmt s) :
    Safe E (up (runLetter s)) (fun o => PostAt s s.pos o.tree o.s) := by
  rw [runLetter]
  rcases peek_good h with ⟨_, hp⟩ | ⟨t, hlt, ht, hp, hlx⟩
  · rw [hp, Res.ok_bind, isName_bad, Res.ok_bind, if_neg (by simp)]; exact noMatch_safe h
  · obtain ⟨b, hb⟩ := hlx.1
    rw [hp, Res.ok_bind, hb, Res.ok_bind]
    split
    · next h3 =>
      obtain ⟨k, hk, _⟩ := peekTT_one ht (by omega)
      rw [hk, Res.ok_bind]
      split
      · exact noMatch_safe h
      · exact leaf_safe h hlt (.inr ⟨rfl, t, ht, h3 ▸ hb⟩)
    · exact noMatch_safe h

theorem runLiteral_safe {E : Prop} {s : Strm} (h : GoodStmt s) {w : Str} :
    Safe E (up (runLiteral w s)) (fun o => PostAt s s.pos o.tree o.s) := by
  rw [runLiteral]
  rcases peek_good h with ⟨_, hp⟩ | ⟨t, hlt, ht, hp, hlx⟩
  · rw [hp, Res.ok_bind, isName_bad, Res.ok_bind, if_neg (by simp)]; exact noMatch_safe h
  · obtain ⟨b, hb⟩ := hlx.1
    rw [hp, Res.ok_bind, hb, Res.ok_bind]
    split
    · next h3 =>
      obtain ⟨k, hk, _⟩ := peekTT_one ht (by omega)
      rw [hk, Res.ok_bind]
      split
      · exact noMatch_safe h
      · exact leaf_safe h hlt (.inr ⟨rfl, t, ht, h3 ▸ hb⟩)
    · exact noMatch_safe h

theorem runPeek_safe {E : Prop} {s : Strm} (h : GoodStmt s) {t : Int} :
    Safe E (up (runPeek t s)) (fun o => PostAt s s.pos o.tree o.s) := by
  rw [runPeek]
  rcases peek_good h with ⟨_, hp⟩ | ⟨t, hlt, ht, hp, hlx⟩
  · rw [hp, Res.ok_bind]; exact ⟨s.pos, rfl, le_refl _, h.pos_hi, rfl⟩
  · rw [hp, Res.ok_bind]; exact ⟨s.pos, rfl, le_refl _, h.pos_hi, rfl⟩

theorem runListName_safe {E : Prop} {s : Strm} (h : GoodStmt s) :
    Safe E (up (runListName s)) (fun o => PostAt s s.pos o.1 o.2) := by
  have h1 := h.pos_hi
  have h2 := h.hi_len
  have no : Safe E (up (.ok (none, s))) (fun o => PostAt s s.pos o.1 o.2) :=
    ⟨s.pos, rfl, le_refl _, h.pos_hi, rfl⟩
  rw [runListName]
  by_cases hp : s.pos = s.hi
  · have : s.peekAt 1 = .ok Tag.BAD := by
      simp only [Strm.peekAt, Strm.peekTT, Nat.sub_self, Nat.add_zero]
      rw [if_pos (by omega), if_neg (by simpa using hp)]
      rfl
    rw [this, Res.ok_bind, isName_bad, Res.ok_bind, if_neg (by simp)]
    exact no
  · have hlt : s.pos < (tagsOf s).length := by rw [Strm.len_tags]; omega
    have ht : (tagsOf s)[s.pos]? = some (tagsOf s)[s.pos] := List.getElem?_eq_getElem hlt
    obtain ⟨k, hk, hkt⟩ := peekTT_one ht hp
    obtain ⟨b, hb⟩ := (h.tags _ (List.mem_of_getElem? ht)).1
    rw [Strm.peekAt, hk, Res.ok_bind, Res.ok_bind, hkt, hb, Res.ok_bind]
    split
    · next h3 =>
      have hnx : ∃ u, s.peekAt 2 = .ok u := by
        simp only [Strm.peekAt, Strm.peekTT]
        rw [if_pos (by omega)]
        by_cases h4 : s.pos + (2 - 1) = s.hi
        · rw [if_neg (by simpa using h4)]; exact ⟨_, rfl⟩
        · rw [if_pos h4, derefTok, if_pos (by omega)]; exact ⟨_, rfl⟩
      obtain ⟨u, hu⟩ := hnx
      rw [hu, Res.ok_bind]
      split
      · rw [digest_of (by omega), Res.ok_bind]
        refine ⟨s.pos + 1, rfl, by omega, by omega, ?_⟩
        show Covers _ _ _ _
        rw [Covers]
        exact .inl ⟨rfl, rfl, .inr ⟨rfl, _, ht, h3 ▸ hb⟩⟩
      · exact no
    · exact no

/-! ### Static conditions -/

mutual
/-- Plain token sequences. -/
def P.flat : P → Bool
  | .tok t => !(opE t) && !(clE t) && t != Tag.BAD
  | .seq _ ps => P.flatAll ps
  | .opt p => p.flat
  | _ => false
def P.flatAll : List P → Bool
  | [] => true
  | p :: ps => p.flat && P.flatAll ps
end

/-- Optional. -/
def P.isOpt : P → Bool
  | .opt _ => true
  | _ => false

/-- Like the parser of `real_literal_constant`. -/
def P.isReal : P → Bool
  | .seq tag (.tok t :: ps) =>
    tag != Tag.HOIST && t == Tag.SG_SIGNIFICAND && P.flatAll ps && ps.all P.isOpt
  | _ => false

/-- A sequence that ends with a check for the end of the statement. -/
def P.endsSeq : P → Bool
  | .seq _ ps =>
    match ps.getLast? with
    | some (.peek t) => t == Tag.BAD
    | _ => false
  | _ => false

mutual
/-- Terms for which trees can be relied upon. -/
def P.good : P → Bool
  | .alts _ ps => P.goodAll ps && P.restoresAll ps
  | .neg p => p.good
  | .opt p => p.good
  | .seq _ ps => P.goodAll ps
  | .star p => p.good
  | .tagIf _ p => p.good
  | .tok t => t != Tag.BAD
  | .letter => true
  | .literal _ => true
  | .name => true
  | .peek _ => true
  | .rule _ => true
def P.goodAll : List P → Bool
  | [] => true
  | p :: ps => p.good && P.goodAll ps
end

/-- Rule bodies for which trees can be relied upon. -/
def Body.good : Body → Bool
  | .comb p => p.good
  | .expr tag real => tag != Tag.HOIST && real.isReal && real.good
  | .parens => true
  | .listName => true
  | .procDesignator p => p.good && p.endsSeq
  | .withExts _ p => p.good && p.restores

/-! ### Real literals -/

theorem runTok_spec {t : Int} {s : Strm} {o : Out} (h : runTok t s = .ok o) (hb : t ≠ Tag.BAD)
    (hp : o.s.pos ≠ s.pos) : o.s = s.goto (s.pos + 1) ∧ (tagsOf s)[s.pos]? = some t := by
  rw [runTok] at h
  rbind h with u hu
  split at h
  · injection h with h; subst h; exact absurd rfl hp
  · next he =>
    have he : t = u := by simpa using he
    subst he
    obtain ⟨rfl, _⟩ := leaf_ok h
    refine ⟨rfl, ?_⟩
    rw [Strm.peek] at hu
    split at hu
    · injection hu with hu; exact absurd hu.symm hb
    · rbind hu with k hk
      injection hu with hu
      rw [derefTok] at hk
      by_cases hl : s.pos < s.all.length
      · rw [if_pos hl] at hk
        injection hk with hk
        rw [tagsOf, List.getElem?_map, List.getElem?_eq_getElem hl]
        rw [List.getD_eq_getElem?_getD, List.getElem?_eq_getElem hl] at hk
        simp only [Option.getD_some] at hk
        rw [Option.map_some, hk, hu]
      · rw [if_neg hl] at hk
        split at hk
        · injection hk with hk
          rw [← hk] at hu
          exact absurd hu.symm hb
        · simp at hk

/-- All tokens in `[b, e)` are plain. -/
def PlainIn (l : List Int) (b e : Nat) : Prop :=
  ∀ i, b ≤ i → i < e → ∃ t, l[i]? = some t ∧ opE t = false ∧ clE t = false

theorem PlainIn.trans {l : List Int} {b m e : Nat} (h1 : PlainIn l b m) (h2 : PlainIn l m e) :
    PlainIn l b e := by
  intro i hb he
  by_cases h : i < m
  · exact h1 i hb h
  · exact h2 i (by omega) he

theorem flat_seq {f : P → Strm → PRes Out}
    (hfr : ∀ p s o, f p s = .ok o → Frame s o.s)
    (hf : ∀ p s o, p.flat = true → f p s = .ok o → PlainIn (tagsOf s) s.pos o.s.pos) :
    ∀ ps s acc r, P.flatAll ps = true → seqLoop f ps s acc = .ok r →
      PlainIn (tagsOf s) s.pos r.2.2.pos := by
  intro ps
  induction ps with
  | nil =>
    intro s acc r _ h
    rw [seqLoop] at h; injection h with h; subst h
    intro i h1 h2; simp at h2; omega
  | cons p ps ih =>
    intro s acc r hp h
    rw [P.flatAll, Bool.and_eq_true] at hp
    rw [seqLoop] at h
    pbind h with o1 h1
    have h2 := hf _ _ _ hp.1 h1
    split at h
    · have h3 := ih _ _ _ hp.2 h
      have h4 : tagsOf o1.s = tagsOf s := by rw [tagsOf, tagsOf, (hfr _ _ _ h1).1]
      rw [h4] at h3
      exact h2.trans h3
    · injection h with h; subst h; exact h2

theorem eval_flat (g : R → Body) (x : Exts) : ∀ n p s o, p.flat = true → eval g x n p s = .ok o →
    PlainIn (tagsOf s) s.pos o.s.pos := by
  intro n
  induction n with
  | zero => intro p s o _ h; simp [eval] at h
  | succ n ih =>
    intro p s o hp h
    rw [eval] at h
    cases p with
    | tok t =>
      rw [P.flat] at hp
      simp only [Bool.and_eq_true, Bool.not_eq_true', bne_iff_ne, ne_eq] at hp
      intro i h1 h2
      rw [step] at h
      obtain ⟨h3, h4⟩ := runTok_spec (up_ok h) hp.2 (by omega)
      rw [h3] at h2
      simp at h2
      have h5 : i = s.pos := by omega
      rw [h5]
      exact ⟨t, h4, hp.1.1, hp.1.2⟩
    | seq tag ps =>
      rw [P.flat] at hp
      rw [step] at h
      pbind h with r hr
      have h2 := flat_seq (fun _ _ _ h => eval_frame h) ih _ _ _ _ hp hr
      split at h
      · pbind h with n hn
        injection h with h; subst h; exact h2
      · injection h with h; subst h
        intro i h1 h2; simp at h2; omega
    | opt p =>
      rw [P.flat] at hp
      rw [step] at h
      pbind h with o1 h1
      injection h with h; subst h
      exact ih _ _ o1 hp h1
    | _ => simp [P.flat] at hp

theorem seq_opts {f : P → Strm → PRes Out} (hf : ∀ p s o, f (.opt p) s = .ok o → o.ok = true) :
    ∀ ps s acc r, ps.all P.isOpt = true → seqLoop f ps s acc = .ok r → r.2.1 = true := by
  intro ps
  induction ps with
  | nil => intro s acc r _ h; rw [seqLoop] at h; injection h with h; subst h; rfl
  | cons p ps ih =>
    intro s acc r hp h
    rw [List.all_cons, Bool.and_eq_true] at hp
    rw [seqLoop] at h
    pbind h with o1 h1
    cases p with
    | opt p =>
      rw [if_pos (hf _ _ _ h1)] at h
      exact ih _ _ _ hp.2 h
    | _ => simp [P.isOpt] at hp

/-- A real literal parser on a significand gives a tree over plain tokens. -/
theorem eval_real (g : R → Body) (x : Exts) {n : Nat} {p : P} {s : Strm} {o : Out}
    (hp : p.isReal = true) (hs : s.peek = .ok Tag.SG_SIGNIFICAND) (h : eval g x n p s = .ok o) :
    PlainIn (tagsOf s) s.pos o.s.pos ∧ ∃ t, o.tree = some t ∧ t.tag ≠ Tag.HOIST := by
  cases n with
  | zero => simp [eval] at h
  | succ n =>
  match p, hp with
  | .seq tag (.tok t :: ps), hp =>
    rw [P.isReal] at hp
    simp only [Bool.and_eq_true, bne_iff_ne, ne_eq, beq_iff_eq] at hp
    obtain ⟨⟨⟨h1, h2⟩, h3⟩, h4⟩ := hp
    subst h2
    have hflat : PlainIn (tagsOf s) s.pos o.s.pos := by
      refine eval_flat g x (n + 1) _ s o ?_ h
      rw [P.flat, P.flatAll, h3]
      decide
    rw [eval, step] at h
    pbind h with r hr
    rw [seqLoop] at hr
    pbind hr with o1 ho1
    have hadv : o1.ok = true := by
      cases n with
      | zero => simp [eval] at ho1
      | succ n =>
        rw [eval, step, runTok, hs] at ho1
        simp only [Res.ok_bind] at ho1
        have := up_ok ho1
        rw [if_neg (by simp)] at this
        obtain ⟨rfl, _⟩ := leaf_ok this
        rfl
    rw [if_pos hadv] at hr
    have hok : r.2.1 = true := by
      refine seq_opts ?_ _ _ _ _ h4 hr
      intro p s o h
      cases n with
      | zero => simp [eval] at h
      | succ n =>
        rw [eval, step] at h
        pbind h with o2 ho2
        injection h with h; subst h; rfl
    rw [if_pos hok] at h
    pbind h with nd hnd
    injection h with h; subst h
    refine ⟨hflat, nd, rfl, ?_⟩
    have := up_ok hnd
    rw [coverBranches] at this
    split at this
    · injection this with this; subst this; exact h1
    · rbind this with r' hr'
      injection this with this; subst this; exact h1

end SP
end FLPR
