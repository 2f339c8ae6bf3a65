import Verif.LogicalLine.SplitLemmas
/-!
# Splitting a logical line (C20)

The specification side: the tokens and texts of the lines, `SameToken`, `GoodPositions` and `EndRight`
of `EditProps.lean`, and the definitions below.
-/

namespace FLPR
open Spec

namespace Spec

/-- The statement text of the physical lines. -/
def allText (fs : List FileLine) : Str := fs.flatMap (·.main_txt)

/-- Comment lines have no statement text. -/
def CommentsApart (fs : List FileLine) : Prop := ∀ f ∈ fs, f.bits.comment = true → f.main_txt = []

/-- The tokens behind the token at position `i`: some semicolons, and the rest. -/
def Remainder (ts : List Tok) (i : Nat) (semis rest : List Tok) : Prop :=
  ts.drop (i + 1) = semis ++ rest ∧ ∀ u ∈ semis, u.token = Tag.TK_SEMICOLON

/-- The text of a line is that of its tokens, blanks aside. -/
def TextOfTokens (fs : List FileLine) (ts : List Tok) : Prop :=
  squeeze (allText fs) = squeeze (ts.flatMap (·.text))

end Spec
open Spec

theorem inside_same (here later : List Tok) (c : Int) (k : Nat) : List.Forall₂ SameToken (here ++ later)
    (((here.map (·.shiftCol c) ++ later).map (·.shiftLine 1)).map (·.shiftLine (-(k + 1)))) := by
  have e1 : List.Forall₂ SameToken (here ++ later) (here.map (·.shiftCol c) ++ later) := by
    have a1 := forall2_map_same _ (sameToken_shiftCol c) here
    have a2 := forall2_map_same id (fun t => ⟨rfl, rfl, rfl, rfl, rfl, rfl, rfl⟩) later
    rw [List.map_id] at a2
    generalize here.map (·.shiftCol c) = x at *
    clear * - a1 a2
    induction a1 with
    | nil => exact a2
    | cons h _ ih => exact .cons h ih
  have e2 := forall2_map_same _ (sameToken_shiftLine 1) (here.map (·.shiftCol c) ++ later)
  have e3 := forall2_map_same _ (sameToken_shiftLine (-(k + 1)))
    ((here.map (·.shiftCol c) ++ later).map (·.shiftLine 1))
  refine List.forall₂_iff_get.mpr ⟨?_, ?_⟩
  · rw [e1.length_eq, e2.length_eq, e3.length_eq]
  · intro j j1 j2
    have q1 := (List.forall₂_iff_get.mp e1).2 j j1 (by rw [← e1.length_eq]; exact j1)
    have q2 := (List.forall₂_iff_get.mp e2).2 j (by rw [← e1.length_eq]; exact j1)
      (by rw [← e2.length_eq, ← e1.length_eq]; exact j1)
    have q3 := (List.forall₂_iff_get.mp e3).2 j (by rw [← e2.length_eq, ← e1.length_eq]; exact j1) j2
    exact (q1.trans q2).trans q3

/-- **C20** When `split_after` returns true, the line keeps its tokens up to the given one as they are,
and the new line has the rest; semicolons directly behind the token, on the same physical line, are
in neither. -/
theorem C20_tokens (l l' n new : LLine) (i : Nat) (h : l.splitAfter i new = .ok (true, l', n)) :
    i < l.frags.length ∧ l'.frags = l.frags.take (i + 1) ∧ n.frags ≠ [] ∧
    ∃ semis rest, Remainder l.frags i semis rest ∧ List.Forall₂ SameToken rest n.frags ∧
      (∀ t s u su, l.frags[i]? = some t → t.span = some s → u ∈ semis → u.span = some su →
        su.bl = s.el) ∧
      (∀ t s u su, l.frags[i]? = some t → t.span = some s → rest.head? = some u → u.span = some su →
        su.bl = s.el → u.token ≠ Tag.TK_SEMICOLON) := by
  have hlt : ∀ {t}, l.frags[i]? = some t → i < l.frags.length :=
    fun h => (List.getElem?_eq_some_iff.mp h).1
  cases splitAfter_outcome h with
  | between hat hb hf hu hsu =>
    rename_i t s k f f0 semis later fs u su
    refine ⟨hlt hat.tok, rfl, ?_, semis, later, ⟨by simpa using hat.rest, hat.semi⟩,
      forall2_map_same _ (sameToken_shiftLine _) _, ?_, ?_⟩
    · cases later with
      | nil => simp at hu
      | cons a as => simp
    · intro t' s' v sv h1 h2 hv hsv
      rw [hat.tok] at h1; obtain rfl := Option.some.inj h1
      rw [hat.span] at h2; obtain rfl := Option.some.inj h2
      obtain ⟨w, hw, hw2⟩ := hat.onLine v (by simp [hv])
      rw [hsv] at hw; obtain rfl := Option.some.inj hw
      rw [hw2, hat.el]
    · intro t' s' v sv h1 h2 hv hsv hbl
      rw [hat.tok] at h1; obtain rfl := Option.some.inj h1
      rw [hat.span] at h2; obtain rfl := Option.some.inj h2
      obtain ⟨w, hw, hw2⟩ := hat.offLine v hv
      rw [hsv] at hw; obtain rfl := Option.some.inj hw
      rw [hat.el] at hbl
      exact absurd hbl hw2
  | inside hat hu hsu h1 h2 =>
    rename_i t s k f f0 semis here later u su f1 f2
    refine ⟨hlt hat.tok, rfl, ?_, semis, here ++ later, ⟨by simpa using hat.rest, hat.semi⟩, ?_, ?_, ?_⟩
    · cases here with
      | nil => simp at hu
      | cons a as => simp
    · exact inside_same here later su.bc k
    · intro t' s' v sv h1 h2 hv hsv
      rw [hat.tok] at h1; obtain rfl := Option.some.inj h1
      rw [hat.span] at h2; obtain rfl := Option.some.inj h2
      obtain ⟨w, hw, hw2⟩ := hat.onLine v (by simp [hv])
      rw [hsv] at hw; obtain rfl := Option.some.inj hw
      rw [hw2, hat.el]
    · intro t' s' v sv h1 h2 hv hsv hbl
      rw [List.head?_append, hu] at hv
      exact hat.notSemi v (by rw [hu]; simpa using hv)

/-- **C20** When it returns false nothing has changed, except that the last physical line is no longer
marked as continued; and then there is nothing behind the token but semicolons in this physical line,
or tokens that claim to begin in another physical line although there is none. -/
theorem C20_refused (l l' n new : LLine) (i : Nat) (h : l.splitAfter i new = .ok (false, l', n)) :
    n = new ∧ ((i = l.frags.length ∧ l' = l) ∨
      ∃ t s fs f semis later, l.frags[i]? = some t ∧ t.span = some s ∧ l.layout = fs ++ [f] ∧
        s.el = fs.length ∧ Remainder l.frags i semis later ∧
        (∀ u su, later.head? = some u → u.span = some su → su.bl ≠ s.el) ∧
        l' = { l with layout := fs ++ [f.makeUncontinued] }) := by
  cases splitAfter_outcome h with
  | atEnd hi => exact ⟨rfl, Or.inl ⟨hi, rfl⟩⟩
  | nothing hat hb =>
    rename_i t s k f f0 semis later
    have hk : k < l.layout.length := (List.getElem?_eq_some_iff.mp hat.line).1
    have hlen : l.layout.length = k + 1 := by
      rw [List.drop_eq_nil_iff] at hb; omega
    have hlay : l.layout = l.layout.take k ++ [f] := by
      conv_lhs => rw [← List.take_append_drop k l.layout]
      congr 1
      rw [List.drop_eq_getElem_cons hk, (List.getElem?_eq_some_iff.mp hat.line).2, hb]
    refine ⟨rfl, Or.inr ⟨t, s, l.layout.take k, f, semis, later, hat.tok, hat.span, hlay, ?_,
      ⟨by simpa using hat.rest, hat.semi⟩, ?_, rfl⟩⟩
    · rw [hat.el, List.length_take]; omega
    · intro u su hu hsu
      obtain ⟨w, hw, hw2⟩ := hat.offLine u hu
      rw [hsu] at hw; obtain rfl := Option.some.inj hw
      rw [hat.el]; exact hw2

/-- The text of the lines around line `k`. -/
theorem allText_around {fs : List FileLine} {k : Nat} {f : FileLine} (h : fs[k]? = some f) :
    allText fs = allText (fs.take k) ++ f.main_txt ++ allText (fs.drop (k + 1)) := by
  have hk := (List.getElem?_eq_some_iff.mp h)
  unfold allText
  conv_lhs => rw [← List.take_append_drop k fs, List.drop_eq_getElem_cons hk.1, hk.2]
  rw [List.flatMap_append, List.flatMap_cons, List.append_assoc]

/-- **C20** No statement text is lost but that between the token and the next one on its physical line:
the text of the line is that of the two parts and, between them, `gap`.  All physical lines are in one
of the parts, the split line in both if a token is left on it. -/
theorem C20_text (l l' n new : LLine) (i : Nat) (hc : CommentsApart l.layout)
    (hbc : ∀ u su, u ∈ l.frags → u.span = some su → 0 ≤ su.bc)
    (h : l.splitAfter i new = .ok (true, l', n)) :
    ∃ (t : Tok) (s : Span) (f : FileLine) (k : Nat), l.frags[i]? = some t ∧ t.span = some s ∧
      s.el = (k : Int) ∧ l.layout[k]? = some f ∧
      ((allText l.layout = allText l'.layout ++ allText n.layout ∧
          l'.layout.length + n.layout.length = l.layout.length) ∨
       ∃ semis rest u su, Remainder l.frags i semis rest ∧ rest.head? = some u ∧ u.span = some su ∧
         su.bl = k ∧ 0 ≤ s.ec ∧ s.ec ≤ f.main_txt.length ∧
         l'.layout.length + n.layout.length = l.layout.length + 1 ∧
         (s.ec ≤ su.bc → allText l.layout = allText l'.layout ++
           (f.main_txt.drop s.ec.toNat).take (su.bc - s.ec).toNat ++ allText n.layout)) := by
  cases splitAfter_outcome h with
  | between hat hb hf hu hsu =>
    rename_i t s k f f0 semis later fs u su
    refine ⟨t, s, f, k, hat.tok, hat.span, hat.el, hat.line, Or.inl ⟨?_, ?_⟩⟩
    · rw [allText_around hat.line]
      have hm := (splitFollow_main hf).1
      have : allText fs = allText (l.layout.drop (k + 1)) := by
        unfold allText; rw [List.flatMap_def, hm, ← List.flatMap_def]
      dsimp only
      rw [this]
      congr 1
      unfold allText
      rw [List.flatMap_append, List.flatMap_singleton, (makeUncontinued_parts f).1]
    · have hk := (List.getElem?_eq_some_iff.mp hat.line).1
      have hl := congrArg List.length (splitFollow_main hf).1
      simp at hl
      simp [hl]; omega
  | inside hat hu hsu h1 h2 =>
    rename_i t s k f f0 semis here later u su f1 f2
    have hk := (List.getElem?_eq_some_iff.mp hat.line).1
    have hmem : u ∈ l.frags := by
      have : u ∈ l.frags.drop (i + 1) := by
        rw [hat.rest]
        simp [List.mem_of_head? hu]
      exact List.mem_of_mem_drop this
    have hbl : su.bl = k := by
      obtain ⟨w, hw, hw2⟩ := hat.onLine u (by simp [List.mem_of_head? hu])
      rw [hsu] at hw; obtain rfl := Option.some.inj hw; exact hw2
    have hb0 := hbc u su hmem hsu
    obtain ⟨c, hec, hcl, rfl⟩ := splitSource_ok h1
    obtain ⟨hm2, _⟩ := splitNew_ok hb0 (hc f (List.mem_of_getElem? hat.line)) h2
    refine ⟨t, s, f, k, hat.tok, hat.span, hat.el, hat.line, Or.inr ⟨semis, here ++ later, u, su,
      ⟨by simpa using hat.rest, hat.semi⟩, by rw [List.head?_append, hu]; rfl, hsu, hbl, by omega,
      by omega, ?_, ?_⟩⟩
    · simp; omega
    · intro hle
      rw [allText_around hat.line]
      have e2 : allText (f2 :: l.layout.drop (k + 1)) =
          f.main_txt.drop su.bc.toNat ++ allText (l.layout.drop (k + 1)) := by
        unfold allText; rw [List.flatMap_cons, hm2]
      dsimp only
      rw [e2]
      simp only [← List.append_assoc]
      congr 1
      unfold allText
      rw [List.flatMap_append, List.flatMap_singleton, (makeUncontinued_parts _).1]
      dsimp only
      simp only [List.append_assoc]
      congr 1
      obtain ⟨b, hb⟩ : ∃ b : Nat, su.bc = b := ⟨su.bc.toNat, by omega⟩
      rw [hb, hec]
      simp only [Int.toNat_natCast]
      rw [show ((b : Int) - (c : Int)).toNat = b - c by omega,
        show f.main_txt.drop b = (f.main_txt.drop c).drop (b - c) by rw [List.drop_drop]; congr 1; omega,
        List.take_append_drop, List.take_append_drop]

/-! ## Positions -/

/-- The tokens that stay keep their places. -/
theorem kept_places {l : LLine} {i : Nat} {t : Tok} {s : Span} {k : Nat} {f f1 : FileLine}
    (hg : GoodPositions l.layout l.frags) (he : EndRight t)
    (ht : l.frags[i]? = some t) (hs : t.span = some s) (hk : s.el = k)
    (hf : l.layout[k]? = some f) (c : Nat) (hc : c ≤ f.main_txt.length) (hec : s.ec ≤ c)
    (h1 : f1.main_txt = f.main_txt.take c) :
    GoodPositions (l.layout.take k ++ [f1]) (l.frags.take (i + 1)) := by
  have hi := (List.getElem?_eq_some_iff.mp ht).1
  have hkl := (List.getElem?_eq_some_iff.mp hf).1
  obtain ⟨hgp, hpw⟩ := hg
  refine ⟨?_, hpw.sublist (List.take_sublist _ _)⟩
  intro u hu
  obtain ⟨su, hsu, hpl⟩ := hgp u (List.mem_of_mem_take hu)
  refine ⟨su, hsu, ?_⟩
  -- where the token ends
  have hend : su.el < k ∨ (su.el = k ∧ endCol su u.text ≤ c) := by
    obtain ⟨st, hst, hplt⟩ := hgp t (List.mem_of_getElem? ht)
    rw [hs] at hst; obtain rfl := Option.some.inj hst
    have hle := places_bl_le hplt
    obtain ⟨j, hj, hju⟩ := List.getElem_of_mem hu
    rw [List.length_take] at hj
    rw [List.getElem_take] at hju
    by_cases hji : j = i
    · subst hji
      have : u = t := by
        rw [← hju]; exact (List.getElem?_eq_some_iff.mp ht).2
      subst this
      rw [hs] at hsu; obtain rfl := Option.some.inj hsu
      right
      exact ⟨hk, by rw [← he s hs]; exact hec⟩
    · have hp : Precedes su u.text s := by
        have := List.pairwise_iff_getElem.mp hpw j i (by omega) hi (by omega)
        rw [hju, (List.getElem?_eq_some_iff.mp ht).2] at this
        exact this su s hsu hs
      have hec' := he s hs
      rcases hp with hp | ⟨hp, hp2⟩
      · left; omega
      · by_cases hb : s.bl = s.el
        · right
          refine ⟨by omega, ?_⟩
          have : s.bc ≤ endCol s t.text := by unfold endCol; rw [if_pos hb]; omega
          omega
        · left; omega
  have h2 := places_before (n := f.main_txt.length) (new := []) hf hc hpl hend
  have h3 := places_take (k + 1) h2 (by rcases hend with h | h <;> omega)
  refine places_congr ?_ h3
  rw [List.take_set, List.map_set]
  have : l.layout.take (k + 1) = l.layout.take k ++ [f] := by
    rw [List.take_add_one, hf]; rfl
  rw [this]
  simp only [List.map_append, List.map_cons, List.map_nil]
  rw [List.set_append_right _ _ (by simp; omega)]
  simp only [List.length_map, List.length_take, Nat.min_eq_left (Nat.le_of_lt hkl), Nat.sub_self,
    List.set_cons_zero, h1]
  congr 2
  unfold edited
  simp

/-- Tokens of a good line come in the order of their physical lines. -/
theorem precedes_bl {layout : List FileLine} {s s' : Span} {a : Str} (h : Precedes s a s')
    (hp : Places layout s a) : s.bl ≤ s'.bl := by
  have := places_bl_le hp
  rcases h with h | h <;> omega

/-- The token with its position changed. -/
def Tok.onSpan (g : Span → Span) (t : Tok) : Tok := { t with span := t.span.map g }

theorem shiftLine_onSpan (d : Int) (t : Tok) : t.shiftLine d = t.onSpan (·.down d) := rfl

theorem shiftCol_onSpan (c k : Int) (t : Tok) (h : ∃ s, t.span = some s ∧ s.bl = k) :
    t.shiftCol c = t.onSpan (moved k (0 - c)) := by
  obtain ⟨s, hs, hb⟩ := h
  unfold Tok.shiftCol Tok.onSpan
  rw [hs]
  simp only [Option.map_some]
  congr 2
  unfold moved
  rw [if_pos hb]
  congr 1
  omega

theorem onSpan_id {g : Span → Span} {t : Tok} (h : ∀ s, t.span = some s → g s = s) : t.onSpan g = t := by
  unfold Tok.onSpan
  cases hs : t.span with
  | none => cases t; subst hs; rfl
  | some s => rw [Option.map_some, h s hs, ← hs]

theorem goodPositions_map {lay lay' : List FileLine} {ts : List Tok} (g : Span → Span)
    (hg : GoodPositions lay ts)
    (h1 : ∀ t ∈ ts, ∀ s, t.span = some s → Places lay' (g s) t.text)
    (h2 : ∀ t ∈ ts, ∀ u ∈ ts, ∀ s s', t.span = some s → u.span = some s' → Precedes s t.text s' →
      Precedes (g s) t.text (g s')) :
    GoodPositions lay' (ts.map (Tok.onSpan g)) := by
  refine ⟨?_, ?_⟩
  · intro t ht
    obtain ⟨u, hu, rfl⟩ := List.mem_map.mp ht
    obtain ⟨s, hs, _⟩ := hg.1 u hu
    exact ⟨g s, by simp [Tok.onSpan, hs], h1 u hu s hs⟩
  · rw [List.pairwise_map]
    refine hg.2.imp_of_mem ?_
    intro t u ht hu hp s s' hs hs'
    obtain ⟨s1, hs1, _⟩ := hg.1 t ht
    obtain ⟨s2, hs2, _⟩ := hg.1 u hu
    simp only [Tok.onSpan, hs1, hs2, Option.map_some, Option.some.injEq] at hs hs'
    subst hs hs'
    exact h2 t ht u hu s1 s2 hs1 hs2 (hp s1 s2 hs1 hs2)

theorem goodPositions_sublist {lay : List FileLine} {ts us : List Tok} (h : us.Sublist ts)
    (hg : GoodPositions lay ts) : GoodPositions lay us :=
  ⟨fun t ht => hg.1 t (h.subset ht), hg.2.sublist h⟩

/-- The tokens behind the given one begin on its physical line or later, those not on its line later. -/
theorem SplitAt.later_bl {l : LLine} {i : Nat} {t : Tok} {s : Span} {k : Nat} {f f0 : FileLine}
    {semis here later : List Tok} (h : SplitAt l i t s k f f0 semis here later)
    (hg : GoodPositions l.layout l.frags) :
    (∀ u ∈ l.frags.drop (i + 1), ∀ su, u.span = some su → Precedes s t.text su) ∧
    ∀ u ∈ later, ∀ su, u.span = some su → (k : Int) < su.bl := by
  have hi := List.getElem?_eq_some_iff.mp h.tok
  have hcut : l.frags = l.frags.take i ++ t :: l.frags.drop (i + 1) := by
    conv_lhs => rw [← List.take_append_drop i l.frags, List.drop_eq_getElem_cons hi.1, hi.2]
  have hpre : ∀ u ∈ l.frags.drop (i + 1), ∀ su, u.span = some su → Precedes s t.text su := by
    intro u hu su hsu
    have hpw := hg.2
    rw [hcut, List.pairwise_append] at hpw
    exact (List.pairwise_cons.mp hpw.2.1).1 u hu s su h.span hsu
  refine ⟨hpre, ?_⟩
  intro u hu su hsu
  cases hl : later with
  | nil => rw [hl] at hu; simp at hu
  | cons v vs =>
    obtain ⟨sv, hsv, hne⟩ := h.offLine v (by rw [hl]; rfl)
    have hvm : v ∈ l.frags.drop (i + 1) := by rw [h.rest, hl]; simp
    have hpv := hpre v hvm sv hsv
    have hv : (k : Int) < sv.bl := by
      have := h.el
      rcases hpv with hp | hp <;> omega
    rw [hl] at hu
    rcases List.mem_cons.mp hu with rfl | hu'
    · rw [hsv] at hsu; obtain rfl := Option.some.inj hsu; exact hv
    · have hsub : later.Sublist l.frags :=
        (by rw [h.rest]; exact List.sublist_append_right _ _ : later.Sublist (l.frags.drop (i + 1))).trans
          (List.drop_sublist _ _)
      have hpw := hg.2.sublist hsub
      rw [hl] at hpw
      have hp := (List.pairwise_cons.mp hpw).1 u hu' sv su hsv hsu
      obtain ⟨sv', hsv', hplv⟩ := hg.1 v (List.mem_of_mem_drop hvm)
      rw [hsv] at hsv'; obtain rfl := Option.some.inj hsv'
      have := precedes_bl hp hplv
      omega

theorem endCol_moved {k d : Int} {s : Span} {a : Str} :
    endCol (moved k d s) a = if s.bl = k ∧ s.bl = s.el then endCol s a + d else endCol s a := by
  rw [moved_eq]
  unfold endCol
  dsimp only
  by_cases h1 : s.bl = k
  · by_cases h2 : s.bl = s.el
    · rw [if_pos h2, if_pos h1, if_pos ⟨h1, h2⟩, if_pos h2]; omega
    · rw [if_neg h2, if_neg (fun h => h2 h.2), if_neg (fun h => h2 h.2), if_neg h2]
  · simp only [h1, false_and, if_false]

theorem precedes_moved_split {k d : Int} {s s' : Span} {a : Str} (hk : k ≤ s.bl) (hs : s.bl ≤ s.el)
    (h : Precedes s a s') : Precedes (moved k d s) a (moved k d s') := by
  unfold Precedes at *
  rw [endCol_moved, moved_eq, moved_eq]
  dsimp only
  rcases h with h | ⟨h, h'⟩
  · exact Or.inl h
  · refine Or.inr ⟨h, ?_⟩
    by_cases h1 : s'.bl = k
    · rw [if_pos h1, if_pos ⟨by omega, by omega⟩]; omega
    · rw [if_neg h1, if_neg (by omega)]; exact h'

/-- **C20** If the positions of the tokens are right, and the end column of the given token is, then the
positions of both parts are right – provided that, when only semicolons follow on its physical line, the
next token begins on the next physical line. -/
theorem C20_positions_partial (l l' n new : LLine) (i : Nat) (t : Tok) (s : Span)
    (hg : GoodPositions l.layout l.frags) (ht : l.frags[i]? = some t) (hs : t.span = some s)
    (he : EndRight t) (hc : CommentsApart l.layout)
    (hnext : (∀ v ∈ l.frags.drop (i + 1), ∀ sv, v.span = some sv → sv.bl = s.el →
        v.token = Tag.TK_SEMICOLON) →
      ∀ u ∈ l.frags.drop (i + 1), ∀ su, u.span = some su → s.el < su.bl →
        ∃ v ∈ l.frags.drop (i + 1), ∃ sv, v.span = some sv ∧ sv.bl = s.el + 1)
    (h : l.splitAfter i new = .ok (true, l', n)) :
    GoodPositions l'.layout l'.frags ∧ GoodPositions n.layout n.frags := by
  cases splitAfter_outcome h with
  | between hat hb hf hu hsu =>
    rename_i t' s' k f f0 semis later fs u su
    have htt := hat.tok
    rw [ht] at htt; obtain rfl := Option.some.inj htt
    have hss := hat.span
    rw [hs] at hss; obtain rfl := Option.some.inj hss
    have hbl := hat.later_bl hg
    have hsub : later.Sublist l.frags :=
      (by rw [hat.rest]; exact List.sublist_append_right _ _ : later.Sublist (l.frags.drop (i + 1))).trans
        (List.drop_sublist _ _)
    have hgl := goodPositions_sublist hsub hg
    have hul : u ∈ later := List.mem_of_head? hu
    have hnx : su.bl = k + 1 := by
      have hk1 := hbl.2 u hul su hsu
      obtain ⟨v, hv, sv, hsv, hvb⟩ := hnext (by
        intro v hv sv hsv hvb
        rw [hat.rest, List.append_nil] at hv
        rcases List.mem_append.mp hv with hv | hv
        · exact hat.semi v hv
        · have := hbl.2 v hv sv hsv
          rw [hat.el] at hvb; omega) u (by rw [hat.rest]; simp [hul]) su hsu (by rw [hat.el]; exact hk1)
      have hvl : v ∈ later := by
        rw [hat.rest, List.append_nil] at hv
        rcases List.mem_append.mp hv with hv | hv
        · obtain ⟨w, hw, hw2⟩ := hat.onLine v (by simp [hv])
          rw [hsv] at hw; obtain rfl := Option.some.inj hw
          rw [hat.el] at hvb; omega
        · exact hv
      rw [hat.el] at hvb
      cases later with
      | nil => simp at hu
      | cons a as =>
        simp at hu; subst hu
        rcases List.mem_cons.mp hvl with rfl | hva
        · rw [hsu] at hsv; obtain rfl := Option.some.inj hsv; omega
        · have hp := (List.pairwise_cons.mp hgl.2).1 v hva su sv hsu hsv
          obtain ⟨w, hw, hpl⟩ := hgl.1 a (by simp)
          rw [hsu] at hw; obtain rfl := Option.some.inj hw
          have := precedes_bl hp hpl
          omega
    refine ⟨?_, ?_⟩
    · refine kept_places hg he ht hs hat.el hat.line f.main_txt.length le_rfl ?_ ?_
      · obtain ⟨w, hw, bl, bc, el, ec, fb, fe, rfl, h1, h2, h3, h4, h5, h6⟩ := hg.1 t (List.mem_of_getElem? ht)
        rw [hs] at hw; obtain rfl := Option.some.inj hw
        have hE := he _ hs
        have hel := hat.el
        dsimp only at *
        have hel' : el = k := by omega
        subst hel'
        rw [hat.line] at h2; obtain rfl := Option.some.inj h2
        unfold endCol at hE
        dsimp only at hE
        by_cases hbe : bl = el
        · subst hbe
          rw [if_pos rfl] at hE
          rw [hat.line] at h1; obtain rfl := Option.some.inj h1
          have := congrArg List.length (h5 rfl)
          rw [List.length_take, List.length_drop] at this
          omega
        · have := (h6 (by omega)).1
          omega
      · rw [(makeUncontinued_parts f).1, List.take_length]
    · rw [hnx]
      have : later.map (·.shiftLine (-((k : Int) + 1))) = later.map (Tok.onSpan (·.down (-((k + 1 : Nat) : Int)))) := rfl
      dsimp only
      rw [this]
      refine goodPositions_map _ hgl ?_ ?_
      · intro v hv sv hsv
        obtain ⟨w, hw, hpl⟩ := hgl.1 v hv
        rw [hsv] at hw; obtain rfl := Option.some.inj hw
        have := hbl.2 v hv sv hsv
        exact places_congr (by rw [(splitFollow_main hf).1]) (places_drop (k + 1) hpl (by omega))
      · intro v _ w _ sv sw _ _ hp
        exact precedes_down _ hp
  | inside hat hu hsu h1 h2 =>
    rename_i t' s' k f f0 semis here later u su f1 f2
    have htt := hat.tok
    rw [ht] at htt; obtain rfl := Option.some.inj htt
    have hss := hat.span
    rw [hs] at hss; obtain rfl := Option.some.inj hss
    have hbl := hat.later_bl hg
    have hsub : (here ++ later).Sublist l.frags :=
      (by rw [hat.rest, List.append_assoc]; exact List.sublist_append_right _ _ :
        (here ++ later).Sublist (l.frags.drop (i + 1))).trans (List.drop_sublist _ _)
    have hgl := goodPositions_sublist hsub hg
    have huh : u ∈ here := List.mem_of_head? hu
    have hub : su.bl = k := by
      obtain ⟨w, hw, hw2⟩ := hat.onLine u (by simp [huh])
      rw [hsu] at hw; obtain rfl := Option.some.inj hw; exact hw2
    obtain ⟨w, hw, hplu⟩ := hgl.1 u (by simp [huh])
    rw [hsu] at hw; obtain rfl := Option.some.inj hw
    have hu0 := places_bl_le hplu
    obtain ⟨c, hec, hcl, rfl⟩ := splitSource_ok h1
    obtain ⟨hm2, _⟩ := splitNew_ok hu0.2.2 (hc f (List.mem_of_getElem? hat.line)) h2
    obtain ⟨b, hb⟩ : ∃ b : Nat, su.bc = b := ⟨su.bc.toNat, by omega⟩
    refine ⟨?_, ?_⟩
    · refine kept_places hg he ht hs hat.el hat.line c hcl (by omega) ?_
      rw [(makeUncontinued_parts _).1]
    · -- the tokens
      have hmap : ((here.map (·.shiftCol su.bc) ++ later).map (·.shiftLine 1)).map (·.shiftLine (-(k + 1))) =
          (here ++ later).map (Tok.onSpan (fun x => (moved k (0 - b) x).down (-k))) := by
        rw [List.map_map, List.map_append, List.map_append, List.map_map]
        have hcomp : ∀ v : Tok, ((v.shiftLine 1).shiftLine (-(k + 1))) = v.onSpan (·.down (-k)) := by
          intro v
          simp only [Tok.shiftLine, Tok.onSpan, Option.map_map]
          congr 2
          funext x
          simp only [Function.comp, Span.down, Span.mk.injEq, true_and, and_true]
          omega
        congr 1
        · refine List.map_congr_left ?_
          intro v hv
          simp only [Function.comp]
          rw [hcomp, shiftCol_onSpan su.bc k v (hat.onLine v (by simp [hv])), hb]
          simp only [Tok.onSpan, Option.map_map]
          rfl
        · refine List.map_congr_left ?_
          intro v hv
          simp only [Function.comp]
          rw [hcomp]
          simp only [Tok.onSpan]
          cases hsv : v.span with
          | none => rfl
          | some sv =>
            have := hbl.2 v hv sv hsv
            simp only [Option.map_some]
            rw [moved, if_neg (by omega)]
      dsimp only
      rw [hmap]
      have hk0 : ∀ v ∈ here ++ later, ∀ sv, v.span = some sv → (k : Int) ≤ sv.bl := by
        intro v hv sv hsv
        rcases List.mem_append.mp hv with hv | hv
        · obtain ⟨w, hw, hw2⟩ := hat.onLine v (by simp [hv])
          rw [hsv] at hw; obtain rfl := Option.some.inj hw; omega
        · have := hbl.2 v hv sv hsv; omega
      refine goodPositions_map _ hgl ?_ ?_
      · intro v hv sv hsv
        obtain ⟨w, hw, hpl⟩ := hgl.1 v hv
        rw [hsv] at hw; obtain rfl := Option.some.inj hw
        have hkv := hk0 v hv sv hsv
        have hcol : (k : Int) < sv.bl ∨ ((k : Int) = sv.bl ∧ ((0 : Nat) + b : Int) ≤ sv.bc) := by
          by_cases hlt : (k : Int) < sv.bl
          · exact Or.inl hlt
          · refine Or.inr ⟨by omega, ?_⟩
            have hh : ∃ hs', here = u :: hs' := by
              cases here with
              | nil => simp at hu
              | cons a as => simp at hu; subst hu; exact ⟨as, rfl⟩
            obtain ⟨hs', rfl⟩ := hh
            have hv' : v ∈ u :: (hs' ++ later) := by simpa using hv
            rcases List.mem_cons.mp hv' with rfl | hvr
            · rw [hsu] at hsv; obtain rfl := Option.some.inj hsv; omega
            · have hp := (List.pairwise_cons.mp (show List.Pairwise _ (u :: (hs' ++ later)) from hgl.2)).1 v hvr su sv hsu hsv
              rcases hp with hp | ⟨hp, hp2⟩
              · omega
              · unfold endCol at hp2
                rw [if_pos (by omega)] at hp2
                omega
        have hpa := places_after (n := b) (new := []) hat.line (Nat.zero_le _) hpl hcol
        have hpd := places_drop k hpa (by
          rw [moved_eq]; exact hkv)
        have hfin := places_congr (b := f2 :: l.layout.drop (k + 1)) ?_ hpd
        · exact hfin
        · have hkl := (List.getElem?_eq_some_iff.mp hat.line).1
          rw [List.drop_set, if_neg (by omega), Nat.sub_self, List.drop_eq_getElem_cons hkl,
            List.set_cons_zero]
          simp only [List.map_cons, hm2, hb, Int.toNat_natCast]
          congr 1
          unfold edited
          simp
      · intro v hv w _ sv sw hsv _ hp
        obtain ⟨x, hx, hpl⟩ := hgl.1 v hv
        rw [hsv] at hx; obtain rfl := Option.some.inj hx
        exact precedes_down _ (precedes_moved_split (hk0 v hv sv hsv) (places_bl_le hpl).2.1 hp)

end FLPR
