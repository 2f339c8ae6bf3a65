import Verif.Comment.Lines
/-!
# Trailing comments: the analysis of a line with a comment put at its end
-/

namespace FLPR
open Spec

section
variable {w t : Str}

theorem scanDigits_note : ∀ (k i : Nat) (u : Str) {r : Nat}, scanDigits k i u = .ok r →
    scanDigits k i (u ++ '!' :: t) = .ok r ∧ i ≤ r ∧ r ≤ i + u.length
  | 0, i, u, r, h => by
    rw [scanDigits] at h
    injection h with h
    subst h
    exact ⟨rfl, le_refl _, by omega⟩
  | k + 1, i, [], r, h => by
    rw [scanDigits] at h
    injection h with h
    subst h
    refine ⟨?_, le_refl _, by omega⟩
    rw [List.nil_append, scanDigits]
    have : cIsDigit '!' = .ok false := by decide
    rw [this]
    rfl
  | k + 1, i, c :: u, r, h => by
    rw [scanDigits] at h
    rbind h with d hd
    rw [List.cons_append, scanDigits, hd, Res.ok_bind]
    cases d with
    | true =>
      rw [if_pos rfl] at h ⊢
      obtain ⟨h1, h2, h3⟩ := scanDigits_note k (i + 1) u h
      exact ⟨h1, by omega, by rw [List.length_cons]; omega⟩
    | false =>
      rw [if_neg (by simp)] at h ⊢
      injection h with h
      subst h
      exact ⟨rfl, le_refl _, by omega⟩

theorem scanSpaces_note : ∀ (i : Nat) (u : Str) {r : Nat}, scanSpaces i u = .ok r →
    scanSpaces i (u ++ '!' :: t) = .ok r ∧ i ≤ r ∧ r ≤ i + u.length
  | i, [], r, h => by
    rw [scanSpaces] at h
    injection h with h
    subst h
    refine ⟨?_, le_refl _, by omega⟩
    rw [List.nil_append, scanSpaces]
    have : cIsSpace '!' = .ok false := by decide
    rw [this]
    rfl
  | i, c :: u, r, h => by
    rw [scanSpaces] at h
    rbind h with d hd
    rw [List.cons_append, scanSpaces, hd, Res.ok_bind]
    cases d with
    | true =>
      rw [if_pos rfl] at h ⊢
      obtain ⟨h1, h2, h3⟩ := scanSpaces_note (i + 1) u h
      exact ⟨h1, by omega, by rw [List.length_cons]; omega⟩
    | false =>
      rw [if_neg (by simp)] at h ⊢
      injection h with h
      subst h
      exact ⟨rfl, le_refl _, by omega⟩

theorem restIsSpace_note : ∀ (u : Str) {b : Bool}, restIsSpace u = .ok b → restIsSpace (u ++ '!' :: t) = .ok false
  | [], b, h => by
    rw [List.nil_append, restIsSpace]
    have : cIsSpace '!' = .ok false := by decide
    rw [this]
    rfl
  | c :: u, b, h => by
    rw [restIsSpace] at h
    rbind h with d hd
    rw [List.cons_append, restIsSpace, hd, Res.ok_bind]
    cases d with
    | true =>
      rw [if_pos rfl] at h ⊢
      exact restIsSpace_note u h
    | false => rfl

/-- Where the trailing text starts once there is a comment. -/
theorem findTrailingGo_note : ∀ (ctx : Char) (i : Nat) (u : Str) {o : Option Nat}, findTrailingFreeGo ctx i u = .ok (o, NUL) →
    findTrailingFreeGo ctx i (u ++ '!' :: t) = .ok (some (o.getD (i + u.length)), NUL) ∧ ∀ k, o = some k → i ≤ k ∧ k < i + u.length
  | ctx, i, [], o, h => by
    rw [findTrailingFreeGo] at h
    split at h
    · cases h
    · rename_i hc
      have hc : ctx = NUL := by simpa using hc
      subst hc
      injection h with h
      injection h with h _
      subst h
      refine ⟨?_, by simp⟩
      rw [List.nil_append, findTrailingFreeGo, if_pos rfl, if_neg (by decide), if_pos (by simp)]
      rfl
  | ctx, i, c :: u, o, h => by
    rw [findTrailingFreeGo] at h
    rw [List.cons_append, findTrailingFreeGo]
    have step : ∀ ctx', findTrailingFreeGo ctx' (i + 1) u = .ok (o, NUL) →
        findTrailingFreeGo ctx' (i + 1) (u ++ '!' :: t) = .ok (some (o.getD (i + (c :: u).length)), NUL) ∧
          ∀ k, o = some k → i ≤ k ∧ k < i + (c :: u).length := by
      intro ctx' h'
      obtain ⟨h1, h2⟩ := findTrailingGo_note ctx' (i + 1) u h'
      refine ⟨by rw [h1, List.length_cons, show i + 1 + u.length = i + (u.length + 1) by omega], fun k hk => ?_⟩
      have := h2 k hk
      rw [List.length_cons]
      omega
    split at h
    · rename_i hc
      rw [if_pos hc]
      split at h
      · rename_i hq
        rw [if_pos hq]
        exact step c h
      · rename_i hq
        rw [if_neg hq]
        split at h
        · rename_i hb
          rw [if_pos hb]
          injection h with h
          injection h with h _
          subst h
          refine ⟨rfl, fun k hk => ?_⟩
          injection hk with hk
          subst hk
          rw [List.length_cons]
          omega
        · rename_i hb
          rw [if_neg hb]
          exact step ctx h
    · rename_i hc
      rw [if_neg hc]
      split at h
      · rename_i hq
        rw [if_pos hq]
        exact step NUL h
      · rename_i hq
        rw [if_neg hq]
        split at h
        · rename_i hb
          rw [if_pos hb]
          rbind h with ws hws
          rw [restIsSpace_note u hws, Res.ok_bind, if_neg (by simp)]
          split at h
          · injection h with h
            injection h with _ h
            exact absurd h hc
          · exact step ctx h
        · rename_i hb
          rw [if_neg hb]
          exact step ctx h

theorem freeLeft_note {pc : Bool} {ri : Nat} {c : Char} (hri : ri < w.length) {lt : Str} {b : Bits} {r1 ib : Nat}
    (h : freeLeft w pc ri c = .ok (lt, b, r1, ib)) :
    freeLeft (w ++ '!' :: t) pc ri c = .ok (lt, b, r1, ib) ∧ r1 ≤ w.length ∧ ib ≤ r1 := by
  unfold freeLeft at h ⊢
  rbind h with d hd
  rw [hd, Res.ok_bind]
  split at h
  · rename_i hc
    rw [if_pos hc]
    rbind h with r hr
    injection h with h
    injection h with h1 h
    injection h with h2 h
    injection h with h3 h4
    subst h1 h2 h3 h4
    rw [List.drop_append_of_le_length (by omega)]
    obtain ⟨e1, e2, e3⟩ := scanDigits_note (t := t) 6 ri _ hr
    rw [List.length_drop] at e3
    rw [e1, Res.ok_bind, List.take_append_of_le_length (by omega)]
    exact ⟨rfl, by omega, le_refl _⟩
  · rename_i hc
    rw [if_neg hc]
    split at h
    · rename_i ha
      rw [if_pos ha]
      injection h with h
      injection h with h1 h
      injection h with h2 h
      injection h with h3 h4
      subst h1 h2 h3 h4
      rw [List.take_append_of_le_length (by omega)]
      exact ⟨rfl, by omega, le_refl _⟩
    · rename_i ha
      rw [if_neg ha]
      injection h with h
      injection h with h1 h
      injection h with h2 h
      injection h with h3 h4
      subst h1 h2 h3 h4
      exact ⟨rfl, by omega, by omega⟩

theorem freeSkip_note {lt : Str} {b : Bits} {r1 r2 : Nat} (hr : r1 ≤ w.length) (h : freeSkip w lt b r1 = .ok r2) :
    freeSkip (w ++ '!' :: t) lt b r1 = .ok r2 ∧ r1 ≤ r2 ∧ r2 ≤ w.length := by
  unfold freeSkip at h ⊢
  split at h
  · rename_i hc
    rw [if_pos hc, List.drop_append_of_le_length hr]
    obtain ⟨e1, e2, e3⟩ := scanSpaces_note (t := t) r1 _ h
    rw [List.length_drop] at e3
    exact ⟨e1, e2, by omega⟩
  · rename_i hc
    rw [if_neg hc]
    injection h with h
    subst h
    exact ⟨rfl, le_refl _, hr⟩

theorem freeBody_note {ln : Int} {pd : Char} {pc : Bool} {ri : Nat} {c : Char} {f : FileLine} (hri : ri < w.length)
    (h : analyzeFreeBody ln w pd pc ri c = .ok f) (hd : f.open_delim = NUL) :
    analyzeFreeBody ln (w ++ '!' :: t) pd pc ri c = .ok { f with right_txt := f.right_txt ++ '!' :: t } := by
  unfold analyzeFreeBody at h ⊢
  rbind h with ⟨lt, b, r1, ib⟩ h1
  obtain ⟨e1, e2, e3⟩ := freeLeft_note (t := t) hri h1
  rw [e1, Res.ok_bind]
  dsimp only at h ⊢
  rbind h with r2 h2
  obtain ⟨e4, e5, e6⟩ := freeSkip_note (t := t) e2 h2
  rw [e4, Res.ok_bind]
  have hsp : ((w ++ '!' :: t).drop ib).take (r2 - ib) = (w.drop ib).take (r2 - ib) := by
    rw [List.drop_append_of_le_length (by omega), List.take_append_of_le_length (by rw [List.length_drop]; omega)]
  rw [hsp]
  rbind h with ⟨tb, od⟩ h3
  dsimp only at h ⊢
  have hod : od = NUL := by
    rw [← hd]
    cases tb with
    | none =>
      rbind h with m hm
      unfold mkFull at h
      split at h
      · injection h with h; rw [← h]
      · cases h
    | some k =>
      rbind h with m hm
      rbind h with r hr
      unfold mkFull at h
      split at h
      · injection h with h; rw [← h]
      · cases h
  subst hod
  unfold findTrailingFree at h3 ⊢
  split at h3
  · rename_i hv
    rw [if_pos hv, List.drop_append_of_le_length e6]
    obtain ⟨e7, e8⟩ := findTrailingGo_note (t := t) pd r2 _ h3
    rw [e7, Res.ok_bind]
    dsimp only
    rw [List.length_drop, show r2 + (w.length - r2) = w.length by omega]
    cases tb with
    | none =>
      dsimp only [Option.getD_none]
      rbind h with m hm
      unfold substrFrom at hm
      rw [if_pos e6] at hm
      injection hm with hm
      subst hm
      unfold substr substrFrom
      rw [if_pos (by rw [List.length_append]; omega), Res.ok_bind, List.drop_append_of_le_length e6,
        List.take_append_of_le_length (by rw [List.length_drop]), List.take_of_length_le (l := w.drop r2) (i := w.length - r2) (by rw [List.length_drop]),
        if_pos (by rw [List.length_append]; omega), Res.ok_bind, List.drop_append_of_le_length (le_refl _), List.drop_length,
        List.nil_append]
      rw [if_neg (by simp)]
      unfold mkFull at h ⊢
      rw [if_pos (by decide)] at h ⊢
      injection h with h
      rw [← h]
      rfl
    | some k =>
      dsimp only [Option.getD_some]
      obtain ⟨k1, k2⟩ := e8 k rfl
      rw [List.length_drop] at k2
      rbind h with m hm
      rbind h with r hr
      unfold substr at hm
      unfold substrFrom at hr
      rw [if_pos e6] at hm
      rw [if_pos (by omega)] at hr
      injection hm with hm
      injection hr with hr
      subst hm hr
      unfold substr substrFrom
      rw [if_pos (by rw [List.length_append]; omega), Res.ok_bind, List.drop_append_of_le_length e6,
        List.take_append_of_le_length (by rw [List.length_drop]; omega), if_pos (by rw [List.length_append]; omega), Res.ok_bind,
        List.drop_append_of_le_length (by omega)]
      have hg : (w.drop k ++ '!' :: t).getD 0 NUL = (w.drop k).getD 0 NUL := by
        cases hdk : w.drop k with
        | nil =>
          rw [List.drop_eq_nil_iff] at hdk
          omega
        | cons a as => rfl
      rw [hg]
      unfold mkFull at h ⊢
      rw [if_pos (by decide)] at h ⊢
      injection h with h
      rw [← h]
  · cases h3

theorem findFirstNotOf_note {set : Str} {ri : Nat} (h : findFirstNotOf set w = some ri) : findFirstNotOf set (w ++ '!' :: t) = some ri := by
  unfold findFirstNotOf at h ⊢
  rw [List.findIdx?_append, h]
  rfl

theorem strToLower_bang : ∀ (s : Str) {r : Str}, strToLower s = .ok r → '!' ∈ s → '!' ∈ r
  | [], r, _, h => by simp at h
  | c :: s, r, h, hm => by
    rw [strToLower] at h
    rbind h with d hd
    rbind h with ds hds
    injection h with h
    subst h
    rcases List.mem_cons.mp hm with hc | hm
    · subst hc
      have : cToLower '!' = .ok '!' := by decide
      rw [this] at hd
      injection hd with hd
      subst hd
      simp
    · exact List.mem_cons_of_mem _ (strToLower_bang s hds hm)

theorem include_note {ri : Nat} (hri : ri < w.length) (ha : AsciiStr t) (haw : AsciiStr w) (h : isIncludeLine w ri = .ok false) :
    isIncludeLine (w ++ '!' :: t) ri = .ok false := by
  unfold isIncludeLine at h ⊢
  rw [if_neg (by omega)] at h
  rw [if_neg (by rw [List.length_append]; omega)]
  have hg : (w ++ '!' :: t).getD ri NUL = w.getD ri NUL := by
    rw [List.getD_eq_getElem?_getD, List.getD_eq_getElem?_getD, List.getElem?_append_left hri]
  rw [hg]
  split at h
  · rename_i hc
    rw [if_pos hc]
  · rename_i hc
    rw [if_neg hc, List.drop_append_of_le_length (by omega)]
    by_cases h7 : 7 ≤ (w.drop ri).length
    · rw [List.take_append_of_le_length h7]
      rbind h with m hm
      rw [hm, Res.ok_bind]
      rw [List.length_drop] at h7
      split at h
      · rename_i he
        rw [if_pos he, List.drop_append_of_le_length (by omega)]
        revert h
        generalize w.drop (ri + 7) = u
        intro h
        induction u with
        | nil => rfl
        | cons a as ih =>
          rw [List.cons_append, List.dropWhile_cons]
          rw [List.dropWhile_cons] at h
          by_cases hb : (a == ' ') = true
          · rw [if_pos hb] at h ⊢
            exact ih h
          · rw [if_neg hb] at h ⊢
            exact h
      · rename_i he
        rw [if_neg he]
    · have hmem : '!' ∈ (w.drop ri ++ '!' :: t).take 7 := by
        rw [List.take_append]
        refine List.mem_append_right _ ?_
        obtain ⟨n, hn⟩ : ∃ n, 7 - (w.drop ri).length = n + 1 := ⟨7 - (w.drop ri).length - 1, by omega⟩
        rw [hn, List.take_succ_cons]
        simp
      obtain ⟨r, hr⟩ : ∃ r, strToLower ((w.drop ri ++ '!' :: t).take 7) = .ok r := ⟨_, strToLower_ascii (by
        intro c hc
        have hc := List.mem_of_mem_take hc
        rcases List.mem_append.mp hc with hc | hc
        · exact haw c (List.mem_of_mem_drop hc)
        · rcases List.mem_cons.mp hc with rfl | hc
          · decide
          · exact ha c hc)⟩
      have hb := strToLower_bang _ hr hmem
      rw [hr, Res.ok_bind, if_neg ?_]
      intro he
      rw [he] at hb
      exact absurd hb (by decide)

/-- A comment put at the end of a Fortran line, outside character strings, becomes part of the trailing text and changes nothing else. -/
theorem analyzeFree_note {ln : Int} {pd : Char} {pc lit : Bool} {f : FileLine} {lit' : Bool} (ha : AsciiStr t) (haw : AsciiStr w)
    (h : analyzeFree ln w pd pc lit = .ok (f, lit')) (hf : f.isFortran = true) (hd : f.open_delim = NUL) :
    analyzeFree ln (w ++ '!' :: t) pd pc lit = .ok ({ f with right_txt := f.right_txt ++ '!' :: t }, lit') := by
  unfold analyzeFree at h ⊢
  dsimp only at h ⊢
  split at h
  · exfalso
    revert h
    split
    · split
      · intro h
        rbind h with l hl
        injection h with h
        injection h with h _
        rw [← h] at hf
        cases hf
      · intro h
        injection h with h
        injection h with h _
        rw [← h] at hf
        cases hf
    · intro h
      injection h with h
      injection h with h _
      rw [← h] at hf
      cases hf
  · rename_i hl
    rw [if_neg hl]
    split at h
    · injection h with h
      injection h with h _
      rw [← h] at hf
      cases hf
    · rename_i ri hri
      rw [findFirstNotOf_note hri]
      have hlt := (findFirstNotOf_blank _ _ hri).2.2.2
      dsimp only
      have hg : (w ++ '!' :: t).getD ri NUL = w.getD ri NUL := by
        rw [List.getD_eq_getElem?_getD, List.getD_eq_getElem?_getD, List.getElem?_append_left hlt]
      rw [hg]
      rbind h with c hc
      rw [hc, Res.ok_bind]
      split at h
      · injection h with h
        injection h with h _
        rw [← h] at hf
        cases hf
      · rename_i h1
        rw [if_neg h1]
        rbind h with inc hinc
        cases inc with
        | true =>
          rw [if_pos rfl] at h
          injection h with h
          injection h with h _
          rw [← h] at hf
          cases hf
        | false =>
          rw [if_neg (by simp)] at h
          rw [include_note hlt ha haw hinc, Res.ok_bind, if_neg (by simp)]
          split at h
          · exfalso
            rbind h with l hl
            revert h
            split
            · intro h
              injection h with h
              injection h with h _
              rw [← h] at hf
              cases hf
            · split
              · intro h
                injection h with h
                injection h with h _
                rw [← h] at hf
                cases hf
              · intro h
                injection h with h
                injection h with h _
                rw [← h] at hf
                cases hf
          · rename_i h2
            rw [if_neg h2]
            rbind h with g hgb
            injection h with h
            injection h with h h'
            subst h h'
            rw [freeBody_note hlt hgb hd, Res.ok_bind]

end

end FLPR
