import Verif.LogicalFile.ConvertSpec
/-!
# Deciding what `ConvertSpec` asks for

Only used to show that the hypotheses of the theorems are met by concrete files.
-/

namespace FLPR
open Spec

/-- No ampersand outside strings. -/
def ampFree : Option Char → Str → Bool
  | _, [] => true
  | ctx, c :: s => !(ctx.isNone && c == '&') && ampFree (quoteStep ctx c) s

theorem ampFree_sound : ∀ {s : Str} {ctx : Option Char}, ampFree ctx s = true →
    ∀ k, quoteState ctx (s.take k) = none → s[k]? ≠ some '&'
  | [], _, _, k, _ => by simp
  | c :: s, ctx, h, k, hk => by
    simp only [ampFree, Bool.and_eq_true, Bool.not_eq_true', Bool.and_eq_false_iff] at h
    cases k with
    | zero =>
      simp [quoteState] at hk
      rcases h.1 with h1 | h1
      · simp [hk] at h1
      · simpa using h1
    | succ k => exact ampFree_sound h.2 k (by simpa [quoteState] using hk)

def inclB (m : Str) : Bool :=
  (m.take 7).map lowChar == "include".toList &&
  match (m.drop 7).dropWhile (· == ' ') with
  | [] => false
  | q :: _ => q == '\'' || q == '"'

theorem inclB_complete {m : Str} (h : startsInclude m) : inclB m = true := by
  obtain ⟨h1, q, r, h2, h3⟩ := h
  simp only [inclB, h1, h2, beq_self_eq_true, Bool.true_and, Bool.or_eq_true, beq_iff_eq]
  exact h3

def spanAt (t : Tok) (i : Nat) : Bool :=
  match t.span with
  | none => false
  | some s => decide (s.bl < (i : Int)) && decide ((i : Int) ≤ s.el)

theorem splitBefore_iff (l : LLine) (i : Nat) : SplitBefore l i ↔ l.frags.any (spanAt · i) = true := by
  simp only [SplitBefore, List.any_eq_true, spanAt]
  constructor
  · rintro ⟨t, ht, s, h1, h2, h3⟩
    refine ⟨t, ht, ?_⟩
    rw [h1]; simp [h2, h3]
  · rintro ⟨t, ht, h⟩
    split at h
    · simp at h
    · rename_i s hs
      simp at h
      exact ⟨t, ht, s, hs, h.1, h.2⟩

def orderB : List Tok → Bool
  | [] => true
  | t :: ts =>
    (match t.span with
     | none => false
     | some s => decide (0 ≤ s.bl) && decide (s.bl ≤ s.el) && ts.all (fun u =>
        match u.span with
        | none => false
        | some v => decide (s.el ≤ v.bl))) && orderB ts

theorem orderB_sound : ∀ {ts : List Tok}, orderB ts = true → TokensInOrder ts
  | [], _ => ⟨by simp, by simp⟩
  | t :: ts, h => by
    simp only [orderB, Bool.and_eq_true] at h
    obtain ⟨i1, i2⟩ := orderB_sound h.2
    have h1 := h.1
    split at h1
    · simp at h1
    · rename_i s hs
      simp only [Bool.and_eq_true, decide_eq_true_eq, List.all_eq_true] at h1
      refine ⟨?_, ?_⟩
      · intro u hu
        rcases List.mem_cons.mp hu with rfl | hu
        · exact ⟨s, hs, h1.1.1, h1.1.2⟩
        · exact i1 u hu
      · rw [List.pairwise_cons]
        refine ⟨?_, i2⟩
        intro u hu a b ha hb
        have := h1.2 u hu
        rw [hb] at this
        rw [hs] at ha
        simp at ha this
        rw [← ha]; exact this

def stmtB (l : LLine) : Bool :=
  l.layout.all (·.isFortran) &&
  (match l.layout with
   | [] => true
   | f :: _ => !f.bits.continuation &&
      (match f.main_txt with | [] => true | c :: _ => !isDigit c)) &&
  orderB l.frags &&
  (List.range l.layout.length).all (fun i =>
    match l.layout[i]? with
    | none => true
    | some f =>
      ampFree (ctxOf (openBefore l.layout i)) f.main_txt &&
      (i == 0 || l.frags.any (spanAt · i) || !inclB f.main_txt) &&
      (!(l.frags.any (spanAt · i)) || f.left_space == []) &&
      (i == 0 || openBefore l.layout i == NUL || l.frags.any (spanAt · i)) &&
      (f.open_delim == NUL || f.right_txt == [])) &&
  (match l.layout.getLast? with
   | none => true
   | some f => f.open_delim == NUL && (body f.right_txt).head? != some '&')

theorem stmtB_sound {l : LLine} (h : stmtB l = true) : ConvertibleStmt l := by
  simp only [stmtB, Bool.and_eq_true, List.all_eq_true] at h
  obtain ⟨⟨⟨⟨h1, h2⟩, h3⟩, h4⟩, h5⟩ := h
  have h4' : ∀ (i : Nat) (f : FileLine), l.layout[i]? = some f →
      (((ampFree (ctxOf (openBefore l.layout i)) f.main_txt = true ∧
        ((i = 0 ∨ l.frags.any (spanAt · i) = true) ∨ inclB f.main_txt = false)) ∧
        (l.frags.any (spanAt · i) = false ∨ f.left_space = [])) ∧
        ((i = 0 ∨ openBefore l.layout i = NUL) ∨ l.frags.any (spanAt · i) = true)) ∧
        (f.open_delim = NUL ∨ f.right_txt = []) := by
    intro i f hi
    have hlt : i < l.layout.length := by
      by_contra hx
      rw [List.getElem?_eq_none (by omega)] at hi; simp at hi
    have := h4 i (List.mem_range.mpr hlt)
    rw [hi] at this
    simp only [Bool.and_eq_true, Bool.or_eq_true, beq_iff_eq, Bool.not_eq_true'] at this
    exact this
  refine ⟨h1, ?_, orderB_sound h3, ?_, ?_, ?_, ?_, ?_, ?_, ?_⟩
  · intro f hf
    cases hl : l.layout with
    | nil => rw [hl] at hf; simp at hf
    | cons g gs =>
      rw [hl] at hf h2
      simp at hf h2
      rw [← hf]; exact h2.1
  · intro i f hi k hk
    exact ampFree_sound (h4' i f hi).1.1.1.1 k hk
  · intro f hf c hc
    cases hl : l.layout with
    | nil => rw [hl] at hf; simp at hf
    | cons g gs =>
      rw [hl] at hf h2
      simp at hf
      subst hf
      cases hm : g.main_txt with
      | nil => rw [hm] at hc; simp at hc
      | cons d t =>
        simp [hm] at hc h2
        rw [← hc]; exact h2.2
  · intro i f hi0 hi hns hx
    rcases (h4' i f hi).1.1.1.2 with (h | h) | h
    · omega
    · exact hns ((splitBefore_iff l i).mpr h)
    · rw [inclB_complete hx] at h; simp at h
  · intro i f hi hs
    rcases (h4' i f hi).1.1.2 with h | h
    · rw [(splitBefore_iff l i).mp hs] at h; simp at h
    · exact h
  · intro i hi0 hi hn
    rcases (h4' i _ (List.getElem?_eq_getElem hi)).1.2 with (h | h) | h
    · omega
    · exact absurd h hn
    · exact (splitBefore_iff l i).mpr h
  · intro f hf hn
    obtain ⟨i, hi, rfl⟩ := List.mem_iff_getElem.mp hf
    rcases (h4' i _ (List.getElem?_eq_getElem hi)).2 with h | h
    · exact absurd h hn
    · exact h
  · intro f hf
    rw [Option.mem_def] at hf
    rw [hf] at h5
    simpa using h5

def convB (l : LLine) : Bool :=
  l.layout.all (fun f => f.isTrivial && (!f.bits.blank || body f.left_txt == [])) ||
  (match l.layout with
   | [f] => !f.isFortran && !f.isTrivial &&
      (!f.bits.flpr_pp || (body f.left_txt).head? == some '!')
   | _ => false) || stmtB l

theorem convB_sound {l : LLine} (h : convB l = true) : Convertible l := by
  simp only [convB, Bool.or_eq_true] at h
  rcases h with (h | h) | h
  · left
    intro f hf
    have := List.all_eq_true.mp h f hf
    simp at this
    refine ⟨this.1, ?_⟩
    intro hb
    rcases this.2 with h | h
    · rw [hb] at h; simp at h
    · exact h
  · right; left
    split at h
    · rename_i f hl
      simp at h
      refine ⟨f, hl, h.1.1, h.1.2, ?_⟩
      intro hp
      rcases h.2 with h | h
      · rw [hp] at h; simp at h
      · exact h
    · simp at h
  · right; right
    exact stmtB_sound h

/-- ASCII, no odd white space, and text right of the control columns. -/
def plainB (lc : Int) (raw : Str) : Bool :=
  raw.all isAscii && raw.all (fun c => !isSpace c || c == ' ' || c == '\t') &&
  (List.range (usedCols lc (detab raw))).any (fun i => decide (6 ≤ i) &&
    (match (detab raw)[i]? with | none => false | some c => !isSpace c))

theorem plainB_sound {lc : Int} {raw : Str} (h : plainB lc raw = true) : PlainFixed lc raw := by
  simp only [plainB, Bool.and_eq_true, List.all_eq_true] at h
  obtain ⟨⟨h1, h2⟩, h3⟩ := h
  refine ⟨h1, ?_, ?_⟩
  · intro c hc hs
    have := h2 c hc
    simpa [hs] using this
  · intro o _
    obtain ⟨i, hi, h⟩ := List.any_eq_true.mp h3
    simp only [Bool.and_eq_true, decide_eq_true_eq] at h
    have h4 := h.2
    split at h4
    · simp at h4
    · rename_i c hc
      exact ⟨i, c, h.1, List.mem_range.mp hi, hc, by simpa using h4⟩

end FLPR
