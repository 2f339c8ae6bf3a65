import Mathlib.Data.List.TakeWhile
import Mathlib.Tactic.Common
import Verif.FileLine.Model
import Verif.FileLine.Spec
/-!
# Helper lemmas about the `File_Line` model
-/

namespace FLPR
open Spec

/-! ### `Except` plumbing -/

theorem Res.bind_ok {α β} {x : Res α} {f : α → Res β} {b : β}
    (h : (x >>= f) = .ok b) : ∃ a, x = .ok a ∧ f a = .ok b := by
  cases x with
  | error e => simp [bind, Except.bind] at h
  | ok a => exact ⟨a, rfl, h⟩

@[simp] theorem Res.ok_bind {α β} (a : α) (f : α → Res β) :
    ((Except.ok a : Res α) >>= f) = f a := rfl
@[simp] theorem Res.error_bind {α β} (e : Fail) (f : α → Res β) :
    ((Except.error e : Res α) >>= f) = .error e := rfl

/-- `rbind h with x hx`: split `h : (e >>= f) = .ok b` into `hx : e = .ok x` and
`h : f x = .ok b`. -/
macro "rbind " h:ident " with " x:rcasesPat hx:ident : tactic =>
  `(tactic| (obtain ⟨$x, $hx, hTmp⟩ := Res.bind_ok $h; clear $h; rename' hTmp => $h))

/-! ### Strings -/

theorem reverse_dropWhile_take (p : Char → Bool) (s : Str) :
    (s.reverse.dropWhile p).reverse = s.take (s.reverse.dropWhile p).length := by
  have h : s.reverse.takeWhile p ++ s.reverse.dropWhile p = s.reverse :=
    List.takeWhile_append_dropWhile
  have h2 : s = (s.reverse.dropWhile p).reverse ++ (s.reverse.takeWhile p).reverse := by
    rw [← List.reverse_append, h, List.reverse_reverse]
  have h3 : (s.reverse.dropWhile p).length = (s.reverse.dropWhile p).reverse.length := by simp
  rw [h3]
  generalize (s.reverse.dropWhile p).reverse = a at *
  generalize (s.reverse.takeWhile p).reverse = b at *
  subst h2
  simp

theorem lastNotOfSucc_le (set s : Str) : lastNotOfSucc set s ≤ s.length := by
  unfold lastNotOfSucc
  have := List.length_dropWhile_le (p := fun c => set.contains c) s.reverse
  simpa using this

theorem takeWhile_dropWhile_rev (p : Char → Bool) (s : Str) :
    s.drop (s.reverse.dropWhile p).length = (s.reverse.takeWhile p).reverse := by
  have h : s.reverse.takeWhile p ++ s.reverse.dropWhile p = s.reverse :=
    List.takeWhile_append_dropWhile
  have h2 : s = (s.reverse.dropWhile p).reverse ++ (s.reverse.takeWhile p).reverse := by
    rw [← List.reverse_append, h, List.reverse_reverse]
  have h3 : (s.reverse.dropWhile p).length = (s.reverse.dropWhile p).reverse.length := by simp
  rw [h3]
  generalize (s.reverse.dropWhile p).reverse = a at *
  generalize (s.reverse.takeWhile p).reverse = b at *
  subst h2
  simp

/-- The characters after `lastNotOfSucc` are all in the set. -/
theorem lastNotOfSucc_drop (set s : Str) (c : Char) (h : c ∈ s.drop (lastNotOfSucc set s)) :
    c ∈ set := by
  unfold lastNotOfSucc at h
  rw [takeWhile_dropWhile_rev] at h
  simp only [List.mem_reverse] at h
  have := List.mem_takeWhile_imp h
  simpa using this

/-- The kept part does not end in a character of the set. -/
theorem lastNotOfSucc_last (set s : Str) (c : Char)
    (h : (s.take (lastNotOfSucc set s)).getLast? = some c) : c ∉ set := by
  unfold lastNotOfSucc at h
  rw [← reverse_dropWhile_take, List.getLast?_reverse] at h
  have := List.head?_dropWhile_not (fun c => set.contains c) s.reverse
  rw [h] at this
  simpa using this

theorem trimMain_append (m : Str) (d : Char) : (trimMain m d).1 ++ (trimMain m d).2 = m := by
  unfold trimMain
  split
  · dsimp only
    split <;> simp
  · simp

theorem trimMain_right (m : Str) (d : Char) (c : Char) (h : c ∈ (trimMain m d).2) :
    c = ' ' ∨ c = '\t' := by
  unfold trimMain at h
  split at h
  · dsimp only at h
    split at h
    · simpa using lastNotOfSucc_drop _ _ _ h
    · simp at h
  · simp at h

theorem trimMain_last (m : Str) (c : Char) (h : (trimMain m NUL).1.getLast? = some c) :
    c ≠ ' ' ∧ c ≠ '\t' := by
  unfold trimMain at h
  simp only [if_true] at h
  have key : (m.take (lastNotOfSucc [' ', '\t'] m)).getLast? = some c := by
    split at h
    · exact h
    · rename_i hh
      rw [List.take_of_length_le (by omega)]; exact h
  simpa using lastNotOfSucc_last _ _ _ key

theorem findFirstNotOf_blank (raw : Str) (ri : Nat)
    (h : findFirstNotOf [' ', '\t', '\r'] raw = some ri) :
    ri = indent raw ∧ raw.drop ri = body raw ∧ body raw ≠ [] ∧ ri < raw.length := by
  unfold findFirstNotOf at h
  induction raw generalizing ri with
  | nil => simp at h
  | cons c cs ih =>
    rw [List.findIdx?_cons] at h
    by_cases hc : isBlankChar c
    · have hc' : ([' ', '\t', '\r'].contains c) = true := by
        simpa [isBlankChar, or_assoc] using hc
      rw [hc'] at h
      simp only [Bool.not_true, Bool.false_eq_true, if_false] at h
      cases hk : List.findIdx? (fun c => !List.contains [' ', '\t', '\r'] c) cs with
      | none => rw [hk] at h; simp at h
      | some k =>
        rw [hk] at h
        simp at h
        obtain ⟨h1, h2, h3, h4⟩ := ih k hk
        subst h
        refine ⟨?_, ?_, ?_, ?_⟩
        · simp [indent, hc, h1]
        · simp [body, hc, h2]
        · simpa [body, hc, List.dropWhile_cons] using h3
        · simp; omega
    · have hc' : ([' ', '\t', '\r'].contains c) = false := by
        simpa [isBlankChar, or_assoc] using hc
      rw [hc'] at h
      simp at h
      subst h
      simp [indent, body, hc]

theorem findFirstNotOf_none (raw : Str)
    (h : findFirstNotOf [' ', '\t', '\r'] raw = none) : body raw = [] := by
  unfold findFirstNotOf at h
  rw [List.findIdx?_eq_none_iff] at h
  unfold body
  rw [List.dropWhile_eq_nil_iff]
  intro c hc
  have := h c hc
  simp at this
  simp [isBlankChar]
  grind

theorem scanDigits_ge (k i : Nat) (s : Str) (r : Nat) (h : scanDigits k i s = .ok r) :
    i ≤ r ∧ r ≤ i + s.length ∧ r ≤ i + k := by
  induction k generalizing i s with
  | zero => simp [scanDigits] at h; omega
  | succ k ih =>
    cases s with
    | nil => simp [scanDigits] at h; simp; omega
    | cons c cs =>
      simp only [scanDigits] at h
      obtain ⟨d, hd, h⟩ := Res.bind_ok h
      split at h
      · have := ih _ _ h; simp; omega
      · simp at h; simp; omega

theorem scanSpaces_ge (i : Nat) (s : Str) (r : Nat) (h : scanSpaces i s = .ok r) :
    i ≤ r ∧ r ≤ i + s.length := by
  induction s generalizing i with
  | nil => simp [scanSpaces] at h; simp; omega
  | cons c cs ih =>
    simp only [scanSpaces] at h
    obtain ⟨d, hd, h⟩ := Res.bind_ok h
    split at h
    · have := ih _ h; simp; omega
    · simp at h; simp; omega

theorem findTrailingFreeGo_range (ctx : Char) (i : Nat) (s : Str) (t : Nat) (d : Char)
    (h : findTrailingFreeGo ctx i s = .ok (some t, d)) : i ≤ t ∧ t < i + s.length := by
  induction s generalizing ctx i with
  | nil => simp only [findTrailingFreeGo] at h; split at h <;> simp at h
  | cons c cs ih =>
    simp only [findTrailingFreeGo] at h
    split at h
    · split at h
      · have := ih _ _ h; simp; omega
      · split at h
        · simp at h; simp; omega
        · have := ih _ _ h; simp; omega
    · split at h
      · have := ih _ _ h; simp; omega
      · split at h
        · obtain ⟨ws, _, h⟩ := Res.bind_ok h
          split at h
          · simp at h; simp; omega
          · have := ih _ _ h; simp; omega
        · have := ih _ _ h; simp; omega

theorem take_append_drop_take (raw : Str) (a b : Nat) (h : a ≤ b) :
    raw.take a ++ (raw.drop a).take (b - a) = raw.take b := by
  have : b = a + (b - a) := by omega
  conv_rhs => rw [this, List.take_add]

end FLPR
