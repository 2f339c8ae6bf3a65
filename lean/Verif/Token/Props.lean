import Verif.Token.Model
import Verif.FileLine.Lemmas2
/-!
# Properties of tokens (C38)
-/

namespace FLPR
open Spec

namespace Spec

/-- The texts in order, with `g i` blanks after the `i`-th one (except the last). -/
def weave : List Str → List Nat → Str
  | [], _ => []
  | [t], _ => t
  | t :: ts, [] => t ++ weave ts []
  | t :: ts, g :: gs => t ++ List.replicate g ' ' ++ weave ts gs

/-- What a program can do with a token's text: ask for a modifiable reference, write through a
reference obtained before, ask for the lower-case form. -/
inductive TextOp where
  | modText
  | write (s : Str)
  | lower

/-- A history in which nothing asks for the lower-case form between obtaining a reference and
writing through it (`open'`: a reference was obtained since the last `lower`). -/
def Disciplined : Bool → List TextOp → Prop
  | _, [] => True
  | _, .modText :: ops => Disciplined true ops
  | o, .write _ :: ops => o = true ∧ Disciplined o ops
  | _, .lower :: ops => Disciplined false ops

end Spec

/-- The effect of one operation. -/
def Tok.step (t : Tok) : TextOp → Tok
  | .modText => t.modText
  | .write s => t.write s
  | .lower => t.lowerText.2

/-- **C38** (rendering) The rendered text is the token texts in order; between neighbours there are
as many blanks as the larger of the spaces after the one and before the other. -/
theorem C38_render (ts : List Tok) (r : Str) (h : render ts = .ok r) :
    ∃ gaps : List Nat, gaps.length = ts.length - 1 ∧ r = weave (ts.map (·.text)) gaps ∧
      ∀ i (h1 : i + 1 < ts.length) (h2 : i < gaps.length), ∃ a b, ts[i].post = some a ∧
        ts[i + 1].pre = some b ∧ gaps[i] = (max a b).toNat := by
  fun_induction render ts generalizing r with
  | case1 => exact ⟨[], rfl, by simpa [weave] using h.symm, by simp⟩
  | case2 t => exact ⟨[], rfl, by simpa [weave] using h.symm, by simp⟩
  | case3 t u ts ih =>
    rbind h with a ha
    rbind h with b hb
    rbind h with r' hr
    simp at h
    obtain ⟨gaps, g1, g2, g3⟩ := ih r' hr
    have ha' : t.post = some a := by
      unfold getInt at ha; split at ha <;> simp_all
    have hb' : u.pre = some b := by
      unfold getInt at hb; split at hb <;> simp_all
    refine ⟨(max a b).toNat :: gaps, by simp [g1], ?_, ?_⟩
    · rw [← h, g2]; simp [weave, blanks]
    · intro i h1 h2
      cases i with
      | zero => exact ⟨a, b, ha', hb', rfl⟩
      | succ j =>
        have := g3 j (by simpa using h1) (by simpa using h2)
        simpa using this

/-- **C38** (outcome of rendering) Rendering reads only spacing that is set. -/
theorem C38_render_outcome (ts : List Tok)
    (h : ∀ t ∈ ts, t.pre.isSome = true ∧ t.post.isSome = true) : ∃ r, render ts = .ok r := by
  fun_induction render ts with
  | case1 => exact ⟨_, rfl⟩
  | case2 t => exact ⟨_, rfl⟩
  | case3 t u ts ih =>
    obtain ⟨r, hr⟩ := ih (fun x hx => h x (by simp [hx]))
    obtain ⟨a, ha⟩ := Option.isSome_iff_exists.mp (h t (by simp)).2
    obtain ⟨b, hb⟩ := Option.isSome_iff_exists.mp (h u (by simp)).1
    simp [getInt, ha, hb, hr]

example : render [{ token := 1, line := 1, pos := 1, text := "x".toList, pre := some 0, post := some 2 },
    { token := 2, line := 1, pos := 4, text := "=".toList, pre := some 1, post := some 0 },
    { token := 3, line := 1, pos := 5, text := "1".toList, pre := some (-1), post := some 3 }] =
    .ok "x  =1".toList := by decide

/-- **C38** (cached lower-case form) After any history of reference requests, writes and queries in
which no query comes between a request and a write through it, the lower-case form returned is that
of the current text.  Missing from the full claim: writes through a reference kept across a query,
which has a counterexample below. -/
theorem C38_lower_partial (txt : Str) (tag ln ps : Int) (ops : List TextOp)
    (h : Disciplined false ops) :
    let t := ops.foldl Tok.step { token := tag, line := ln, pos := ps, text := txt }
    t.lowerText.1 = t.text.map lowChar := by
  intro t
  suffices H : ∀ (ops : List TextOp) (o : Bool) (t : Tok), Disciplined o ops →
      (t.lower = [] ∨ (o = false ∧ t.lower = t.text.map lowChar)) →
      (ops.foldl Tok.step t).lowerText.1 = (ops.foldl Tok.step t).text.map lowChar from
    H ops false _ h (Or.inl rfl)
  intro ops
  induction ops with
  | nil =>
    intro o t _ hi
    simp only [List.foldl_nil, Tok.lowerText]
    by_cases hne : t.lower = []
    · simp [hne]
    · simp only [hne, if_false]
      rcases hi with hi | ⟨_, hi⟩
      · exact absurd hi hne
      · exact hi
  | cons op ops ih =>
    intro o t hd hi
    rw [List.foldl_cons]
    cases op with
    | modText => exact ih true _ hd (Or.inl rfl)
    | write s =>
      obtain ⟨ho, hd⟩ := hd
      refine ih o _ hd ?_
      rcases hi with hi | ⟨h1, _⟩
      · exact Or.inl hi
      · rw [h1] at ho; simp at ho
    | lower =>
      refine ih false _ hd ?_
      unfold Tok.step Tok.lowerText
      by_cases hne : t.lower = []
      · simp [hne]
      · simp only [hne, if_false]
        rcases hi with hi | ⟨_, hi⟩
        · exact absurd hi hne
        · exact Or.inr ⟨trivial, hi⟩

example : Disciplined false [.lower, .modText, .write "AB".toList, .write "CD".toList, .lower] := by
  simp [Disciplined]

/-- A reference kept across a query leaves a stale lower-case form. -/
theorem C38_lower_violation :
    ∃ ops : List TextOp,
      let t := ops.foldl Tok.step { token := 1, line := 1, pos := 1, text := "A".toList }
      t.text = "B".toList ∧ t.lowerText.1 = "a".toList :=
  ⟨[.modText, .lower, .write "B".toList], by decide⟩

end FLPR
