import Verif.LogicalLine.TokProps
import Mathlib.Data.List.DropRight
/-!
# Rendering the tokens of a line (C49)
-/

namespace FLPR
open Spec Flex Smash

namespace Spec

/-- The text without blanks at both ends. -/
def trimmed (s : Str) : Str := (s.dropWhile (· == ' ')).rdropWhile (· == ' ')

/-- The text given to the scanner for a layout, said without the accumulator: the texts of the lines
that are neither comment nor blank, one after the other, with one blank for any blanks at the
start of a continuation line and one for any blanks at the end of a line. -/
def statementText : List FileLine → Str
  | [] => []
  | [f] => f.main_txt ++ (if f.right_space = [] then [] else [' '])
  | f :: g :: fs => f.main_txt ++ (if f.right_space = [] then [] else [' ']) ++
      (if g.left_space = [] then [] else [' ']) ++ statementText (g :: fs)

end Spec
open Spec

theorem joined_statementText (f : FileLine) (fs : List FileLine) (b : Bool) :
    joined b ((f :: fs).map pieceOf) = leadBlank b (pieceOf f) ++ statementText (f :: fs) := by
  have htr : ∀ f : FileLine, trailBlank (pieceOf f) = if f.right_space = [] then [] else [' '] := by
    intro f
    unfold trailBlank pieceOf
    cases f.right_space <;> simp
  have hlr : ∀ f : FileLine, leadBlank false (pieceOf f) = if f.left_space = [] then [] else [' '] := by
    intro f
    unfold leadBlank pieceOf
    cases f.left_space <;> simp
  induction fs generalizing f b with
  | nil => simp [joined, statementText, htr, pieceOf_main]
  | cons g fs ih =>
    rw [List.map_cons, joined, ih g false]
    simp [statementText, htr, hlr, pieceOf_main]

theorem rdropWhile_append_of {p : Char → Bool} (s t : Str) (h : ∃ c ∈ t, p c = false) :
    (s ++ t).rdropWhile p = s ++ t.rdropWhile p := by
  unfold List.rdropWhile
  rw [List.reverse_append, List.dropWhile_append]
  have : (t.reverse.dropWhile p) ≠ [] := by
    rw [Ne, List.dropWhile_eq_nil_iff]
    intro h'
    obtain ⟨c, hc, hp⟩ := h
    rw [h' c (by simpa using hc)] at hp
    simp at hp
  cases hd : t.reverse.dropWhile p with
  | nil => exact absurd hd this
  | cons x xs => simp

theorem tiles_nil_blank {p : Nat} {s : Str} (h : Tiles p s []) : ∀ c ∈ s, Blank c := by
  generalize hl : ([] : List Lexeme) = ls at h
  induction h with
  | nil => simp
  | blank hc _ ih =>
    intro x hx
    rcases List.mem_cons.mp hx with rfl | hx
    · exact hc
    · exact ih hl x hx
  | tok => simp at hl

theorem tiles_cons_solid {p : Nat} {s : Str} {l : Lexeme} {ls : List Lexeme}
    (h : Tiles p s (l :: ls)) : ∃ c ∈ s, ¬ Blank c := by
  generalize hl : l :: ls = ls' at h
  induction h with
  | nil => simp at hl
  | blank hc _ ih =>
    obtain ⟨c, hc, hb⟩ := ih hl
    exact ⟨c, by simp [hc], hb⟩
  | @tok p t s ls tag hne hh _ _ _ =>
    cases t with
    | nil => exact absurd rfl hne
    | cons c t => exact ⟨c, by simp, hh c (by simp)⟩

theorem laid_cons_pre {code : List FileLine} {A : Str} {pre : Int} {ls : List Lexeme} {t : Tok}
    {ts : List Tok} (h : Laid code A pre ls (t :: ts)) (hs : t.span ≠ none) : t.pre = some pre := by
  generalize hts : t :: ts = ts' at h
  cases h with
  | nil => simp at hts
  | one _ _ _ _ _ h _ _ _ =>
    simp at hts
    rw [hts.1]
    exact h
  | two _ _ _ _ _ _ _ h =>
    simp at hts
    rw [hts.1] at hs
    exact absurd h hs

theorem render_laid (code : List FileLine) (A : Str) (hb : ∀ c ∈ A, isSpace c = true → c = ' ')
    {p : Nat} {s : Str} {ls : List Lexeme} (ht : Tiles p s ls) :
    ∀ (pre : Int) (ts : List Tok), A.drop p = s → Laid code A pre ls ts →
      (∀ t ∈ ts, t.span ≠ none) → render ts = .ok (trimmed s) := by
  induction ht with
  | nil p =>
    intro pre ts _ hl _
    cases hl
    rfl
  | @blank p c s ls hc _ ih =>
    intro pre ts hd hl hs
    have hcA : c ∈ A := List.mem_of_mem_drop (by rw [hd]; simp)
    have hc' : c = ' ' := hb c hcA (Blank_isSpace c hc)
    rw [ih pre ts (by rw [← List.drop_drop, hd]; rfl) hl hs]
    subst hc'
    simp [trimmed]
  | @tok p t s ls tag hne hh hl htiles ih =>
    intro pre ts hd hlaid hs
    have hdrop : A.drop (p + t.length) = s := by rw [← List.drop_drop, hd]; simp
    obtain ⟨c, t', rfl⟩ : ∃ c t', t = c :: t' := by
      cases t with
      | nil => exact absurd rfl hne
      | cons c t' => exact ⟨c, t', rfl⟩
    have hc : c ≠ ' ' := by rintro rfl; exact hh ' ' (by simp) (Or.inl rfl)
    have htrim0 : trimmed (c :: t' ++ s) = (c :: t' ++ s).rdropWhile (· == ' ') := by
      simp [trimmed, hc]
    have hsb : ∀ x ∈ s, isSpace x = (x == ' ') := by
      intro x hx
      have hxA : x ∈ A := List.mem_of_mem_drop (by rw [hdrop]; exact hx)
      by_cases h : isSpace x = true
      · rw [h, hb x hxA h]; rfl
      · rw [Bool.not_eq_true] at h
        rw [h]
        symm
        simp only [beq_eq_false_iff_ne, ne_eq]
        rintro rfl
        exact absurd h (by decide)
    have hgap : gapAt A (p + (c :: t').length) = ((s.takeWhile (· == ' ')).length : Int) := by
      unfold gapAt
      rw [hdrop]
      congr 2
      clear hdrop hd htiles ih hlaid htrim0
      induction s with
      | nil => rfl
      | cons x s ih =>
        rw [List.takeWhile_cons, List.takeWhile_cons, hsb x (by simp),
          ih (fun y hy => hsb y (by simp [hy]))]
    generalize hls : (⟨tag, c :: t', p + (c :: t').length⟩ : Lexeme) :: ls = ls' at hlaid
    cases hlaid with
    | nil => simp at hls
    | two _ _ _ _ _ _ _ h8 => exact absurd h8 (hs _ (by simp))
    | @one _ l lss x ts sp h1 h2 h3 h4 h5 h6 h7 h8 hrest =>
      simp only [List.cons.injEq] at hls
      obtain ⟨rfl, rfl⟩ := hls
      simp only at h2 h7 hrest
      cases ts with
      | nil =>
        have : ls = [] := by
          cases hrest; rfl
        subst this
        have hall := tiles_nil_blank htiles
        rw [htrim0]
        simp only [render]
        rw [h2]
        congr 1
        symm
        have hs' : ∀ x ∈ s, (x == ' ') = true := by
          intro x hx
          rw [← hsb x hx]
          exact Blank_isSpace x (hall x hx)
        unfold List.rdropWhile
        rw [List.reverse_append, List.dropWhile_append]
        have he : s.reverse.dropWhile (fun x => x == ' ') = [] := by
          rw [List.dropWhile_eq_nil_iff]
          intro x hx
          exact hs' x (by simpa using hx)
        rw [he]
        simp only [List.isEmpty_nil, if_true]
        obtain ⟨z, hz⟩ : ∃ z, (c :: t').getLast? = some z := by
          cases hg : (c :: t').getLast? with
          | none => simp at hg
          | some z => exact ⟨z, rfl⟩
        have hz' := hl z (by rw [hz]; rfl)
        have hzr : (c :: t').reverse.head? = some z := by rw [List.head?_reverse, hz]
        cases hr : (c :: t').reverse with
        | nil => simp at hr
        | cons y ys =>
          rw [hr] at hzr
          simp at hzr
          subst hzr
          have hy : (y == ' ') = false := by
            simp only [beq_eq_false_iff_ne, ne_eq]
            rintro rfl
            exact hz' (Or.inl rfl)
          rw [List.dropWhile_cons_of_neg (by simp [hy]), ← hr, List.reverse_reverse]
      | cons u ts =>
        have hlne : ls ≠ [] := by
          rintro rfl; cases hrest
        obtain ⟨l1, ls1, rfl⟩ : ∃ a b, ls = a :: b := by
          cases ls with
          | nil => exact absurd rfl hlne
          | cons a b => exact ⟨a, b, rfl⟩
        have hpre := laid_cons_pre hrest (hs u (by simp))
        have hr := ih _ (u :: ts) hdrop hrest (fun y hy => hs y (List.mem_cons_of_mem _ hy))
        obtain ⟨w, hw, hwb⟩ := tiles_cons_solid htiles
        have hw' : (w == ' ') = false := by
          simp only [beq_eq_false_iff_ne, ne_eq]
          rintro rfl
          exact hwb (Or.inl rfl)
        simp only [render, h7, hpre, hr, getInt, Res.ok_bind]
        rw [htrim0, rdropWhile_append_of _ _ ⟨w, hw, hw'⟩, h2]
        have hsplit : s = s.takeWhile (· == ' ') ++ s.dropWhile (· == ' ') :=
          (List.takeWhile_append_dropWhile).symm
        have hrd : s.rdropWhile (· == ' ') =
            blanks (s.takeWhile (· == ' ')).length ++ trimmed s := by
          conv => lhs; rw [hsplit]
          rw [rdropWhile_append_of]
          · unfold trimmed
            congr 1
            unfold blanks
            rw [List.eq_replicate_iff]
            refine ⟨rfl, fun x hx => ?_⟩
            simpa using List.mem_takeWhile_imp hx
          · refine ⟨w, ?_, hw'⟩
            rw [hsplit] at hw
            rcases List.mem_append.mp hw with h | h
            · rw [List.mem_takeWhile_imp h] at hw'
              simp at hw'
            · exact h
        rw [hrd, hgap]
        simp [blanks]

/-- **C49** Rendering the tokens of a logical line gives back its statement text, without blanks at
the ends, if the text is ASCII and has no other white space than blanks and no token is half of a
fused keyword. -/
theorem C49_render_partial (st st' : State) (l l' : LLine) (hst : LineState st)
    (hp : PlainLayout l.layout) (h : l.initFromLayout st = .ok (l', st'))
    (hb : ∀ f ∈ codeLines l.layout, ∀ c ∈ f.main_txt, isSpace c = true → c = ' ')
    (hf : ∀ t ∈ l'.frags, t.span ≠ none) :
    render l'.frags = .ok (trimmed (statementText (codeLines l.layout))) := by
  obtain ⟨ls, st2, ts, _, htiles, _, hlaid, htok⟩ := tokenize_plain st l hst hp
  obtain ⟨lab, he⟩ := initFromLayout_eq st l l' st' h
  rw [htok] at he
  simp only [Except.ok.injEq, Prod.mk.injEq] at he
  obtain ⟨rfl, rfl⟩ := he
  have hA : joined true ((codeLines l.layout).map pieceOf) = statementText (codeLines l.layout) := by
    cases hc : codeLines l.layout with
    | nil => rfl
    | cons f fs => rw [joined_statementText]; simp [leadBlank]
  rw [← hA]
  refine render_laid (codeLines l.layout) _ ?_ htiles 0 ts (by simp) hlaid hf
  intro c hc hs
  rcases mem_joined _ _ _ hc with h | ⟨p, hp, h⟩
  · exact h
  · obtain ⟨f, hf, rfl⟩ := List.mem_map.mp hp
    exact hb f hf c h hs

/-- The rendering of the tokens of a free-format logical line. -/
def rendered (raw : List String) : Res (Option Str) := do
  match ← freeLines raw with
  | none => .ok none
  | some fs =>
    let r ← LLine.ofLines {} fs
    let s ← render r.1.frags
    .ok (some s)

/-- **C49** A fused keyword behind another token: the spaces before its first half are read
uninitialised. -/
theorem C49_violation_fused : rendered ["a = 1; enddo"] = .error .ub := by decide +kernel

/-- **C49** A tab between tokens is rendered as a blank. -/
theorem C49_violation_tab : rendered ["a\t= 1"] = .ok (some "a = 1".toList) := by decide +kernel

example : rendered ["call f(a, &", "  'b c')  "] = .ok (some "call f(a,  'b c')".toList) := by
  decide +kernel

end FLPR
