import Verif.Format.WholeProps
/-! # C82: examples -/

namespace FLPR
namespace FlprFormat
open Spec PF PP

/-- A program parser that gives up after some steps. -/
def someParse (s : PState) : Res POut :=
  match run noExts 40 .program s with
  | .ok o => .ok o
  | .error _ => .error .ub

/-- The letters of the options. -/
def optsOf (s : String) : Options := (Options.start.letters s.toList).getD Options.start

/-- What is written for one file in free format. -/
def formatted (opts : String) (raws : List String) : Option (Int × Option (List String)) :=
  match formatOne someParse (optsOf opts) {} Ind.Table.new "a.f90".toList (some (raws.map String.toList)) with
  | .ok r => some (r.1.1, r.1.2.map (fun ls => ls.map String.ofList))
  | .error _ => none

/-- The lines of a text, tested. -/
def calmOk (l : LLine) : Bool := readyOk l && (!l.hasFortran ||
  (decide ((statementsOf l.frags).length < 2) && (l.frags.all (fun t => t.token != Tag.TK_SEMICOLON) || !(segments l.frags).contains [])))

theorem of_calmOk {l : LLine} (h : calmOk l = true) : Ready l ∧ Roomy l ∧ ¬ Changes l := by
  unfold calmOk at h
  simp only [Bool.and_eq_true] at h
  refine ⟨(of_readyOk h.1).1, (of_readyOk h.1).2.1, fun ⟨c1, c2⟩ => ?_⟩
  have h2 := h.2
  rw [c1] at h2
  simp only [Bool.not_true, Bool.false_or, Bool.and_eq_true, decide_eq_true_eq, Bool.or_eq_true] at h2
  rcases c2 with c2 | ⟨⟨t, c2, c3⟩, c4⟩
  · omega
  · rcases h2.2 with k | k
    · have := List.all_eq_true.mp k t c2
      simp [c3] at this
    · rw [List.contains_iff_mem.mpr c4] at k
      cases k

def calmText : List String := ["if (a) then ! why", "! note", "10 x = 'ab&", "   &cd'  ! c", "endif", "end"]

def readGoodAs (raws : List String) : Bool := (linesOfText raws).all (fun l => calmOk l && steadyAll l.layout)

theorem calm_lines {raws : List String} (h : readGoodAs raws = true) : ∀ l ∈ linesOfText raws, Ready l ∧ Roomy l ∧ ¬ Changes l ∧ SteadyLayout l.layout := by
  intro l hl
  have := List.all_eq_true.mp h l hl
  simp only [Bool.and_eq_true] at this
  obtain ⟨h1, h2, h3⟩ := of_calmOk this.1
  exact ⟨h1, h2, h3, steadyAll_of this.2⟩

/-- `C82_returns` and `C82_same` on a program with a construct, comments, a label, and continued lines: whatever the program parser is, `-o` writes
the program as it was. -/
example : ∃ pf st', PFile.make {} (some (calmText.map String.toList)) "a.f90".toList 0 .unknown = .ok (pf, st') ∧ pf.good = true ∧
    (∀ l ∈ pf.lines, Ready l ∧ Roomy l ∧ ¬ Changes l) ∧ ∀ parse, IsParser noExts parse → ∀ tab,
      formatFile parse (optsOf "o") tab pf = .ok (0, some (calmText.map String.toList)) := by
  obtain ⟨pf, st', h1, h2, h3⟩ := readGood_make (raws := calmText) (by decide +kernel)
  have hl := calm_lines (raws := calmText) (by decide +kernel)
  rw [← h3] at hl
  have hr : ∀ l ∈ pf.lines, Ready l ∧ Roomy l ∧ ¬ Changes l := fun l h => ⟨(hl l h).1, (hl l h).2.1, (hl l h).2.2.1⟩
  refine ⟨pf, st', h1, h2, hr, fun parse hp tab => ?_⟩
  obtain ⟨o, h4, h5⟩ := returns_of (x := noExts) (r := .program) (s := stateOf (linesOfText calmText) (stmtsOf (linesOfText calmText)))
    (q := fun o => o.ok) 40 (by decide +kernel)
  have ht : TreeIs noExts pf.lines o.tree := by
    rw [h3]
    exact .inr ⟨by decide +kernel, o, h4, h5, rfl⟩
  have key := C82_returns noExts SP.forward_none needToken_none parse hp ['o'] (optsOf "o") rfl (by decide) (by decide) (by decide) {} st' _ _ pf h1 h2 hr _ ht tab
  rw [key]
  have htext := C67_text _ _ _ _ _ _ pf h1 h2 (by decide +kernel)
  rw [htext]
  rfl

/-- `C82_reindent_partial` and `C82_statements_partial` on the same program with `-i -o`. -/
example : ∃ out st' t, formatOne someParse (optsOf "io") {} Ind.Table.new "a.f90".toList (some (calmText.map String.toList)) = .ok ((0, some out), st', t) ∧
    out.map String.ofList = ["  if (a) then ! why", "     ! note", "10   x = 'ab&", "         &cd' ! c", "  endif", "end"] ∧
    ∃ pf, PFile.make {} (some (calmText.map String.toList)) "a.f90".toList 0 .unknown = .ok (pf, st') ∧
      (∀ l ∈ pf.lines, Ready l ∧ ¬ Changes l ∧ SteadyLayout l.layout) ∧ stmtsOf pf.lines ≠ [] ∧
      ∃ pf', PFile.make {} (some out) "a.f90".toList 0 .unknown = .ok (pf', st') ∧ makeStmts pf'.lines = makeStmts pf.lines := by
  have hv : formatted "io" calmText = some (0, some ["  if (a) then ! why", "     ! note", "10   x = 'ab&", "         &cd' ! c", "  endif", "end"]) := by decide +kernel
  unfold formatted at hv
  split at hv
  · rename_i r hr
    obtain ⟨⟨n, w⟩, st', t⟩ := r
    injection hv with hv
    injection hv with e1 e2
    simp only at e1 e2
    subst e1
    cases w with
    | none => cases e2
    | some out =>
      refine ⟨out, st', t, hr, Option.some.inj e2, ?_⟩
      obtain ⟨pf, k1, k2, k3⟩ := C82_reindent_partial someParse ['i', 'o'] (optsOf "io") rfl (by decide) {} st' Ind.Table.new t (calmText.map String.toList)
        (fun raw hr c hc => by
          have h : (calmText.map String.toList).all (fun r => r.all isAscii) = true := by decide +kernel
          exact List.all_eq_true.mp (List.all_eq_true.mp h raw hr) c hc) "a.f90".toList (by decide +kernel) 0 out hr
      have e : pf.lines = linesOfText calmText := by
        have k1' : PFile.make {} (some (calmText.map String.toList)) "a.f90".toList 0 .unknown = .ok (pf, st') := k1
        unfold linesOfText
        rw [k1']
      have hl := calm_lines (raws := calmText) (by decide +kernel)
      rw [← e] at hl
      have hq : ∀ l ∈ pf.lines, Ready l ∧ ¬ Changes l ∧ SteadyLayout l.layout := fun l h => ⟨(hl l h).1, (hl l h).2.2.1, (hl l h).2.2.2⟩
      obtain ⟨pf', q1, _, q3⟩ := k3 hq
      exact ⟨pf, k1, hq, by rw [e]; decide +kernel, pf', q1, q3⟩
  · cases hv

/-- Splitting, removing empty statements, and indenting: `C82_statements_partial` applies, the lines being `Ready`. -/
example : formatted "io" ["if (a) then; y=2", ";", "endif;end"] =
      some (0, some ["  if (a) then", "     y=2", "  endif", "end"]) ∧
    ∀ l ∈ linesOfText ["if (a) then; y=2", ";", "endif;end"], Ready l :=
  ⟨by decide +kernel, fun l hl => (of_readyOk (List.all_eq_true.mp
    (show (linesOfText ["if (a) then; y=2", ";", "endif;end"]).all readyOk = true by decide +kernel) l hl)).1⟩

/-- `C82_written`: a file with `-o -q` is not written, with `-q -o` it is. -/
example : formatted "oq" ["x=1;", "end"] = some (0, none) ∧ formatted "qo" ["x=1;", "end"] = some (0, some ["x=1", "end"]) := ⟨by decide +kernel, by decide +kernel⟩

def threeFiles : List (Str × Option (List Str)) :=
  [("b.f90".toList, none), ("b.f".toList, some ["      end".toList]), ("a.f90".toList, some (["x=1", "end"].map String.toList))]

def threeOut : List (Int × Option (List Str)) :=
  [(0, none), (0, some ["      end".toList]), (0, some (["  x=1", "end"].map String.toList))]

/-- A test of what is written. -/
def writesAll (opts : String) (fs : List (Str × Option (List Str))) (ws : List (Int × Option (List Str))) : Bool :=
  match formatAll someParse (optsOf opts) {} Ind.Table.new fs with
  | .ok r => r == ws
  | .error _ => false

/-- `C82_each`: a file that cannot be read, one in fixed format, then another in free format; the last is indented as if it were alone. -/
example : Each someParse (optsOf "io") {} threeFiles threeOut := by
  have hv : writesAll "io" threeFiles threeOut = true := by decide +kernel
  unfold writesAll at hv
  split at hv
  · rename_i r hr
    rw [← beq_iff_eq.mp hv]
    exact (C82_each _ _ _ _ _).mp hr
  · cases hv

/-- `C82_violation_parse`: `x=1` by itself, even with `-o`. -/
theorem C82_violation_parse_example : ∃ pf st', PFile.make {} (some ["x=1".toList]) "a.f90".toList 0 .unknown = .ok (pf, st') ∧ pf.good = true ∧
    ∀ parse, IsParser noExts parse → ∀ tab, formatFile parse (optsOf "o") tab pf = .error .assertion := by
  obtain ⟨pf, st', h1, h2, h3⟩ := readGood_make (raws := ["x=1"]) (by decide +kernel)
  obtain ⟨o, h4, h5⟩ := returns_of (x := noExts) (r := .program) (s := stateOf (linesOfText ["x=1"]) (stmtsOf (linesOfText ["x=1"])))
    (q := fun o => !o.ok) 40 (by decide +kernel)
  simp only [Bool.not_eq_true'] at h5
  have hl := calm_lines (raws := ["x=1"]) (by decide +kernel)
  rw [← h3] at hl
  refine ⟨pf, st', h1, h2, fun parse hp tab => ?_⟩
  exact C82_violation_parse noExts SP.forward_none needToken_none parse hp ['o'] (optsOf "o") rfl (by decide) {} st' _ _ pf h1 h2
    (fun l h => ⟨(hl l h).1, (hl l h).2.1, (hl l h).2.2.1⟩) (by rw [h3]; decide +kernel) o (by rw [h3]; exact h4) h5 tab

/-- `C82_violation_options`: no letter, no output. -/
example : formatted "" ["end"] = none ∧ formatted "i" ["end"] = none := ⟨by decide +kernel, by decide +kernel⟩

end FlprFormat
end FLPR
