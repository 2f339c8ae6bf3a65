import Verif.FileLine.Model
/-!
# Model of `Logical_File::scan_free` and `scan_fixed` (src/flpr/Logical_File.cc)

A `Group` is what the scan passes to the `Logical_Line` constructor (Logical_Line.hh:77-83): the
layout, plus the fields set afterwards.  The construction of tokens from the layout
(`init_from_layout`) is modelled separately.
-/

namespace FLPR

/-- Logical_Line.hh:33-39 `LineCat`. -/
inductive LineCat where
  | incl | literal | macro | flpr_pp | unknown
  deriving DecidableEq, Repr

/-- The parts of a `Logical_Line` set by the scan. -/
structure Group where
  layout : List FileLine
  cat : LineCat := .unknown
  needs_reformat : Bool := false
  deriving DecidableEq, Repr

/-- utils.hh `last_non_blank_char`: NUL when there is none. -/
def lastNonBlankChar (s : Str) : Char :=
  match lastNotOfSucc [' ', '\t'] s with
  | 0 => NUL
  | k + 1 => s.getD k NUL

/-- Logical_File.cc:184-203: analyse all lines.  `none`: an exception was caught and `scan_free`
returns false.  (The messages to `std::cerr` are not modelled.) -/
def analyzeAllFree (ln : Nat) (pd : Char) (pc lit : Bool) : List Str → Res (Option (List FileLine))
  | [] => .ok (some [])
  | r :: rs =>
    match analyzeFree ln r pd pc lit with
    | .error .exc => .ok none
    | .error e => .error e
    | .ok (f, lit') => do
      let o ← analyzeAllFree (ln + 1) f.open_delim f.bits.continued lit' rs
      .ok (o.map (f :: ·))

/-- Logical_File.cc:90-104: analyse all lines of a fixed-format file. -/
def analyzeAllFixed (lc : Int) (ln : Nat) (pd : Char) : List Str → Res (Option (List FileLine))
  | [] => .ok (some [])
  | r :: rs =>
    match analyzeFixed ln r pd lc with
    | .error .exc => .ok none
    | .error e => .error e
    | .ok f => do
      let o ← analyzeAllFixed lc (ln + 1) f.open_delim rs
      .ok (o.map (f :: ·))

/-- Logical_File.cc:139-142, 247-250: absorb the lines that continue a preprocessor line.
`prev` is `fl[curr - 1]`. -/
def absorb (prev : FileLine) : List FileLine → List FileLine × List FileLine
  | [] => ([], [])
  | f :: fs =>
    if lastNonBlankChar prev.left_txt = '\\' then
      let p := f.makePreprocessor
      (p :: (absorb p fs).1, (absorb p fs).2)
    else ([], f :: fs)

/-- Logical_File.cc:126-136, 234-244: the category of a preprocessor group. -/
def ppCat (f : FileLine) : LineCat :=
  if f.bits.flpr_pp then .flpr_pp else if f.bits.incl then .incl else .macro

/-- Logical_File.cc:267-275: number of lines of a free-format statement (at least one). -/
def freeStmtLen (fl : List FileLine) : Nat :=
  match fl.findIdx? (fun f => !f.isTrivial && !f.bits.continued) with
  | some k => k + 1
  | none => 1

theorem freeStmtLen_pos (fl : List FileLine) : 0 < freeStmtLen fl := by
  unfold freeStmtLen; split <;> omega

/-- Logical_File.cc:208-283: one turn of the grouping loop of `scan_free`, at the line `f`, with
`fs` the lines after it: the group and the lines left.  The `exit(1)` at 260-265 is behind the same
test as the branch before it and cannot be reached. -/
def nextFree (f : FileLine) (fs : List FileLine) : Res (Group × List FileLine) :=
  if f.isTrivial then
    .ok ({ layout := (f :: fs).takeWhile (·.isTrivial) }, (f :: fs).dropWhile (·.isTrivial))
  else if f.bits.flpr_lit then
    .ok ({ layout := (f :: fs).takeWhile (·.bits.flpr_lit), cat := .literal },
      (f :: fs).dropWhile (·.bits.flpr_lit))
  else if !f.isFortran then
    if f.bits.preprocessor || f.bits.flpr_pp || f.bits.incl then
      .ok ({ layout := f :: (absorb f fs).1, cat := ppCat f }, (absorb f fs).2)
    else .error .assertion
  else
    .ok ({ layout := (f :: fs).take (freeStmtLen (f :: fs)) },
      (f :: fs).drop (freeStmtLen (f :: fs)))

/-- Logical_File.cc:107, 208: `while (curr < N)`.  The first argument bounds the number of turns; the
scans pass the number of lines, which is enough because every turn takes at least one line
(`groupLoop_enough`). -/
def groupLoop (next : FileLine → List FileLine → Res (Group × List FileLine)) :
    Nat → List FileLine → Res (List Group)
  | _, [] => .ok []
  | 0, _ :: _ => .error .assertion
  | n + 1, f :: fs => do
    let (g, rest) ← next f fs
    let gs ← groupLoop next n rest
    .ok (g :: gs)

/-- Logical_File.cc:159-167: `i` is the distance of the current line from the start of the
statement, `last` the distance of the last code line. -/
def lastCode (i last : Nat) : List FileLine → Nat
  | [] => last
  | f :: fs =>
    if f.bits.continuation then lastCode (i + 1) i fs
    else if f.isTrivial then lastCode (i + 1) last fs
    else last

/-- Logical_File.cc:108-174: one turn of the grouping loop of `scan_fixed`. -/
def nextFixed (f : FileLine) (fs : List FileLine) : Res (Group × List FileLine) :=
  if f.isTrivial then
    .ok ({ layout := (f :: fs).takeWhile (·.isTrivial) }, (f :: fs).dropWhile (·.isTrivial))
  else if !f.isFortran then
    if f.bits.preprocessor || f.bits.flpr_pp || f.bits.incl then
      .ok ({ layout := f :: (absorb f fs).1, cat := ppCat f }, (absorb f fs).2)
    else .error .assertion
  else
    .ok ({ layout := (f :: fs).take (lastCode 1 0 fs + 1), needs_reformat := true },
      (f :: fs).drop (lastCode 1 0 fs + 1))

/-- Logical_File.cc:180-285 `scan_free` on a fresh `Logical_File`; `none`: returns false. -/
def scanFree (raw : List Str) : Res (Option (List Group)) := do
  match ← analyzeAllFree 1 NUL false false raw with
  | none => .ok none
  | some fl =>
    let gs ← groupLoop nextFree fl.length fl
    .ok (some gs)

/-- Logical_File.cc:86-178 `scan_fixed` on a fresh `Logical_File`; `none`: returns false. -/
def scanFixed (raw : List Str) (lastCol : Int) : Res (Option (List Group)) := do
  match ← analyzeAllFixed lastCol 1 NUL raw with
  | none => .ok none
  | some fl =>
    let gs ← groupLoop nextFixed fl.length fl
    .ok (some gs)

/-- Logical_Line.cc:884-891 `print` (with `suppress` false): the layout lines, each followed by a
newline. -/
def Group.print (g : Group) : Str := g.layout.flatMap (fun f => f.print ++ ['\n'])

end FLPR
