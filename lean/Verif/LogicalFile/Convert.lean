import Verif.LogicalLine.Model
/-!
# Model of `Logical_File::convert_fixed_to_free` (src/flpr/Logical_File.cc:475-587)

`file_info->file_type` (581-584) is not modelled.
-/

namespace FLPR

/-- Token_Text.hh:91-93 `is_split_token_` and Logical_File.cc:511-515: the line indices pushed for one
token.  `static_cast<size_t>` of a negative index is a huge number that equals no line index, as the
negative integer here.  Reading an uninitialised position is undefined. -/
def splitLines (t : Tok) : Res (List Int) :=
  match t.span with
  | none => .error .ub
  | some s =>
    if s.bl ≠ s.el then
      .ok ((List.range (s.el - s.bl).toNat).map (fun k : Nat => s.bl + 1 + (k : Int)))
    else .ok []

/-- Logical_File.cc:508-517: `needs_front_continuation`. -/
def frontLines : List Tok → Res (List Int)
  | [] => .ok []
  | t :: ts => do
    let a ← splitLines t
    let b ← frontLines ts
    .ok (a ++ b)

/-- Logical_File.cc:493-495: `unset_classification(fixed_format)`. -/
def unfix (f : FileLine) : FileLine := { f with bits := { f.bits with fixed_format := false } }

/-- Logical_File.cc:523-534: the trailing continuation mark. -/
def convRight (f : FileLine) : FileLine :=
  match f.right_txt with
  | [] => { f with right_txt := ['&'], bits := { f.bits with continued := true } }
  | c :: t =>
    { f with
      right_txt := '&' :: ' ' :: c :: t
      right_space :=
        if f.open_delim = NUL ∧ f.right_space.length > 2 then f.right_space.drop 2
        else f.right_space
      bits := { f.bits with continued := true } }

/-- Logical_File.cc:538-540: the left end of the first Fortran line. -/
def convFirst (f : FileLine) : FileLine :=
  if f.left_txt = [] then { f with left_space := blanks 6 ++ f.left_space } else f

/-- Logical_File.cc:541-561: the left end of the other Fortran lines; `front` says that the index of
the line is at the front of the queue. -/
def convLater (front : Bool) (f : FileLine) : Res FileLine :=
  if f.left_txt.length ≠ 6 then .error .assertion
  else if front then .ok { f with left_txt := f.left_txt.take 5 ++ ['&'] }
  else if f.left_txt.take 5 = blanks 5 then
    .ok { f with
      left_txt := []
      left_space := blanks 6 ++ f.left_space
      bits := { f.bits with continuation := false } }
  else .error .assertion

/-- Logical_File.cc:564-572, 578-583: a comment line. -/
def convComment (f : FileLine) : Res FileLine :=
  match f.left_txt with
  | [] => .error .assertion
  | c :: t => .ok (if c ≠ ' ' then { f with left_txt := '!' :: t } else f)

/-- Logical_File.cc:519-574: the loop over the lines of a statement.  `k` is `curr_fortran_line`, `i`
is `curr_idx`, `q` the queue. -/
def convStmt (total : Nat) : Nat → Nat → List Int → List FileLine → Res (List FileLine)
  | _, _, _, [] => .ok []
  | k, i, q, f :: fs =>
    if f.isFortran then
      let f1 := if k + 1 < total then convRight f else f
      if k = 0 then do
        let r ← convStmt total (k + 1) (i + 1) q fs
        .ok (convFirst f1 :: r)
      else do
        let front := q.head? == some (i : Int)
        let f2 ← convLater front f1
        let r ← convStmt total (k + 1) (i + 1) (if front then q.tail else q) fs
        .ok (f2 :: r)
    else if f.bits.comment then do
      let f1 ← convComment f
      let r ← convStmt total k (i + 1) q fs
      .ok (f1 :: r)
    else do
      let r ← convStmt total k (i + 1) q fs
      .ok (f :: r)

/-- Logical_File.cc:575-583: the lines of anything else. -/
def convOther : List FileLine → Res (List FileLine)
  | [] => .ok []
  | f :: fs => do
    let f1 ← (if f.bits.comment then convComment f else .ok f)
    let r ← convOther fs
    .ok (f1 :: r)

/-- Logical_File.cc:477-585: one logical line, and whether it was converted. -/
def convertLine (l : LLine) : Res (LLine × Bool) :=
  match l.layout with
  | [] => .ok (l, false)
  | f :: fs =>
    if f.bits.fixed_format = false then .ok (l, false)
    else
      let ys := (f :: fs).map unfix
      if (unfix f).isFortran then do
        let q ← frontLines l.frags
        let r ← convStmt (ys.filter (·.isFortran)).length 0 0 q ys
        .ok ({ l with layout := r }, true)
      else do
        let r ← convOther ys
        .ok ({ l with layout := r }, true)

/-- Logical_File.cc:475-587 `convert_fixed_to_free`: the lines afterwards and the value returned. -/
def convertFile : List LLine → Res (List LLine × Bool)
  | [] => .ok ([], false)
  | l :: ls => do
    let a ← convertLine l
    let b ← convertFile ls
    .ok (a.1 :: b.1, a.2 || b.2)

/-- The text of the file: what `print` writes, line by line. -/
def fileText (ls : List LLine) : List Str := ls.flatMap (fun l => l.layout.map FileLine.print)

end FLPR
