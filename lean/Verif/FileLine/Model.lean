import Verif.Base
/-!
# Model of `File_Line` (src/flpr/File_Line.{hh,cc})
-/

namespace FLPR

/-- `class_flags` bits of a `File_Line` (File_Line.hh:39-51, a `std::bitset`). -/
structure Bits where
  blank : Bool := false
  comment : Bool := false
  continued : Bool := false
  continuation : Bool := false
  label : Bool := false
  preprocessor : Bool := false
  incl : Bool := false
  flpr_pp : Bool := false
  flpr_lit : Bool := false
  fixed_format : Bool := false
  deriving DecidableEq, Repr

/-- `File_Line` (File_Line.hh:32-206). -/
structure FileLine where
  linenum : Int := -1
  left_txt : Str := []
  left_space : Str := []
  main_txt : Str := []
  right_space : Str := []
  right_txt : Str := []
  open_delim : Char := NUL
  bits : Bits := {}
  deriving DecidableEq, Repr

namespace FileLine

/-- File_Line.hh:86-88 `is_trivial`. -/
def isTrivial (f : FileLine) : Bool := f.bits.comment || f.bits.blank

/-- File_Line.hh:89-92 `is_fortran`. -/
def isFortran (f : FileLine) : Bool :=
  !f.isTrivial && !f.bits.preprocessor && !f.bits.flpr_pp && !f.bits.flpr_lit && !f.bits.incl

/-- File_Line.hh:148-158 `main_first_col`. -/
def mainFirstCol (f : FileLine) : Nat :=
  if f.main_txt = [] then 0
  else 1 + (if f.bits.fixed_format then 6 else f.left_txt.length) + f.left_space.length

/-- File_Line.cc:455-458 `size`. -/
def size (f : FileLine) : Nat :=
  f.left_txt.length + f.left_space.length + f.main_txt.length + f.right_space.length +
    f.right_txt.length

/-- `os << std::setw(6) << std::left << s`: pads on the right to width 6. -/
def padRight6 (s : Str) : Str := s ++ blanks (6 - s.length)

/-- File_Line.cc:665-675 `operator<<`.  (`os.setf(flags)` at 670 does not clear `left`; the only
later formatted insertions are strings without a width, so this has no visible effect here.) -/
def print (f : FileLine) : Str :=
  if f.isFortran && f.bits.fixed_format then
    padRight6 f.left_txt ++ f.left_space ++ f.main_txt ++ f.right_space ++ f.right_txt
  else
    f.left_txt ++ f.left_space ++ f.main_txt ++ f.right_space ++ f.right_txt

end FileLine

/-! ## Text predicates (File_Line.cc:679-714) -/

/-- `FLPR::tolower` (utils.cc:21-24) applied to a string. -/
def strToLower : Str → Res Str
  | [] => .ok []
  | c :: cs => do
    let d ← cToLower c
    let ds ← strToLower cs
    .ok (d :: ds)

/-- File_Line.cc:681-697 `is_include_line`. -/
def isIncludeLine (txt : Str) (nonBlank : Nat) : Res Bool :=
  if nonBlank ≥ txt.length then .ok false
  else if txt.getD nonBlank NUL ≠ 'i' ∧ txt.getD nonBlank NUL ≠ 'I' then .ok false
  else do
    let maybe ← strToLower ((txt.drop nonBlank).take 7)
    if maybe = "include".toList then
      match (txt.drop (nonBlank + 7)).dropWhile (· == ' ') with
      | [] => .ok false
      | q :: _ => .ok (q == '\'' || q == '"')
    else .ok false

/-- File_Line.cc:699-704 `is_flpr_directive`; the size test makes every index in range. -/
def isFlprDirective (txt : Str) (p : Nat) : Bool :=
  decide (txt.length > p + 5) && txt.getD (p + 1) NUL == '#' && txt.getD (p + 2) NUL == 'f' &&
  txt.getD (p + 3) NUL == 'l' && txt.getD (p + 4) NUL == 'p' && txt.getD (p + 5) NUL == 'r'

/-- The short-circuiting chain `txt[p] == c0 && txt[p+1] == c1 && ...` with checked indexing. -/
def matchAt (txt : Str) (p : Nat) : Str → Res Bool
  | [] => .ok true
  | c :: cs => do
    let d ← at' txt p
    if d = c then matchAt txt (p + 1) cs else .ok false

/-- File_Line.cc:706-714 `is_flpr_literal`.  The size test only covers index `p + 13`, but the
chain reads up to `p + 16`; indexing is checked. -/
def isFlprLiteral (txt : Str) (p : Nat) : Res Bool :=
  if isFlprDirective txt p && decide (txt.length > p + 5 + 8) then
    matchAt txt (p + 9) " literal".toList
  else .ok false

/-! ## Trailing text (File_Line.cc:716-808) -/

/-- File_Line.cc:763-764 / 722-723: the assertion on the previous delimiter. -/
def validDelim (d : Char) : Bool := d == NUL || d == '"' || d == '\''

/-- File_Line.cc:789-791: is everything from here on whitespace?  The loop stops at the first
non-space. -/
def restIsSpace : Str → Res Bool
  | [] => .ok true
  | c :: cs => do
    let ws ← cIsSpace c
    if ws then restIsSpace cs else .ok false

/-- File_Line.cc:769-807: the loop of `find_trailing_free`, on the text from index `i`. -/
def findTrailingFreeGo (ctx : Char) (i : Nat) : Str → Res (Option Nat × Char)
  | [] => if ctx ≠ NUL then .error .exc else .ok (none, NUL)
  | c :: rest =>
    if ctx = NUL then
      if c = '\'' ∨ c = '"' then findTrailingFreeGo c (i + 1) rest
      else if c = '!' ∨ c = '&' then .ok (some i, NUL)
      else findTrailingFreeGo ctx (i + 1) rest
    else if c = ctx then findTrailingFreeGo NUL (i + 1) rest
    else if c = '&' then do
      let ws ← restIsSpace rest
      if ws then .ok (some i, ctx) else findTrailingFreeGo ctx (i + 1) rest
    else findTrailingFreeGo ctx (i + 1) rest

/-- File_Line.cc:758-808 `find_trailing_free`: (position, open_delim). -/
def findTrailingFree (txt : Str) (start : Nat) (prev : Char) : Res (Option Nat × Char) :=
  if validDelim prev then findTrailingFreeGo prev start (txt.drop start) else .error .assertion

/-- File_Line.cc:733-748: the loop of `find_trailing_fixed` on the text from index `i` up to the
truncation column: `some` position of a comment, or the final character context. -/
def findTrailingFixedGo (ctx : Char) (i : Nat) : Str → (Option Nat) × Char
  | [] => (none, ctx)
  | c :: rest =>
    if ctx = NUL then
      if c = '\'' ∨ c = '"' then findTrailingFixedGo c (i + 1) rest
      else if c = '!' then (some i, NUL)
      else findTrailingFixedGo ctx (i + 1) rest
    else if c = ctx then findTrailingFixedGo NUL (i + 1) rest
    else findTrailingFixedGo ctx (i + 1) rest

/-- File_Line.cc:731-732: the truncation point. -/
def truncCol (lastColumn : Int) (n : Nat) : Nat :=
  if lastColumn > 0 then min lastColumn.toNat n else n

/-- File_Line.cc:718-751 `find_trailing_fixed`. -/
def findTrailingFixed (txt : Str) (start : Nat) (lastColumn : Int) (prev : Char) :
    Res (Option Nat × Char) :=
  if validDelim prev then
    let n := txt.length
    let lc := truncCol lastColumn n
    match findTrailingFixedGo prev start ((txt.take lc).drop start) with
    | (some i, d) => .ok (some i, d)
    | (none, ctx) => .ok (if lc < n then some lc else none, ctx)
  else .error .assertion

/-! ## Free format (File_Line.cc:211-327) -/

/-- A line whose whole text is in `left_txt` (File_Line.cc:61-62). -/
def mkLeft (ln : Int) (b : Bits) (t : Str) : FileLine :=
  { linenum := ln, left_txt := t, bits := b }

/-- The full constructor with its assertion (File_Line.cc:52-59). -/
def mkFull (ln : Int) (b : Bits) (lt ls mt rs rt : Str) (od : Char) : Res FileLine :=
  if validDelim od then
    .ok { linenum := ln, left_txt := lt, left_space := ls, main_txt := mt, right_space := rs,
          right_txt := rt, open_delim := od, bits := b }
  else .error .assertion

/-- Digit scan of the label loops (File_Line.cc:277-278, 147-148): the index after at most `k`
digits starting at index `i` (`s` is the text from `i`). -/
def scanDigits : Nat → Nat → Str → Res Nat
  | 0, i, _ => .ok i
  | _ + 1, i, [] => .ok i
  | k + 1, i, c :: cs => do
    let d ← cIsDigit c
    if d then scanDigits k (i + 1) cs else .ok i

/-- `while (isspace(raw[ri])) ri += 1` (File_Line.cc:292-293; the terminating NUL stops it) and
`while (ri < size && isspace(raw[ri]))` (156-157). -/
def scanSpaces : Nat → Str → Res Nat
  | i, [] => .ok i
  | i, c :: cs => do
    let d ← cIsSpace c
    if d then scanSpaces (i + 1) cs else .ok i

/-- Trailing blanks and tabs move from main text to right space unless a character context is
open (File_Line.cc:316-323, 198-205): (main, right_space). -/
def trimMain (main : Str) (openDelim : Char) : Str × Str :=
  if openDelim = NUL then
    let k := lastNotOfSucc [' ', '\t'] main
    if k < main.length then (main.take k, main.drop k) else (main, [])
  else (main, [])

/-- The label / leading ampersand part (File_Line.cc:270-287): (left_text, bits, ri,
indent_begin). -/
def freeLeft (raw : Str) (prevCont : Bool) (ri : Nat) (c : Char) :
    Res (Str × Bits × Nat × Nat) := do
  let d ← cIsDigit c
  if !prevCont && d then
    let r ← scanDigits 6 ri (raw.drop ri)
    .ok (raw.take r, { label := true }, r, r)
  else if c = '&' then
    .ok (raw.take (ri + 1), { continuation := true }, ri + 1, ri + 1)
  else .ok ([], {}, ri, 0)

/-- File_Line.cc:289-293: after a label, advance to the next non-blank. -/
def freeSkip (raw leftText : Str) (bits : Bits) (r1 : Nat) : Res Nat :=
  if leftText ≠ [] ∧ bits.continuation = false then scanSpaces r1 (raw.drop r1) else .ok r1

/-- File_Line.cc:268-326: a Fortran line whose first non-blank is `c` at `ri`. -/
def analyzeFreeBody (ln : Int) (raw : Str) (prevDelim : Char) (prevCont : Bool) (ri : Nat)
    (c : Char) : Res FileLine := do
  let (leftText, bits, r1, indentBegin) ← freeLeft raw prevCont ri c
  let r2 ← freeSkip raw leftText bits r1
  let leftSp := if r2 > indentBegin then (raw.drop indentBegin).take (r2 - indentBegin) else []
  let (tb, od) ← findTrailingFree raw r2 prevDelim
  match tb with
  | none =>
    let main0 ← substrFrom raw r2
    let (main, rsp) := trimMain main0 od
    mkFull ln bits leftText leftSp main rsp [] od
  | some t =>
    let main0 ← substr raw r2 (t - r2)
    let right ← substrFrom raw t
    let bits := if right.getD 0 NUL = '&' then { bits with continued := true } else bits
    let (main, rsp) := trimMain main0 od
    mkFull ln bits leftText leftSp main rsp right od

/-- File_Line.cc:211-327 `analyze_free`: the line and the new `in_literal_block`. -/
def analyzeFree (ln : Int) (raw : Str) (prevDelim : Char) (prevCont : Bool) (inLit : Bool) :
    Res (FileLine × Bool) :=
  let ri? := findFirstNotOf [' ', '\t', '\r'] raw
  if inLit then
    match ri? with
    | some ri =>
      if raw.getD ri NUL = '!' then do
        let lit ← isFlprLiteral raw ri
        .ok (mkLeft ln { flpr_lit := true } raw, !lit)
      else .ok (mkLeft ln { flpr_lit := true } raw, true)
    | none => .ok (mkLeft ln { flpr_lit := true } raw, true)
  else
    match ri? with
    | none => .ok (mkLeft ln { blank := true } raw, false)
    | some ri => do
      let c ← cToUpper (raw.getD ri NUL)
      if ri = 0 ∧ c = '#' then .ok (mkLeft ln { preprocessor := true } raw, false)
      else
        let inc ← isIncludeLine raw ri
        if inc then .ok (mkLeft ln { incl := true } raw, false)
        else if c = '!' then
          let lit ← isFlprLiteral raw ri
          if lit then .ok (mkLeft ln { flpr_lit := true } raw, true)
          else if isFlprDirective raw ri then .ok (mkLeft ln { flpr_pp := true } raw, false)
          else .ok (mkLeft ln { comment := true, continued := prevCont } raw, false)
        else
          let f ← analyzeFreeBody ln raw prevDelim prevCont ri c
          .ok (f, false)

/-! ## Fixed format (File_Line.cc:64-209) -/

/-- File_Line.cc:81-93: expand the first run of tabs when it starts in the control columns.
Each tab becomes a blank and `5 * num_tabs` blanks are inserted after the run. -/
def expandTabs (raw : Str) : Str :=
  match findChar '\t' raw with
  | some tb =>
    if tb < 6 then
      let run := ((raw.drop tb).takeWhile (· == '\t')).length
      raw.take tb ++ blanks run ++ blanks (5 * run) ++ raw.drop (tb + run)
    else raw
  | none => raw

/-- File_Line.cc:138-163: control columns: (left_text, bits, ri, blank?). -/
def fixedLeft (raw : Str) (prevDelim : Char) (ri : Nat) (c : Char) :
    Res (Str × Bits × Nat × Bool) := do
  let b : Bits := { fixed_format := true }
  if ri < 6 then
    let (lt, b, r1) ←
      (if ri = 5 then
        .ok (raw.take 6, (if raw.getD 5 NUL ≠ '0' then { b with continuation := true } else b), 6)
      else do
        let d ← cIsDigit c
        if d then
          let r ← scanDigits (6 - ri) ri (raw.drop ri)
          .ok (raw.take r, { b with label := true }, r)
        else .ok ([], b, ri) : Res (Str × Bits × Nat))
    if lt ≠ [] ∧ prevDelim = NUL then
      let r2 ← scanSpaces r1 (raw.drop r1)
      .ok (lt, b, r2, decide (r2 = raw.length))
    else .ok (lt, b, r1, false)
  else .ok ([], b, ri, false)

/-- File_Line.cc:180-190: fix-up of the text past the last column. -/
def fixRight (right : Str) (trailing : Nat) (lastColumn : Int) : Str :=
  if lastColumn > 0 ∧ (trailing : Int) = lastColumn then
    match findFirstNotOf [' ', '\t', '\r'] right with
    | none => []
    | some k =>
      if right.getD k NUL ≠ '&' ∧ right.getD k NUL ≠ '!' then '!' :: ' ' :: right else right
  else right

/-- File_Line.cc:165-208.  `substr(ri, trailing_begin - ri)` is computed in `size_t`: when
`trailing_begin < ri` the count wraps to a huge number, so the rest of the line is taken. -/
def analyzeFixedBody (ln : Int) (raw : Str) (prevDelim : Char) (lastColumn : Int)
    (leftText : Str) (bits : Bits) (ri : Nat) : Res FileLine := do
  let leftSp := if ri > 6 then (raw.drop 6).take (ri - 6) else []
  let (tb, od) ← findTrailingFixed raw ri lastColumn prevDelim
  let (main0, right) ←
    (match tb with
     | none => do
        let m ← substrFrom raw ri
        .ok (m, [])
     | some t => do
        let m ← substr raw ri (if ri ≤ t then t - ri else raw.length)
        let r ← substrFrom raw t
        .ok (m, fixRight r t lastColumn) : Res (Str × Str))
  if main0 = [] then .error .exc
  else
    let (main, rsp) := trimMain main0 od
    mkFull ln bits leftText leftSp main rsp right od

/-- File_Line.cc:64-209 `analyze_fixed`. -/
def analyzeFixed (ln : Int) (rawIn : Str) (prevDelim : Char) (lastColumn : Int) :
    Res FileLine :=
  let fx : Bits := { fixed_format := true }
  if rawIn = [] then .ok (mkLeft ln { fx with blank := true } rawIn)
  else
    let raw := expandTabs rawIn
    match findFirstNotOf [' ', '\t', '\r'] raw with
    | none => .ok (mkLeft ln { fx with blank := true } raw)
    | some ri => do
      let c ← cToUpper (raw.getD ri NUL)
      let body : Res FileLine := do
        let (lt, b, r, isBlank) ← fixedLeft raw prevDelim ri c
        if isBlank then .ok (mkLeft ln { b with blank := true } raw)
        else analyzeFixedBody ln raw prevDelim lastColumn lt b r
      if ri ≠ 5 then
        if ri = 0 ∧ c = '#' then .ok (mkLeft ln { fx with preprocessor := true } raw)
        else
          let inc ← isIncludeLine raw ri
          if inc then .ok (mkLeft ln { fx with incl := true } raw)
          else if c = '!' ∨ (ri = 0 ∧ (c = '*' ∨ c = 'C')) then
            let lit ← isFlprLiteral raw ri
            if lit then .error .exc
            else if isFlprDirective raw ri then .ok (mkLeft ln { fx with flpr_pp := true } raw)
            else .ok (mkLeft ln { fx with comment := true } raw)
          else body
      else body

/-! ## Modifiers (File_Line.cc:340-453, 460-644) -/

/-- File_Line.cc:340-358 `unspace_main`. -/
def FileLine.unspaceMain (f : FileLine) : FileLine :=
  match findFirstNotOf [' '] f.main_txt with
  | none => { f with bits := { f.bits with blank := true } }
  | some fnb =>
    let m := f.main_txt.drop fnb
    let ftb := lastNotOfSucc [' '] m
    if ftb < m.length then
      { f with main_txt := m.take ftb, right_space := f.right_space ++ blanks (m.length - ftb) }
    else { f with main_txt := m }

/-- File_Line.cc:360-376 `make_uncontinued`.  `erase(0, npos)` erases everything. -/
def FileLine.makeUncontinued (f : FileLine) : FileLine :=
  let bits := { f.bits with continued := false }
  match f.right_txt with
  | [] => { f with bits := bits, right_space := [] }
  | h :: t =>
    let rt := (if h = '&' then ' ' else h) :: t
    match findFirstNotOf [' '] rt with
    | none => { f with bits := bits, right_txt := [], right_space := [] }
    | some pos =>
      { f with bits := bits, right_txt := rt.drop pos,
               right_space := f.right_space ++ blanks pos }

/-- File_Line.cc:378-392 `make_continued`. -/
def FileLine.makeContinued (f : FileLine) : FileLine :=
  let rs := if f.right_space = [] then [' '] else f.right_space
  let bits := { f.bits with continued := true }
  match f.right_txt with
  | [] => { f with bits := bits, right_space := rs, right_txt := ['&'] }
  | h :: t =>
    if h ≠ '&' then
      { f with bits := bits, right_txt := '&' :: ' ' :: h :: t,
               right_space := if rs.length > 2 then rs.drop 2 else rs }
    else { f with bits := bits, right_space := rs }

/-- File_Line.cc:394-406 `make_preprocessor`. -/
def FileLine.makePreprocessor (f : FileLine) : FileLine :=
  { f with
    bits := { fixed_format := f.bits.fixed_format, preprocessor := true }
    left_txt := f.left_txt ++ (f.left_space ++ f.main_txt ++ f.right_space ++ f.right_txt)
    left_space := [], main_txt := [], right_space := [], right_txt := [] }

/-- File_Line.cc:408-420 `make_blank` (`open_delim` is left alone). -/
def FileLine.makeBlank (f : FileLine) : FileLine :=
  { f with
    bits := { fixed_format := f.bits.fixed_format, blank := true }
    left_txt := [], left_space := [], main_txt := [], right_space := [], right_txt := [] }

/-- File_Line.cc:422-453 `make_comment_or_blank`.  Line 435 asserts `right_txt[0] == '&'`
(index 0 of an empty string reads the NUL, so the assertion fails there too). -/
def FileLine.makeCommentOrBlank (f : FileLine) : Res FileLine :=
  if f.bits.comment then .ok f
  else if f.bits.blank then .ok f.makeBlank
  else do
    let rt ← (if f.bits.continued then
        (match f.right_txt with
         | '&' :: t => .ok (' ' :: t)
         | _ => .error .assertion)
      else .ok f.right_txt : Res Str)
    match findChar '!' rt with
    | some (k + 1) =>
      .ok { f with
        right_space := f.right_space ++ blanks (k + 1)
        left_txt := blanks f.left_txt.length
        right_txt := blanks (rt.drop (k + 1)).length
        bits := { fixed_format := f.bits.fixed_format, comment := true } }
    | _ => .ok { f with right_txt := rt }.makeBlank

/-- File_Line.cc:461-508: the comment branch of `set_leading_spaces` (`spaces >= 0`;
`left_txt.insert(0, n, ' ')` with a negative count would throw `length_error`). -/
def FileLine.setLeadingComment (f : FileLine) (spaces : Nat) : FileLine × Bool :=
  match findChar '!' f.left_txt with
  | some pos =>
    let g := { f with left_space := [], main_txt := [], right_space := [], right_txt := [] }
    if pos = spaces then (g, false)
    else
      let lt :=
        if pos = 0 then
          match findFirstNotOf [' ', '\t'] (f.left_txt.drop 1) with
          | some t =>
            -- tpos = t + 1
            if t + 1 > 5 then
              if t + 1 ≥ spaces + 5 then f.left_txt.take 1 ++ f.left_txt.drop (1 + (spaces + 4))
              else f.left_txt.take 1 ++ f.left_txt.drop (1 + 4)
            else f.left_txt
          | none => f.left_txt
        else f.left_txt.drop pos
      ({ g with left_txt := blanks spaces ++ lt }, true)
  | none =>
    match findChar '!' f.main_txt with
    | some pos =>
      let g := if pos > 0 then { f with main_txt := f.main_txt.drop pos,
                                        left_space := f.left_space ++ blanks pos } else f
      let leading := f.left_txt.length + f.left_space.length + pos
      if leading = spaces then (g, false)
      else if f.left_txt.length < spaces then
        ({ g with left_space := blanks (spaces - f.left_txt.length) }, true)
      else (g, false)
    | none => (f, false)

/-- The value of the local variable `offset` (File_Line.cc:512). -/
inductive Offset where
  | uninit
  | val (i : Int)
  deriving DecidableEq, Repr

/-- File_Line.cc:511-556: move the statement text.  `none`: return false without change.
`some (line, offset)`: fall through to the right-hand adjustment. -/
def FileLine.moveMain (f : FileLine) (spaces : Nat) : Res (Option (FileLine × Offset)) :=
  if f.left_txt = [] then
    if f.left_space.length = spaces then .ok none
    else .ok (some ({ f with left_space := blanks spaces },
                    .val ((spaces : Int) - f.left_space.length)))
  else
    let lt := f.left_txt.length
    let orig := lt + f.left_space.length
    if f.bits.label then
      if lt < spaces then
        let newLs := spaces - lt
        if f.left_space.length = newLs then .ok none
        else .ok (some ({ f with left_space := blanks newLs },
                        .val ((newLs : Int) - f.left_space.length)))
      else if f.left_space.length = 1 then .ok none
      else .ok (some ({ f with left_space := [' '] }, .val (1 - (f.left_space.length : Int))))
    else if f.bits.continuation && !f.bits.fixed_format then
      if orig = spaces then .ok none
      else if orig < spaces then
        .ok (some ({ f with left_txt := blanks (spaces - orig) ++ f.left_txt },
                   .val ((spaces : Int) - orig)))
      else
        match findFirstNotOf [' '] f.left_txt with
        | none => .error .assertion
        | some pos =>
          let rc := min pos (orig - spaces)
          .ok (some ({ f with left_txt := f.left_txt.drop rc }, .val (-(rc : Int))))
    else .ok (some (f, .uninit))

/-- File_Line.cc:557-577: try to keep a trailing comment in place.  Reading the uninitialised
`offset` is UB (only evaluated when `right_txt` is non-empty); `right_space.insert(pos, ...)`
throws when `pos > right_space.size()`. -/
def FileLine.adjustRight (f : FileLine) (o : Offset) : Res FileLine :=
  if f.right_txt = [] then .ok f
  else match o with
    | .uninit => .error .ub
    | .val off =>
      if off = 0 then .ok f
      else match findChar '!' f.right_txt with
        | none => .ok f
        | some pos =>
          if off < 0 then
            if pos ≤ f.right_space.length then
              .ok { f with right_space :=
                      f.right_space.take pos ++ blanks (-off).toNat ++ f.right_space.drop pos }
            else .error .exc
          else
            let minSize : Int := if f.right_space = [] then 0 else 1
            let squeeze : Int := (f.right_space.length : Int) - off
            let newSize := (max minSize squeeze).toNat
            .ok (if f.right_space.length ≠ newSize then { f with right_space := blanks newSize }
                 else f)

/-- File_Line.cc:460-580 `set_leading_spaces`, for `spaces >= 0`. -/
def FileLine.setLeadingSpaces (f : FileLine) (spaces : Nat) : Res (FileLine × Bool) :=
  if f.bits.comment then .ok (f.setLeadingComment spaces)
  else if f.isFortran then do
    match ← f.moveMain spaces with
    | none => .ok (f, false)
    | some (g, o) =>
      let h ← g.adjustRight o
      .ok (h, true)
  else .ok (f, false)

/-- File_Line.cc:582-604 `get_leading_spaces`. -/
def FileLine.getLeadingSpaces (f : FileLine) : Int :=
  if f.bits.comment then
    match findChar '!' f.left_txt with
    | some pos => pos
    | none =>
      match findChar '!' f.main_txt with
      | some pos => f.left_txt.length + f.left_space.length + pos
      | none =>
        match findChar '!' f.right_txt with
        | some pos => f.left_txt.length + f.left_space.length + f.main_txt.length +
                        f.right_txt.length + pos
        | none => 0
  else if f.isFortran then (f.mainFirstCol : Int) - 1
  else 0

/-- `std::to_string` of a non-negative `int`. -/
def natToStr (n : Nat) : Str := Nat.toDigits 10 n

/-- File_Line.cc:606-644 `set_label`, for `new_label >= 0`. -/
def FileLine.setLabel (f : FileLine) (newLabel : Nat) : Res (FileLine × Bool) :=
  if newLabel > 99999 then .error .assertion
  else if f.isFortran = false then .error .assertion
  else if f.bits.continuation then .error .assertion
  else if newLabel = 0 ∧ f.bits.label = false then .ok (f, false)
  else
    let txt := natToStr newLabel
    let bits := { f.bits with label := true }
    if f.bits.fixed_format then
      if f.left_txt = [] then
        .ok ({ f with left_txt := txt ++ blanks (6 - txt.length),
                      left_space := if f.left_space.length > 6 then f.left_space.drop 6
                                    else f.left_space,
                      bits := bits }, true)
      else if f.bits.label = false then .error .assertion
      else .ok ({ f with left_txt := txt ++ blanks (6 - txt.length), bits := bits }, true)
    else
      let oldSize := f.left_txt.length
      let newSize := txt.length
      let ls :=
        if newSize < oldSize then f.left_space ++ blanks (oldSize - newSize)
        else if newSize > oldSize then
          if (newSize - oldSize) + 1 < f.left_space.length then
            f.left_space.drop (newSize - oldSize)
          else [' ']
        else f.left_space
      .ok ({ f with left_txt := txt, left_space := ls, bits := bits }, true)

end FLPR
