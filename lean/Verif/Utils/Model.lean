import Verif.FileLine.Model
/-!
# Model of the string utilities (src/flpr/utils.hh, utils.cc) and of `File_Info`
-/

namespace FLPR

/-- utils.cc:27-30 `toupper` (`tolower` is `strToLower`). -/
def strToUpper : Str → Res Str
  | [] => .ok []
  | c :: cs => do
    let d ← cToUpper c
    let ds ← strToUpper cs
    .ok (d :: ds)

/-- `std::find_if_not(begin, end, isspace)`: the rest of the text from there on. -/
def dropSpaces : Str → Res Str
  | [] => .ok []
  | c :: cs => do
    let b ← cIsSpace c
    if b then dropSpaces cs else .ok (c :: cs)

/-- utils.hh:37-46 `trim`.  The backward search runs over the text from the first non-blank on. -/
def trim (s : Str) : Res Str := do
  let front ← dropSpaces s
  let back ← dropSpaces front.reverse
  .ok back.reverse

/-- utils.hh:49-54 `trim_back_copy`, and utils.hh:57-63 `trim_back` as a function of the text. -/
def trimBack (s : Str) : Str :=
  match lastNotOfSucc [' ', '\t'] s with
  | 0 => []
  | k + 1 => s.take (k + 1)

/-- utils.cc:36-42 `simple_tokenize`, one call of the `do` body per step: the text left and the word
being collected.  The result is what is appended to `t`.

The loop is left by `s.end() != sp++` with `sp == s.end()`, which increments the past-the-end
iterator.  The standard gives that no meaning; implementations whose iterator is a pointer give the
expected value.  `strict` selects the reading: undefined behaviour, or the expected value. -/
def tokenizeGo (strict : Bool) (delim : Char) (word : Str) : Str → Res (List Str)
  | [] =>
    if strict then .error .ub
    else .ok (if word = [] then [] else [word])
  | c :: cs =>
    if c = delim then do
      let ts ← tokenizeGo strict delim [] cs
      .ok (if word = [] then ts else word :: ts)
    else tokenizeGo strict delim (word ++ [c]) cs

/-- utils.cc:33-43 `simple_tokenize`. -/
def simpleTokenize (strict : Bool) (s : Str) (t : List Str) (delim : Char) : Res (List Str) := do
  let ts ← tokenizeGo strict delim [] s
  .ok (t ++ ts)

/-- File_Info.hh:23-27 `File_Type`. -/
inductive FileType where
  | unknown | fixedfmt | freefmt
  deriving DecidableEq, Repr

/-- `s.find_last_of(c)`; `none` is `npos`. -/
def findLast (c : Char) (s : Str) : Option Nat :=
  match s.reverse.findIdx? (· == c) with
  | none => none
  | some k => some (s.length - 1 - k)

/-- File_Info.cc:43-64 `file_type_from_extension` (messages to `std::cerr` not modelled). -/
def fileTypeFromExtension (filename : Str) : Res FileType :=
  match findLast '.' filename with
  | none => .ok .unknown
  | some p => do
    let ext ← substrFrom filename (p + 1)
    .ok (if ext = "f".toList ∨ ext = "F".toList ∨ ext = "F90".toList then .fixedfmt
      else if ext = "f90".toList then .freefmt else .unknown)

/-- File_Info.cc:20-25: the constructor; the file type it ends up with. -/
def fileInfoType (filename : Str) (given : FileType) : Res FileType :=
  if given = .unknown then fileTypeFromExtension filename else .ok given

end FLPR
