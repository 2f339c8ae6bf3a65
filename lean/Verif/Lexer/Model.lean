import Verif.Lexer.Regex
import Verif.Tags.Defs
import Verif.Tags.Smash
/-!
# Model of the Fortran scanner (src/flpr/scan_fort.l)

The rules are those of the file, in its order.  `%option case-insensitive` is modelled by letting
every letter of a pattern match both cases.  `%option full` makes flex write a seven-bit scanner, so
that a byte above 127 reads outside of its tables: undefined behaviour.
-/

namespace FLPR.Flex
open RE

/-- A literal text, in either case. -/
def lit : Str → RE
  | [] => .eps
  | [c] => .cls (fun d => lowChar d == c)
  | c :: cs => .seq (.cls (fun d => lowChar d == c)) (lit cs)

def plus (r : RE) : RE := .seq r (.star r)
def opt (r : RE) : RE := .alt r .eps
/-- A set of characters given in lower case. -/
def oneOf (s : Str) : RE := .cls (fun d => s.contains (lowChar d))

def isLower (c : Char) : Bool := 'a' ≤ c && c ≤ 'z'
/-- `[a-z]`, case-insensitively. -/
def isLetter (c : Char) : Bool := isLower (lowChar c)
/-- `[a-z0-9_]`, case-insensitively. -/
def isWord (c : Char) : Bool := isLetter c || isDigit c || c == '_'

/-- scan_fort.l:24-28. -/
def DIGIT : RE := .cls isDigit
def NAME : RE := .seq (.cls isLetter) (.star (.cls isWord))
def KIND : RE := .alt (plus (.cls isDigit)) NAME
def SIGNIFICAND : RE :=
  .alt (.seq (plus (.cls isDigit)) (.seq (lit ['.']) (.star (.cls isDigit))))
    (.seq (lit ['.']) (plus (.cls isDigit)))
def EXPONENT : RE := .seq (oneOf ['e', 'd']) (.seq (opt (oneOf ['-', '+'])) (plus DIGIT))
/-- `(_{KIND})?` -/
def kindSuffix : RE := opt (.seq (lit ['_']) KIND)
/-- `.`: every character but the newline. -/
def dot : RE := .cls (fun c => c != '\n')
/-- `({KIND}_)?q(qq|[^q])*q` -/
def charLit (q : Char) : RE :=
  .seq (opt (.seq KIND (lit ['_'])))
    (.seq (lit [q]) (.seq (.star (.alt (lit [q, q]) (.cls (fun c => c != q)))) (lit [q])))

/-- scan_fort.l:23: the start conditions. -/
inductive Cond where
  | initial
  | realParse
  | expParse
  | kindParse
  deriving DecidableEq, Repr

/-- What the action of a rule does. -/
inductive Act where
  /-- return the tag -/
  | ret (tag : Int)
  /-- pop the start condition and return the tag -/
  | popRet (tag : Int)
  /-- nothing -/
  | skip
  /-- put the text back (`yyless(0)`, position restored) and enter the condition -/
  | begin (c : Cond)
  /-- put the text back and push the condition -/
  | push (c : Cond)
  deriving DecidableEq, Repr

/-- scan_fort.l:32-179: the keywords. -/
def keywords : List (String × Int) := [
  ("abstract", Tag.KW_ABSTRACT),
  ("acquired_lock", Tag.KW_ACQUIRED_LOCK),
  ("all", Tag.KW_ALL),
  ("allocatable", Tag.KW_ALLOCATABLE),
  ("allocate", Tag.KW_ALLOCATE),
  ("assignment", Tag.KW_ASSIGNMENT),
  ("associate", Tag.KW_ASSOCIATE),
  ("asynchronous", Tag.KW_ASYNCHRONOUS),
  ("backspace", Tag.KW_BACKSPACE),
  ("bind", Tag.KW_BIND),
  ("block", Tag.KW_BLOCK),
  ("call", Tag.KW_CALL),
  ("case", Tag.KW_CASE),
  ("character", Tag.KW_CHARACTER),
  ("class", Tag.KW_CLASS),
  ("close", Tag.KW_CLOSE),
  ("codimension", Tag.KW_CODIMENSION),
  ("common", Tag.KW_COMMON),
  ("complex", Tag.KW_COMPLEX),
  ("concurrent", Tag.KW_CONCURRENT),
  ("contains", Tag.KW_CONTAINS),
  ("contiguous", Tag.KW_CONTIGUOUS),
  ("continue", Tag.KW_CONTINUE),
  ("critical", Tag.KW_CRITICAL),
  ("cycle", Tag.KW_CYCLE),
  ("data", Tag.KW_DATA),
  ("deallocate", Tag.KW_DEALLOCATE),
  ("default", Tag.KW_DEFAULT),
  ("deferred", Tag.KW_DEFERRED),
  ("dimension", Tag.KW_DIMENSION),
  ("do", Tag.KW_DO),
  ("dowhile", Tag.KW_DOWHILE),
  ("double", Tag.KW_DOUBLE),
  ("doubleprecision", Tag.KW_DOUBLEPRECISION),
  ("elemental", Tag.KW_ELEMENTAL),
  ("else", Tag.KW_ELSE),
  ("end", Tag.KW_END),
  ("entry", Tag.KW_ENTRY),
  ("enum", Tag.KW_ENUM),
  ("enumerator", Tag.KW_ENUMERATOR),
  ("eor", Tag.KW_EOR),
  ("equivalence", Tag.KW_EQUIVALENCE),
  ("err", Tag.KW_ERR),
  ("errmsg", Tag.KW_ERRMSG),
  ("error", Tag.KW_ERROR),
  ("event", Tag.KW_EVENT),
  ("exit", Tag.KW_EXIT),
  ("extends", Tag.KW_EXTENDS),
  ("external", Tag.KW_EXTERNAL),
  ("fail", Tag.KW_FAIL),
  ("file", Tag.KW_FILE),
  ("final", Tag.KW_FINAL),
  ("flush", Tag.KW_FLUSH),
  ("forall", Tag.KW_FORALL),
  ("form", Tag.KW_FORM),
  ("format", Tag.KW_FORMAT),
  ("formatted", Tag.KW_FORMATTED),
  ("function", Tag.KW_FUNCTION),
  ("generic", Tag.KW_GENERIC),
  ("go", Tag.KW_GO),
  ("id", Tag.KW_ID),
  ("if", Tag.KW_IF),
  ("image", Tag.KW_IMAGE),
  ("images", Tag.KW_IMAGES),
  ("implicit", Tag.KW_IMPLICIT),
  ("import", Tag.KW_IMPORT),
  ("impure", Tag.KW_IMPURE),
  ("in", Tag.KW_IN),
  ("include", Tag.KW_INCLUDE),
  ("inout", Tag.KW_INOUT),
  ("inquire", Tag.KW_INQUIRE),
  ("integer", Tag.KW_INTEGER),
  ("intent", Tag.KW_INTENT),
  ("interface", Tag.KW_INTERFACE),
  ("intrinsic", Tag.KW_INTRINSIC),
  ("iomsg", Tag.KW_IOMSG),
  ("iostat", Tag.KW_IOSTAT),
  ("is", Tag.KW_IS),
  ("kind", Tag.KW_KIND),
  ("len", Tag.KW_LEN),
  ("local", Tag.KW_LOCAL),
  ("local_init", Tag.KW_LOCAL_INIT),
  ("lock", Tag.KW_LOCK),
  ("logical", Tag.KW_LOGICAL),
  ("memory", Tag.KW_MEMORY),
  ("module", Tag.KW_MODULE),
  ("mold", Tag.KW_MOLD),
  ("name", Tag.KW_NAME),
  ("namelist", Tag.KW_NAMELIST),
  ("new_index", Tag.KW_NEW_INDEX),
  ("nopass", Tag.KW_NOPASS),
  ("non_intrinsic", Tag.KW_NON_INTRINSIC),
  ("non_overridable", Tag.KW_NON_OVERRIDABLE),
  ("non_recursive", Tag.KW_NON_RECURSIVE),
  ("none", Tag.KW_NONE),
  ("nullify", Tag.KW_NULLIFY),
  ("only", Tag.KW_ONLY),
  ("open", Tag.KW_OPEN),
  ("operator", Tag.KW_OPERATOR),
  ("optional", Tag.KW_OPTIONAL),
  ("out", Tag.KW_OUT),
  ("parameter", Tag.KW_PARAMETER),
  ("pass", Tag.KW_PASS),
  ("pointer", Tag.KW_POINTER),
  ("post", Tag.KW_POST),
  ("precision", Tag.KW_PRECISION),
  ("print", Tag.KW_PRINT),
  ("private", Tag.KW_PRIVATE),
  ("procedure", Tag.KW_PROCEDURE),
  ("program", Tag.KW_PROGRAM),
  ("protected", Tag.KW_PROTECTED),
  ("public", Tag.KW_PUBLIC),
  ("pure", Tag.KW_PURE),
  ("quiet", Tag.KW_QUIET),
  ("rank", Tag.KW_RANK),
  ("read", Tag.KW_READ),
  ("real", Tag.KW_REAL),
  ("recursive", Tag.KW_RECURSIVE),
  ("result", Tag.KW_RESULT),
  ("return", Tag.KW_RETURN),
  ("rewind", Tag.KW_REWIND),
  ("save", Tag.KW_SAVE),
  ("select", Tag.KW_SELECT),
  ("sequence", Tag.KW_SEQUENCE),
  ("shared", Tag.KW_SHARED),
  ("source", Tag.KW_SOURCE),
  ("stat", Tag.KW_STAT),
  ("stop", Tag.KW_STOP),
  ("submodule", Tag.KW_SUBMODULE),
  ("subroutine", Tag.KW_SUBROUTINE),
  ("sync", Tag.KW_SYNC),
  ("target", Tag.KW_TARGET),
  ("team", Tag.KW_TEAM),
  ("team_number", Tag.KW_TEAM_NUMBER),
  ("then", Tag.KW_THEN),
  ("to", Tag.KW_TO),
  ("type", Tag.KW_TYPE),
  ("unformatted", Tag.KW_UNFORMATTED),
  ("unit", Tag.KW_UNIT),
  ("unlock", Tag.KW_UNLOCK),
  ("until_count", Tag.KW_UNTIL_COUNT),
  ("use", Tag.KW_USE),
  ("value", Tag.KW_VALUE),
  ("volatile", Tag.KW_VOLATILE),
  ("wait", Tag.KW_WAIT),
  ("where", Tag.KW_WHERE),
  ("while", Tag.KW_WHILE),
  ("write", Tag.KW_WRITE)]

/-- scan_fort.l:182-221: the symbols and operators. -/
def symbols : List (String × Int) := [
  ("(", Tag.TK_PARENL),
  (")", Tag.TK_PARENR),
  ("[", Tag.TK_BRACKETL),
  ("]", Tag.TK_BRACKETR),
  ("+", Tag.TK_PLUS),
  ("-", Tag.TK_MINUS),
  ("=", Tag.TK_EQUAL),
  ("..", Tag.TK_DBL_DOT),
  ("::", Tag.TK_DBL_COLON),
  (":", Tag.TK_COLON),
  (";", Tag.TK_SEMICOLON),
  ("/", Tag.TK_SLASHF),
  ("%", Tag.TK_PERCENT),
  (",", Tag.TK_COMMA),
  ("**", Tag.TK_POWER_OP),
  ("*", Tag.TK_ASTERISK),
  ("|", Tag.TK_VBAR),
  ("//", Tag.TK_CONCAT),
  ("=>", Tag.TK_ARROW),
  (".eq.", Tag.TK_REL_EQ),
  (".ne.", Tag.TK_REL_NE),
  (".lt.", Tag.TK_REL_LT),
  (".le.", Tag.TK_REL_LE),
  (".gt.", Tag.TK_REL_GT),
  (".ge.", Tag.TK_REL_GE),
  ("==", Tag.TK_REL_EQ),
  ("/=", Tag.TK_REL_NE),
  ("<", Tag.TK_REL_LT),
  ("<=", Tag.TK_REL_LE),
  (">", Tag.TK_REL_GT),
  (">=", Tag.TK_REL_GE),
  (".not.", Tag.TK_NOT_OP),
  (".and.", Tag.TK_AND_OP),
  (".or.", Tag.TK_OR_OP),
  (".eqv.", Tag.TK_EQV_OP),
  (".neqv.", Tag.TK_NEQV_OP)]

/-- The rules of the initial condition, scan_fort.l:32-286. -/
def literalRules : List (RE × Act) := [
  -- scan_fort.l:227-228
  (.seq (lit ".false.".toList) kindSuffix, .ret Tag.TK_FALSE_CONSTANT),
  (.seq (lit ".true.".toList) kindSuffix, .ret Tag.TK_TRUE_CONSTANT),
  -- scan_fort.l:231-236
  (charLit '"', .ret Tag.SG_CHAR_LITERAL_CONSTANT),
  (charLit '\'', .ret Tag.SG_CHAR_LITERAL_CONSTANT),
  -- scan_fort.l:267-271
  (.seq SIGNIFICAND (.seq (opt EXPONENT) kindSuffix), .begin .realParse),
  (.seq (plus DIGIT) (.seq EXPONENT kindSuffix), .begin .realParse),
  -- scan_fort.l:274
  (.seq (plus DIGIT) kindSuffix, .ret Tag.SG_INT_LITERAL_CONSTANT),
  -- scan_fort.l:279-284
  (.seq (lit ['.']) (.seq (plus (.cls isLetter)) (lit ['.'])), .ret Tag.TK_DEF_OP),
  (NAME, .ret Tag.TK_NAME),
  (oneOf [' ', '\t', '\r'], .skip),
  (dot, .ret Tag.UNKNOWN)]

def initialRules : List (RE × Act) :=
  keywords.map (fun k => (lit k.1.toList, .ret k.2)) ++
  symbols.map (fun k => (lit k.1.toList, .ret k.2)) ++ literalRules

/-- The rules of a start condition; the conditions are exclusive (`%x`). -/
def rules : Cond → List (RE × Act)
  | .initial => initialRules
  -- scan_fort.l:254-264
  | .realParse => [
      (SIGNIFICAND, .ret Tag.SG_SIGNIFICAND),
      (plus DIGIT, .ret Tag.SG_SIGNIFICAND),
      (EXPONENT, .push .expParse),
      (.seq (lit ['_']) KIND, .push .kindParse),
      (.cls (fun _ => true), .begin .initial)]
  -- scan_fort.l:239-242
  | .expParse => [
      (oneOf ['e', 'd'], .ret Tag.SG_EXPONENT_LETTER),
      (.seq (opt (oneOf ['-', '+'])) (plus DIGIT), .popRet Tag.SG_EXPONENT)]
  -- scan_fort.l:244-247
  | .kindParse => [
      (lit ['_'], .ret Tag.TK_UNDERSCORE),
      (KIND, .popRet Tag.SG_KIND_PARAM)]

/-- The state of the scanner that survives from one `yylex` call to the next. -/
structure State where
  cond : Cond := .initial
  stack : List Cond := []
  deriving DecidableEq, Repr

/-- A token as returned by `yylex`, with the value of `curr_line_pos` afterwards. -/
structure Lexeme where
  tag : Int
  text : Str
  stop : Nat
  deriving DecidableEq, Repr

/-- All `yylex` calls on one buffer: `pos` is `curr_line_pos`, the last argument is the rest of the
buffer.  `none`: the fuel did not suffice (excluded by `scan_terminates`).  When no rule matches,
flex copies one character to the output and goes on. -/
def scanGo : Nat → State → Nat → Str → Option (Res (List Lexeme × State))
  | 0, _, _, _ => none
  | _ + 1, st, _, [] => some (.ok ([], st))
  | fuel + 1, st, pos, c :: cs =>
    match pick (rules st.cond) (c :: cs) with
    | none => scanGo fuel st (pos + 1) cs
    | some (n, .skip) => scanGo fuel st (pos + n) ((c :: cs).drop n)
    | some (n, .ret t) =>
      match scanGo fuel st (pos + n) ((c :: cs).drop n) with
      | none => none
      | some (.error e) => some (.error e)
      | some (.ok (ls, st')) => some (.ok (⟨t, (c :: cs).take n, pos + n⟩ :: ls, st'))
    | some (n, .popRet t) =>
      match st.stack with
      | [] => some (.error .exc)
      | q :: qs =>
        match scanGo fuel ⟨q, qs⟩ (pos + n) ((c :: cs).drop n) with
        | none => none
        | some (.error e) => some (.error e)
        | some (.ok (ls, st')) => some (.ok (⟨t, (c :: cs).take n, pos + n⟩ :: ls, st'))
    | some (_, .begin q) => scanGo fuel { st with cond := q } pos (c :: cs)
    | some (_, .push q) => scanGo fuel ⟨q, st.cond :: st.stack⟩ pos (c :: cs)

/-- Number of rounds that always suffices. -/
def scanFuel (s : Str) : Nat := 4 * s.length + 4

/-- `yy_scan_string` and the `yylex` calls up to the end of the buffer.  The buffer ends at the first
NUL. -/
def scan (st : State) (text : Str) : Res (List Lexeme × State) :=
  let s := Smash.cStr text
  if s.all isAscii then
    match scanGo (scanFuel s) st 0 s with
    | some r => r
    | none => .error .ub
  else .error .ub

end FLPR.Flex
