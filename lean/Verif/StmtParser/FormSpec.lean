import Verif.StmtParser.TreeSpec
/-!
# Specification of statement forms

The forms of statements as the Fortran standard writes them down: words in a fixed order, parts that
may be left out, choices, lists.  `Form.Is` is the usual language of such a form; nothing in it looks
ahead or prefers one choice to another.
-/

namespace FLPR
namespace Spec
open SP

/-- A token that may be a name: a name, or a keyword, as Fortran has no reserved words. -/
def NameTag (t : Int) : Prop := t = Tag.TK_NAME ∨ (Tag.KW_000_LB < t ∧ t < Tag.KW_ZZZ_UB)

instance (t : Int) : Decidable (NameTag t) := by unfold NameTag; infer_instance

/-- Tags in properly nested groups, with no comma, colon or equals sign outside of them. -/
inductive Unbroken : List Int → Prop where
  | nil : Unbroken []
  | plain {t : Int} {ts : List Int} : Plain t → t ≠ Tag.TK_COMMA → t ≠ Tag.TK_COLON →
      t ≠ Tag.TK_EQUAL → Unbroken ts → Unbroken (t :: ts)
  | paren {a b : List Int} : WellNested a → Unbroken b →
      Unbroken (Tag.TK_PARENL :: (a ++ Tag.TK_PARENR :: b))
  | bracket {a b : List Int} : WellNested a → Unbroken b →
      Unbroken (Tag.TK_BRACKETL :: (a ++ Tag.TK_BRACKETR :: b))

/-- What counts as an expression: at least one token, the first one neither `*` nor `/`, and no comma,
colon or equals sign outside of parentheses and brackets.  The parsers do not look further into
expressions. -/
def IsExpr (ts : List Int) : Prop :=
  Unbroken ts ∧ ∃ t r, ts = t :: r ∧ t ≠ Tag.TK_ASTERISK ∧ t ≠ Tag.TK_SLASHF

/-- Anything in one pair of parentheses. -/
def IsGroup (ts : List Int) : Prop :=
  ∃ a, WellNested a ∧ ts = Tag.TK_PARENL :: (a ++ [Tag.TK_PARENR])

/-- The forms. -/
inductive Form where
  /-- nothing -/
  | empty
  /-- no statement at all -/
  | never
  /-- a token with this tag -/
  | word (tag : Int)
  /-- a name -/
  | name
  /-- a name other than these keywords -/
  | nameBut (ex : List Int)
  /-- a name of one letter -/
  | letter
  /-- the name with this spelling, in upper or lower case -/
  | spelled (w : Str)
  /-- an expression -/
  | expr
  /-- anything in parentheses -/
  | group
  /-- one after the other -/
  | seq (a b : Form)
  /-- one or the other -/
  | alt (a b : Form)
  /-- any number of times -/
  | star (a : Form)
  deriving DecidableEq, Repr

namespace Form

/-- The token lists of a form. -/
def Is : Form → List Tok → Prop
  | empty, w => w = []
  | never, _ => False
  | word t, w => ∃ a, w = [a] ∧ a.token = t
  | name, w => ∃ a, w = [a] ∧ NameTag a.token
  | nameBut ex, w => ∃ a, w = [a] ∧ NameTag a.token ∧ a.token ∉ ex
  | letter, w => ∃ a, w = [a] ∧ NameTag a.token ∧ a.text.length = 1
  | spelled s, w => ∃ a, w = [a] ∧ NameTag a.token ∧ a.lowerText.1 = s.map lowChar
  | expr, w => IsExpr (w.map (·.token))
  | group, w => IsGroup (w.map (·.token))
  | seq a b, w => ∃ u v, w = u ++ v ∧ a.Is u ∧ b.Is v
  | alt a b, w => a.Is w ∨ b.Is w
  | star a, w => ∃ ps : List (List Tok), w = ps.flatten ∧ ∀ q ∈ ps, q ≠ [] ∧ a.Is q

/-- Something that may be left out. -/
def opt (a : Form) : Form := alt a empty

/-- Several forms one after the other. -/
def seqs : List Form → Form
  | [] => empty
  | a :: as => seq a (seqs as)

/-- One of several forms. -/
def oneOf : List Form → Form
  | [] => never
  | a :: as => alt a (oneOf as)

/-- A list with commas: one or more. -/
def list (a : Form) : Form := seq a (star (seq (word Tag.TK_COMMA) a))

/-- In parentheses. -/
def paren (a : Form) : Form := seqs [word Tag.TK_PARENL, a, word Tag.TK_PARENR]

/-- In brackets. -/
def bracket (a : Form) : Form := seqs [word Tag.TK_BRACKETL, a, word Tag.TK_BRACKETR]

end Form

/-- The tokens of the statement that are still to be read. -/
def restOf (s : Strm) : List Tok := (s.all.take s.hi).drop s.pos

end Spec
end FLPR
