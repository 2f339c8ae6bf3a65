import Verif.StmtParser.Stream
/-!
# Specification for moving over parentheses

Written without the stream functions: what it means for two parentheses of a token sequence to
belong together, by the grammar of balanced sequences.
-/

namespace FLPR
namespace Spec

/-- Balanced sequences over a set of opening and a set of closing symbols. -/
inductive Balanced (op cl : Int → Prop) : List Int → Prop where
  | nil : Balanced op cl []
  | other {t : Int} {ts : List Int} : ¬ op t → ¬ cl t → Balanced op cl ts → Balanced op cl (t :: ts)
  | group {o c : Int} {a b : List Int} : op o → cl c → Balanced op cl a → Balanced op cl b →
      Balanced op cl (o :: (a ++ c :: b))

/-- `(` -/
abbrev IsOpenParen (t : Int) : Prop := t = Tag.TK_PARENL
/-- `)` -/
abbrev IsCloseParen (t : Int) : Prop := t = Tag.TK_PARENR

/-- Balanced with respect to parentheses. -/
abbrev BalancedParens : List Int → Prop := Balanced IsOpenParen IsCloseParen

/-- The symbols at `i` and `j` of `l` are an opening parenthesis and the closing parenthesis that
belongs to it. -/
def ParenPair (l : List Int) (i j : Nat) : Prop :=
  ∃ pre mid post, l = pre ++ Tag.TK_PARENL :: (mid ++ Tag.TK_PARENR :: post) ∧
    i = pre.length ∧ j = pre.length + 1 + mid.length ∧ BalancedParens mid

/-- The tags of a stream's tokens. -/
def tagsOf (s : SP.Strm) : List Int := s.all.map (·.token)

/-- A stream as the constructors make it, and as it is used: its range lies within the tokens of the
line, its position within its range, and none of the tokens carries the tag that marks the end. -/
structure GoodStream (s : SP.Strm) : Prop where
  lo_pos : s.lo ≤ s.pos
  pos_hi : s.pos ≤ s.hi
  hi_len : s.hi ≤ s.all.length
  noBad : ∀ t ∈ s.all, t.token ≠ Tag.BAD

end Spec
end FLPR
