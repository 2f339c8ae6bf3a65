import Verif.StmtParser.Eval
import Verif.StmtParser.StreamSpec
/-!
# Specification for the trees that statement parsers build

`Covers` says, for a tree by itself, that it is a tree over the tokens `[b, e)` of a line: every
interior node covers its branches, one after the other, and every token is exactly one leaf.
-/

namespace FLPR
namespace Spec
open SP

/-- A token that neither opens nor closes a group. -/
def Plain (t : Int) : Prop :=
  t ≠ Tag.TK_PARENL ∧ t ≠ Tag.TK_PARENR ∧ t ≠ Tag.TK_BRACKETL ∧ t ≠ Tag.TK_BRACKETR

/-- Sequences in which parentheses and brackets come in properly nested pairs. -/
inductive WellNested : List Int → Prop where
  | nil : WellNested []
  | plain {t : Int} {ts : List Int} : Plain t → WellNested ts → WellNested (t :: ts)
  | paren {a b : List Int} : WellNested a → WellNested b →
      WellNested (Tag.TK_PARENL :: (a ++ Tag.TK_PARENR :: b))
  | bracket {a b : List Int} : WellNested a → WellNested b →
      WellNested (Tag.TK_BRACKETL :: (a ++ Tag.TK_BRACKETR :: b))

/-- The elements `[b, e)` of a list. -/
def tokSlice (l : List Int) (b e : Nat) : List Int := (l.drop b).take (e - b)

/-- A tag that the lexer can have given to a token: it is in the built-in table and is not one of
the two that have a meaning of their own in the parsers. -/
def LexerTag (t : Int) : Prop :=
  (∃ b, Registry.isName t = .ok b) ∧ t ≠ Tag.BAD ∧ t ≠ Tag.HOIST

/-- A stream over a statement with properly nested parentheses and brackets, or over a part of such
a statement that goes up to its end. -/
structure GoodStmt (s : Strm) : Prop where
  lo_pos : s.lo ≤ s.pos
  pos_hi : s.pos ≤ s.hi
  hi_len : s.hi ≤ s.all.length
  tags : ∀ t ∈ tagsOf s, LexerTag t
  nested : ∃ base ≤ s.lo, WellNested (tokSlice (tagsOf s) base s.hi)

/-- The tag of a leaf for a token: the token's own, or `TK_NAME` for a keyword taken as a name. -/
def LeafTag (l : List Int) (i : Nat) (t : Int) : Prop :=
  l[i]? = some t ∨ (t = Tag.TK_NAME ∧ ∃ u, l[i]? = some u ∧ Registry.isName u = .ok true)

/-- A token range is that of `[b, e)`. -/
def RangeIs (r : Rng) (b e : Nat) : Prop :=
  (b < e ∧ r = some (b, e)) ∨ (b = e ∧ r.isEmpty = true)

mutual
/-- The tree is one over the tokens `[b, e)`. -/
def Covers (l : List Int) : SNode → Nat → Nat → Prop
  | .node t r [], b, e =>
    (e = b + 1 ∧ r = some (b, e) ∧ LeafTag l b t) ∨ (e = b ∧ r.isEmpty = true)
  | .node _ r (k :: ks), b, e => RangeIs r b e ∧ CoversAll l (k :: ks) b e
/-- The trees, none of them still to be hoisted, are ones over consecutive pieces of `[b, e)`. -/
def CoversAll (l : List Int) : List SNode → Nat → Nat → Prop
  | [], b, e => b = e
  | k :: ks, b, e => k.tag ≠ Tag.HOIST ∧ ∃ m, Covers l k b m ∧ CoversAll l ks m e
end

/-- Registered extensions that keep the rules: on a good statement they return, and what they match
is a tree over the tokens that they took. -/
def GoodExts (x : Exts) : Prop :=
  ∀ e ∈ x.action ++ x.other, ∀ s, GoodStmt s → ∃ t q, e s = .ok (t, q) ∧
    ∀ n, t = some n → s.pos ≤ q ∧ q ≤ s.hi ∧ Covers (tagsOf s) n s.pos q

/-- The last token of the stream is a closing parenthesis. -/
def EndsInParen (s : Strm) : Prop := s.lo < s.hi ∧ (tagsOf s)[s.hi - 1]? = some Tag.TK_PARENR

end Spec
end FLPR
