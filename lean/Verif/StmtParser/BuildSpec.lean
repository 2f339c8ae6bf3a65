import Verif.StmtParser.TreeSpec
import Verif.StmtParser.FormSpec
/-!
# Specification: the statement trees of a grammar

What the trees of a parser term may look like, by the tokens of the line: no stream, no order of trying, no hoisting.
-/

namespace FLPR
namespace Spec
open SP

/-- The branches `f` under a node with the tag `tag`, or as they are for `HOIST`. -/
def putUnder (tag : Int) (r : Rng) (f : List SNode) : List SNode := if tag = Tag.HOIST then f else [.node tag r f]

/-- The branches that a tree stands for. -/
def spread : Option SNode → List SNode
  | none => []
  | some t => if t.tag = Tag.HOIST then t.kids else [t]

/-- A leaf for token `i`. -/
def leafAt (t : Int) (i : Nat) : SNode := .node t (some (i, i + 1)) []

/-- `t` is a tree that one of the registered extensions gave. -/
def FromExt (x : Exts) (action : Bool) (t : SNode) : Prop :=
  ∃ e ∈ (if action then x.action else x.other), ∃ s q, e s = .ok (some t, q)

/-- The tag of the node that a tree from an extension is put under. -/
def extTag (action : Bool) : Int := if action then Tag.SG_ACTION_STMT else Tag.SG_OTHER_SPECIFICATION_STMT

mutual
/-- The branches that a match of the term `p` may stand for, in a line with the tokens `toks`. -/
inductive Builds (toks : List Tok) (x : Exts) (g : R → Body) : P → List SNode → Prop
  /-- one of the alternatives -/
  | alts {tag ps p f r} : p ∈ ps → Builds toks x g p f → Builds toks x g (.alts tag ps) (putUnder tag r f)
  | tok {t i a} : toks[i]? = some a → a.token = t → Builds toks x g (.tok t) [leafAt t i]
  | name {i a} : toks[i]? = some a → NameTag a.token → Builds toks x g .name [leafAt Tag.TK_NAME i]
  | letter {i a} : toks[i]? = some a → NameTag a.token → a.text.length = 1 → Builds toks x g .letter [leafAt Tag.TK_NAME i]
  | literal {w i a} : toks[i]? = some a → NameTag a.token → a.lowerText.1 = w.map lowChar →
      Builds toks x g (.literal w) [leafAt Tag.TK_NAME i]
  | neg {p} : Builds toks x g (.neg p) []
  | peek {t} : Builds toks x g (.peek t) []
  | optNo {p} : Builds toks x g (.opt p) []
  | opt {p f} : Builds toks x g p f → Builds toks x g (.opt p) f
  | seq {tag ps f r} : BuildsSeq toks x g ps f → Builds toks x g (.seq tag ps) (putUnder tag r f)
  | star {p f} : BuildsRep toks x g p f → Builds toks x g (.star p) f
  | tagIf {tag p f r} : Builds toks x g p f → Builds toks x g (.tagIf tag p) (putUnder tag r f)
  | comb {r p f} : g r = .comb p → Builds toks x g p f → Builds toks x g (.rule r) f
  /-- an expression is not looked into, apart from its real constants -/
  | expr {r tag real f rg} : g r = .expr tag real → f ≠ [] → BuildsExpr toks x g real f → Builds toks x g (.rule r) [.node tag rg f]
  /-- any tokens in parentheses -/
  | parens {r i j f a b} : g r = .parens → toks[i]? = some a → a.token = Tag.TK_PARENL → toks[j]? = some b → b.token = Tag.TK_PARENR →
      (∀ k ∈ f, ∃ l c, k = leafAt c.token l ∧ toks[l]? = some c) →
      Builds toks x g (.rule r) (leafAt Tag.TK_PARENL i :: (f ++ [leafAt Tag.TK_PARENR j]))
  | listName {r i a} : g r = .listName → toks[i]? = some a → NameTag a.token → Builds toks x g (.rule r) [leafAt Tag.TK_NAME i]
  | designator {r p f} : g r = .procDesignator p → Builds toks x g p f → Builds toks x g (.rule r) f
  | withExts {r a p f} : g r = .withExts a p → Builds toks x g p f → Builds toks x g (.rule r) f
  | ext {r a p t rg} : g r = .withExts a p → FromExt x a t → Builds toks x g (.rule r) [.node (extTag a) rg (spread (some t))]
/-- One after the other. -/
inductive BuildsSeq (toks : List Tok) (x : Exts) (g : R → Body) : List P → List SNode → Prop
  | nil : BuildsSeq toks x g [] []
  | cons {p ps f f'} : Builds toks x g p f → BuildsSeq toks x g ps f' → BuildsSeq toks x g (p :: ps) (f ++ f')
/-- Any number of times. -/
inductive BuildsRep (toks : List Tok) (x : Exts) (g : R → Body) : P → List SNode → Prop
  | nil {p} : BuildsRep toks x g p []
  | cons {p f f'} : Builds toks x g p f → BuildsRep toks x g p f' → BuildsRep toks x g p (f ++ f')
/-- Tokens and real constants. -/
inductive BuildsExpr (toks : List Tok) (x : Exts) (g : R → Body) : P → List SNode → Prop
  | nil {real} : BuildsExpr toks x g real []
  | tok {real f i a} : toks[i]? = some a → BuildsExpr toks x g real f → BuildsExpr toks x g real (leafAt a.token i :: f)
  /-- behind the end of a statement in which parentheses are left open -/
  | over {real f i} : BuildsExpr toks x g real f → BuildsExpr toks x g real (leafAt Tag.BAD i :: f)
  | real {real k f} : Builds toks x g real [k] → BuildsExpr toks x g real f → BuildsExpr toks x g real (k :: f)
end

end Spec
end FLPR
