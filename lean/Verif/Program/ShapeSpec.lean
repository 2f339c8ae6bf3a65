import Verif.Program.Eval
import Verif.StmtParser.ParserSpec
/-!
# Specification: the program trees of a grammar

What the trees of a parser term may look like, by itself: no state, no order of trying, no ranges.
-/

namespace FLPR
namespace Spec
open PP
open SP (R)

/-- A program tree without ranges: a statement, or a node with branches. -/
inductive Sh where
  | leaf (i : Nat) (tag : Int)
  | inner (tag : Int) (kids : List Sh)

mutual
/-- A program tree without its ranges. -/
def erase : PNode → Sh
  | .node t _ (some i) _ => .leaf i t
  | .node t _ none ks => .inner t (eraseAll ks)
/-- Some trees without their ranges. -/
def eraseAll : List PNode → List Sh
  | [] => []
  | k :: ks => erase k :: eraseAll ks
end

/-- The branches `f` put under a node with the tag `tag`, or left as they are for `HOIST`. -/
def under (tag : Int) (f : List Sh) : List Sh := if tag = Tag.HOIST then f else [.inner tag f]

/-- The terms that match whatever statements there are. -/
inductive Sure (g : PR → PBody) : T → Prop
  | star {p} : Sure g (.star p)
  | opt {p} : Sure g (.opt p)
  | optSeq {tag ps} : Sure g (.optSeq tag ps)
  | tagIf {tag p} : Sure g p → Sure g (.tagIf tag p)
  | seq {tag ps} : (∀ p ∈ ps, Sure g p) → Sure g (.seq tag ps)
  | comb {r p} : g r = .comb p → Sure g p → Sure g (.rule r)

/-- The terms that may match and have no tree. -/
inductive Bare (g : PR → PBody) : T → Prop
  | endStream : Bare g .endStream
  | opt {p} : Bare g (.opt p)
  | tagIf {tag p} : Bare g p → Bare g (.tagIf tag p)
  | comb {r p} : g r = .comb p → Bare g p → Bare g (.rule r)
  | exec {r p} : g r = .exec p → Bare g p → Bare g (.rule r)

mutual
/-- The branches that the term `p` may stand for.  `L r i tag` says that statement `i` is one that the
statement parser `r` matches, as `tag`. -/
inductive Derives (L : R → Nat → Int → Prop) (g : PR → PBody) : T → List Sh → Prop
  /-- one of the alternatives -/
  | alts {tag ps p f} : p ∈ ps → Derives L g p f → Derives L g (.alts tag ps) (under tag f)
  | endStream : Derives L g .endStream []
  /-- something optional is left out only if it might not match -/
  | optNo {p} : ¬ Sure g p → Derives L g (.opt p) []
  | opt {p f} : Derives L g p f → Derives L g (.opt p) f
  /-- the members of a sequence, up to any of them -/
  | optSeq {tag ps qs f} : DerivesSeq L g ps f → Derives L g (.optSeq tag (ps ++ qs)) (under tag f)
  /-- one or more -/
  | plus {tag p f f'} : Derives L g p f → DerivesRep L g p f' → Derives L g (.plus tag p) (under tag (f ++ f'))
  | seq {tag ps f} : DerivesSeq L g ps f → Derives L g (.seq tag ps) (under tag f)
  | seqIf {tag p ps f} : DerivesSeq L g (p :: ps) f → Derives L g (.seqIf tag p ps) (under tag f)
  | star {p f} : DerivesRep L g p f → Derives L g (.star p) f
  | stmt {r i tag} : L r i tag → Derives L g (.stmt r) [.leaf i tag]
  /-- a tag is given to something that is there -/
  | tagNo {tag p} : Bare g p → Derives L g p [] → Derives L g (.tagIf tag p) []
  | tagIf {tag p f} : Derives L g p f → Derives L g (.tagIf tag p) (under tag f)
  | comb {r p f} : g r = .comb p → Derives L g p f → Derives L g (.rule r) f
  | exec {r p f} : g r = .exec p → Derives L g p f → Derives L g (.rule r) f
  /-- a do with a last statement of its own kind -/
  | doEnd {r i j a b f} : g r = .legacyDo → L .do_stmt i a → DerivesRep L g (.rule .execution_part_construct) f →
      (L .end_do_stmt j b ∨ L .end_do j b) →
      Derives L g (.rule r) [.inner Tag.PG_DO_CONSTRUCT [.leaf i a, .inner Tag.PG_BLOCK f, .leaf j b]]
  /-- a do that ends with an action, which may be the last statement of other loops too -/
  | doAction {r i j a b f} {q : Int × Int} : g r = .legacyDo → L .do_stmt i a →
      DerivesRep L g (.rule .execution_part_construct) f → L .action_stmt j b →
      q ∈ [(Tag.PG_ACTION_TERM_DO_CONSTRUCT, Tag.PG_DO_TERM_ACTION_STMT), (Tag.PG_OUTER_SHARED_DO_CONSTRUCT, Tag.PG_DO_TERM_SHARED_STMT),
        (Tag.PG_INNER_SHARED_DO_CONSTRUCT, Tag.PG_DO_TERM_SHARED_STMT)] →
      Derives L g (.rule r) [.inner Tag.PG_NONBLOCK_DO_CONSTRUCT
        [.inner q.1 [.leaf i a, .inner Tag.PG_DO_BODY f, .inner q.2 [.leaf j b]]]]
/-- One after the other. -/
inductive DerivesSeq (L : R → Nat → Int → Prop) (g : PR → PBody) : List T → List Sh → Prop
  | nil : DerivesSeq L g [] []
  | cons {p ps f f'} : Derives L g p f → DerivesSeq L g ps f' → DerivesSeq L g (p :: ps) (f ++ f')
/-- Any number of times. -/
inductive DerivesRep (L : R → Nat → Int → Prop) (g : PR → PBody) : T → List Sh → Prop
  | nil {p} : DerivesRep L g p []
  | cons {p f f'} : Derives L g p f → DerivesRep L g p f' → DerivesRep L g p (f ++ f')
end

/-- The branches that a result stands for. -/
def branchesOf : Option PNode → List Sh
  | none => []
  | some t => if t.tag = Tag.HOIST then eraseAll t.kids else [erase t]

/-- Statement `i` of the list is one that the statement parser `r` matches, as `tag`. -/
def Matched (x : SP.Exts) (l : List LStmt) (r : R) (i : Nat) (tag : Int) : Prop :=
  ∃ st t q, l[i]? = some st ∧ Returns x r st.strm (.ok (some t, q)) ∧ t.tag = tag

end Spec
end FLPR
