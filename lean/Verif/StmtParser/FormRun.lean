import Verif.StmtParser.FormSpec
import Verif.StmtParser.CoverMain
/-!
# Parser terms as functions on lists of tokens

A parser term that does not involve `procedure_designator` or the extensions is turned into a form
with peeks (`toForm`); `run` is what such a form does with a list of tokens.  That the parsers do the
same is `eval_run`.
-/

namespace FLPR
namespace SP
open Spec

/-- Forms with the parts that only look. -/
inductive PForm where
  | eps
  | never
  | tok (t : Int)
  | name
  | letter
  | spelled (w : Str)
  | expr
  | group
  | listName
  | seq (a b : PForm)
  | alt (a b : PForm)
  | star (a : PForm)
  | peek (t : Int)
  | notPeek (t : Int)
  deriving DecidableEq, Repr

namespace PForm

/-- The tag a stream on these tokens shows. -/
def headTag : List Tok → Int
  | [] => Tag.BAD
  | a :: _ => a.token

/-- How many tokens `consume_until_break` takes; `none` when it fails. -/
def scanN : List Int → Int → Option Nat
  | [], _ => some 0
  | t :: ts, d =>
    match breakStep t d with
    | .stop => some 0
    | .fail => none
    | .take d' => (scanN ts d').map (· + 1)

/-- How many tokens the loop of `consume_parens` takes. -/
def scanP : List Int → Nat → Nat
  | _, 0 => 0
  | [], _ => 0
  | t :: ts, d + 1 =>
    (if t = Tag.TK_PARENL then scanP ts (d + 2) else if t = Tag.TK_PARENR then scanP ts d
      else scanP ts (d + 1)) + 1

def runExprL (ts : List Tok) : Option (List Tok) :=
  if headTag ts = Tag.TK_ASTERISK ∨ headTag ts = Tag.TK_SLASHF then none
  else
    match scanN (ts.map (·.token)) 1 with
    | none => none
    | some 0 => none
    | some (n + 1) => some (ts.drop (n + 1))

def runGroupL : List Tok → Option (List Tok)
  | [] => none
  | a :: ts => if a.token = Tag.TK_PARENL then some (ts.drop (scanP (ts.map (·.token)) 1)) else none

/-- One token that meets a condition. -/
def take1 (q : Tok → Bool) : List Tok → Option (List Tok)
  | [] => none
  | a :: ts => if q a then some ts else none

/-- Tags that may follow a `list_name`. -/
def afterName : List Int := [Tag.BAD, Tag.TK_ARROW, Tag.TK_COLON, Tag.TK_COMMA, Tag.TK_PARENR]

/-- Again and again, as long as it matches and something is taken. -/
def starL (f : List Tok → Option (List Tok)) : Nat → List Tok → List Tok
  | 0, ts => ts
  | n + 1, ts =>
    match f ts with
    | none => ts
    | some r => if r.length < ts.length then starL f n r else ts

/-- What is left over, or `none` for no match. -/
def run : PForm → List Tok → Option (List Tok)
  | eps, ts => some ts
  | never, _ => none
  | tok t, ts => take1 (fun a => a.token == t) ts
  | name, ts => take1 (fun a => decide (NameTag a.token)) ts
  | letter, ts => take1 (fun a => decide (NameTag a.token) && a.text.length == 1) ts
  | spelled w, ts => take1 (fun a => decide (NameTag a.token) && a.lowerText.1 == w.map lowChar) ts
  | expr, ts => runExprL ts
  | group, ts => runGroupL ts
  | listName, ts => (take1 (fun a => decide (NameTag a.token)) ts).bind
      (fun r => if afterName.contains (headTag r) then some r else none)
  | seq a b, ts => (run a ts).bind (run b)
  | alt a b, ts =>
    match run a ts with
    | some r => some r
    | none => run b ts
  | star a, ts => some (starL (run a) ts.length ts)
  | peek t, ts => if headTag ts = t then some ts else none
  | notPeek t, ts => if headTag ts = t then none else some ts

def seqs : List PForm → PForm
  | [] => eps
  | a :: as => seq a (seqs as)

def alts : List PForm → PForm
  | [] => never
  | a :: as => alt a (alts as)

end PForm

/-- Some forms, all of them there. -/
def formsOf (f : P → Option PForm) : List P → Option (List PForm)
  | [] => some []
  | p :: ps => (f p).bind (fun a => (formsOf f ps).map (a :: ·))

/-- A match of the term comes with a tree, no match without. -/
def P.withTree : P → Bool
  | .opt _ => false
  | .neg _ => false
  | .peek _ => false
  | .tagIf _ p => p.withTree
  | _ => true

/-- A parser term as a form, rules replaced by their bodies in the grammar. -/
def toFormG (g : R → Body) : Nat → P → Option PForm
  | 0, _ => none
  | k + 1, p =>
    match p with
    | .alts _ ps => (formsOf (toFormG g k) ps).map PForm.alts
    | .letter => some .letter
    | .literal w => some (.spelled w)
    | .name => some .name
    | .neg (.peek t) => some (.notPeek t)
    | .neg _ => none
    | .opt p => (toFormG g k p).map (fun a => .alt a .eps)
    | .peek t => some (.peek t)
    | .rule r =>
      match g r with
      | .comb q => if q.withTree then toFormG g k q else none
      | .expr _ _ => some .expr
      | .parens => some .group
      | .listName => some .listName
      | _ => none
    | .seq _ ps => (formsOf (toFormG g k) ps).map PForm.seqs
    | .star p => (toFormG g k p).map .star
    | .tagIf _ p => toFormG g k p
    | .tok t => if t = Tag.BAD then none else some (.tok t)

/-- The same for the grammar of the code. -/
abbrev toForm : Nat → P → Option PForm := toFormG R.body

end SP
end FLPR
