import Verif.StmtParser.DesigStd
/-!
# Specification for C81: print, write, inquire and read statements
-/

namespace FLPR
namespace Spec
open SP

/-- The items of a list with commas. -/
inductive Listed : List (List Tok) → List Tok → Prop where
  | one (w : List Tok) : Listed [w] w
  | cons {its : List (List Tok)} {ts : List Tok} (w : List Tok) (c : Tok) : c.token = Tag.TK_COMMA → Listed its ts →
      Listed (w :: its) (w ++ c :: ts)

/-- Where the item begins with something in parentheses and goes on behind them, as in `(a + b)*c`, there is no
equals sign in these parentheses, unless in further ones.  No expression has one there. -/
def NoDoInFront (w : List Tok) : Prop :=
  ∀ o m c r, w = o :: (m ++ c :: r) → o.token = Tag.TK_PARENL → c.token = Tag.TK_PARENR → WellNested (m.map (·.token)) → r ≠ [] →
    ¬ ∃ a e b, m = a ++ e :: b ∧ WellNested (a.map (·.token)) ∧ e.token = Tag.TK_EQUAL

/-- The statement is `front` and a list of output items: expressions, or implied-do loops, which are anything in
parentheses. -/
def Outputs (front : Form) (its : List (List Tok)) (ts : List Tok) : Prop :=
  ∃ p l, ts = p ++ l ∧ front.Is p ∧ Listed its l ∧ ∀ w ∈ its, IsExpr (w.map (·.token))

/-- The last item is nothing but something in parentheses. -/
def LastInParens (its : List (List Tok)) : Prop := ∃ w, its.getLast? = some w ∧ IsGroup (w.map (·.token))

namespace Std
open Form

/-- R1215. -/
def format : Form := oneOf [expr, word Tag.TK_ASTERISK]

/-- R1212, R1211, R1230: the statement, its form without a list of output items, and the part in front of the
list. -/
def outputStmts : List (Int × Form × Form) :=
  [(Tag.SG_PRINT_STMT, seqs [word Tag.KW_PRINT, format], seqs [word Tag.KW_PRINT, format, comma]),
   (Tag.SG_WRITE_STMT, seqs [word Tag.KW_WRITE, group], seqs [word Tag.KW_WRITE, group]),
   (Tag.SG_INQUIRE_STMT, seqs [word Tag.KW_INQUIRE, group], seqs [word Tag.KW_INQUIRE, group])]

/-- R1210 up to the list of input items, which is something in parentheses or a format and a comma.  The format
is not something that begins with a parenthesis. -/
def ReadFront (ts : List Tok) : Prop :=
  (seqs [word Tag.KW_READ, group]).Is ts ∨
    ∃ a f c, ts = a :: (f ++ [c]) ∧ a.token = Tag.KW_READ ∧ c.token = Tag.TK_COMMA ∧ format.Is f ∧ (f.head?.map (·.token)) ≠ some Tag.TK_PARENL

end Std
end Spec
end FLPR
