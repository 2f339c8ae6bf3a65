import Verif.StmtParser.TreeSpec
/-!
# Specification of calling a statement parser

A call of a rule function has a result when it is the same however large a bound on the calls is
allowed.
-/

namespace FLPR
namespace Spec
open SP

/-- The call `r(ts)` on the stream `s` ends with `res`: the tree returned and the stream left behind,
or the way it fails. -/
def Returns (x : Exts) (r : R) (s : Strm) (res : Res (Option SNode × Strm)) : Prop :=
  ∃ N, ∀ n, N ≤ n → evalRule R.body x n r s = up res

/-- The same for `parse_stmt_dispatch(tag, ts)`. -/
def DispatchReturns (x : Exts) (tag : Int) (s : Strm) (res : Res (Option SNode × Strm)) : Prop :=
  ∃ N, ∀ n, N ≤ n → dispatch x n tag s = up res

/-- No extensions registered. -/
def noExts : Exts := ⟨[], []⟩

/-- Calls that change what is registered (Stmt_Parser_Exts.hh:37-41). -/
inductive ExtOp where
  | action (e : Ext)
  | other (e : Ext)
  | clear

/-- The calls since the last `clear`. -/
def sinceClear (ops : List ExtOp) : List ExtOp :=
  (ops.reverse.takeWhile (fun o => match o with | .clear => false | _ => true)).reverse

/-- The action statement extensions among some calls. -/
def actionsOf (ops : List ExtOp) : List Ext :=
  ops.filterMap (fun o => match o with | .action e => some e | _ => none)

/-- The other specification statement extensions among some calls. -/
def othersOf (ops : List ExtOp) : List Ext :=
  ops.filterMap (fun o => match o with | .other e => some e | _ => none)

/-- `e` is the first of `es` that matches on `s`, the ones before it having been called on `s` as well;
it returns the tree `t` and leaves the stream at `q`. -/
def FirstMatch (es : List Ext) (s : Strm) (t : SNode) (q : Nat) : Prop :=
  ∃ pre e post, es = pre ++ e :: post ∧ (∀ e' ∈ pre, ∃ q', e' s = .ok (none, q')) ∧ e s = .ok (some t, q)

/-- None of `es` matches on `s`. -/
def NoMatch (es : List Ext) (s : Strm) : Prop := ∀ e ∈ es, ∃ q, e s = .ok (none, q)

end Spec
end FLPR
