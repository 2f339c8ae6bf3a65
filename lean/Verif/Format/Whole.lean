import Verif.Format.Model
import Verif.LogicalFile.Convert
import Verif.ParsedFile.Model
/-!
# Model of `flpr-format` as a whole (apps/flpr_format_base.cc:36-118, apps/flpr-format.cc:26-66)

A file on disk is its name and its list of lines, or `none` if it cannot be opened.  Messages and timing are left
out.  `elaborate_end_stmts` (flpr_format_base.cc:190-194) is never called.
-/

namespace FLPR
namespace FlprFormat
open PF PP

/-- The lines after the filters that work on lines, and `do_write`: flpr_format_base.cc:46-68.  (`splitCompound`
has a bound on its loop, which suffices by `C71_split_returns`.) -/
def filterLines (o : Options) (lines : List LLine) : Res (List LLine × Bool) := do
  let a : List LLine × Bool ← (if o.fixedToFree then convertFile lines else .ok (lines, false) : Res (List LLine × Bool))
  let b : List LLine × Bool ← (if o.removeEmpty && !o.splitCompound then removeEmptyStmts a.1 else .ok (a.1, false) : Res (List LLine × Bool))
  let c : List LLine × Bool ← (if o.splitCompound then do
      match ← splitCompound b.1 with
      | none => .error .ub
      | some r => .ok r
    else .ok (b.1, false) : Res (List LLine × Bool))
  .ok (c.1, a.2 || b.2 || c.2)

/-- flpr_format_base.cc:36-118 `flpr_format_file`: the value returned, and the lines written to the standard output,
`none` if nothing is written. -/
def formatFile (parse : PState → Res POut) (o : Options) (tab : Ind.Table) (pf : PFile) : Res (Int × Option (List Str)) :=
  if pf.good = false then .ok (0, none)
  else do
    let a ← filterLines o pf.lines
    let p1 ← ({ pf with lines := a.1 } : PFile).prefetchStmts
    let p2 ← p1.prefetchTree parse
    let d : Bool × PFile ← (if o.reindent then p2.indent parse tab else .ok (false, p2) : Res (Bool × PFile))
    let w ← o.writes (a.2 || d.1)
    .ok (0, if w && !o.writeInplace then some (fileText d.2.lines) else none)

/-- flpr-format.cc:53-60: the table for the next file, `tab` being the one of the file before. -/
def nextTable (o : Options) (fixed : Bool) (tab : Ind.Table) : Res Ind.Table :=
  if fixed && !o.fixedToFree then do
    let t ← tab.fixed 4
    .ok { t with continued := 5 }
  else tab.emacs

/-- Logical_File.hh:64-69 `is_fixed_format`, of a file that has been read. -/
def isFixed (disk : Option (List Str)) (name : Str) : Bool :=
  disk.isSome && (match fileInfoType name .unknown with | .ok t => t == .fixedfmt | _ => false)

/-- flpr-format.cc:48-64: one file. -/
def formatOne (parse : PState → Res POut) (o : Options) (st : Flex.State) (tab : Ind.Table) (name : Str) (disk : Option (List Str)) :
    Res ((Int × Option (List Str)) × Flex.State × Ind.Table) := do
  let r ← PFile.readFile st {} disk name (if o.col72 then 72 else 0) .unknown
  let t ← nextTable o (isFixed disk name) tab
  let w ← formatFile parse o t r.2.1
  .ok (w, r.2.2, t)

/-- flpr-format.cc:47-65: all files. -/
def formatAll (parse : PState → Res POut) (o : Options) : Flex.State → Ind.Table → List (Str × Option (List Str)) →
    Res (List (Int × Option (List Str)))
  | _, _, [] => .ok []
  | st, tab, f :: fs => do
    let r ← formatOne parse o st tab f.1 f.2
    let rs ← formatAll parse o r.2.1 r.2.2 fs
    .ok (r.1 :: rs)

end FlprFormat
end FLPR
