import Verif.LogicalLine.Reformat
/-!
# Model of the filters of `flpr-format` (apps/flpr_format_base.{hh,cc})

The list of lines is changed in place while it is walked over; here it is taken apart and put together again.
-/

namespace FLPR
namespace FlprFormat

/-- flpr_format_base.cc:120-127 `remove_empty_stmts`. -/
def removeEmptyStmts : List LLine → Res (List LLine × Bool)
  | [] => .ok ([], false)
  | l :: ls => do
    let e : Bool ← (if l.hasFortran = false then l.hasEmptyStatements else .ok false : Res Bool)
    let r : LLine × Bool ← (if e = true then l.removeEmpty else .ok (l, false) : Res (LLine × Bool))
    let rest ← removeEmptyStmts ls
    .ok (r.1 :: rest.1, r.2 || rest.2)

/-- flpr_format_base.cc:132-182 `split_compound_stmts`: the loop from the current line on, with `cleanup_split`.  It
visits the same line again when it has split off a statement, so it is given a number of steps; `none` says that
they do not suffice. -/
def splitGo : Nat → Bool → List LLine → Res (Option (List LLine × Bool))
  | 0, _, _ => .ok none
  | _ + 1, _, [] => .ok (some ([], false))
  | n + 1, cleanup, l :: ls =>
    if l.hasFortran = false then do
      let r ← splitGo n cleanup ls
      .ok (r.map (fun r => (l :: r.1, r.2)))
    else
      match l.stmts with
      | r0 :: r1 :: _ => do
        let new ← ({ l with frags := (l.frags.take r0.2).drop r0.1 } : LLine).textFromFrags
        let r ← splitGo n true (({ l with frags := l.frags.drop r1.1 } : LLine).initStmts :: ls)
        .ok (r.map (fun r => (new.initStmts :: r.1, true)))
      | short =>
        if cleanup = true then
          match short with
          | [] => .error .ub
          | r0 :: _ => do
            let l' ← ({ l with frags := l.frags.take r0.2 } : LLine).textFromFrags
            let r ← splitGo n false ls
            .ok (r.map (fun r => (l' :: r.1, r.2)))
        else do
          let e ← l.hasEmptyStatements
          let c : LLine × Bool ← (if e = true then l.removeEmpty else .ok (l, false) : Res (LLine × Bool))
          let r ← splitGo n false ls
          .ok (r.map (fun r => (c.1 :: r.1, c.2 || r.2)))

/-- A number of steps that suffices. -/
def splitFuel (lines : List LLine) : Nat := (lines.map (fun l => l.stmts.length + 1)).sum + 1

def splitCompound (lines : List LLine) : Res (Option (List LLine × Bool)) := splitGo (splitFuel lines) false lines

/-- flpr_format_base.hh:21-70 `Options`; `doOutput = none`: the member has not been initialised. -/
structure Options where
  elaborate : Bool := false
  fixedToFree : Bool := false
  col72 : Bool := false
  reindent : Bool := false
  removeEmpty : Bool := false
  splitCompound : Bool := false
  writeInplace : Bool := false
  verbose : Bool := false
  doTiming : Bool := false
  quiet : Bool := false
  doOutput : Option Bool := none
  deriving DecidableEq, Repr

/-- flpr-format.cc:32-36: the options before the command line is read. -/
def Options.start : Options := { elaborate := true, removeEmpty := true, splitCompound := true }

/-- flpr_format_base.cc:216-251: one option letter; `none`: unknown. -/
def Options.letter (o : Options) (c : Char) : Option Options :=
  if c = 'c' then some { o with col72 := true }
  else if c = 'e' then some { o with elaborate := true }
  else if c = 'f' then some { o with fixedToFree := true }
  else if c = 'i' then some { o with reindent := true }
  else if c = 'o' then some { o with doOutput := some true }
  else if c = 'q' then some { o with quiet := true, verbose := false, doTiming := false, doOutput := some false }
  else if c = 't' then some { o with doTiming := true, verbose := true }
  else if c = 'v' then some { o with verbose := true }
  else none

/-- flpr_format_base.cc:212-263 `parse_cmd_line`, for the letters that `getopt` finds. -/
def Options.letters (o : Options) : List Char → Option Options
  | [] => some o
  | c :: cs => (o.letter c).bind (·.letters cs)

/-- flpr_format_base.cc:104: whether the file is written, `changed` being `do_write`. -/
def Options.writes (o : Options) (changed : Bool) : Res Bool :=
  match o.doOutput with
  | none => .error .ub
  | some b => .ok (b || (changed && !o.quiet))

end FlprFormat
end FLPR
