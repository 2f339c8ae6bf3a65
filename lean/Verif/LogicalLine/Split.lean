import Verif.LogicalLine.Edit
import Verif.Indent.Model
/-!
# Model of `Logical_Line::split_after`
-/

namespace FLPR

/-- Logical_Line.cc:508-512: the tokens in front of `lr_end` and those from it on.  The members read
are uninitialised for the first half of a fused keyword. -/
def takeOnLine (line : Int) : List Tok → Res (List Tok × List Tok)
  | [] => .ok ([], [])
  | t :: ts =>
    match t.span with
    | none => .error .ub
    | some s =>
      if s.bl = line then do
        let r ← takeOnLine line ts
        .ok (t :: r.1, r.2)
      else .ok ([], t :: ts)

/-- Logical_Line.cc:514-517: the semicolons that are passed over by `lr_beg`, and the tokens from
`lr_beg` to `lr_end`. -/
def dropSemis (ts : List Tok) : List Tok := ts.dropWhile Tok.isSemi

/-- `s.assign(n, ' ')`: a negative `int` becomes a huge `size_t`, which is too long. -/
def assignBlanks (n : Int) : Res Str := if n < 0 then .error .exc else .ok (blanks n.toNat)

/-- Logical_Line.cc:528-544: the source line, `ec` being the end column of the token.  The size of the
space is computed in `size_t`; if the column is behind both texts it is huge. -/
def splitSource (f : FileLine) (ec : Int) : Res FileLine := do
  let rs ← (if f.right_txt = [] then .ok f.right_space
    else if ec < 0 then .error .exc
    else assignBlanks ((f.right_space.length : Int) + f.main_txt.length - ec) : Res Str)
  if 0 ≤ ec ∧ ec.toNat ≤ f.main_txt.length then
    .ok ({ f with right_space := rs, main_txt := f.main_txt.take ec.toNat } : FileLine).makeUncontinued
  else .error .exc

/-- Logical_Line.cc:547-567: the new line, `bc` being the first column of the remainder and `left` the
number of spaces.  `erase(0, n)` with a negative `n` erases everything. -/
def splitNew (f : FileLine) (bc left : Int) : Res FileLine := do
  let m := if bc < 0 then [] else f.main_txt.drop bc.toNat
  let g ← (if f.bits.continued then do
      let rs ← assignBlanks bc
      .ok { f with main_txt := m, right_txt := ['&'], right_space := rs, left_txt := [] }
    else .ok { f with main_txt := m, right_txt := [], right_space := [], left_txt := [] } : Res FileLine)
  let r ← Ind.setLeading g left
  .ok r.1

/-- Logical_Line.cc:570-575: one of the tokens from `lr_beg` to `lr_end`. -/
def Tok.shiftCol (off : Int) (t : Tok) : Tok := { t with span := t.span.map (·.shift (-off)) }

/-- Logical_Line.cc:578-581, 624-627: one token is moved down `d` lines. -/
def Tok.shiftLine (d : Int) (t : Tok) : Tok :=
  { t with span := t.span.map (fun s => { s with bl := s.bl + d, el := s.el + d }) }

/-- Logical_Line.cc:592-602: the lines behind the split line when no token is left on it. -/
def splitFollow (left : Int) : List FileLine → Res (List FileLine)
  | [] => .ok []
  | f :: fs =>
    if f.isTrivial then do
      let f' ← (if f.left_txt = [] then do
          let ls ← assignBlanks left
          .ok { f with left_space := ls }
        else .ok f : Res FileLine)
      let r ← splitFollow left fs
      .ok (f' :: r)
    else do
      let r ← Ind.setLeading { f with left_txt := [] } left
      .ok (r.1 :: fs)

/-- The outcome of `split_after`: what it returns, the line itself, and `new_ll`. -/
abbrev SplitResult := Bool × LLine × LLine

/-- Logical_Line.cc:605-635: from `if (export_beg == layout_.end())` on; `kept` are the lines up to the
split line, `exported` those from `export_beg` on, and `rest` the tokens from `lr_beg` on. -/
def splitFinish (l : LLine) (i : Nat) (kept exported : List FileLine) (rest : List Tok) (new : LLine) :
    Res SplitResult :=
  if exported = [] then .ok (false, { l with layout := kept }, new)
  else
    match rest.head? with
    | none => .error .ub
    | some t =>
      match t.span with
      | none => .error .ub
      | some s =>
        .ok (true,
          { l with layout := kept, frags := l.frags.take (i + 1), semis := -1, stmts := [] },
          { layout := exported, frags := rest.map (·.shiftLine (-s.bl)) })

/-- Logical_Line.cc:499-636 `split_after`; the iterator is the position `i`, the end of the tokens being
their number.  `fragments_` and `layout_` are not indexed before the position has been used, the index
into `layout_` is undefined outside of its range. -/
def LLine.splitAfter (l : LLine) (i : Nat) (new : LLine) : Res SplitResult :=
  if i = l.frags.length then .ok (false, l, new)
  else
    match l.frags[i]? with
    | none => .error .ub
    | some t =>
      match t.span with
      | none => .error .ub
      | some s =>
        if ¬ s.el < (l.frags.length : Int) then .error .assertion
        else
          match l.layout[0]? with
          | none => .error .ub
          | some f0 => do
            let left := (f0.mainFirstCol : Int) - 1
            let r ← takeOnLine s.el (l.frags.drop (i + 1))
            let here := dropSemis r.1
            if s.el < 0 then .error .ub
            else
              match l.layout[s.el.toNat]? with
              | none => .error .ub
              | some f =>
                let before := l.layout.take s.el.toNat
                let behind := l.layout.drop (s.el.toNat + 1)
                match here with
                | [] => do
                  let fs ← splitFollow left behind
                  splitFinish l i (before ++ [f.makeUncontinued]) fs r.2 new
                | t1 :: _ =>
                  match t1.span with
                  | none => .error .ub
                  | some s1 => do
                    let f1 ← splitSource f s.ec
                    let f2 ← splitNew f s1.bc left
                    splitFinish l i (before ++ [f1]) (f2 :: behind)
                      ((here.map (·.shiftCol s1.bc) ++ r.2).map (·.shiftLine 1)) new

end FLPR
