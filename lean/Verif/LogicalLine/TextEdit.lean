import Verif.LogicalLine.Split
/-!
# Model of the functions of `Logical_Line` that change statement text and read the line again

`replace_main_text`, `erase_stmt_text_`, `replace_stmt_substr`, `insert_text_before`, `insert_text_after`,
`append_comment` and `set_label` (src/flpr/Logical_Line.cc).
-/

namespace FLPR

/-- `layout_[i]` with an `int`: undefined outside of the vector. -/
def lineAt (layout : List FileLine) (i : Int) : Res FileLine :=
  if i < 0 then .error .ub
  else
    match layout[i.toNat]? with
    | none => .error .ub
    | some f => .ok f

/-- Logical_Line.cc:478-481, 490-495: the assertions on the position and `main_txt.insert`, which throws if
the column is negative (converted to `size_t`). -/
def insertText (layout : List FileLine) (line col : Int) (new : Str) : Res (List FileLine) :=
  if ¬ line < (layout.length : Int) then .error .assertion
  else do
    let f ← lineAt layout line
    if ¬ col ≤ (f.main_txt.length : Int) then .error .assertion
    else do
      let m ← strReplace f.main_txt col 0 new
      .ok (layout.set line.toNat { f with main_txt := m })

/-- Logical_Line.cc:467-482 `insert_text_before`; the end of the tokens is their number.  `fragments_.back()` of
an empty list and uninitialised members are undefined. -/
def LLine.insertBefore (st : Flex.State) (l : LLine) (i : Nat) (new : Str) : Res (LLine × Flex.State) :=
  if i = l.frags.length then
    match l.frags.getLast? with
    | none => .error .ub
    | some t =>
      match t.span with
      | none => .error .ub
      | some s => do
        let lay ← insertText l.layout s.el s.ec new
        LLine.initFromLayout st { l with layout := lay }
  else
    match l.frags[i]? with
    | none => .error .ub
    | some t =>
      match t.span with
      | none => .error .ub
      | some s => do
        let lay ← insertText l.layout s.bl s.bc new
        LLine.initFromLayout st { l with layout := lay }

/-- Logical_Line.cc:485-496 `insert_text_after`. -/
def LLine.insertAfter (st : Flex.State) (l : LLine) (i : Nat) (new : Str) : Res (LLine × Flex.State) :=
  if i = l.frags.length then .error .assertion
  else
    match l.frags[i]? with
    | none => .error .ub
    | some t =>
      match t.span with
      | none => .error .ub
      | some s => do
        let lay ← insertText l.layout s.el s.ec new
        LLine.initFromLayout st { l with layout := lay }

/-- Logical_Line.cc:428-432: the lines between the first and the last one. -/
def eraseMid : List FileLine → Res (List FileLine)
  | [] => .ok []
  | f :: fs => do
    let f' ← (if f.isFortran then f.makeCommentOrBlank else .ok f : Res FileLine)
    let r ← eraseMid fs
    .ok (f' :: r)

/-- Logical_Line.cc:435-443: the columns from `sc` to `ec` of the last line. -/
def eraseLast (f : FileLine) (sc ec : Int) (multiline : Bool) : Res FileLine :=
  if ¬ sc ≤ ec then .error .assertion
  else if ¬ sc ≥ 0 then .error .assertion
  else if ¬ ec ≤ (f.main_txt.length : Int) then .error .assertion
  else do
    let m ← strReplace f.main_txt sc (ec - sc).toNat []
    match findFirstNotOf [' '] m with
    | some _ => .ok { f with main_txt := m }
    | none =>
      if multiline then ({ f with main_txt := [] } : FileLine).makeCommentOrBlank
      else .ok { f with main_txt := [] }

/-- Logical_Line.cc:445-450: the line is made not continued if it is the only one left of those touched. -/
def eraseUncontinue (f : FileLine) (touched : List FileLine) : FileLine :=
  if (touched.filter (·.isFortran)).length = 1 then f.makeUncontinued else f

/-- Logical_Line.cc:418-451 `erase_stmt_text_`. -/
def eraseText (layout : List FileLine) (sl sc el ec : Int) : Res (List FileLine) :=
  if ¬ sl ≤ el then .error .assertion
  else if ¬ sl ≥ 0 then .error .assertion
  else if ¬ el ≤ (layout.length : Int) then .error .assertion
  else do
    let f ← lineAt layout sl
    if ¬ f.isFortran then .error .assertion
    else if sl < el then do
      let g ← lineAt layout el
      if ¬ g.isFortran then .error .assertion
      else do
        let m ← strReplace f.main_txt sc f.main_txt.length []
        let f1 := { f with main_txt := m }
        let mid ← eraseMid ((layout.drop (sl.toNat + 1)).take (el.toNat - sl.toNat - 1))
        let g1 ← eraseLast g 0 ec true
        .ok (layout.take sl.toNat ++ eraseUncontinue f1 (f1 :: (mid ++ [g1])) :: (mid ++ g1 :: layout.drop (el.toNat + 1)))
    else do
      let f1 ← eraseLast f sc ec false
      .ok (layout.set sl.toNat (eraseUncontinue f1 [f1]))

/-- Logical_Line.cc:454-464 `replace_stmt_substr`; the range goes from position `i` up to `j`.  The front and the
back of an empty range fail an assertion. -/
def LLine.replaceSubstr (st : Flex.State) (l : LLine) (i j : Nat) (new : Str) : Res (LLine × Flex.State) :=
  if j ≤ i then .error .assertion
  else
    match l.frags[i]?, l.frags[j - 1]? with
    | some t, some u =>
      match t.span, u.span with
      | some s, some e => do
        let lay ← eraseText l.layout s.bl s.bc e.el e.ec
        let f ← lineAt lay s.bl
        let m ← strReplace f.main_txt s.bc 0 new
        LLine.initFromLayout st { l with layout := lay.set s.bl.toNat { f with main_txt := m } }
      | _, _ => .error .ub
    | _, _ => .error .ub

/-- Logical_Line.cc:386-393: the lines that are added, made of the last one. -/
def addedLine (ref : FileLine) : Res FileLine := do
  let f := { ref.makeContinued with left_txt := [], right_txt := [] }
  let r ← Ind.setLeading f ((ref.mainFirstCol : Int) - 1)
  .ok r.1

/-- Logical_Line.cc:395-399: the texts are put into the lines. -/
def putTexts : List FileLine → List Str → List FileLine
  | f :: fs, t :: ts => { f with main_txt := t } :: putTexts fs ts
  | fs, _ => fs

/-- A line of the layout is changed. -/
def changeLine (layout : List FileLine) (i : Nat) (g : FileLine → FileLine) : List FileLine :=
  match layout[i]? with
  | none => layout
  | some f => layout.set i (g f)

/-- Logical_Line.cc:360-415 `replace_main_text`.  All assertions on the lines together say that every line is a
Fortran line and that the last one is not continued, so `ref_line` is the last line; lines 409-411 are never
reached, because line 400 has asserted that there are at least as many texts as lines. -/
def LLine.replaceMain (st : Flex.State) (l : LLine) (new : List Str) : Res (LLine × Flex.State) :=
  if new = [] then .ok (l, st)
  else
    match l.layout.getLast? with
    | none => .error .assertion
    | some ref =>
      if l.isCompound then .error .assertion
      else if ¬ l.layout.all (·.isFortran) then .error .assertion
      else if ref.bits.continued then .error .assertion
      else do
        let lay ← (if l.layout.length < new.length then do
            let f ← addedLine ref
            .ok (l.layout ++ List.replicate (new.length - l.layout.length) f)
          else .ok l.layout : Res (List FileLine))
        let lay1 := putTexts lay new
        if ¬ l.layout.length - 1 < new.length then .error .assertion
        else
          let lay2 := if l.layout.length - 1 < new.length - 1
            then changeLine lay1 (l.layout.length - 1) (·.makeContinued) else lay1
          LLine.initFromLayout st { l with layout := changeLine lay2 (new.length - 1) (·.makeUncontinued) }

/-- Logical_Line.cc:809-829 `append_comment`; `layout_[0]` of an empty vector is undefined. -/
def LLine.appendComment (l : LLine) (text : Str) : Res LLine :=
  if text = [] then .ok l
  else
    match l.layout with
    | [] => .error .ub
    | f :: fs =>
      if f.right_txt = [] then
        let len : Int := (f.mainFirstCol : Int) + f.main_txt.length
        let c : Int := 2 + text.length
        let rs := if 72 - c > len then blanks (72 - c - len).toNat else blanks 4
        .ok { l with layout := { f with right_space := rs, right_txt := "! ".toList ++ text } :: fs }
      else if f.right_txt.contains '!' then
        .ok { l with layout := { f with right_txt := f.right_txt ++ " : ".toList ++ text } :: fs }
      else
        .ok { l with layout := { f with right_txt := f.right_txt ++ " ! ".toList ++ text } :: fs }

/-- Logical_Line.cc:742-748 `set_label`; what File_Line's `set_label` returns is not looked at. -/
def LLine.setLabel (l : LLine) (new : Int) : Res (LLine × Bool) :=
  if new = l.label then .ok (l, false)
  else
    match l.layout with
    | [] => .error .ub
    | f :: fs =>
      if new < 0 then .error .assertion
      else do
        let r ← f.setLabel new.toNat
        .ok ({ l with label := new, layout := r.1 :: fs }, true)

end FLPR
