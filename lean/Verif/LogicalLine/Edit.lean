import Verif.LogicalLine.Model
/-!
# Model of `Logical_Line::replace_fragment` and `remove_fragment`
-/

namespace FLPR

/-- `std::string::replace(pos, n, s)` and, with an empty `s`, `erase(pos, n)`: throws when the
position is past the end (a negative `int` becomes a huge `size_t`). -/
def strReplace (s : Str) (pos : Int) (n : Nat) (new : Str) : Res Str :=
  if 0 ≤ pos ∧ pos.toNat ≤ s.length then
    .ok (s.take pos.toNat ++ new ++ s.drop (pos.toNat + n))
  else .error .exc

/-- Token_Text.hh:91-93 `is_split_token_`. -/
def Span.isSplit (s : Span) : Bool := s.bl != s.el

/-- Logical_Line.cc:328-330, 350-352: the update of one following token. -/
def Span.shift (s : Span) (change : Int) : Span :=
  if s.isSplit then { s with bc := s.bc + change }
  else { s with bc := s.bc + change, ec := s.ec + change }

/-- Logical_Line.cc:325-331, 347-353: the loop over the following tokens.  The members read are
uninitialised for the first half of a fused keyword. -/
def shiftFrom (line change : Int) : List Tok → Res (List Tok)
  | [] => .ok []
  | t :: ts =>
    match t.span with
    | none => .error .ub
    | some s =>
      if s.bl = line then do
        let r ← shiftFrom line change ts
        .ok ({ t with span := some (s.shift change) } :: r)
      else .ok (t :: ts)

/-- Logical_Line.cc:319-322, 340-343: the text of the token is replaced in the layout.  `layout_` is a
`vector`, indexing it outside of its range is undefined. -/
def editLayout (layout : List FileLine) (s : Span) (n : Nat) (new : Str) : Res (List FileLine) :=
  if s.isSplit then .error .assertion
  else if s.bl < 0 then .error .ub
  else
    match layout[s.bl.toNat]? with
    | none => .error .ub
    | some f => do
      let m ← strReplace f.main_txt s.bc n new
      .ok (layout.set s.bl.toNat { f with main_txt := m })

/-- Logical_Line.cc:309-332 `replace_fragment`; the iterator is the position `i`.  The end column of
the token itself is not changed. -/
def LLine.replaceFragment (l : LLine) (i : Nat) (tag : Int) (new : Str) : Res LLine :=
  match l.frags[i]? with
  | none => .error .ub
  | some t =>
    match t.span with
    | none => .error .ub
    | some s => do
      let lay ← editLayout l.layout s t.text.length new
      let rest ← shiftFrom s.bl ((new.length : Int) - t.text.length) (l.frags.drop (i + 1))
      let t' := { t.modText.write new with token := tag }
      .ok { l with layout := lay, frags := l.frags.take i ++ t' :: rest }

/-- Logical_Line.cc:335-357 `remove_fragment`. -/
def LLine.removeFragment (l : LLine) (i : Nat) : Res LLine :=
  match l.frags[i]? with
  | none => .error .ub
  | some t =>
    match t.span with
    | none => .error .ub
    | some s => do
      let lay ← editLayout l.layout s t.text.length []
      let rest ← shiftFrom s.bl (-(t.text.length : Int)) (l.frags.drop (i + 1))
      .ok ({ l with layout := lay, frags := l.frags.take i ++ rest } : LLine).initStmts

/-- One edit of a history. -/
inductive Edit where
  | replace (i : Nat) (tag : Int) (new : Str)
  | remove (i : Nat)
  deriving DecidableEq

/-- The effect of an edit. -/
def LLine.edit (l : LLine) : Edit → Res LLine
  | .replace i tag new => l.replaceFragment i tag new
  | .remove i => l.removeFragment i

/-- The effect of a history of edits. -/
def LLine.edits (l : LLine) : List Edit → Res LLine
  | [] => .ok l
  | e :: es => do
    let l' ← l.edit e
    LLine.edits l' es

end FLPR
