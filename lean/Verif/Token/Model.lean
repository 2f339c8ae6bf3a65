import Verif.Base
/-!
# Model of `Token_Text` (src/flpr/Token_Text.hh, Token_Text.cc)
-/

namespace FLPR

/-- Token_Text.hh:78-84: where the token is in the layout: line index and column in `main_txt` of
the first character, and of one past the last character. -/
structure Span where
  bl : Int
  bc : Int
  el : Int
  ec : Int
  deriving DecidableEq, Repr

/-- Token_Text.hh:37-92.  The constructors leave the position and spacing members uninitialised:
that is `none` here, and reading `none` is undefined behaviour. -/
structure Tok where
  token : Int
  line : Int
  pos : Int
  text : Str
  lower : Str := []
  span : Option Span := none
  pre : Option Int := none
  post : Option Int := none
  deriving DecidableEq, Repr

/-- Token_Text.cc:25-33 `lower()`: the value returned and the token afterwards.  The conversion goes
through `unsigned char`, so there is no undefined behaviour. -/
def Tok.lowerText (t : Tok) : Str × Tok :=
  if t.lower = [] then (t.text.map lowChar, { t with lower := t.text.map lowChar })
  else (t.lower, t)

/-- Token_Text.hh:53-56 `mod_text()`: clears the cache and hands out a reference to the text. -/
def Tok.modText (t : Tok) : Tok := { t with lower := [] }

/-- Assignment through a reference handed out by `mod_text()`. -/
def Tok.write (t : Tok) (s : Str) : Tok := { t with text := s }

/-- Reading an `int` member that may be uninitialised. -/
def getInt (o : Option Int) : Res Int :=
  match o with
  | some n => .ok n
  | none => .error .ub

/-- Token_Text.cc:41-54 `render`, as the text written. -/
def render : List Tok → Res Str
  | [] => .ok []
  | [t] => .ok t.text
  | t :: u :: ts => do
    let a ← getInt t.post
    let b ← getInt u.pre
    let r ← render (u :: ts)
    .ok (t.text ++ blanks (max a b).toNat ++ r)

end FLPR
