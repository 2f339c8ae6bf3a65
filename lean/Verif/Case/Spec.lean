import Verif.StmtParser.AlikeSpec
import Verif.LogicalFile.StmtSrc
/-!
# Specification: files that differ in the case of letters only (C76)
-/

namespace FLPR
namespace Spec

/-- The same text but for the case of letters. -/
def SameLetters (a b : Str) : Prop := b.map lowChar = a.map lowChar

/-- Two versions of a raw line: the same, or without the mark of a directive and the same but for the case of letters. -/
def Respelled (a b : Str) : Prop := b = a ∨ (SameLetters a b ∧ ¬ "#flpr".toList <:+: a.map lowChar)

/-- Physical lines that agree in everything but the case of letters. -/
structure CaseLine (f f' : FileLine) : Prop where
  linenum : f'.linenum = f.linenum
  bits : f'.bits = f.bits
  delim : f'.open_delim = f.open_delim
  left_txt : SameLetters f.left_txt f'.left_txt
  left_space : SameLetters f.left_space f'.left_space
  main_txt : SameLetters f.main_txt f'.main_txt
  right_space : SameLetters f.right_space f'.right_space
  right_txt : SameLetters f.right_txt f'.right_txt

/-- Tokens that agree in everything but the case of letters: tag, line, column, place and spacing. -/
structure CaseTok (t t' : Tok) : Prop where
  rest : t' = { t with text := t'.text, lower := t'.lower }
  text : SameLetters t.text t'.text
  lower : t'.lower = t.lower

/-- Logical lines that agree in everything but the case of letters. -/
structure CaseLLine (l l' : LLine) : Prop where
  rest : l' = { l with layout := l'.layout, frags := l'.frags }
  layout : List.Forall₂ CaseLine l.layout l'.layout
  frags : List.Forall₂ CaseTok l.frags l'.frags

/-- The same for what the scan makes a logical line of. -/
structure CaseGroup (g g' : Group) : Prop where
  cat : g'.cat = g.cat
  reformat : g'.needs_reformat = g.needs_reformat
  layout : List.Forall₂ CaseLine g.layout g'.layout

end Spec
end FLPR
