import Verif.Case.Spec
import Verif.ParsedFile.Model
/-!
# Specification: files read that differ in the case of letters only (C76)
-/

namespace FLPR
namespace Spec
open PF PP

/-- Files read that agree in everything but the case of the letters of their lines. -/
structure CaseFile (pf pf' : PFile) : Prop where
  rest : pf' = { pf with lines := pf'.lines }
  lines : List.Forall₂ CaseLLine pf.lines pf'.lines

end Spec
end FLPR
