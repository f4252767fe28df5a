import Verif.Index.StripSpec
import Verif.Opf.RunModel
import Verif.Runpf.TableModel

/-!
# C135: the same outcome for the equipment in service
-/

namespace Verif.Opf

open Verif.Index (Stripped)

/-- The same outcome, and the same results for the equipment in service. -/
structure SameOn (r1 r2 : Ret) : Prop where
  success : r2.success = r1.success
  cost : r2.f = r1.f
  tol : r2.tol = r1.tol
  dual : r2.dual = r1.dual
  size : r2.size = r1.size
  tables : Stripped r1.tables r2.tables

end Verif.Opf

namespace Verif.Runpf

open Verif.Index (Stripped)

/-- The same outcome; either both tables contain NaN or both have the same results for the equipment in service. -/
structure SamePfOn (r1 r2 : PfRet) : Prop where
  success : r2.success = r1.success
  tables : Option.Rel Stripped r1.tables r2.tables

end Verif.Runpf
