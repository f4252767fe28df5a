import Verif.Index.NameSpec
import Verif.Opf.RunModel
import Verif.Runpf.TableModel
import Mathlib.Data.Option.Defs

/-! Specification for C131: the same results for buses with other numbers. -/

namespace Verif.Opf

open Verif.Index (Renamed)

/-- The same outcome and the same results for the renamed buses. -/
structure SameRet (f : ℕ → ℕ) (r1 r2 : Ret) : Prop where
  success : r2.success = r1.success
  cost : r2.f = r1.f
  tol : r2.tol = r1.tol
  dual : r2.dual = r1.dual
  size : r2.size = r1.size
  tables : Renamed f r1.tables r2.tables

end Verif.Opf

namespace Verif.Runpf

open Verif.Index (Renamed)

/-- The same outcome; either both tables contain NaN or both are the same for the renamed buses. -/
structure SamePf (f : ℕ → ℕ) (r1 r2 : PfRet) : Prop where
  success : r2.success = r1.success
  tables : Option.Rel (Renamed f) r1.tables r2.tables

end Verif.Runpf
