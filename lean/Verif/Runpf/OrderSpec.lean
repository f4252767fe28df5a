import Verif.Runpf.TableSpec

/-! Specification of C132: tables with the same rows in another order. -/

namespace Verif.Runpf

open Verif.Index (GenInService)
open Verif.Opf (Tables)

/-- At most one generator in service at each bus. -/
def OnePerBus (c : Index.Case Tables) : Prop := c.gen.Pairwise fun g g' => GenInService c g → GenInService c g' → g.bus ≠ g'.bus

/-- The same rows in another order. -/
structure Reordered (c1 c2 : Index.Case Tables) : Prop where
  bus : c2.bus.Perm c1.bus
  gen : c2.gen.Perm c1.gen
  branch : c2.branch.Perm c1.branch

end Verif.Runpf
