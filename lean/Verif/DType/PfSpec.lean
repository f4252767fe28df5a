import Verif.DType.Model
import Verif.Opf.RunModel

/-!
# Specification vocabulary for tables of whole numbers
-/

namespace Verif.DType

open Verif.Opf (Tables GenD)
open Verif.Index (GenRow)

/-- The values of the generator table an integer array can hold. -/
def WholeGens (c : Index.Case Tables) : Prop :=
  ∀ g ∈ c.gen, Whole g.data.PG ∧ Whole g.data.QG ∧ Whole g.data.QMAX ∧ Whole g.data.QMIN ∧ Whole g.data.VG ∧ Whole g.data.PMAX ∧ Whole g.data.PMIN

/-- A row with the fraction of its active output dropped. -/
noncomputable def truncPG (g : GenRow GenD) : GenRow GenD := { g with data := { g.data with PG := trunc g.data.PG } }

end Verif.DType
