import Verif.UnitOpf.Model
import Verif.Opf.RunSpec
import Verif.Opf.EconSpec

/-!
# Specification vocabulary for unit decommitment
-/

namespace Verif.UnitOpf

open Verif.Index (BusRow GenRow GenInService WF)
open Verif.Opf

/-- Generator `k` is reported with a positive multiplier on a positive lower limit. -/
def Binding (r : Ret) (k : ℕ) : Prop := ∃ g, r.tables.gen[k]? = some g ∧ 0 < g.data.MU_PMIN ∧ 0 < g.data.PMIN

/-- `t` is the result of the optimal power flow with a binding unit `k` of `r` shut down as well. -/
def Trial (opf : Index.Case Tables → Option Ret) (c : Index.Case Tables) (r : Ret) (k : ℕ) (t : Ret) : Prop := Binding r k ∧ opf (withOff c r k) = some t

/-- `r` is the best result after the units in `off` were shut down one after the other: the first is that of the case as given; each further one shuts down one more
unit, is successful and strictly cheaper than the one before, and the cheapest successful one of its stage. -/
inductive Best (opf : Index.Case Tables → Option Ret) (c : Index.Case Tables) : Finset ℕ → Ret → Prop where
  | start {r : Ret} : opf c = some r → Best opf c ∅ r
  | shut {off : Finset ℕ} {r t : Ret} {k : ℕ} : Best opf c off r → Trial opf c r k t → t.success = true → t.f < r.f →
      (∀ j t', Trial opf c r j t' → t'.success = true → t.f ≤ t'.f) → Best opf c (insert k off) t

/-- The tables `t` have the inputs of case `c`, except that the units in `off`, all of them in service and with a positive lower limit in `c`, have status zero. -/
structure Committed (c : Index.Case Tables) (off : Finset ℕ) (bus : List (BusRow BusD)) (gen : List (GenRow GenD)) : Prop where
  bus : bus.map busInput = c.bus.map busInput
  len : gen.length = c.gen.length
  gen : ∀ (i : ℕ) g, c.gen[i]? = some g → ∃ g', gen[i]? = some g' ∧ genInput g' = genInput (if i ∈ off then { g with status := 0 } else g)
  was : ∀ i ∈ off, ∃ g, c.gen[i]? = some g ∧ GenInService c g ∧ 0 < g.data.PMIN

/-- What the search relies on: an optimal power flow returns the rows in order with the input columns as given, and no multiplier on the lower limit of a generator out
of service. -/
structure Keeps (opf : Index.Case Tables → Option Ret) : Prop where
  bus : ∀ c r, WF c → opf c = some r → r.tables.bus.map busInput = c.bus.map busInput
  gen : ∀ c r, WF c → opf c = some r → r.tables.gen.map genInput = c.gen.map genInput
  mult : ∀ c r, WF c → opf c = some r → ∀ g ∈ r.tables.gen, ¬ GenInService r.tables g → g.data.MU_PMIN = 0

end Verif.UnitOpf
