import Verif.Opf.StartModel
import Verif.Opf.PriceSpec

/-!
# Specification: the same system, whatever operating point is stored in the case
-/

namespace Verif.Opf

open Verif.Index (BusRow GenRow BranchRow GenInService BranchInService)

noncomputable section

/-- What an optimal power flow may read of a bus row: everything but the stored voltage and multipliers; of a reference bus also the angle. -/
def busGiven (b : BusRow BusD) : BusRow BusD :=
  { busInput b with data := { (busInput b).data with VA := if b.typ = 3 then b.data.VA else 0 } }

/-- Two cases describe the same system: they differ at most in the operating point stored in them (voltages except the angles of reference buses, outputs, voltage set
points, flows), in multipliers and in the table of areas, which an optimal power flow does not use. -/
structure SameSystem (c1 c2 : Index.Case Tables) : Prop where
  bus : c1.bus.map busGiven = c2.bus.map busGiven
  gen : c1.gen.map genInput = c2.gen.map genInput
  branch : c1.branch.map branchInput = c2.branch.map branchInput
  gencost : c1.gencost = c2.gencost
  A : c1.A = c2.A
  N : c1.N = c2.N

/-- The same for the tables as the formulation reads them: the same data, but for stored voltages (except the angles of reference buses) and outputs. -/
structure SameCase {nb ng nl : ℕ} (d1 d2 : Case nb ng nl) : Prop where
  rest : d2 = { d1 with va := d2.va, vm := d2.vm, gen := d2.gen }
  va : ∀ k, d1.isRef k = true → d2.va k = d1.va k
  gen : ∀ k, (d2.gen k).bus = (d1.gen k).bus ∧ (d2.gen k).stat = (d1.gen k).stat

/-- The cost data of an AC run and what it adds to the formulation beyond curves and angle limits are taken from the description of the system, not from the operating
point stored in the case. -/
structure InputsOnly (K : Curves) : Prop where
  cost : ∀ c1 c2, SameSystem c1 c2 → K.cost c1 = K.cost c2
  more : ∀ {nb ng nl : ℕ} (d1 d2 : Case nb ng nl) c1 c2, SameCase d1 d2 → SameSystem c1 c2 → K.more d1 c1 = K.more d2 c2

/-- Branch rows with the same results; the multipliers of angle limits only if `ang`. -/
def SameBranch (ang : Prop) (l1 l2 : BranchRow BrD) : Prop :=
  l1 = { l2 with data := { l2.data with MU_ANGMIN := l1.data.MU_ANGMIN, MU_ANGMAX := l1.data.MU_ANGMAX } } ∧ (ang → l1 = l2)

/-- The results of two runs agree: the outcome, the cost, and the rows in service in the sense of `sb` and `sg`; multipliers of angle limits if one is imposed and the run
succeeded (otherwise the columns are left alone). -/
structure SameResults (sb : BusRow BusD → BusRow BusD → Prop) (sg : GenRow GenD → GenRow GenD → Prop) (E : Econ) (r1 r2 : Ret) : Prop where
  success : r1.success = r2.success
  f : r1.f = r2.f
  tol : r1.tol = r2.tol
  dual : r1.dual = r2.dual
  size : r1.size = r2.size
  busLen : r1.tables.bus.length = r2.tables.bus.length
  genLen : r1.tables.gen.length = r2.tables.gen.length
  brLen : r1.tables.branch.length = r2.tables.branch.length
  bus : ∀ (i : ℕ) b1 b2, r1.tables.bus[i]? = some b1 → r2.tables.bus[i]? = some b2 → b1.typ ≠ 4 → sb b1 b2
  gen : ∀ (i : ℕ) g1 g2, r1.tables.gen[i]? = some g1 → r2.tables.gen[i]? = some g2 → GenInService r1.tables g1 → sg g1 g2
  branch : ∀ (i : ℕ) l1 l2, r1.tables.branch[i]? = some l1 → r2.tables.branch[i]? = some l2 → BranchInService r1.tables l1 →
    SameBranch (r1.success = true ∧ AngLimited E l1) l1 l2

/-- DC: all columns but those a DC run leaves alone (voltage magnitudes and set points, reactive outputs). -/
def SameDcResults := SameResults (fun b1 b2 => b1 = { b2 with data := { b2.data with VM := b1.data.VM } })
  (fun g1 g2 => g1 = { g2 with data := { g2.data with QG := g1.data.QG, VG := g1.data.VG } })

/-- AC: all columns. -/
def SameAcResults := SameResults Eq Eq

/-- `c` with another operating point: other voltages (angles only at buses that are not reference buses), outputs and set points, row by row. -/
def restate (vm va pg qg vg : ℕ → ℝ) (c : Index.Case Tables) : Index.Case Tables :=
  { c with
    bus := c.bus.mapIdx fun i b => { b with data := { b.data with VM := vm i, VA := if b.typ = 3 then b.data.VA else va i } }
    gen := c.gen.mapIdx fun i g => { g with data := { g.data with PG := pg i, QG := qg i, VG := vg i } } }

/-- The tables `t` with the angles of the reference buses taken from `c`. -/
def withRefs (c t : Index.Case Tables) : Index.Case Tables :=
  { t with bus := List.zipWith (fun b0 b => if b.typ = 3 then { b with data := { b.data with VA := b0.data.VA } } else b) c.bus t.bus }

end

end Verif.Opf
