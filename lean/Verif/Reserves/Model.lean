import Verif.Constr.Model

/-!
# Fixed zonal reserve requirements

Model of `toggle_reserves.py`: the data preparation of `userfcn_reserves_ext2int` (94-151) and the variables, constraints and
costs of `userfcn_reserves_formulation` (154-199), and the packaging of the reserves in `userfcn_reserves_int2ext` (202-276).

Simplification: the reordering of the generators between external and internal numbering (lines 138-149, 218-227, 254-261) is
that of `e2i_field`/`i2e_field`, modelled and proved in `Verif/Index`; here the two orders are the same (all generators in
service). Messages on `stderr` (lines 112-121) are not modelled. `none` is an exception.
-/

open Verif.NumPy

namespace Verif.Reserves

noncomputable section

/-- Columns of `gen` used here. -/
structure Gen where
  ramp10 : ℝ
  pmax : ℝ

/-- `ppc['reserves']`: `zones` has a row per zone and a column per generator. -/
structure Res where
  zones : List (List ℝ)
  req : List ℝ
  cost : List ℝ
  qty : Option (List ℝ)

/-- toggle_reserves.py:103-107 (as a mask): generators available to provide reserves. -/
def rgens (ng : Nat) (r : Res) : List Bool :=
  if 1 < r.req.length then
    (List.range ng).map fun j => r.zones.any fun row => @decide (row.getD j 0 ≠ 0) (Classical.dec _)
  else r.zones.flatten.map fun v => @decide (v ≠ 0) (Classical.dec _)

/-- toggle_reserves.py:109. -/
def igr (ng : Nat) (r : Res) : List Nat := find (rgens ng r)

/-- toggle_reserves.py:125-136 for one of `cost`, `qty`: a vector with an entry per providing generator is spread over all
generators. (The test of line 125 is on the length of `cost`.) -/
def expand (short : Bool) (ng : Nat) (ig : List Nat) (v : List ℝ) : Option (List ℝ) :=
  if short then scatter (List.replicate ng 0) ig v else some v

/-- The prepared data: `cost` and `qty` per generator. -/
def prepare (ng : Nat) (r : Res) : Option Res := do
  let short := decide (r.cost.length < ng)
  let cost ← expand short ng (igr ng r) r.cost
  match r.qty with
  | none => pure { r with cost := cost }
  | some q => do
    let q' ← expand short ng (igr ng r) q
    pure { r with cost := cost, qty := some q' }

/-- toggle_reserves.py:176-178. -/
def rampLimit (g : Gen) : EReal := if @decide (g.ramp10 ≠ 0) (Classical.dec _) then (g.ramp10 : EReal) else ⊤

/-- toggle_reserves.py:180-181 for one entry: the quantity replaces the limit if it is smaller. -/
def qtyLimit (rmax : EReal) (q : ℝ) : EReal := if @decide ((q : EReal) < rmax) (Classical.dec _) then (q : EReal) else rmax

/-- toggle_reserves.py:176-181, in MW. -/
def rmax (gens : List Gen) (qty : Option (List ℝ)) : List EReal :=
  match qty with
  | none => gens.map rampLimit
  | some q => (gens.zip q).map fun p => qtyLimit (rampLimit p.1) p.2

/-- What the formulation adds: bounds of the variable `R`, the constraint `Pg_plus_R`, the constraint `Rreq` (matrix rows and
lower bounds) and the cost coefficients. -/
structure Form where
  rmin : List ℝ
  rmax : List EReal
  pgR : Constr.Lin
  req : List (List ℝ)
  lreq : List ℝ
  cw : List ℝ

/-- `qty[igr]` if there is a `qty` field. -/
def gatherQty (ig : List Nat) : Option (List ℝ) → Option (Option (List ℝ))
  | none => some none
  | some q => (gather q ig).map some

/-- `userfcn_reserves_formulation` (toggle_reserves.py:154-199). -/
def formulation (baseMVA : ℝ) (gen : List Gen) (ig : List Nat) (r : Res) : Option Form := do
  let gens ← gather gen ig
  let q ← gatherQty ig r.qty
  let zones ← r.zones.mapM fun row => gather row ig
  let cost ← gather r.cost ig
  let n := ig.length
  pure {
    rmin := List.replicate n 0
    rmax := (rmax gens q).map fun v => v / (baseMVA : EReal)
    pgR := ⟨n, Constr.twoBlocks n ig ((List.range n).map (· + gen.length)) (List.replicate n 1) (List.replicate n 1),
      List.replicate n ⊥, gens.map fun g => ((g.pmax / baseMVA : ℝ) : EReal), ig⟩
    req := zones
    lreq := r.req.map (· / baseMVA)
    cw := cost.map (· * baseMVA) }

/-- Value of a matrix row at the vector `v` (the variable `R`, in p.u.). -/
def rowValue (row : List ℝ) (v : Nat → ℝ) : ℝ := (row.zipIdx.map fun p => p.1 * v p.2).sum

/-- The reserve requirement constraint holds. -/
def Form.ReqHolds (f : Form) (v : Nat → ℝ) : Prop :=
  ∀ (z : Nat) (row : List ℝ), f.req[z]? = some row → ∃ l, f.lreq[z]? = some l ∧ l ≤ rowValue row v

/-- The variable `R` is within its bounds. -/
def Form.BoundsHold (f : Form) (v : Nat → ℝ) : Prop :=
  ∀ k : Nat, (∀ l, f.rmin[k]? = some l → l ≤ v k) ∧ ∀ u, f.rmax[k]? = some u → (v k : EReal) ≤ u

/-- The cost block `Rcost`: `N` is the identity, so the cost is `Cw' R` (opf_model `compute_cost` with default parameters). -/
def Form.cost (f : Form) (v : Nat → ℝ) : ℝ := rowValue f.cw v

/-- toggle_reserves.py:239-245: reserves of all generators in MW. `v` lists the solved variable `R`. -/
def reserves (baseMVA : ℝ) (ng : Nat) (ig : List Nat) (v : List ℝ) : Option (List ℝ) :=
  scatter (List.replicate ng 0) ig (v.map (· * baseMVA))

/-- toggle_reserves.py:264: zones of generator `k`. -/
def zonesOf (zones : List (List ℝ)) (k : Nat) : List Nat :=
  find (zones.map fun row => @decide (row.getD k 0 ≠ 0) (Classical.dec _))

/-- toggle_reserves.py:265: reserve price of generator `k`; `mu` are the multipliers of `Rreq`. -/
def price (baseMVA : ℝ) (zones : List (List ℝ)) (mu : List ℝ) (k : Nat) : Option ℝ :=
  (gather mu (zonesOf zones k)).map fun m => m.sum / baseMVA

end

end Verif.Reserves
