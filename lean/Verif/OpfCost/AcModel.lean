import Verif.Cost.Model
import Verif.OpfModel.Model

/-!
# Model of the AC OPF objective and its gradient (pypower/opf_costfcn.py)

The vector `x` is a function `Nat → ℝ` (only the first `nx` values are used).
-/

namespace Verif.OpfCost

open Verif.Cost Verif.NumPy

/-- What kind of number `baseMVA` is in Python; this decides whether `baseMVA * []` works (opf_costfcn.py:105): a Python `int` repeats the list,
a numpy scalar makes an array of it, a Python `float` raises `TypeError`. -/
inductive NumKind
  | pyInt
  | pyFloat
  | npScalar
deriving DecidableEq

/-- The data `opf_costfcn` reads (opf_costfcn.py:40-49): `baseMVA`, `gencost`, the number of generators, the first positions of the blocks
`Pg`, `Qg`, `y`, the number `ny` of `y` variables, the user cost parameters, and whether `N` is sparse with at least one stored entry. -/
structure AcData where
  base : ℝ
  kind : NumKind
  ng : Nat
  gencost : List (CostRow ℝ)
  iPg : Nat
  iQg : Nat
  iy : Nat
  ny : Nat
  user : Bool
  P : OpfModel.Params

noncomputable section

/-- `xx = r_[Pg, Qg] * baseMVA` (opf_costfcn.py:52-60). -/
def AcData.xx (d : AcData) (x : Nat → ℝ) : List ℝ :=
  ((List.range d.ng).map (fun i => x (d.iPg + i)) ++ (List.range d.ng).map (fun i => x (d.iQg + i))).map (· * d.base)

/-- `ipol = find(gencost[:, MODEL] == POLYNOMIAL)` (opf_costfcn.py:59). -/
def AcData.ipol (d : AcData) : List Nat := find (d.gencost.map (fun r => r.model == 2))

/-- opf_costfcn.py:61-64: `any(ipol)` asks for a nonzero *index*. -/
def AcData.polyPart (d : AcData) (x : Nat → ℝ) : Option ℝ :=
  if d.ipol.any (fun i => i != 0) then do
    let rows ← gather d.gencost d.ipol
    let p ← gather (d.xx x) d.ipol
    let c ← totcost rows p
    some c.sum
  else some 0

/-- opf_costfcn.py:67-73: the vector `ccost`. -/
def AcData.ccost (d : AcData) (j : Nat) : ℝ := if d.iy ≤ j ∧ j < d.iy + d.ny then 1 else 0

/-- The objective value (opf_costfcn.py:55-98). -/
def AcData.f (d : AcData) (x : Nat → ℝ) : Option ℝ := do
  let p ← d.polyPart x
  some (p + (if d.ny > 0 then ∑ j ∈ Finset.range d.P.nx, d.ccost j * x j else 0) + (if d.user then d.P.f x else 0))

/-- `HwC = H * w + Cw` (opf_costfcn.py:115). -/
def HwC (P : OpfModel.Params) (x : Nat → ℝ) (i : Nat) : ℝ := ∑ b ∈ Finset.range P.nw, P.H i b * P.w x b + P.Cw i

/-- `AA * HwC` with `AA = N' M (LL + 2 QQ diagrr)` (opf_costfcn.py:116-117). -/
def AAHwC (P : OpfModel.Params) (x : Nat → ℝ) (j : Nat) : ℝ :=
  ∑ i ∈ Finset.range P.nw, P.N i j * (P.M x i * ((if P.dd i = 1 then 1 else 0) + 2 * (if P.dd i = 2 then 1 else 0) * P.rr x i)) * HwC P x i

/-- `baseMVA * polycost(...)`, which for an empty table is `baseMVA * []` (opf_costfcn.py:105). -/
def AcData.scaled (d : AcData) (c : List ℝ) : Option (List ℝ) :=
  if d.ipol = [] ∧ d.kind = .pyFloat then none else some (c.map (d.base * ·))

/-- `df_dPgQg` (opf_costfcn.py:104-105). -/
def AcData.dPgQg (d : AcData) (x : Nat → ℝ) : Option (List ℝ) := do
  let rows ← gather d.gencost d.ipol
  let p ← gather (d.xx x) d.ipol
  let c ← polycost rows p 1
  let s ← d.scaled c
  scatter (List.replicate (2 * d.ng) 0) d.ipol s

/-- opf_costfcn.py:106-108: the two slice assignments, `Pg` first, `Qg` second. -/
def AcData.place (d : AcData) (v : List ℝ) (j : Nat) : ℝ :=
  if d.iQg ≤ j ∧ j < d.iQg + d.ng then v.getD (d.ng + (j - d.iQg)) 0
  else if d.iPg ≤ j ∧ j < d.iPg + d.ng then v.getD (j - d.iPg) 0
  else 0

/-- The gradient (opf_costfcn.py:100-117). -/
def AcData.df (d : AcData) (x : Nat → ℝ) : Option (Nat → ℝ) := do
  let v ← d.dPgQg x
  some fun j => d.place v j + d.ccost j + (if d.user then AAHwC d.P x j else 0)

end

end Verif.OpfCost
