import Verif.Pfsoln.Model
import Verif.Solvers.Model

/-!
# Model of the AC branch of the power flow driver (`pypower/runpf.py`)

From the case in internal numbering to the updated tables; buses `B`, generators `Fin ng` (table order), branches `L`.  The solver is a parameter
(Newton, fast decoupled or Gauss-Seidel: `Verif/Solvers`).  Raising is `none`.  Timing, printing and saving are not modelled.
-/

open Matrix ComplexConjugate

namespace Verif.Runpf

open Verif.Network Verif.Pfsoln Verif.Solvers

variable {B L : Type} [Fintype B] [Fintype L] [DecidableEq B] [DecidableEq L] {ng : Nat}

noncomputable section

/-- The internal case: what the driver uses of `bus`, `gen`, `branch` and of `bustypes`. -/
structure Case (B L : Type) (ng : Nat) where
  baseMVA : ℝ
  bus : B → Bus
  VM : B → ℝ
  VA : B → ℝ
  gen : Fin ng → GenQ B
  VG : Fin ng → ℝ
  branch : L → Branch B
  ref : List B
  pv : List B
  pq : List B

/-- `bus[:, VM] * exp(1j * pi/180 * bus[:, VA])` (runpf.py:163). -/
def flat (c : Case B L ng) (b : B) : ℂ := (c.VM b : ℂ) * Complex.exp (Complex.I * ((Real.pi / 180 * c.VA b : ℝ) : ℂ))

/-- The generators whose set point is used: in service, at a bus that is not PQ (runpf.py:164-166), in table order. -/
def setters (c : Case B L ng) (b : B) : List (Fin ng) := (onList c.gen).filter fun g => decide ((c.gen g).bus = b ∧ b ∉ c.pq)

/-- `V0[gbus[k]] = gen[on[k], VG] / abs(V0[gbus[k]]) * V0[gbus[k]]` (runpf.py:167): the right-hand sides use the old `V0`; with several generators at
a bus the last one wins.  A zero `VM` there gives NaN (`none`). -/
def initialV (c : Case B L ng) : Option (B → ℂ) :=
  if ∃ b, setters c b ≠ [] ∧ flat c b = 0 then none
  else some fun b =>
    match (setters c b).getLast? with
    | some g => ((c.VG g / ‖flat c b‖ : ℝ) : ℂ) * flat c b
    | none => flat c b

/-- The updated tables (pfsoln), `success`. -/
structure Out (B L : Type) (ng : Nat) where
  V : B → ℂ
  VM : B → ℝ
  VA : B → ℝ
  PG : Fin ng → ℝ
  QG : Fin ng → ℝ
  Sf : L → ℂ
  St : L → ℂ
  success : Bool

/-- `pfsoln` on a finite voltage vector (pfsoln.py:33-97): `none` when a reference bus has no generator in service. -/
def solution (EPS : ℝ) (c : Case B L ng) (V : B → ℂ) (success : Bool) : Option (Out B L ng) :=
  (newPG c.baseMVA c.bus c.gen (Ybus c.baseMVA c.bus c.branch) V c.ref fun g => (c.gen g).PG).map fun PG =>
    { V := V
      VM := fun b => ‖V b‖
      VA := fun b => (V b).arg * 180 / Real.pi
      PG := PG
      QG := newQG EPS c.baseMVA c.bus c.gen (Ybus c.baseMVA c.bus c.branch) V
      Sf := brFrom c.baseMVA c.branch (Yf c.branch) V
      St := brTo c.baseMVA c.branch (Yt c.branch) V
      success := success }

/-- Result of the driver: finite tables, or tables containing NaN (success is then false). -/
inductive Result (B L : Type) (ng : Nat) where
  | ok (o : Out B L ng)
  | nan (success : Bool)

/-- `mx` or `mn` is not empty (runpf.py:202-209). -/
def violation (viol : ℝ) (c : Case B L ng) (o : Out B L ng) : Prop :=
  ∃ g, (c.gen g).stat > 0 ∧ (o.QG g > (c.gen g).QMAX + viol ∨ o.QG g < (c.gen g).QMIN - viol)

/-- An AC solver: injections, start, and the result (`none`: raises, or no such algorithm). -/
abbrev Solver (B : Type) := (B → ℂ) → (B → ℂ) → Option (Res B)

/-- The part after the solver returned (runpf.py:196-281).  With `qlim` and a violation line 212 indexes `bus` with the float column `gen[:, GEN_BUS]`, and takes
`PV | ...` of a float array: it raises.  With no violation `repeat` becomes 0. -/
def finish (EPS viol : ℝ) (qlim : Bool) (c : Case B L ng) (r : Res B) : Option (Result B L ng) :=
  match r.V with
  | none => some (.nan r.converged)
  | some V =>
    (solution EPS c V r.converged).bind fun o =>
      if qlim = true ∧ @decide (violation viol c o) (Classical.dec _) = true then none else some (.ok o)

/-- The AC branch of `runpf` (runpf.py:146-281). When the start is not finite the solver loop ends without convergence (see `Verif/Solvers`). -/
def runAC (EPS viol : ℝ) (qlim : Bool) (solve : Solver B) (c : Case B L ng) : Option (Result B L ng) :=
  match initialV c with
  | none => some (.nan false)
  | some V0 => (solve (makeSbus c.baseMVA c.bus fun g => (c.gen g).toGen) V0).bind (finish EPS viol qlim c)

end

/-! ## Tables in external numbering -/

/-- `table[ix_(rows, cols)] = 0` (runpf.py:300-303, opf.py:178-182); `none` models the `IndexError` for a row or column that does not exist. -/
def zeroAt (table : List (List ℝ)) (rows cols : List Nat) : Option (List (List ℝ)) :=
  if rows.any (fun i => decide (table.length ≤ i)) || (!rows.isEmpty && table.any fun r => cols.any fun c => decide (r.length ≤ c)) then none
  else some (table.mapIdx fun i r => r.mapIdx fun j x => if rows.contains i && cols.contains j then 0 else x)

/-- The zeroing at the end of `runpf` (runpf.py:298-303): `off` are `order.gen.status.off` and `order.branch.status.off`. -/
def zeroPf (gen branch : List (List ℝ)) (offG offL : List Nat) : Option (List (List ℝ) × List (List ℝ)) :=
  (if offG.length > 0 then zeroAt gen offG [1, 2] else some gen).bind fun g =>
    (if offL.length > 0 then zeroAt branch offL [13, 14, 15, 16] else some branch).map fun b => (g, b)

/-- The zeroing at the end of `opf` (opf.py:177-182). -/
def zeroOpf (gen branch : List (List ℝ)) (offG offL : List Nat) : Option (List (List ℝ) × List (List ℝ)) :=
  (if offG.length > 0 then zeroAt gen offG [1, 2, 21, 22] else some gen).bind fun g =>
    (if offL.length > 0 then zeroAt branch offL [13, 14, 15, 16, 17, 18, 19, 20] else some branch).map fun b => (g, b)

/-- Zero columns for results: `shape[1] < QT` then append `QT - shape[1] + 1` columns (runpf.py:88-91). -/
def addPfCols (branch : List (List ℝ)) (ncol : Nat) : List (List ℝ) :=
  if ncol < 16 then branch.map fun r => r ++ List.replicate (16 - ncol + 1) 0 else branch

/-- Zero columns for results in `opf` (opf.py:156-163): pad to `n` columns. -/
def padCols (table : List (List ℝ)) (ncol n : Nat) : List (List ℝ) :=
  if ncol < n then table.map fun r => r ++ List.replicate (n - ncol) 0 else table

end Verif.Runpf
