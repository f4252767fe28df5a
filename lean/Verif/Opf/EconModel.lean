import Verif.Opf.RunModel
import Verif.Constr.Model

/-!
# Model of the DC optimal power flow with the costs and angle limits of the case

`DcSetup` (`Verif/Opf/RunModel.lean`) leaves open what is added to the standard variables and constraints and which objective is minimised.  Here both are what
`opf_setup` and `dcopf_solver` build from the tables of a case without user variables, constraints and costs.
-/

namespace Verif.Opf

open Verif.OpfModel Verif.Pips Verif.Network Verif.Cost Verif.OpfCost

noncomputable section

/-- The matrix with the given entries; entries at the same place add up. -/
def cooMat (rows cols : ℕ) (A : Constr.Coo) : Mat where
  rows := rows
  cols := cols
  val := fun i k => ((A.filter fun e => decide (e.1 = i ∧ e.2.1 = k)).map fun e => e.2.2).sum

/-- What the run depends on besides the tables: the columns ANGMIN and ANGMAX, read from the `rest` of a branch row, `OPF_IGNORE_ANG_LIM`, and the starting point
(dcopf_solver.py:188-205), which is arbitrary. -/
structure Econ where
  angmin : List ℝ → ℝ
  angmax : List ℝ → ℝ
  ignoreAng : Bool
  x0 : Index.Case Tables → ∀ m : Model, Fin m.var.total → ℝ

/-- The columns of the branch rows that `makeAang` reads. -/
def angRows (E : Econ) (c : Index.Case Tables) : List Constr.Branch := c.branch.map fun l => ⟨l.f, l.t, E.angmin l.data.rest, E.angmax l.data.rest⟩

/-- `om.add_constraints('ang', Aang, lang, uang, ['Va'])` (opf_setup.py:180, 222).  `makeAang` cannot raise here: `readCase` has checked the bus numbers. -/
def angOps (E : Econ) (nb : ℕ) (c : Index.Case Tables) : List Op :=
  match Constr.makeAang E.ignoreAng nb (angRows E c) with
  | some L => [.addLin "ang" (cooMat L.n nb L.A) L.lower L.upper ["Va"]]
  | none => []

/-- `results['branch'][iang, MU_ANGMIN] = results['mu']['lin']['l'][...] * pi / 180` and the same for `MU_ANGMAX` (opf_execute.py:136-140), with `iang` from
`makeAang` (opf_setup.py:180, 214).  Rows of branches without an angle limit keep what the columns held before. -/
def angPost (E : Econ) (c : Index.Case Tables) (m : Model) {nb ng nl : ℕ} (s : DcRes nb ng nl) : PostMu ng nl where
  pmax := fun _ v => v
  pmin := fun _ v => v
  qmax := fun _ v => v
  qmin := fun _ v => v
  angmin := fun k v => match Constr.makeAang E.ignoreAng c.bus.length (angRows E c), m.lin.i1 "ang" with
    | some L, some i1 => if k.val ∈ L.index then s.mu_l (i1 + L.index.idxOf k.val) * Real.pi / 180 else v
    | _, _ => v
  angmax := fun k v => match Constr.makeAang E.ignoreAng c.bus.length (angRows E c), m.lin.i1 "ang" with
    | some L, some i1 => if k.val ∈ L.index then s.mu_u (i1 + L.index.idxOf k.val) * Real.pi / 180 else v
    | _, _ => v

/-- Row `p` of the active power costs: `pqcost` cuts off reactive ones, which come after those of all generators (opf_setup.py:65). -/
def costAt (c : Index.Case Tables) (p : ℕ) : CostRow ℝ := (c.gencost.getD []).getD p ⟨0, 0, []⟩

/-- No user costs: `N`, `H`, `Cw`, … have no rows (dcopf_solver.py:95-97). -/
def noUser (n : ℕ) : UserCost n (Fin 0) := ⟨0, 0, 0, 0, 0⟩

/-- The cost data the objective is built from (dcopf_solver.py:91-172); the columns of the outputs begin after those of the angles. -/
def econData (base : ℝ) (c : Index.Case Tables) (m : Model) (h : c.bus.length + c.gen.length ≤ m.var.total) :=
  dcData base (fun p : Fin c.gen.length => pwl1Row (costAt c p)) (noUser m.var.total) c.bus.length (c.bus.length + c.gen.length) h

/-- The setup of a case without user variables, constraints and costs: angle limits, then helper variables of piecewise linear costs (opf_setup.py:222, 235-237),
objective from the cost table.  The objective is only needed for a model with the columns of `dcOps`. -/
def econSetup (base : ℝ) (E : Econ) : DcSetup where
  extra := fun {nb ng _} d c => angOps E nb c ++ (pwlOps d.base (fun p : Fin ng => pwl1Row (costAt c p)) ++ [])
  H := fun c m => if h : c.bus.length + c.gen.length ≤ m.var.total then HH (econData base c m h) else 0
  C := fun c m => if h : c.bus.length + c.gen.length ≤ m.var.total then CC (econData base c m h) else 0
  C0 := fun c m => if h : c.bus.length + c.gen.length ≤ m.var.total then C0 (econData base c m h) else 0
  x0 := E.x0
  post := angPost E

/-- `opf` with `PF_DC` on a case without user variables, constraints and costs (opf.py:149-196). -/
def opfDcEcon (srt : List ℕ → List ℕ) (base : ℝ) (E : Econ) (o : Opt) (solve : AnySolver) (c : Index.Case Tables) : Option Ret :=
  opfDc srt base (econSetup base E) o solve c

end

end Verif.Opf
