import Verif.Opf.AcModel
import Mathlib.Data.List.Basic

/-!
# Model of the rest of `opf_execute` (opf_execute.py): choice of the AC algorithm and the named results

A raised exception is `none`.  A dictionary that is never created (no block of that kind at all) is not distinguished from an empty one.
-/

noncomputable section

namespace Verif.Opf

open Verif.OpfModel Verif.Pips Verif.OpfNl Verif.OpfCost

variable {nb ng nl : ℕ}

/-! ### Choice of the algorithm -/

/-- The AC solvers `opf_execute` can call. -/
inductive AcSolver
  | pips
  | ipopt
  deriving DecidableEq

/-- Python's `alg == a | alg == b`: `|` binds tighter than `==` and comparisons chain, so this is `(alg == (a | alg)) and ((a | alg) == b)`. -/
def pyOrTest (alg a b : ℕ) : Prop := alg = (a ||| alg) ∧ (a ||| alg) = b

instance (alg a b : ℕ) : Decidable (pyOrTest alg a b) := by unfold pyOrTest; infer_instance

/-- opf_execute.py:64-75: the default, and the update of deprecated codes. -/
def acAlg (opfAlg : ℕ) : ℕ :=
  let alg := if opfAlg = 0 then 560 else opfAlg
  if pyOrTest alg 100 200 then 300
  else if pyOrTest alg 120 220 then 320
  else if pyOrTest alg 140 240 then 340
  else if pyOrTest alg 160 260 then 360
  else alg

/-- opf_execute.py:80-94: an unknown code only writes a message; `raw` is then unbound at line 93 and an exception is raised.  `haveIpopt`: `pyipopt` can be imported. -/
def acSolver (haveIpopt : Bool) (opfAlg : ℕ) : Option AcSolver :=
  if acAlg opfAlg = 560 ∨ acAlg opfAlg = 565 then some .pips
  else if acAlg opfAlg = 580 then (if haveIpopt then some .ipopt else none)
  else none

/-- pipsopf_solver.py:77: step-size control is looked up in `OPF_ALG`. -/
def acStepControl (opfAlg : ℕ) : Bool := opfAlg == 565

/-! ### Named results -/

/-- The vectors `results['x']` and `results['mu']` as returned by the solver. -/
structure Sol where
  x : List ℝ
  muVarL : List ℝ
  muVarU : List ℝ
  muLinL : List ℝ
  muLinU : List ℝ
  muNlnL : List ℝ
  muNlnU : List ℝ

/-- dcopf_solver.py:251-281: `pips` returns one multiplier per variable and one per linear constraint. -/
def solDc (m : Model) (s : DcRes nb ng nl) : Sol where
  x := (List.range m.var.total).map s.x
  muVarL := (List.range m.var.total).map s.lower
  muVarU := (List.range m.var.total).map s.upper
  muLinL := (List.range m.lin.total).map s.mu_l
  muLinU := (List.range m.lin.total).map s.mu_u
  muNlnL := []
  muNlnU := []

/-- pipsopf_solver.py:190-209: `nl_mu_l` has `getN('nln')` entries, `nl_mu_u` has `2 nb + 2 nl`. -/
def solAc (m : Model) (s : AcRes nb ng nl) : Sol where
  x := (List.range m.var.total).map s.x
  muVarL := (List.range m.var.total).map s.muVarL
  muVarU := (List.range m.var.total).map s.muVarU
  muLinL := (List.range m.lin.total).map s.mu_l
  muLinU := (List.range m.lin.total).map s.mu_u
  muNlnL := (List.range m.nln.total).map s.muNlnL
  muNlnU := (List.range (2 * nb + 2 * nl)).map s.muNlnU

/-- `results['var']`, `results['lin']`, `results['nln']`, `results['cost']` and the final `results['x']`. -/
structure Named where
  val : Dict (List ℝ)
  varL : Dict (List ℝ)
  varU : Dict (List ℝ)
  linL : Dict (List ℝ)
  linU : Dict (List ℝ)
  nlnL : Dict (List ℝ)
  nlnU : Dict (List ℝ)
  cost : Dict ℝ
  x : List ℝ

/-- `v[arange(i1, iN)]`: `IndexError` if an index is out of range. -/
def pickRange (v : List ℝ) (i1 iN : ℕ) : Option (List ℝ) := (List.range (iN - i1)).mapM fun k => v[i1 + k]?

/-- The loops at opf_execute.py:150-155, 160-164, 170-174, for one of the vectors cut up (the code cuts up two or three of them in each turn of the loop). -/
def cutUp (s : Idx) (v : List ℝ) : List String → Dict (List ℝ) → Option (Dict (List ℝ))
  | [], D => some D
  | name :: rest, D =>
    if s.getN (some name) = 0 then cutUp s v rest D else do
      let i1 ← s.i1 name
      let iN ← s.iN name
      let L ← pickRange v i1 iN
      cutUp s v rest (D.set name L)

/-- The loop at opf_execute.py:179-181; `compute_cost` changes the model object. -/
def namedCosts (x : ℕ → ℝ) : List String → Model → Dict ℝ → Option (Dict ℝ × Model)
  | [], m, D => some (D, m)
  | name :: rest, m, D =>
    if m.cost.getN (some name) = 0 then namedCosts x rest m D else do
      let r ← m.computeCost x (some name)
      namedCosts x rest r.2 (D.set name r.1)

/-- opf_execute.py:183-197: zeros for the helper variables of single-block costs, after `Pg` (DC) or `Qg` (AC). -/
def insertY (dc : Bool) (alg npwl1 : ℕ) (m : Model) (x : List ℝ) : Option (List ℝ) :=
  if 0 < npwl1 ∧ alg ≠ 545 ∧ alg ≠ 550 then do
    let nx ← m.var.iN (if dc then "Pg" else "Qg")
    some (x.take nx ++ (List.replicate npwl1 0 ++ x.drop nx))
  else some x

/-- opf_execute.py:147-199, `m` being the model after `build_cost_params` (line 43). -/
def package (dc : Bool) (alg npwl1 : ℕ) (m : Model) (s : Sol) : Option Named := do
  let val ← cutUp m.var s.x m.var.order fun _ => none
  let varL ← cutUp m.var s.muVarL m.var.order fun _ => none
  let varU ← cutUp m.var s.muVarU m.var.order fun _ => none
  let linL ← cutUp m.lin s.muLinL m.lin.order fun _ => none
  let linU ← cutUp m.lin s.muLinU m.lin.order fun _ => none
  let nlnL ← cutUp m.nln s.muNlnL (if dc then [] else m.nln.order) fun _ => none
  let nlnU ← cutUp m.nln s.muNlnU (if dc then [] else m.nln.order) fun _ => none
  let cost ← namedCosts (fun k => s.x.getD k 0) m.cost.order m fun _ => none
  let x ← insertY dc alg npwl1 m s.x
  some ⟨val, varL, varU, linL, linU, nlnL, nlnU, cost.1, x⟩

end Verif.Opf
