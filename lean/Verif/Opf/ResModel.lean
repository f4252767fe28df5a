import Verif.Opf.EconModel
import Verif.Reserves.Model

/-!
# Model of the DC optimal power flow with fixed zonal reserves, from tables to tables

`runopf_w_res` (runopf_w_res.py:64-70) switches the callbacks of `toggle_reserves.py` on and runs the optimal power flow.  `Verif/Reserves` models the callbacks for generators that
are all in service and in internal order; here they are put together with the conversion of the numbering, the formulation, the solver and the packaging of the results.

Simplifications: messages on `stderr` are not modelled; a case without user variables, constraints, costs and other callbacks.  `none` is an exception.
-/

namespace Verif.Opf

open Verif.OpfModel Verif.Pips Verif.Network Verif.Cost Verif.OpfCost

noncomputable section

/-- `e2i_field(ppc, ['reserves', 'qty'], 'gen')` if there is such a field (toggle_reserves.py:140-141). -/
def intQty (o : Index.Order Tables) : Option (List ℝ) → Option (Option (List ℝ))
  | none => some none
  | some q => (Index.e2iSet o q .gen).map some

/-- The `ext2int` callback (toggle_reserves.py:94-151): the prepared data in internal order, and the internal rows of the providing generators. -/
def intReserves (o : Index.Order Tables) (r : Reserves.Res) : Option (Reserves.Res × List ℕ) := do
  let r1 ← Reserves.prepare o.extGen.length r
  let qty ← intQty o r1.qty
  let cost ← Index.e2iSet o r1.cost .gen
  let zones ← r1.zones.mapM fun row => Index.e2iSet o row .gen
  let mask ← Index.e2iSet o (Reserves.rgens o.extGen.length r) .gen
  some (⟨zones, r1.req, cost, qty⟩, NumPy.find mask)

/-- What the callbacks work with: internal reserve data, internal rows of the providing generators, and what the `formulation` callback adds (toggle_reserves.py:154-199).
`ramp10` reads the column RAMP_10 from the `rest` of a generator row. -/
def resForm (base : ℝ) (ramp10 : List ℝ → ℝ) (r : Reserves.Res) (c : Index.Case Tables) : Option (Reserves.Res × List ℕ × Reserves.Form) := do
  let o ← c.order
  let ri ← intReserves o r
  let f ← Reserves.formulation base (c.gen.map fun g => ⟨ramp10 g.data.rest, g.data.PMAX⟩) ri.2 ri.1
  some (ri.1, ri.2, f)

/-- The calls at toggle_reserves.py:194-197, for `n` providing generators among `ng`. -/
def resOps (ng n : ℕ) (f : Reserves.Form) : List Op :=
  [ .addVars "R" n (some []) (some (f.rmin.map Real.toEReal)) (some f.rmax),
    .addLin "Pg_plus_R" (cooMat n (ng + n) f.pgR.A) [] f.pgR.upper ["Pg", "R"],
    .addLin "Rreq" ⟨f.req.length, n, fun i j => (f.req.getD i []).getD j 0⟩ (f.lreq.map Real.toEReal) [] ["R"],
    .addCosts "Rcost" ⟨⟨n, n, fun i j => if i = j then 1 else 0⟩, f.cw, none, none, none, none, none⟩ ["R"] ]

/-- The calls of the `formulation` callback on the case in internal numbering. -/
def resExtra (base : ℝ) (ramp10 : List ℝ → ℝ) (r : Reserves.Res) (c : Index.Case Tables) : List Op :=
  match resForm base ramp10 r c with
  | some F => resOps c.gen.length F.2.1.length F.2.2
  | none => []

/-- The user costs `om.get_cost_params()` (dcopf_solver.py:95-97) after `om.build_cost_params()` (opf_execute.py:43). -/
def userOf (P : Params) (n : ℕ) : UserCost n (Fin P.nw) where
  N := fun i j => P.N i j
  H := fun i k => P.H i k
  Cw := fun i => P.Cw i
  rh := fun i => P.rh i
  mm := fun i => P.mm i

/-- The cost data the objective is built from (dcopf_solver.py:91-172). -/
def resData (base : ℝ) (c : Index.Case Tables) (P : Params) (m : Model) (h : c.bus.length + c.gen.length ≤ m.var.total) :=
  dcData base (fun p : Fin c.gen.length => pwl1Row (costAt c p)) (userOf P m.var.total) c.bus.length (c.bus.length + c.gen.length) h

/-- The parameters of the user costs. -/
def resParams (m : Model) : Option Params := m.buildCostParams.bind fun m' => m'.params

/-- The setup with reserves: angle limits, helper variables of piecewise linear costs (opf_setup.py:222, 235-237), then the callback (opf_setup.py:262-263); objective from the cost
table and the cost of reserves. -/
def resSetup (base : ℝ) (E : Econ) (ramp10 : List ℝ → ℝ) (r : Reserves.Res) : DcSetup where
  extra := fun {nb ng _} d c => angOps E nb c ++ (pwlOps d.base (fun p : Fin ng => pwl1Row (costAt c p)) ++ resExtra base ramp10 r c)
  H := fun c m => match resParams m with
    | some P => if h : c.bus.length + c.gen.length ≤ m.var.total then HH (resData base c P m h) else 0
    | none => 0
  C := fun c m => match resParams m with
    | some P => if h : c.bus.length + c.gen.length ≤ m.var.total then CC (resData base c P m h) else 0
    | none => 0
  C0 := fun c m => match resParams m with
    | some P => if h : c.bus.length + c.gen.length ≤ m.var.total then C0 (resData base c P m h) else 0
    | none => 0
  x0 := E.x0
  post := angPost E

/-- `results['reserves']`: entries per row of the caller's generator table; `lam` is `results['lin']['mu']['l']['Rreq']`, one entry per zone (per unit). -/
structure ResOut where
  R : List ℝ
  Rmin : List EReal
  Rmax : List EReal
  mu_l : List ℝ
  mu_u : List ℝ
  mu_Pmax : List ℝ
  prc : List ℝ
  lam : List ℝ
  totalcost : ℝ

/-- `v = zeros(ng); v[igr] = w; i2e_data(results, v, zeros(ng0), 'gen')` (toggle_reserves.py:237-261). -/
def spread {α : Type} [Zero α] (o : Index.Order Tables) (ng : ℕ) (ig : List ℕ) (w : List α) : Option (List α) := do
  let v ← NumPy.scatter (List.replicate ng 0) ig w
  Index.i2eSet o id v (List.replicate o.extGen.length 0) .gen

/-- `i2e_field(results, ['reserves', 'zones'], ordering='gen', dim=1)` (toggle_reserves.py:222): each row goes back over the saved one. -/
def extZones (o : Index.Order Tables) (zones old : List (List ℝ)) : Option (List (List ℝ)) :=
  (zones.zip old).mapM fun p => Index.i2eSet o id p.1 p.2 .gen

/-- `prc = zeros(ng0); prc[k] = sum(lam[find(zones[:, k])]) / baseMVA` for `k` in `igr0` (toggle_reserves.py:262-265). -/
def prices (base : ℝ) (ng0 : ℕ) (igr0 : List ℕ) (zones : List (List ℝ)) (lam : List ℝ) : Option (List ℝ) := do
  let p ← igr0.mapM (Reserves.price base zones lam)
  NumPy.scatter (List.replicate ng0 0) igr0 p

/-- The `int2ext` callback (toggle_reserves.py:202-276) on the results in internal numbering.  `results['var']['val']['R']` is stored only if the block `R` is not empty
(opf_execute.py:151), so without a providing generator in service the callback raises `KeyError`. -/
def resResults (base : ℝ) {nb ng nl : ℕ} (o : Index.Order Tables) (r ri : Reserves.Res) (ig : List ℕ) (m m' : Model) (s : DcRes nb ng nl) : Option ResOut :=
  if ig.length = 0 then none
  else do
    let zones ← extZones o ri.zones r.zones
    let v ← m.getv (some "R")
    let i1 ← m.var.i1 "R"
    let jP ← m.lin.i1 "Pg_plus_R"
    let jR ← m.lin.i1 "Rreq"
    let n := ig.length
    let R ← spread o ng ig ((List.range n).map fun k => s.x (i1 + k) * base)
    let Rmin ← spread o ng ig (v.2.1.map fun u => u * (base : EReal))
    let Rmax ← spread o ng ig (v.2.2.map fun u => u * (base : EReal))
    let mu_l ← spread o ng ig ((List.range n).map fun k => s.lower (i1 + k) / base)
    let mu_u ← spread o ng ig ((List.range n).map fun k => s.upper (i1 + k) / base)
    let mu_Pmax ← spread o ng ig ((List.range n).map fun k => s.mu_u (jP + k) / base)
    let lam := (List.range r.zones.length).map fun z => s.mu_l (jR + z)
    let prc ← prices base o.extGen.length (Reserves.igr o.extGen.length r) zones lam
    let tc ← m'.computeCost s.x (some "Rcost")
    some ⟨R, Rmin, Rmax, mu_l, mu_u, mu_Pmax, prc, lam, tc.1⟩

/-- `opf` with `PF_DC` and the reserve callbacks (runopf_w_res.py:64-70, opf.py:166-191). -/
def opfDcReserves (srt : List ℕ → List ℕ) (base : ℝ) (E : Econ) (ramp10 : List ℝ → ℝ) (o : Opt) (solve : AnySolver) (c : Index.Case Tables) (r : Reserves.Res) :
    Option (Ret × ResOut) := do
  let c' ← Index.ext2int srt c
  let d ← readCase base c'
  let ord ← c'.order
  let F ← resForm base ramp10 r c'
  let m ← OpfModel.run (dcOps d ++ (resSetup base E ramp10 r).extra d c')
  let m' ← m.buildCostParams
  let s ← dcopfSolver d m ((resSetup base E ramp10 r).H c' m) ((resSetup base E ramp10 r).C c' m) ((resSetup base E ramp10 r).C0 c' m) o solve (E.x0 c' m)
  let out ← resResults base ord r F.1 F.2.1 m m' s
  let t ← Index.int2ext (write c' (dcUpd s (angPost E c' m s)))
  some (⟨s.success, s.f, s.tol, s.dual, m.var.total + m.lin.total, zeroOff opfOff t⟩, out)

end

end Verif.Opf
