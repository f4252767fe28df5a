import Verif.Opf.EconModel
import Verif.Mupq.Model

/-!
# Model of the AC optimal power flow with the capability curves, constant power factors and angle limits of the case

`AcSetup` (`Verif/Opf/RunModel.lean`) leaves open what is added to the standard variables and constraints, and lets the multiplier columns be anything.  Here the
capability curves, constant power factors and angle limits are what `opf_setup` builds from the tables, and the multiplier columns are what `opf_execute` writes;
`update_mupq` may raise.
-/

namespace Verif.Opf

open Verif.Index (GenRow)
open Verif.OpfModel Verif.Pips Verif.Network Verif.OpfCost

noncomputable section

/-- What the run depends on besides the named columns: the columns PC1, PC2, QC1MIN, QC1MAX, QC2MIN, QC2MAX, read from the `rest` of a generator row; the columns and
the option for angle limits and the starting point (`Econ`); the cost data; what is added after the angle limits (opf_setup.py:235-275: piecewise linear costs, user
variables and constraints, callbacks), which is arbitrary. -/
structure Curves where
  pc1 : List ℝ → ℝ
  pc2 : List ℝ → ℝ
  qc1min : List ℝ → ℝ
  qc1max : List ℝ → ℝ
  qc2min : List ℝ → ℝ
  qc2max : List ℝ → ℝ
  ang : Econ
  cost : Index.Case Tables → AcData
  more : ∀ {nb ng nl : ℕ}, Case nb ng nl → Index.Case Tables → List Op

/-- The columns of a generator row that `makeAvl` and `makeApq` read. -/
def Curves.row (K : Curves) (g : GenD) : Constr.Gen :=
  ⟨g.PG, g.QG, g.PMIN, g.PMAX, g.QMIN, g.QMAX, K.pc1 g.rest, K.pc2 g.rest, K.qc1min g.rest, K.qc1max g.rest, K.qc2min g.rest, K.qc2max g.rest⟩

def Curves.rows (K : Curves) (c : Index.Case Tables) : List Constr.Gen := c.gen.map fun g => K.row g.data

/-- `om.add_constraints('PQh', Apqh, array([]), ubpqh, ['Pg', 'Qg'])`, then `'PQl'`, then `'vl'` (opf_setup.py:163-167, 229-231).  `makeApq` and `makeAvl` cannot
raise. -/
def curveOps (base : ℝ) (K : Curves) (ng : ℕ) (c : Index.Case Tables) : List Op :=
  match Constr.makeApq base (K.rows c), Constr.makeAvl base (K.rows c) with
  | some (h, l), some v =>
    [ .addLin "PQh" (cooMat h.n (2 * ng) h.A) [] h.upper ["Pg", "Qg"],
      .addLin "PQl" (cooMat l.n (2 * ng) l.A) [] l.upper ["Pg", "Qg"],
      .addLin "vl" (cooMat v.n (2 * ng) v.A) v.lower v.upper ["Pg", "Qg"] ]
  | _, _ => []

/-- Everything added after the nonlinear constraints (opf_setup.py:229-275). -/
def curveExtra (K : Curves) {nb ng nl : ℕ} (d : Case nb ng nl) (c : Index.Case Tables) : List Op :=
  curveOps d.base K ng c ++ (angOps K.ang nb c ++ K.more d c)

/-- `v[i1:iN]` for a block of `n` rows at `i1`. -/
def muSlice (v : ℕ → ℝ) (i1 n : ℕ) : List ℝ := (List.range n).map fun i => v (i1 + i)

/-- The multiplier columns of the generators after `update_mupq` (opf_execute.py:101-106); `none` if a block is missing or `update_mupq` raises. -/
def curveMu (base : ℝ) (K : Curves) (c : Index.Case Tables) (m : Model) {nb ng nl : ℕ} (s : AcRes nb ng nl) : Option (List Mupq.GenMu) := do
  let (h, l) ← Constr.makeApq base (K.rows c)
  let ih ← m.lin.i1 "PQh"
  let il ← m.lin.i1 "PQl"
  Mupq.execute base (K.rows c) (List.ofFn fun k : Fin ng => ⟨s.MU_PMAX k, s.MU_PMIN k, s.MU_QMAX k, s.MU_QMIN k⟩)
    (muSlice s.mu_l ih h.n) (muSlice s.mu_u ih h.n) (muSlice s.mu_l il l.n) (muSlice s.mu_u il l.n)

/-- The multiplier columns are only rewritten after a successful solution (opf_execute.py:96). -/
def curveMus (base : ℝ) (K : Curves) (c : Index.Case Tables) (m : Model) {nb ng nl : ℕ} (s : AcRes nb ng nl) : Option (List Mupq.GenMu) :=
  if s.success then curveMu base K c m s else some []

/-- Rows of the table of multipliers; rows past its end, of which there are none, are zero. -/
def muRow (r : List Mupq.GenMu) (k : ℕ) : Mupq.GenMu := r.getD k ⟨0, 0, 0, 0⟩

/-- What `opf_execute` writes after a successful solution (opf_execute.py:101-106, 136-140), given the multipliers of the generators; angle limits as in `angPost`. -/
def curvePost (K : Curves) (c : Index.Case Tables) (m : Model) {nb ng nl : ℕ} (s : AcRes nb ng nl) (r : List Mupq.GenMu) : PostMu ng nl where
  pmax := fun k _ => (muRow r k).pmax
  pmin := fun k _ => (muRow r k).pmin
  qmax := fun k _ => (muRow r k).qmax
  qmin := fun k _ => (muRow r k).qmin
  angmin := fun k v => match Constr.makeAang K.ang.ignoreAng c.bus.length (angRows K.ang c), m.lin.i1 "ang" with
    | some L, some i1 => if k.val ∈ L.index then s.mu_l (i1 + L.index.idxOf k.val) * Real.pi / 180 else v
    | _, _ => v
  angmax := fun k v => match Constr.makeAang K.ang.ignoreAng c.bus.length (angRows K.ang c), m.lin.i1 "ang" with
    | some L, some i1 => if k.val ∈ L.index then s.mu_u (i1 + L.index.idxOf k.val) * Real.pi / 180 else v
    | _, _ => v

/-- `opf` with the AC formulation (opf.py:167-196, opf_execute.py:94-140); `lim` is `OPF_FLOW_LIM`; `none` if something raises. -/
def opfAcCurve (srt : List ℕ → List ℕ) (base : ℝ) (lim : Int) (K : Curves) (o : Opt) (solve : AnySolver) (c : Index.Case Tables) : Option Ret := do
  let c' ← Index.ext2int srt c
  let d ← readCase base c'
  let m ← OpfModel.run (acOps d ++ curveExtra K d c')
  let s ← pipsopfSolver d lim (K.cost c') m o solve (K.ang.x0 c' m)
  let mu ← curveMus base K c' m s
  let r ← Index.int2ext (write c' (acUpd s (curvePost K c' m s mu)))
  some ⟨s.success, s.f, s.tol, s.dual, m.var.total + m.lin.total, zeroOff opfOff r⟩

end

end Verif.Opf
