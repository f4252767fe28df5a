import Verif.Opf.AcModel
import Verif.Opf.DcCostModel
import Verif.Index.Model

/-!
# Model of `opf`: from the tables of the caller to the tables returned

`opf.py:149-196`: conversion to internal numbering (`Verif/Index`), formulation and solution (`dcopfSolver`, `pipsopfSolver`), `opf_execute`, conversion
back, zeroing of the results of out-of-service equipment.

The named columns of a row are those read or written by the optimal power flow; `rest` is everything else.  The padding with zero columns
(opf.py:155-165) is implicit in the records.  Not modelled: `opf_args2` (argument forms), the timing, `results['raw']`.
-/

namespace Verif.Opf

open Verif.Index (Payload BusRow GenRow BranchRow)
open Verif.OpfModel Verif.Pips Verif.Network

noncomputable section

/-- Columns of `bus` (idx_bus.py) other than the number and the type. -/
structure BusD where
  PD : ℝ
  QD : ℝ
  GS : ℝ
  BS : ℝ
  VM : ℝ
  VA : ℝ
  VMAX : ℝ
  VMIN : ℝ
  LAM_P : ℝ
  LAM_Q : ℝ
  MU_VMAX : ℝ
  MU_VMIN : ℝ
  rest : List ℝ

/-- Columns of `gen` (idx_gen.py) other than the bus and the status. -/
structure GenD where
  PG : ℝ
  QG : ℝ
  QMAX : ℝ
  QMIN : ℝ
  VG : ℝ
  PMAX : ℝ
  PMIN : ℝ
  MU_PMAX : ℝ
  MU_PMIN : ℝ
  MU_QMAX : ℝ
  MU_QMIN : ℝ
  rest : List ℝ

/-- Columns of `branch` (idx_brch.py) other than the end buses and the status. -/
structure BrD where
  r : ℝ
  x : ℝ
  b : ℝ
  rateA : ℝ
  tap : ℝ
  shift : ℝ
  PF : ℝ
  QF : ℝ
  PT : ℝ
  QT : ℝ
  MU_SF : ℝ
  MU_ST : ℝ
  MU_ANGMIN : ℝ
  MU_ANGMAX : ℝ
  rest : List ℝ

/-- The tables of a case: cost rows as in `Verif/Cost`, user matrices by columns. -/
abbrev Tables : Payload := ⟨BusD, GenD, BrD, List ℝ, Cost.CostRow ℝ, List ℝ⟩

/-- The tables in internal numbering as the formulation reads them (opf_setup.py:110-131); `none` models the `IndexError` of a bus number
past the end of the bus table. -/
def readCase (base : ℝ) (c : Index.Case Tables) : Option (Case c.bus.length c.gen.length c.branch.length) :=
  if h : (∀ k : Fin c.gen.length, c.gen[k].bus < c.bus.length) ∧
      (∀ k : Fin c.branch.length, c.branch[k].f < c.bus.length ∧ c.branch[k].t < c.bus.length) then
    some {
      base := base
      bus := fun k => ⟨c.bus[k].data.PD, c.bus[k].data.QD, c.bus[k].data.GS, c.bus[k].data.BS⟩
      isRef := fun k => c.bus[k].typ == 3
      va := fun k => c.bus[k].data.VA
      vm := fun k => c.bus[k].data.VM
      vmin := fun k => c.bus[k].data.VMIN
      vmax := fun k => c.bus[k].data.VMAX
      gen := fun k => ⟨⟨c.gen[k].bus, h.1 k⟩, c.gen[k].data.PG, c.gen[k].data.QG, c.gen[k].status⟩
      pmin := fun k => c.gen[k].data.PMIN
      pmax := fun k => c.gen[k].data.PMAX
      qmin := fun k => c.gen[k].data.QMIN
      qmax := fun k => c.gen[k].data.QMAX
      branch := fun k => ⟨⟨c.branch[k].f, (h.2 k).1⟩, ⟨c.branch[k].t, (h.2 k).2⟩, c.branch[k].data.r, c.branch[k].data.x, c.branch[k].data.b,
        c.branch[k].data.tap, c.branch[k].data.shift, c.branch[k].status⟩
      rateA := fun k => c.branch[k].data.rateA }
  else none

/-- Overwriting of columns of the three tables, row by row. -/
structure Upd (nb ng nl : ℕ) where
  bus : Fin nb → BusD → BusD
  gen : Fin ng → GenD → GenD
  branch : Fin nl → BrD → BrD

/-- `results = ppc; results["bus"], ... = bus, ...` (dcopf_solver.py:275-277, pipsopf_solver.py:206-209): everything else stays. -/
def write (c : Index.Case Tables) (u : Upd c.bus.length c.gen.length c.branch.length) : Index.Case Tables :=
  { c with
    bus := List.ofFn fun k : Fin c.bus.length => { c.bus[k] with data := u.bus k c.bus[k].data }
    gen := List.ofFn fun k : Fin c.gen.length => { c.gen[k] with data := u.gen k c.gen[k].data }
    branch := List.ofFn fun k : Fin c.branch.length => { c.branch[k] with data := u.branch k c.branch[k].data } }

/-- The multiplier columns written by `opf_execute` after a successful solution: those of the capability curve added to the limits of the generators
(opf_execute.py:101-106, see `Verif/Mupq`; AC only), those of the angle limits (opf_execute.py:137-140).  Arbitrary here. -/
structure PostMu (ng nl : ℕ) where
  pmax : Fin ng → ℝ → ℝ
  pmin : Fin ng → ℝ → ℝ
  qmax : Fin ng → ℝ → ℝ
  qmin : Fin ng → ℝ → ℝ
  angmin : Fin nl → ℝ → ℝ
  angmax : Fin nl → ℝ → ℝ

variable {nb ng nl : ℕ}

/-- Columns written by `dcopf_solver` (dcopf_solver.py:243-267) and `opf_execute`. -/
def dcUpd (s : DcRes nb ng nl) (p : PostMu ng nl) : Upd nb ng nl where
  bus := fun k b => { b with VA := s.VA k, LAM_P := s.LAM_P k, LAM_Q := 0, MU_VMIN := 0, MU_VMAX := 0 }
  gen := fun k g => { g with PG := s.PG k, MU_PMIN := s.MU_PMIN k, MU_PMAX := s.MU_PMAX k, MU_QMIN := 0, MU_QMAX := 0 }
  branch := fun k l => { l with
    PF := s.PF k, PT := s.PT k, QF := s.QF k, QT := s.QT k, MU_SF := s.MU_SF k, MU_ST := s.MU_ST k,
    MU_ANGMIN := if s.success then p.angmin k l.MU_ANGMIN else l.MU_ANGMIN,
    MU_ANGMAX := if s.success then p.angmax k l.MU_ANGMAX else l.MU_ANGMAX }

/-- Columns written by `pipsopf_solver` (pipsopf_solver.py:151-188) and `opf_execute` (column `VG` a second time, with the same values). -/
def acUpd (s : AcRes nb ng nl) (p : PostMu ng nl) : Upd nb ng nl where
  bus := fun k b => { b with VA := s.VA k, VM := s.VM k, LAM_P := s.LAM_P k, LAM_Q := s.LAM_Q k, MU_VMIN := s.MU_VMIN k, MU_VMAX := s.MU_VMAX k }
  gen := fun k g => { g with
    PG := s.PG k, QG := s.QG k, VG := s.VG k,
    MU_PMIN := if s.success then p.pmin k (s.MU_PMIN k) else s.MU_PMIN k,
    MU_PMAX := if s.success then p.pmax k (s.MU_PMAX k) else s.MU_PMAX k,
    MU_QMIN := if s.success then p.qmin k (s.MU_QMIN k) else s.MU_QMIN k,
    MU_QMAX := if s.success then p.qmax k (s.MU_QMAX k) else s.MU_QMAX k }
  branch := fun k l => { l with
    PF := s.PF k, PT := s.PT k, QF := s.QF k, QT := s.QT k, MU_SF := s.MU_SF k, MU_ST := s.MU_ST k,
    MU_ANGMIN := if s.success then p.angmin k l.MU_ANGMIN else l.MU_ANGMIN,
    MU_ANGMAX := if s.success then p.angmax k l.MU_ANGMAX else l.MU_ANGMAX }

/-- The columns zeroed in the rows of out-of-service generators and branches. -/
structure Off where
  gen : GenD → GenD
  branch : BrD → BrD

/-- opf.py:180-184; `MU_QMAX`, `MU_QMIN` are not in the list. -/
def opfOff : Off where
  gen := fun g => { g with PG := 0, QG := 0, MU_PMAX := 0, MU_PMIN := 0 }
  branch := fun l => { l with PF := 0, QF := 0, PT := 0, QT := 0, MU_SF := 0, MU_ST := 0, MU_ANGMIN := 0, MU_ANGMAX := 0 }

/-- Zeroing of the results of out-of-service equipment (opf.py:180-184, runpf.py:299-303). -/
def zeroOff (z : Off) (c : Index.Case Tables) : Index.Case Tables :=
  match c.order with
  | none => c
  | some o => { c with
      gen := c.gen.mapIdx fun i g => if i ∈ o.genOff then { g with data := z.gen g.data } else g
      branch := c.branch.mapIdx fun i l => if i ∈ o.branchOff then { l with data := z.branch l.data } else l }

/-- What the caller gets: `results['success']`, `results['f']`, the tables; `tol` is the solver's feasibility tolerance, `dual` the size of the multipliers it
found, `size` the number of variables and linear constraints of the model (`results['om']`). -/
structure Ret where
  success : Bool
  f : ℝ
  tol : ℝ
  dual : ℝ
  size : ℕ
  tables : Index.Case Tables

/-- What the formulation adds to the standard variables and constraints, the objective, the starting point, the later multiplier columns: each depends on
the tables in internal numbering in an arbitrary way. -/
structure DcSetup where
  extra : ∀ {nb ng nl : ℕ}, Case nb ng nl → Index.Case Tables → List Op
  H : Index.Case Tables → ∀ m : Model, Matrix (Fin m.var.total) (Fin m.var.total) ℝ
  C : Index.Case Tables → ∀ m : Model, Fin m.var.total → ℝ
  C0 : Index.Case Tables → Model → ℝ
  x0 : Index.Case Tables → ∀ m : Model, Fin m.var.total → ℝ
  post : Index.Case Tables → Model → ∀ {nb ng nl : ℕ}, DcRes nb ng nl → PostMu ng nl

/-- `opf` with `PF_DC` (opf.py:167-196). -/
def opfDc (srt : List ℕ → List ℕ) (base : ℝ) (S : DcSetup) (o : Opt) (solve : AnySolver) (c : Index.Case Tables) : Option Ret := do
  let c' ← Index.ext2int srt c
  let d ← readCase base c'
  let m ← OpfModel.run (dcOps d ++ S.extra d c')
  let s ← dcopfSolver d m (S.H c' m) (S.C c' m) (S.C0 c' m) o solve (S.x0 c' m)
  let r ← Index.int2ext (write c' (dcUpd s (S.post c' m s)))
  some ⟨s.success, s.f, s.tol, s.dual, m.var.total + m.lin.total, zeroOff opfOff r⟩

/-- As `DcSetup`. -/
structure AcSetup where
  extra : ∀ {nb ng nl : ℕ}, Case nb ng nl → Index.Case Tables → List Op
  cost : Index.Case Tables → OpfCost.AcData
  x0 : Index.Case Tables → ∀ m : Model, Fin m.var.total → ℝ
  post : Index.Case Tables → Model → ∀ {nb ng nl : ℕ}, AcRes nb ng nl → PostMu ng nl

/-- `opf` with the AC formulation (opf.py:167-196); `lim` is `OPF_FLOW_LIM`. -/
def opfAc (srt : List ℕ → List ℕ) (base : ℝ) (lim : Int) (S : AcSetup) (o : Opt) (solve : AnySolver) (c : Index.Case Tables) : Option Ret := do
  let c' ← Index.ext2int srt c
  let d ← readCase base c'
  let m ← OpfModel.run (acOps d ++ S.extra d c')
  let s ← pipsopfSolver d lim (S.cost c') m o solve (S.x0 c' m)
  let r ← Index.int2ext (write c' (acUpd s (S.post c' m s)))
  some ⟨s.success, s.f, s.tol, s.dual, m.var.total + m.lin.total, zeroOff opfOff r⟩

end

end Verif.Opf
