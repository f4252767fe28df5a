import Verif.Runpf.Model
import Verif.Bustypes.Model
import Verif.Opf.RunModel

/-!
# Model of `runpf`: from the tables of the caller to the tables returned

`runpf.py:93-303`: conversion to internal numbering (`Verif/Index`), classification of the buses (`Verif/Bustypes`), the DC or the AC power flow
(`Verif/Runpf/Model`, `Verif/Pfsoln`, `Verif/Solvers`), conversion back, zeroing of the results of out-of-service equipment.

Rows are those of `Verif/Opf/RunModel`; the zero columns for results (runpf.py:88-91) are implicit.  Not modelled: loading of the case, printing, saving, timing.
-/

namespace Verif.Runpf

open Verif.Opf (Tables readCase Upd write Off zeroOff)
open Verif.Network Verif.Solvers

noncomputable section

/-- A list of bus numbers as indices. -/
def idxOf (n : ℕ) (l : List ℕ) : List (Fin n) := l.filterMap fun i => if h : i < n then some ⟨i, h⟩ else none

/-- The tables in internal numbering as the driver reads them (runpf.py:95-103): columns as in `readCase`, lists from `bustypes`. -/
def readPf (base : ℝ) (c : Index.Case Tables) : Option (Case (Fin c.bus.length) (Fin c.branch.length) c.gen.length) := do
  let d ← readCase base c
  let t ← Bustypes.bustypes (c.bus.map (·.typ)) (c.gen.map fun g => ⟨g.bus, g.status⟩)
  some {
    baseMVA := d.base
    bus := d.bus
    VM := d.vm
    VA := d.va
    gen := fun k => ⟨d.gen k, d.qmin k, d.qmax k⟩
    VG := fun k => c.gen[k].data.VG
    branch := d.branch
    ref := idxOf _ t.1
    pv := idxOf _ t.2.1
    pq := idxOf _ t.2.2 }

/-- Options: `PF_ALG`, `PF_TOL`, `PF_MAX_IT`, `PF_MAX_IT_FD`, `PF_MAX_IT_GS`, `ENFORCE_Q_LIMS`, `OPF_VIOLATION`; machine epsilon. -/
structure PfOpt where
  alg : Int
  tol : ℝ
  maxIt : ℕ
  maxItFd : ℕ
  maxItGs : ℕ
  qlim : Bool
  viol : ℝ
  EPS : ℝ

/-- The linear algebra libraries: solution of the Newton equations; factorisation of a matrix given by rows (`splu`, `none`: it raises). -/
structure PfLib where
  lin : ∀ {n : ℕ}, LinSolver (Fin n)
  splu : List (List ℝ) → Option BSolver

/-- The choice of the solver (runpf.py:185-196); any other algorithm leaves `V` unbound, `pfsoln` raises. -/
def pickSolver {nb nl ng : ℕ} (o : PfOpt) (lib : PfLib) (c : Case (Fin nb) (Fin nl) ng) : Solver (Fin nb) :=
  let Y := Ybus c.baseMVA c.bus c.branch
  fun S V0 =>
    if o.alg = 1 then newtonpf lib.lin Y S V0 c.pv c.pq o.tol o.maxIt
    else if o.alg = 2 ∨ o.alg = 3 then
      let P := lib.splu ((c.pv ++ c.pq).map fun i => (c.pv ++ c.pq).map fun j => Bp c.baseMVA c.bus c.branch o.alg.toNat i j)
      let Q := lib.splu (c.pq.map fun i => c.pq.map fun j => Bpp c.baseMVA c.bus c.branch o.alg.toNat i j)
      fdpf Y S V0 (P.isSome && Q.isSome) (P.getD fun _ => none) (Q.getD fun _ => none) c.pv c.pq o.tol o.maxItFd
    else if o.alg = 4 then (gausspf Y S V0 c.pv c.pq o.tol o.maxItGs).map Prod.fst
    else none

/-- Columns written by `pfsoln` (pfsoln.py:35-97). -/
def acUpd {nb nl ng : ℕ} (o : Out (Fin nb) (Fin nl) ng) : Upd nb ng nl where
  bus := fun k b => { b with VM := o.VM k, VA := o.VA k }
  gen := fun k g => { g with PG := o.PG k, QG := o.QG k }
  branch := fun k l => { l with PF := (o.Sf k).re, QF := (o.Sf k).im, PT := (o.St k).re, QT := (o.St k).im }

/-- runpf.py:299-303. -/
def pfOff : Off where
  gen := fun g => { g with PG := 0, QG := 0 }
  branch := fun l => { l with PF := 0, QF := 0, PT := 0, QT := 0 }

/-- `results['success']` and the tables (`none`: they contain NaN). -/
structure PfRet where
  success : Bool
  tables : Option (Index.Case Tables)

/-- `runpf` with the AC formulation. -/
def runpfAc (srt : List ℕ → List ℕ) (base : ℝ) (o : PfOpt) (lib : PfLib) (c : Index.Case Tables) : Option PfRet := do
  let c' ← Index.ext2int srt c
  let p ← readPf base c'
  let q ← runAC o.EPS o.viol o.qlim (pickSolver o lib p) p
  match q with
  | .nan s => some ⟨s, none⟩
  | .ok s => (Index.int2ext (write c' (acUpd s))).map fun r => ⟨s.success, some (zeroOff pfOff r)⟩

/-- Columns written by the DC branch (runpf.py:129-142). -/
def dcUpd {nb nl ng : ℕ} (c : Case (Fin nb) (Fin nl) ng) (Va : Fin nb → ℝ) (PG : Fin ng → ℝ) : Upd nb ng nl where
  bus := fun k b => { b with VM := 1, VA := Va k * (180 / Real.pi) }
  gen := fun k g => { g with PG := PG k }
  branch := fun k l => { l with PF := Pfsoln.dcPF c.baseMVA c.branch Va k, PT := -Pfsoln.dcPF c.baseMVA c.branch Va k, QF := 0, QT := 0 }

/-- `pplinsolve` of the DC power flow, for each size and set of unknowns. -/
abbrev DcLib := ∀ {I : Type}, Matrix I I ℝ → (I → ℝ) → I → ℝ

/-- `runpf` with `PF_DC` (runpf.py:108-145); `success` is always 1. -/
def runpfDc (srt : List ℕ → List ℕ) (base : ℝ) (lib : DcLib) (c : Index.Case Tables) : Option PfRet := do
  let c' ← Index.ext2int srt c
  let p ← readPf base c'
  let Va := Pfsoln.dcpf (· ∈ p.ref) lib (Bbus p.branch) (Pfsoln.dcPbus p.baseMVA p.bus p.gen p.branch) fun k => p.VA k * (Real.pi / 180)
  let PG ← Pfsoln.dcPG p.baseMVA p.bus p.gen p.branch p.ref Va
  let r ← Index.int2ext (write c' (dcUpd p Va PG))
  some ⟨true, some (zeroOff pfOff r)⟩

end

end Verif.Runpf
