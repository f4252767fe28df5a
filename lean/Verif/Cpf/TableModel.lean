import Verif.Cpf.Model
import Verif.Runpf.TableModel

/-!
# Model of `runcpf`: from the tables of the caller to the tables returned

`runcpf.py:64-307`: the two cases are converted to internal numbering separately (`Verif/Index`); buses are classified and the network is built from the base
case only; the curve is traced (`Verif/Cpf/Model`); the loading at the last point is written into the tables of the target case, which `pfsoln` completes with the
base matrices; conversion back, placing of the curve into the caller's bus order, zeroing of the results of out-of-service equipment.

Rows are those of `Verif/Opf/RunModel`; the zero columns for results (runcpf.py:67-71, 88-92) are implicit.  Not modelled: loading of the cases, user callbacks, printing,
saving, timing, plotting.
-/

open Matrix

namespace Verif.Cpf

open Verif.Opf (Tables readCase Upd write Off zeroOff)
open Verif.Runpf (Case Out readPf initialV pfOff)
open Verif.Network Verif.Solvers Verif.Pfsoln

noncomputable section

/-- What is used of the target case: demand, generators, branches (runcpf.py:95-97). -/
structure Target (nb ng nl : ℕ) where
  bus : Fin nb → Bus
  gen : Fin ng → GenQ (Fin nb)
  branch : Fin nl → Branch (Fin nb)

/-- The target tables in internal numbering, next to base tables with `nb` buses and `ng` generators; different numbers of rows raise in `Sbust - Sbusb`
(runcpf.py:130) and in line 279 (simplification: also where one of the tables has a single row, which numpy would repeat). -/
def readTarget (base : ℝ) (c : Index.Case Tables) (nb ng : ℕ) : Option (Target nb ng c.branch.length) := do
  let d ← readCase base c
  if h : c.bus.length = nb ∧ c.gen.length = ng then
    some {
      bus := fun k => d.bus (k.cast h.1.symm)
      gen := fun k => ⟨{ d.gen (k.cast h.2.symm) with bus := (d.gen (k.cast h.2.symm)).bus.cast h.1 }, d.qmin (k.cast h.2.symm), d.qmax (k.cast h.2.symm)⟩
      branch := fun k => { d.branch k with f := (d.branch k).f.cast h.1, t := (d.branch k).t.cast h.1 } }
  else none

/-- Demand at a point of the curve (runcpf.py:277-278). -/
def loadAt {nb ng nl : ℕ} (b : Fin nb → Bus) (t : Target nb ng nl) (lam : ℝ) (k : Fin nb) : Bus :=
  { t.bus k with PD := (b k).PD + lam * ((t.bus k).PD - (b k).PD), QD := (b k).QD + lam * ((t.bus k).QD - (b k).QD) }

/-- Scheduled outputs at a point of the curve (runcpf.py:279). -/
def schedAt {nb ng nl : ℕ} (g : Fin ng → GenQ (Fin nb)) (t : Target nb ng nl) (lam : ℝ) (k : Fin ng) : ℝ :=
  (g k).PG + lam * ((t.gen k).PG - (g k).PG)

/-- The data of the trace (runcpf.py:122-130). -/
def netOf {nb ng nl nl' : ℕ} (baseT : ℝ) (p : Case (Fin nb) (Fin nl) ng) (t : Target nb ng nl') (lin : LinSolver (Fin nb)) (tol : ℝ) (maxIt : ℕ) : Net (Fin nb) where
  Y := Ybus p.baseMVA p.bus p.branch
  S := makeSbus p.baseMVA p.bus fun g => (p.gen g).toGen
  X := fun b => makeSbus baseT t.bus (fun g => (t.gen g).toGen) b - makeSbus p.baseMVA p.bus (fun g => (p.gen g).toGen) b
  pv := p.pv
  pq := p.pq
  lin := lin
  tol := tol
  maxIt := maxIt

/-- `pfsoln` on the target tables with the loading of the point and the matrices and lists of the base case (runcpf.py:282-283): row `k` of `brancht` is given the
flow of row `k` of the base matrices `Yf`, `Yt`; `none` also models the `IndexError` when these have fewer rows. -/
def cpfOut {nb ng nl nl' : ℕ} (EPS baseT : ℝ) (p : Case (Fin nb) (Fin nl) ng) (t : Target nb ng nl') (V : Fin nb → ℂ) (lam : ℝ) (success : Bool) :
    Option (Out (Fin nb) (Fin nl') ng) :=
  if h : nl' ≤ nl then
    (newPG baseT (loadAt p.bus t lam) t.gen (Ybus p.baseMVA p.bus p.branch) V p.ref (schedAt p.gen t lam)).map fun PG =>
      { V := V
        VM := fun b => ‖V b‖
        VA := fun b => (V b).arg * 180 / Real.pi
        PG := PG
        QG := newQG EPS baseT (loadAt p.bus t lam) t.gen (Ybus p.baseMVA p.bus p.branch) V
        Sf := brFrom baseT t.branch ((Yf p.branch).submatrix (Fin.castLE h) id) V
        St := brTo baseT t.branch ((Yt p.branch).submatrix (Fin.castLE h) id) V
        success := success }
  else none

/-- Columns written into the target tables (runcpf.py:277-283, 290). -/
def cpfUpd {nb ng nl : ℕ} {n m : ℕ} (hn : n = nb) (hm : m = ng) (load : Fin nb → Bus) (o : Out (Fin nb) (Fin nl) ng) : Upd n m nl where
  bus := fun k b => { b with PD := (load (k.cast hn)).PD, QD := (load (k.cast hn)).QD, VM := o.VM (k.cast hn), VA := o.VA (k.cast hn) }
  gen := fun k g => { g with PG := o.PG (k.cast hm), QG := o.QG (k.cast hm) }
  branch := fun k l => { l with PF := (o.Sf k).re, QF := (o.Sf k).im, PT := (o.St k).re, QT := (o.St k).im }

/-- Options: `PF_TOL`, `PF_MAX_IT`, `CPF_STOP_AT`, the limits of the step, the step, parameterisation and `CPF_ADAPT_STEP`; machine epsilon. -/
structure CpfOpt where
  tol : ℝ
  maxIt : ℕ
  stopAt : StopAt
  adapt : Adapt
  ctl : Ctl
  EPS : ℝ

/-- The curve in `results['cpf']`: one column per point, `none` is NaN. -/
structure Curve where
  Vp : List (List (Option ℂ))
  lamp : List ℝ
  Vc : List (List (Option ℂ))
  lamc : List ℝ
  maxLam : Option ℝ

/-- `results['success']`, the tables (`none`: they contain NaN), `results['cpf']['iterations']` and the curve (absent after a failure). -/
structure CpfRet where
  success : Bool
  tables : Option (Index.Case Tables)
  iterations : ℕ
  curve : Option Curve

/-- A column of `V_p` or `V_c`: `i2e_data(ppctarget, ., full((nb, n), nan), "bus", 0)` (runcpf.py:293-296) with `nb` the number of rows of the base case (runcpf.py:65). -/
def column (nb : ℕ) (c : Index.Case Tables) {n : ℕ} (V : Fin n → ℂ) : Option (List (Option ℂ)) := do
  let o ← c.order
  NumPy.scatter (List.replicate nb none) o.busOn (List.ofFn fun k => some (V k))

/-- runcpf.py:266-273, 291-296.  The number of columns `n` is that of the history (see `C63`). -/
def curveOf (nb : ℕ) (c : Index.Case Tables) {n : ℕ} (r : Report (Fin n)) : Option (Option Curve) :=
  if r.success then do
    let Vp ← r.hist.mapM fun e => column nb c e.p.1
    let Vc ← r.hist.mapM fun e => column nb c e.c.1
    some (some ⟨Vp, r.hist.map fun e => e.p.2, Vc, r.hist.map fun e => e.c.2, r.maxLam⟩)
  else some none

/-- The trace from the voltages of the base case; when these are not finite the base power flow and the first correction fail. -/
def traceFrom {nb : ℕ} (o : CpfOpt) (n : Net (Fin nb)) (V0 : Option (Fin nb → ℂ)) (fuel : ℕ) : Option (Option (Report (Fin nb))) :=
  match V0 with
  | some V0 => runcpf n o.stopAt o.adapt o.ctl V0 fuel
  | none => if @decide (n.X = 0) (Classical.dec _) then none else some (some (report (.fail 1 n.maxIt none)))

/-- The returned tables (runcpf.py:277-307). -/
def cpfTables {nb ng nl : ℕ} (o : CpfOpt) (baseT : ℝ) (p : Case (Fin nb) (Fin nl) ng) (c : Index.Case Tables) (t : Target nb ng c.branch.length)
    (hn : c.bus.length = nb) (hm : c.gen.length = ng) (r : Report (Fin nb)) : Option (Option (Index.Case Tables)) :=
  match r.V, r.lam with
  | some V, some lam => do
    let s ← cpfOut o.EPS baseT p t V lam r.success
    let e ← Index.int2ext (write c (cpfUpd hn hm (loadAt p.bus t lam) s))
    some (some (zeroOff pfOff e))
  | _, _ => some none

/-- `runcpf`; `none` is raising, `some none` is still running after `fuel` steps. -/
def runcpfTables (srt : List ℕ → List ℕ) (baseB baseT : ℝ) (o : CpfOpt) (lin : ∀ {n : ℕ}, LinSolver (Fin n)) (cb ct : Index.Case Tables) (fuel : ℕ) :
    Option (Option CpfRet) := do
  let b ← Index.ext2int srt cb
  let p ← readPf baseB b
  let c ← Index.ext2int srt ct
  let t ← readTarget baseT c b.bus.length b.gen.length
  let r ← traceFrom o (netOf baseT p t lin o.tol o.maxIt) (initialV p) fuel
  match r with
  | none => some none
  | some r =>
    if h : c.bus.length = b.bus.length ∧ c.gen.length = b.gen.length then do
      let T ← cpfTables o baseT p c t h.1 h.2 r
      let cv ← curveOf cb.bus.length c r
      some (some ⟨r.success, T, r.iterations, cv⟩)
    else none

end

end Verif.Cpf
