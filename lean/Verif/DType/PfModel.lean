import Verif.DType.Model
import Verif.Runpf.TableModel

/-!
# Model of `runpf` with a generator table of a given element type

`Verif/Runpf` with every assignment into `gen` going through the element type of that table.  Neither `runpf` nor `ext2int`/`int2ext` convert it: `ext2int.py` selects
rows and renumbers in place, `int2ext.py` writes into the table it saved.  `bus` is a float table here (an integer one is not modelled), `branch` becomes
one when the columns for the flows are appended (runpf.py:88-91).  Results whose exact value is a whole number may be rounded to either side before they are
truncated; real arithmetic has no such effect.
-/

open Matrix ComplexConjugate

namespace Verif.DType

open Verif.Opf (Tables write zeroOff Upd)
open Verif.Network Verif.Pfsoln Verif.Solvers Verif.Runpf

variable {B L : Type} [Fintype B] [Fintype L] [DecidableEq B] [DecidableEq L] {ng : Nat}

noncomputable section

/-- pfsoln.py:42-75: the column `QG`.  Stored three times: the total of the bus (line 44), the equal shares (line 59), the proportional shares (lines 72-74); line 75 restores
values read from the table. -/
def newQGT (e : Elem) (EPS baseMVA : ℝ) (bus : B → Bus) (gen : Fin ng → GenQ B) (Y : Matrix B B ℂ) (V : B → ℂ) (g : Fin ng) : ℝ :=
  if (gen g).stat > 0 then
    let q0 := fun h => e.put (qTotal baseMVA bus Y V (gen h).bus)
    if 1 < (onList gen).length then
      let q1 := fun h => e.put (q0 h / atBus gen (fun _ => 1) (gen h).bus)
      let tot := atBus gen q1 (gen g).bus
      let lo := atBus gen (fun h => (gen h).QMIN) (gen g).bus
      let hi := atBus gen (fun h => (gen h).QMAX) (gen g).bus
      if lo = hi then q1 g
      else e.put ((gen g).QMIN + (tot - lo) / (hi - lo + EPS) * ((gen g).QMAX - (gen g).QMIN))
    else q0 g
  else e.put 0

/-- pfsoln.py:80-86: stored once, and a second time if there are other generators at the bus. -/
def slackStepT (e : Elem) (baseMVA : ℝ) (bus : B → Bus) (gen : Fin ng → GenQ B) (Y : Matrix B B ℂ) (V : B → ℂ) (PG : Fin ng → ℝ) (r : B) :
    Option (Fin ng → ℝ) :=
  match refgen gen r with
  | [] => none
  | g :: rest =>
    let p0 := e.put ((Sinj Y V r).re * baseMVA + (bus r).PD)
    some (Function.update PG g (if rest.isEmpty then p0 else e.put (p0 - (rest.map PG).sum)))

/-- pfsoln.py:79-86. -/
def newPGT (e : Elem) (baseMVA : ℝ) (bus : B → Bus) (gen : Fin ng → GenQ B) (Y : Matrix B B ℂ) (V : B → ℂ) :
    List B → (Fin ng → ℝ) → Option (Fin ng → ℝ)
  | [], PG => some PG
  | r :: rs, PG => (slackStepT e baseMVA bus gen Y V PG r).bind (newPGT e baseMVA bus gen Y V rs)

/-- `pfsoln` (pfsoln.py:33-97). -/
def solutionT (e : Elem) (EPS : ℝ) (c : Case B L ng) (V : B → ℂ) (success : Bool) : Option (Out B L ng) :=
  (newPGT e c.baseMVA c.bus c.gen (Ybus c.baseMVA c.bus c.branch) V c.ref fun g => (c.gen g).PG).map fun PG =>
    { V := V
      VM := fun b => ‖V b‖
      VA := fun b => (V b).arg * 180 / Real.pi
      PG := PG
      QG := newQGT e EPS c.baseMVA c.bus c.gen (Ybus c.baseMVA c.bus c.branch) V
      Sf := brFrom c.baseMVA c.branch (Yf c.branch) V
      St := brTo c.baseMVA c.branch (Yt c.branch) V
      success := success }

/-- runpf.py:196-281: the limits are compared with what is in the table.  With a violation line 212 raises as in `Runpf.finish`: an integer `gen` can index, but `PV | ...` of the
float column `BUS_TYPE` still raises. -/
def finishT (e : Elem) (EPS viol : ℝ) (qlim : Bool) (c : Case B L ng) (r : Res B) : Option (Result B L ng) :=
  match r.V with
  | none => some (.nan r.converged)
  | some V =>
    (solutionT e EPS c V r.converged).bind fun o =>
      if qlim = true ∧ @decide (violation viol c o) (Classical.dec _) = true then none else some (.ok o)

/-- The AC branch of `runpf` (runpf.py:146-281). -/
def runACT (e : Elem) (EPS viol : ℝ) (qlim : Bool) (solve : Solver B) (c : Case B L ng) : Option (Result B L ng) :=
  match initialV c with
  | none => some (.nan false)
  | some V0 => (solve (makeSbus c.baseMVA c.bus fun g => (c.gen g).toGen) V0).bind (finishT e EPS viol qlim c)

/-- `runpf` with the AC formulation (runpf.py:85-303). -/
def runpfAcT (e : Elem) (srt : List ℕ → List ℕ) (base : ℝ) (o : PfOpt) (lib : PfLib) (c : Index.Case Tables) : Option PfRet := do
  let c' ← Index.ext2int srt c
  let p ← readPf base c'
  let q ← runACT e o.EPS o.viol o.qlim (pickSolver o lib p) p
  match q with
  | .nan s => some ⟨s, none⟩
  | .ok s => (Index.int2ext (write c' (acUpd s))).map fun r => ⟨s.success, some (zeroOff pfOff r)⟩

/-- runpf.py:134-142: the store of line 142. -/
def dcPGT (e : Elem) (baseMVA : ℝ) (bus : B → Bus) (gen : Fin ng → GenQ B) (branch : L → Branch B) (ref : List B) (Va : B → ℝ) :
    Option (Fin ng → ℝ) :=
  if ∃ r ∈ ref, refgen gen r = [] then none else
  some (fun g => if (gen g).bus ∈ ref ∧ (refgen gen (gen g).bus).head? = some g then
      e.put ((gen g).PG + ((Bbus branch *ᵥ Va) (gen g).bus - dcPbus baseMVA bus gen branch (gen g).bus) * baseMVA)
    else (gen g).PG)

/-- `runpf` with `PF_DC` (runpf.py:108-145, 290-303). -/
def runpfDcT (e : Elem) (srt : List ℕ → List ℕ) (base : ℝ) (lib : DcLib) (c : Index.Case Tables) : Option PfRet := do
  let c' ← Index.ext2int srt c
  let p ← readPf base c'
  let Va := dcpf (· ∈ p.ref) lib (Bbus p.branch) (dcPbus p.baseMVA p.bus p.gen p.branch) fun k => p.VA k * (Real.pi / 180)
  let PG ← dcPGT e p.baseMVA p.bus p.gen p.branch p.ref Va
  let r ← Index.int2ext (write c' (dcUpd p Va PG))
  some ⟨true, some (zeroOff pfOff r)⟩

end

end Verif.DType
