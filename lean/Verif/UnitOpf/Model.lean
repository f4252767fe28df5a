import Verif.Opf.EconModel

/-!
# Model of `uopf` on the tables of a case

`Verif/Uopf` has the search with an arbitrary optimal power flow on single columns.  Here the search works on the tables themselves (`uopf.py:25-130`), so that the
optimal power flows of `Verif/Opf` can be put in.  Not modelled: `opf_args2` (argument forms), the options that only concern printing, the timing.
-/

namespace Verif.UnitOpf

open Verif.Index (BusRow GenRow)
open Verif.Opf

noncomputable section
open Classical

/-- `isload` (isload.py:24): negative PMIN and zero PMAX. -/
def loadRow (g : GenRow GenD) : Prop := g.data.PMIN < 0 ∧ g.data.PMAX = 0

/-- `sum(Pmin)` of the generators with positive status that are no dispatchable loads (uopf.py:56, 59).  Generators at isolated buses count. -/
def sumPmin (c : Index.Case Tables) : ℝ := ((c.gen.filter fun g => decide (0 < g.status ∧ ¬ loadRow g)).map fun g => g.data.PMIN).sum

/-- `load_capacity` (uopf.py:57-58): the demands of all buses, isolated ones too, and what the dispatchable loads can take. -/
def loadCapacity (c : Index.Case Tables) : ℝ :=
  (c.bus.map fun b => b.data.PD).sum - ((c.gen.filter fun g => decide (0 < g.status ∧ loadRow g)).map fun g => g.data.PMIN).sum

/-- `ppc["gen"][k, [PG, QG, GEN_STATUS]] = 0` (uopf.py:101). -/
def shutRow (g : GenRow GenD) : GenRow GenD := { g with status := 0, data := { g.data with PG := 0, QG := 0 } }

/-- Candidates for shut down (uopf.py:90). -/
def candidates (t : Index.Case Tables) : List ℕ := NumPy.find (t.gen.map fun g => decide (0 < g.data.MU_PMIN ∧ 0 < g.data.PMIN))

/-- The case handed to the optimal power flow for candidate `k` of the best result `r` so far (uopf.py:86, 99-101, 121): its generator table with row `k` shut down,
its bus table; everything else, branches too, is the caller's. -/
def withOff (c : Index.Case Tables) (r : Ret) (k : ℕ) : Index.Case Tables := { c with bus := r.tables.bus, gen := r.tables.gen.modify k shutRow }

variable (opf : Index.Case Tables → Option Ret) (c : Index.Case Tables)

/-- The loop over the candidates of a stage (uopf.py:97-111): best result so far and whether there was an improvement. -/
def tryAll (r0 : Ret) : List ℕ → Ret → Bool → Option (Ret × Bool)
  | [], r1, improved => some (r1, improved)
  | k :: ks, r1, improved =>
    match opf (withOff c r0 k) with
    | none => none
    | some r => if r.success = true ∧ r.f < r1.f then tryAll r0 ks r true else tryAll r0 ks r1 improved

/-- The returned result, an exception, or still running after the given number of stages. -/
inductive Outcome where
  | done (r : Ret)
  | raised
  | running

/-- The main loop (uopf.py:88-121); `r0` is the best result of the stage and the best so far. -/
def stages : ℕ → Ret → Outcome
  | 0, _ => .running
  | n + 1, r0 =>
    match candidates r0.tables with
    | [] => .done r0
    | k :: ks =>
      match tryAll opf c r0 (k :: ks) r0 false with
      | none => .raised
      | some (_, false) => .done r0
      | some (r1, true) => stages n r1

/-- `uopf` (uopf.py:25-130) with at most `n` stages.  The loop before the first optimal power flow (uopf.py:60-76) calls `fairmax` in its first pass, which raises for
every argument (`Verif/Uopf`, C51). -/
def uopf (n : ℕ) : Outcome :=
  if loadCapacity c < sumPmin c then .raised else
  match opf c with
  | none => .raised
  | some r => stages opf c n r

end

end Verif.UnitOpf
