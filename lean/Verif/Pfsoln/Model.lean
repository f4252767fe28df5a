import Verif.Network.Model

/-!
# Model of the power flow result update (`pfsoln.py`) and of the DC power flow (`dcpf.py`, DC branch of `runpf.py`)

Generators are rows `Fin ng` (their order matters: the first in-service generator at a reference bus is the slack generator).
-/

namespace Verif.Pfsoln
open Matrix Complex ComplexConjugate Verif.Network

variable {B L : Type} [Fintype B] [Fintype L] [DecidableEq B] [DecidableEq L] {ng : Nat}

/-- Columns of `gen` used by `pfsoln` beyond `Network.Gen`. -/
structure GenQ (B : Type) extends Gen B where
  QMIN : ℝ
  QMAX : ℝ

/-- pfsoln.py:36, runpf.py:102: generators in service, in table order. -/
noncomputable def onList (gen : Fin ng → GenQ B) : List (Fin ng) := (List.finRange ng).filter (fun g => decide ((gen g).stat > 0))

/-- pfsoln.py:80 / runpf.py:140: in-service generators at bus `r`, in table order. -/
noncomputable def refgen (gen : Fin ng → GenQ B) (r : B) : List (Fin ng) := (onList gen).filter (fun g => decide ((gen g).bus = r))

/-- pfsoln.py:40: complex power injected into the network at a bus, in p.u. -/
noncomputable def Sinj (Y : Matrix B B ℂ) (V : B → ℂ) (b : B) : ℂ := V b * conj ((Y *ᵥ V) b)

/-- Sum over the in-service generators at a bus (pfsoln.py:57,64-66: products with the connection matrix `Cg`). -/
noncomputable def atBus (gen : Fin ng → GenQ B) (F : Fin ng → ℝ) (b : B) : ℝ := ∑ g with (gen g).stat > 0 ∧ (gen g).bus = b, F g

/-- pfsoln.py:43-44: total reactive requirement of the bus, assigned to every in-service generator there. -/
noncomputable def qTotal (baseMVA : ℝ) (bus : B → Bus) (Y : Matrix B B ℂ) (V : B → ℂ) (b : B) : ℝ := (Sinj Y V b).im * baseMVA + (bus b).QD

/-- pfsoln.py:42-75: new `QG` column.  `EPS` is the machine epsilon. -/
noncomputable def newQG (EPS baseMVA : ℝ) (bus : B → Bus) (gen : Fin ng → GenQ B) (Y : Matrix B B ℂ) (V : B → ℂ) (g : Fin ng) : ℝ :=
  if (gen g).stat > 0 then
    let q0 := fun h => qTotal baseMVA bus Y V (gen h).bus
    if 1 < (onList gen).length then
      let q1 := fun h => q0 h / atBus gen (fun _ => 1) (gen h).bus
      let tot := atBus gen q1 (gen g).bus
      let lo := atBus gen (fun h => (gen h).QMIN) (gen g).bus
      let hi := atBus gen (fun h => (gen h).QMAX) (gen g).bus
      if lo = hi then q1 g
      else (gen g).QMIN + (tot - lo) / (hi - lo + EPS) * ((gen g).QMAX - (gen g).QMIN)
    else q0 g
  else 0

/-- pfsoln.py:79-86, one pass of the loop for reference bus `r`: `none` models the `IndexError` when no generator in service is there. -/
noncomputable def slackStep (baseMVA : ℝ) (bus : B → Bus) (gen : Fin ng → GenQ B) (Y : Matrix B B ℂ) (V : B → ℂ) (PG : Fin ng → ℝ) (r : B) :
    Option (Fin ng → ℝ) :=
  match refgen gen r with
  | [] => none
  | g :: rest => some (Function.update PG g ((Sinj Y V r).re * baseMVA + (bus r).PD - (rest.map PG).sum))

/-- pfsoln.py:79-86: the whole loop; the new `PG` column. (The code subtracts the sum only if there are other generators; an empty sum is 0.) -/
noncomputable def newPG (baseMVA : ℝ) (bus : B → Bus) (gen : Fin ng → GenQ B) (Y : Matrix B B ℂ) (V : B → ℂ) :
    List B → (Fin ng → ℝ) → Option (Fin ng → ℝ)
  | [], PG => some PG
  | r :: rs, PG => (slackStep baseMVA bus gen Y V PG r).bind (newPG baseMVA bus gen Y V rs)

/-- pfsoln.py:88-97: complex power at the from end, `PF + j QF` (zero if out of service). -/
noncomputable def brFrom (baseMVA : ℝ) (branch : L → Branch B) (Yf : Matrix L B ℂ) (V : B → ℂ) (l : L) : ℂ :=
  if (branch l).stat = 0 then 0 else V (branch l).f * conj ((Yf *ᵥ V) l) * baseMVA

/-- pfsoln.py:88-97: complex power at the to end, `PT + j QT`. -/
noncomputable def brTo (baseMVA : ℝ) (branch : L → Branch B) (Yt : Matrix L B ℂ) (V : B → ℂ) (l : L) : ℂ :=
  if (branch l).stat = 0 then 0 else V (branch l).t * conj ((Yt *ᵥ V) l) * baseMVA

/-- runpf.py:121-123: bus injections of the DC power flow, adjusted for phase shifters and shunts. -/
noncomputable def dcPbus (baseMVA : ℝ) (bus : B → Bus) (gen : Fin ng → GenQ B) (branch : L → Branch B) (i : B) : ℝ :=
  (makeSbus baseMVA bus (fun g => (gen g).toGen) i).re - Pbusinj branch i - (bus i).GS / baseMVA

/-- `dcpf(B, Pbus, Va0, ref, pv, pq)` (dcpf.py:28-36).  `isRef` marks the buses of `ref`; `pv`+`pq` are the others (`bustypes`, C10).
`solve` is `pplinsolve`. -/
noncomputable def dcpf (isRef : B → Prop) [DecidablePred isRef]
    (solve : Matrix {i : B // ¬ isRef i} {i : B // ¬ isRef i} ℝ → ({i : B // ¬ isRef i} → ℝ) → ({i : B // ¬ isRef i} → ℝ))
    (Bm : Matrix B B ℝ) (Pbus Va0 : B → ℝ) : B → ℝ :=
  let x := solve (fun i j => Bm i.1 j.1) (fun i => Pbus i.1 - ∑ r : {r : B // isRef r}, Bm i.1 r.1 * Va0 r.1)
  fun i => if h : ¬ isRef i then x ⟨i, h⟩ else Va0 i

/-- runpf.py:134-142: slack generator update of the DC power flow; `none` if a reference bus has no generator in service (`IndexError`). -/
noncomputable def dcPG (baseMVA : ℝ) (bus : B → Bus) (gen : Fin ng → GenQ B) (branch : L → Branch B) (ref : List B) (Va : B → ℝ) :
    Option (Fin ng → ℝ) :=
  if ∃ r ∈ ref, refgen gen r = [] then none else
  some (fun g => if (gen g).bus ∈ ref ∧ (refgen gen (gen g).bus).head? = some g then
      (gen g).PG + ((Bbus branch *ᵥ Va) (gen g).bus - dcPbus baseMVA bus gen branch (gen g).bus) * baseMVA
    else (gen g).PG)

/-- runpf.py:129-131: `PF` column of the DC power flow (`PT = -PF`, `QF = QT = 0`). -/
noncomputable def dcPF (baseMVA : ℝ) (branch : L → Branch B) (Va : B → ℝ) (l : L) : ℝ :=
  ((Bf branch *ᵥ Va) l + Pfinj branch l) * baseMVA

end Verif.Pfsoln
