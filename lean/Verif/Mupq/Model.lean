import Verif.Constr.Model

/-!
# Multipliers of the capability curves

Model of `update_mupq.py:11-50` and of its call in `opf_execute.py:101-106`.
-/

open Verif.NumPy Verif.Constr

namespace Verif.Mupq

noncomputable section

/-- The multiplier columns of a `gen` row: MU_PMAX, MU_PMIN, MU_QMAX, MU_QMIN. -/
structure GenMu where
  pmax : ℝ
  pmin : ℝ
  qmax : ℝ
  qmin : ℝ

/-- `Apqhdata[:, j]` (update_mupq.py:36-41): `makeApq` leaves a one-dimensional empty array when there is no row (makeApq.py:70, 89), which
cannot be indexed by column. -/
def column (d : List Half) (f : Half → ℝ) : Option (List ℝ) := if d = [] then none else some (d.map f)

/-- `mu[ipq] = mu[ipq] - mu_PQ * Apqdata[:, j] / baseMVA` (update_mupq.py:36-41). -/
def subtract (baseMVA : ℝ) (mu : List ℝ) (ipq : List Nat) (muPQ : List ℝ) (d : List Half) (f : Half → ℝ) : Option (List ℝ) := do
  let old ← gather mu ipq
  let col ← column d f
  if muPQ.length = col.length ∧ old.length = col.length then
    scatter mu ipq (List.zipWith (fun o t => o - t / baseMVA) old (List.zipWith (· * ·) muPQ col))
  else none

/-- `(mu > 0) * mu` and `(mu < 0) * -mu` (update_mupq.py:44-47). -/
def posPart (m : ℝ) : ℝ := if @decide (0 < m) (Classical.dec _) then m else 0
def negPart (m : ℝ) : ℝ := if @decide (m < 0) (Classical.dec _) then -m else 0

/-- The `data` dict of `makeApq`: indices and normalised coefficients (makeApq.py:48-49, 57-64, 76-83). -/
structure Data where
  ipqh : List Nat
  ipql : List Nat
  h : List Half
  l : List Half

/-- `data` returned by `makeApq` (makeApq.py:43-96). -/
def apqData (gen : List Gen) : Option Data := do
  let h ← gather gen (find (gen.map hasPQcapU))
  let l ← gather gen (find (gen.map hasPQcapL))
  some ⟨find (gen.map hasPQcapU), find (gen.map hasPQcapL), h.map fun g => (upperHalf g).normalise, l.map fun g => (lowerHalf g).normalise⟩

/-- `update_mupq` (update_mupq.py:11-50). -/
def update_mupq (baseMVA : ℝ) (gen : List GenMu) (muPQh muPQl : List ℝ) (data : Data) : Option (List GenMu) := do
  let muP := gen.map fun g => g.pmax - g.pmin
  let muQ := gen.map fun g => g.qmax - g.qmin
  let muP ← subtract baseMVA muP data.ipqh muPQh data.h Half.a
  let muQ ← subtract baseMVA muQ data.ipqh muPQh data.h Half.b
  let muP ← subtract baseMVA muP data.ipql muPQl data.l Half.a
  let muQ ← subtract baseMVA muQ data.ipql muPQl data.l Half.b
  some (List.zipWith (fun p q => ⟨posPart p, negPart p, posPart q, negPart q⟩) muP muQ)

/-- opf_execute.py:101-106: `l`, `u` are the multipliers on the lower and upper bounds of the rows of the two constraint sets. The table is
untouched when there is no capability constraint at all. -/
def execute (baseMVA : ℝ) (gen : List Gen) (mu : List GenMu) (lh uh ll ul : List ℝ) : Option (List GenMu) := do
  let d ← apqData gen
  if 0 < d.ipqh.length ∨ 0 < d.ipql.length then
    update_mupq baseMVA mu (List.zipWith (· - ·) lh uh) (List.zipWith (· - ·) ll ul) d
  else some mu

end

end Verif.Mupq
