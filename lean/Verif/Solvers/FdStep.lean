import Verif.Solvers.NewtonStep
import Verif.Network.FdMatrix

/-!
# C89: the half-iterations of the fast-decoupled power flow
-/

open Matrix ComplexConjugate

namespace Verif.Solvers

noncomputable section

variable {B : Type} [Fintype B] [DecidableEq B]

/-- `solve` solves the system of the rows and columns `idx` of `M` (what `splu(...).solve` does with a regular matrix). -/
def SolvesSub (M : Matrix B B ℝ) (idx : List B) (solve : BSolver) : Prop :=
  ∀ rhs, rhs.length = idx.length → ∃ x, solve rhs = some x ∧ x.length = idx.length ∧
    idx.map (fun i => (List.zipWith (· * ·) (idx.map fun j => M i j) x).sum) = rhs

theorem sub_step (M : Matrix B B ℝ) (idx : List B) (hn : idx.Nodup) (x : List ℝ) (F : B → ℝ)
    (hsol : idx.map (fun i => (List.zipWith (· * ·) (idx.map fun j => M i j) x).sum) = idx.map F) (u : B → ℝ) :
    (∀ b, b ∉ idx → addAt u idx (x.map fun e => -e) b = u b) ∧
    ∀ b ∈ idx, (M *ᵥ (addAt u idx (x.map fun e => -e) - u)) b = -F b := by
  refine ⟨fun b hb => addAt_of_not_mem _ _ _ b hb, fun b hb => ?_⟩
  have h1 : (List.zipWith (· * ·) (idx.map fun j => M b j) x).sum = F b := by
    obtain ⟨k, hk, rfl⟩ := List.mem_iff_getElem.1 hb
    have := congrArg (fun l => l[k]?) hsol
    simpa [hk] using this
  have h2 : ∀ j, (addAt u idx (x.map fun e => -e) - u) j = -1 * dir idx x j := by
    intro j
    have e : (x.map fun e => -e) = x.map ((-1 : ℝ) * ·) := by simp
    rw [Pi.sub_apply, addAt_eq, e, dir_smul]
    ring
  rw [← h1, ← dir_sum (fun j => M b j) idx x hn]
  simp only [Matrix.mulVec, dotProduct, h2]
  rw [← Finset.sum_neg_distrib]
  exact Finset.sum_congr rfl fun j _ => by ring

/-- **C89 (P half-iteration).**  From finite voltages that are not zero at the buses concerned, the P half-iteration changes the angles of PV and PQ buses only, by the solution of
`B′ ΔVa = −P`, `P` being the active mismatch divided by the magnitude; magnitudes are kept. -/
theorem C89_p_step (Y : Matrix B B ℂ) (S : B → ℂ) (pv pq : List B) (hn : (pv ++ pq).Nodup) (M : Matrix B B ℝ) (solve : BSolver) (hs : SolvesSub M (pv ++ pq) solve)
    (Va Vm : B → ℝ) (hz : ∀ b ∈ pv ++ pq, Vm b ≠ 0) :
    ∃ Va', pHalf Y S pv pq solve (some (Va, Vm)) = some (Va', Vm) ∧ (∀ b, b ∉ pv → b ∉ pq → Va' b = Va b) ∧
      ∀ b, b ∈ pv ∨ b ∈ pq →
        (M *ᵥ (Va' - Va)) b = -((polar Vm Va b * conj ((Y *ᵥ polar Vm Va) b) - S b) / (Vm b : ℂ)).re := by
  obtain ⟨x, h1, h2, h3⟩ := hs ((pv ++ pq).map fun b => (mis Y S (polar Vm Va) b / (Vm b : ℂ)).re) (by simp)
  obtain ⟨h4, h5⟩ := sub_step M (pv ++ pq) hn x _ h3 Va
  refine ⟨_, ?_, fun b hv hq => h4 b (by simp [hv, hq]), fun b hb => h5 b (by simpa using hb)⟩
  have hne : ¬ ∃ b ∈ pv ++ pq, Vm b = 0 := fun ⟨b, hb, h0⟩ => hz b hb h0
  simp only [pHalf, Option.bind_some]
  rw [if_neg hne, h1]
  rfl

/-- **C89 (Q half-iteration).**  The Q half-iteration changes the magnitudes of PQ buses only, by the solution of `B″ ΔVm = −Q`, `Q` being the reactive mismatch divided by the
magnitude; angles are kept. -/
theorem C89_q_step (Y : Matrix B B ℂ) (S : B → ℂ) (pv pq : List B) (hn : pq.Nodup) (M : Matrix B B ℝ) (solve : BSolver) (hs : SolvesSub M pq solve)
    (Va Vm : B → ℝ) (hz : ∀ b ∈ pv ++ pq, Vm b ≠ 0) :
    ∃ Vm', qHalf Y S pv pq solve (some (Va, Vm)) = some (Va, Vm') ∧ (∀ b, b ∉ pq → Vm' b = Vm b) ∧
      ∀ b ∈ pq, (M *ᵥ (Vm' - Vm)) b = -((polar Vm Va b * conj ((Y *ᵥ polar Vm Va) b) - S b) / (Vm b : ℂ)).im := by
  obtain ⟨x, h1, h2, h3⟩ := hs (pq.map fun b => (mis Y S (polar Vm Va) b / (Vm b : ℂ)).im) (by simp)
  obtain ⟨h4, h5⟩ := sub_step M pq hn x _ h3 Vm
  refine ⟨_, ?_, h4, h5⟩
  have hne : ¬ ∃ b ∈ pv ++ pq, Vm b = 0 := fun ⟨b, hb, h0⟩ => hz b hb h0
  simp only [qHalf, Option.bind_some]
  rw [if_neg hne, h1]
  rfl

/-- Two buses, bus 1 PQ, `M` with 10 on the diagonal: the hypotheses are met with a nonempty list. -/
example : SolvesSub (Matrix.of fun i j : Fin 2 => if i = j then (10 : ℝ) else -10) [1] (fun r => some (r.map (· / 10))) ∧ ([] ++ [(1 : Fin 2)]).Nodup := by
  refine ⟨fun rhs hr => ⟨_, rfl, by simpa using hr, ?_⟩, by simp⟩
  obtain ⟨a, rfl⟩ := List.length_eq_one_iff.1 (by simpa using hr)
  simp
  ring

end

end Verif.Solvers
