import Verif.Runpf.TableModel
import Verif.Solvers.FdStep

/-!
# C89: the fast-decoupled power flow of `runpf` iterates with B′ and B″
-/

namespace Verif.Runpf

open Verif.Network Verif.Solvers

/-- A factorisation that, if it does not raise, solves systems with the matrix given by its rows. -/
def Factors (splu : List (List ℝ) → Option BSolver) : Prop :=
  ∀ rows solve, splu rows = some solve → ∀ rhs : List ℝ, rhs.length = rows.length → ∃ x, solve rhs = some x ∧ x.length = rows.length ∧
    rows.map (fun r => (List.zipWith (· * ·) r x).sum) = rhs

/-- **C89 (runpf).**  With `PF_ALG` 2 or 3 a run that does not raise is the iteration of `fdpf` with solvers of B′ (rows and columns of PV and PQ buses) and of B″ (PQ buses). -/
theorem C89_runpf {nb nl ng : ℕ} (o : PfOpt) (lib : PfLib) (hlib : Factors lib.splu) (c : Case (Fin nb) (Fin nl) ng) (halg : o.alg = 2 ∨ o.alg = 3) (S V0 : Fin nb → ℂ) {r : Res (Fin nb)}
    (hr : pickSolver o lib c S V0 = some r) : ∃ solveP solveQ,
      SolvesSub (Bp c.baseMVA c.bus c.branch o.alg.toNat) (c.pv ++ c.pq) solveP ∧ SolvesSub (Bpp c.baseMVA c.bus c.branch o.alg.toNat) c.pq solveQ ∧
      fdpf (Ybus c.baseMVA c.bus c.branch) S V0 true solveP solveQ c.pv c.pq o.tol o.maxItFd = some r := by
  unfold pickSolver at hr
  have h1 : ¬ o.alg = 1 := by rcases halg with h | h <;> rw [h] <;> decide
  dsimp only at hr
  rw [if_neg h1, if_pos halg] at hr
  cases hP : lib.splu ((c.pv ++ c.pq).map fun i => (c.pv ++ c.pq).map fun j => Bp c.baseMVA c.bus c.branch o.alg.toNat i j) with
  | none =>
    rw [hP] at hr
    simp [fdpf] at hr
  | some sP =>
    cases hQ : lib.splu (c.pq.map fun i => c.pq.map fun j => Bpp c.baseMVA c.bus c.branch o.alg.toNat i j) with
    | none =>
      rw [hP, hQ] at hr
      simp [fdpf] at hr
    | some sQ =>
      rw [hP, hQ] at hr
      refine ⟨sP, sQ, fun rhs hl => ?_, fun rhs hl => ?_, hr⟩
      · obtain ⟨x, h2, h3, h4⟩ := hlib _ _ hP rhs (by simpa using hl)
        exact ⟨x, h2, by simpa using h3, by rw [List.map_map] at h4; exact h4⟩
      · obtain ⟨x, h2, h3, h4⟩ := hlib _ _ hQ rhs (by simpa using hl)
        exact ⟨x, h2, by simpa using h3, by rw [List.map_map] at h4; exact h4⟩

/-- Factorising 1×1 matrices other than zero. -/
noncomputable def exSplu : List (List ℝ) → Option BSolver
  | [[a]] => if a = 0 then none else some fun r => some (r.map (· / a))
  | _ => none

example : Factors exSplu ∧ ∃ s, exSplu [[2]] = some s := by
  refine ⟨fun rows solve h rhs hl => ?_, _, if_neg (by norm_num)⟩
  unfold exSplu at h
  split at h
  · rename_i a
    split at h
    · simp at h
    · rename_i ha
      injection h with h
      obtain ⟨b, rfl⟩ := List.length_eq_one_iff.1 (by simpa using hl)
      refine ⟨[b / a], by rw [← h]; rfl, rfl, ?_⟩
      simp
      field_simp
  · simp at h

end Verif.Runpf
