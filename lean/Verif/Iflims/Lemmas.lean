import Verif.Iflims.Model
import Verif.NumPyLemmas
import Verif.Network.Props
import Verif.Constr.Lemmas

/-! Facts about the interface flow callbacks. -/

open Verif.NumPy

namespace Verif.Iflims

theorem e2i_spec (on : List Bool) : ∃ e, e2i on = some e ∧ e.length = on.length
    ∧ (∀ (k i : Nat), (find on)[k]? = some i → e[i]? = some k)
    ∧ ∀ i < on.length, i ∉ find on → e[i]? = some 0 := by
  obtain ⟨e, h1, h2, h3, h4⟩ := scatter_mask (List.replicate on.length 0) on (by simp)
    (List.range (find on).length) (by simp)
  refine ⟨e, h1, by simpa using h2, ?_, ?_⟩
  · intro k i hk
    rw [h3 k i hk, List.getElem?_range (List.getElem?_eq_some_iff.1 hk).1]
  · intro i hi hni
    rw [h4 i hni, List.getElem?_replicate, if_pos hi]

/-- The first listed position has no `true` before it. -/
theorem find_first (on : List Bool) (i : Nat) (h : (find on)[0]? = some i) (j : Nat) (hj : on[j]? = some true) : i ≤ j := by
  have hm : j ∈ find on := (mem_find on j).2 hj
  obtain ⟨k, hk⟩ := List.mem_iff_getElem?.1 hm
  obtain ⟨hk1, hk2⟩ := List.getElem?_eq_some_iff.1 hk
  obtain ⟨h01, h02⟩ := List.getElem?_eq_some_iff.1 h
  rcases Nat.eq_zero_or_pos k with rfl | hpos
  · omega
  · have := (List.pairwise_iff_getElem.1 (find_pairwise on)) 0 k h01 hk1 hpos
    omega

/-- Branch `i` is the first one in service. -/
def FirstOn (on : List Bool) (i : Nat) : Prop := on[i]? = some true ∧ ∀ j < i, on[j]? ≠ some true

theorem firstOn_iff (on : List Bool) (i : Nat) : (find on)[0]? = some i ↔ FirstOn on i := by
  constructor
  · intro h
    have hm : i ∈ find on := List.mem_of_getElem? h
    refine ⟨(mem_find on i).1 hm, fun j hj hjt => ?_⟩
    have := find_first on i h j hjt
    omega
  · rintro ⟨h1, h2⟩
    have hm : i ∈ find on := (mem_find on i).2 h1
    obtain ⟨k, hk⟩ := List.mem_iff_getElem?.1 hm
    have hlen : 0 < (find on).length := List.length_pos_of_mem hm
    have h0 := List.getElem?_eq_getElem hlen
    have hle := find_first on _ h0 i h1
    have ht := (mem_find on _).1 (List.mem_of_getElem? h0)
    rcases Nat.lt_or_eq_of_le hle with h | h
    · exact absurd ht (h2 _ h)
    · rw [h0, h]

/-- What a converted row is. -/
theorem convRow_spec (on : List Bool) (e : List Nat) (he : e2i on = some e) (r : MapRow) (hr : r.2.natAbs < on.length) :
    ∃ k : Nat, convRow e r = some (r.1, r.2.sign * (k : Int))
      ∧ (on[r.2.natAbs]? = some false → k = 0)
      ∧ (on[r.2.natAbs]? = some true → (find on)[k]? = some r.2.natAbs) := by
  obtain ⟨e', h1, h2, h3, h4⟩ := e2i_spec on
  have : e = e' := Option.some.inj (he.symm.trans h1)
  subst this
  by_cases hm : r.2.natAbs ∈ find on
  · obtain ⟨k, hk⟩ := List.mem_iff_getElem?.1 hm
    refine ⟨k, by simp [convRow, h3 k _ hk], fun h => ?_, fun _ => hk⟩
    rw [mem_find, h] at hm; simp at hm
  · refine ⟨0, by simp [convRow, h4 _ hr hm], fun _ => rfl, fun h => absurd ((mem_find _ _).2 h) hm⟩

theorem ext2int_eq (on : List Bool) (ifmap : List MapRow) (hr : ∀ r ∈ ifmap, r.2.natAbs < on.length) :
    ∃ e m, e2i on = some e ∧ ifmap.mapM (convRow e) = some m ∧ ext2int on ifmap = some (m, m.filter fun r => decide (r.2 ≠ 0)) := by
  obtain ⟨e, he, -, -, -⟩ := e2i_spec on
  have : ∃ m, ifmap.mapM (convRow e) = some m := by
    induction ifmap with
    | nil => exact ⟨[], rfl⟩
    | cons r rs ih =>
      obtain ⟨m, hm⟩ := ih (fun r' h => hr r' (List.mem_cons_of_mem _ h))
      obtain ⟨k, hk, -, -⟩ := convRow_spec on e he r (hr r List.mem_cons_self)
      exact ⟨_, by rw [List.mapM_cons, hk, hm]; rfl⟩
  obtain ⟨m, hm⟩ := this
  exact ⟨e, m, he, hm, by unfold ext2int; simp [he, hm]⟩

noncomputable section

variable {B : Type} [Fintype B] [DecidableEq B]

/-- Flow of an internal branch in p.u. (zero if there is none). -/
def iflow (branch : List (Network.Branch B)) (i : Nat) (theta : B → ℝ) : ℝ :=
  match branch[i]? with
  | some b => Network.dcFlow b theta
  | none => 0

theorem iflow_eq (branch : List (Network.Branch B)) (hs : ∀ b ∈ branch, b.stat = 0 ∨ b.stat = 1) (i : Nat) (h : i < branch.length)
    (theta : B → ℝ) :
    (∑ j, Network.Bf branch.get ⟨i, h⟩ j * theta j) + Network.Pfinj branch.get ⟨i, h⟩ = iflow branch i theta := by
  have := (Network.C24_lossless (fun l => branch.get l) (fun l => hs _ (List.get_mem _ _)) theta).1 ⟨i, h⟩
  unfold iflow
  rw [List.getElem?_eq_getElem h]
  exact this

theorem fold_spec (branch : List (Network.Branch B)) (hs : ∀ b ∈ branch, b.stat = 0 ∨ b.stat = 1) (ss : List Int)
    (hr : ∀ s ∈ ss, s.natAbs < branch.length) (acc : (B → ℝ) × ℝ) :
    ∃ A b, ss.foldlM (addBranch branch) acc = some (A, b) ∧ ∀ theta : B → ℝ,
      (∑ j, A j * theta j) + b = (∑ j, acc.1 j * theta j) + acc.2
        + (ss.map fun s => (s.sign : ℝ) * iflow branch s.natAbs theta).sum := by
  induction ss generalizing acc with
  | nil => exact ⟨acc.1, acc.2, rfl, fun theta => by simp⟩
  | cons s ss ih =>
    have hsl := hr s List.mem_cons_self
    obtain ⟨A, b, h1, h2⟩ := ih (fun s' h => hr s' (List.mem_cons_of_mem _ h))
      (fun j => acc.1 j + s.sign * Network.Bf branch.get ⟨s.natAbs, hsl⟩ j,
        acc.2 + s.sign * Network.Pfinj branch.get ⟨s.natAbs, hsl⟩)
    refine ⟨A, b, ?_, fun theta => ?_⟩
    · rw [List.foldlM_cons]
      have : addBranch branch acc s = some (fun j => acc.1 j + s.sign * Network.Bf branch.get ⟨s.natAbs, hsl⟩ j,
        acc.2 + s.sign * Network.Pfinj branch.get ⟨s.natAbs, hsl⟩) := by
        unfold addBranch; rw [dif_pos hsl]
      rw [this]; exact h1
    · rw [h2 theta, List.map_cons, List.sum_cons, ← iflow_eq branch hs s.natAbs hsl theta]
      simp only [add_mul, Finset.sum_add_distrib, mul_assoc, ← Finset.mul_sum]
      ring

end

theorem ifidx_sorted (lims : List LimRow) (h : (lims.map Prod.fst).Pairwise (· < ·)) : ifidx lims = lims.map Prod.fst := by
  unfold ifidx
  have hnd : (lims.map Prod.fst).Nodup := h.imp (fun h => ne_of_lt h)
  rw [List.dedup_eq_self.2 hnd]
  exact List.Pairwise.insertionSort_eq (h.imp fun h => le_of_lt h)

end Verif.Iflims
