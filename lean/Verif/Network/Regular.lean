import Verif.Network.Props
import Mathlib.LinearAlgebra.Matrix.ToLinearEquiv
import Mathlib.Logic.Relation

/-!
# C88: the DC power flow equations of a network tied to its reference buses have exactly one solution
-/

open Matrix

namespace Verif.Network

variable {B L : Type} [Fintype B] [Fintype L] [DecidableEq B] [DecidableEq L]

/-- Two buses are the ends of a branch in service. -/
def Joined (branch : L → Branch B) (a b : B) : Prop :=
  ∃ l, (branch l).stat ≠ 0 ∧ ((branch l).f = a ∧ (branch l).t = b ∨ (branch l).f = b ∧ (branch l).t = a)

theorem bdc_pos {L0 : Type} {br : Branch L0} (hst : 0 < br.stat) (hx : 0 < br.x) (ht : 0 ≤ br.tap) : 0 < bdc br := by
  unfold bdc tapRatio
  split
  · positivity
  · rename_i hne
    have : 0 < br.tap := lt_of_le_of_ne ht (Ne.symm (by simpa using hne))
    positivity

theorem Bbus_energy (branch : L → Branch B) (w : B → ℝ) : w ⬝ᵥ (Bbus branch *ᵥ w) = ∑ l, bdc (branch l) * (w (branch l).f - w (branch l).t) ^ 2 := by
  have h1 : ∀ l, (Cft branch *ᵥ w) l = w (branch l).f - w (branch l).t := by
    intro l
    simp [Cft, Matrix.add_mulVec, coo_mulVec]
    ring
  rw [Bbus, ← Matrix.mulVec_mulVec, Matrix.dotProduct_mulVec, Matrix.vecMul_transpose, dotProduct]
  refine Finset.sum_congr rfl fun l _ => ?_
  rw [h1, Bf_mulVec]
  ring

/-- If every branch in service has positive susceptance and every bus is joined through branches in service to a reference bus, the matrix of the DC power flow
(`B` without the rows and columns of reference buses) is regular. -/
theorem regular_of_bdc (branch : L → Branch B) (S : B → Prop) [DecidablePred S] (hpos : ∀ l, (branch l).stat ≠ 0 → 0 < bdc (branch l))
    (htied : ∀ i, ∃ r, S r ∧ Relation.ReflTransGen (Joined branch) r i) : IsUnit (Matrix.of fun i j : {i // ¬ S i} => Bbus branch i.1 j.1).det := by
  rw [isUnit_iff_ne_zero]
  intro hdet
  obtain ⟨v, hv, hMv⟩ := Matrix.exists_mulVec_eq_zero_iff.2 hdet
  let w : B → ℝ := fun i => if h : ¬ S i then v ⟨i, h⟩ else 0
  have hw0 : ∀ i, S i → w i = 0 := fun i hi => by simp [w, hi]
  have hw1 : ∀ i : {i // ¬ S i}, w i.1 = v i := fun i => by simp [w, i.2]
  have hrow : ∀ i : {i // ¬ S i}, (Bbus branch *ᵥ w) i.1 = 0 := by
    intro i
    have e := congrFun hMv i
    rw [Pi.zero_apply] at e
    rw [← e]
    simp only [Matrix.mulVec, dotProduct, Matrix.of_apply]
    rw [← Finset.sum_filter_add_sum_filter_not Finset.univ (fun j => ¬ S j), Finset.sum_subtype (p := fun j => ¬ S j) _ (by simp)]
    rw [Finset.sum_eq_zero (s := Finset.univ.filter fun j => ¬ ¬ S j), add_zero]
    · exact Finset.sum_congr rfl fun j _ => by rw [hw1]
    · intro j hj
      rw [Finset.mem_filter, not_not] at hj
      rw [hw0 j hj.2, mul_zero]
  have hE : ∑ l, bdc (branch l) * (w (branch l).f - w (branch l).t) ^ 2 = 0 := by
    rw [← Bbus_energy, dotProduct]
    refine Finset.sum_eq_zero fun i _ => ?_
    by_cases hi : S i
    · rw [hw0 i hi, zero_mul]
    · rw [hrow ⟨i, hi⟩, mul_zero]
  have hnn : ∀ l ∈ Finset.univ, 0 ≤ bdc (branch l) * (w (branch l).f - w (branch l).t) ^ 2 := by
    intro l _
    by_cases hl : (branch l).stat = 0
    · simp [bdc, hl]
    · exact mul_nonneg (hpos l hl).le (sq_nonneg _)
  have hz := (Finset.sum_eq_zero_iff_of_nonneg hnn).1 hE
  have hj : ∀ a b, Joined branch a b → w a = w b := by
    rintro a b ⟨l, hl, hab⟩
    have h1 := hz l (Finset.mem_univ _)
    rcases mul_eq_zero.1 h1 with h2 | h2
    · exact absurd h2 (hpos l hl).ne'
    · have h3 : w (branch l).f = w (branch l).t := sub_eq_zero.1 (pow_eq_zero_iff (by norm_num) |>.1 h2)
      rcases hab with ⟨rfl, rfl⟩ | ⟨rfl, rfl⟩
      · exact h3
      · exact h3.symm
  have hall : ∀ i, w i = 0 := by
    intro i
    obtain ⟨r, hr, hri⟩ := htied i
    rw [← hw0 r hr]
    induction hri with
    | refl => rfl
    | tail _ h2 ih => rw [← hj _ _ h2, ih]
  exact hv (funext fun i => by rw [← hw1, hall]; rfl)

/-- **C88.**  If every branch in service has positive status, positive reactance and a tap ratio that is not negative (0 stands for 1), and every bus is joined through branches in
service to a reference bus, the matrix of the DC power flow (`B` without the rows and columns of reference buses) is regular. -/
theorem C88_regular (branch : L → Branch B) (S : B → Prop) [DecidablePred S] (hpos : ∀ l, (branch l).stat ≠ 0 → 0 < (branch l).stat ∧ 0 < (branch l).x ∧ 0 ≤ (branch l).tap)
    (htied : ∀ i, ∃ r, S r ∧ Relation.ReflTransGen (Joined branch) r i) : IsUnit (Matrix.of fun i j : {i // ¬ S i} => Bbus branch i.1 j.1).det :=
  regular_of_bdc branch S (fun l hl => bdc_pos (hpos l hl).1 (hpos l hl).2.1 (hpos l hl).2.2) htied

/-- With a regular matrix every angle vector that agrees at the reference buses and meets the same injections elsewhere is the same. -/
theorem C88_unique (branch : L → Branch B) (S : B → Prop) [DecidablePred S] (hpos : ∀ l, (branch l).stat ≠ 0 → 0 < (branch l).stat ∧ 0 < (branch l).x ∧ 0 ≤ (branch l).tap)
    (htied : ∀ i, ∃ r, S r ∧ Relation.ReflTransGen (Joined branch) r i) (θ θ' : B → ℝ) (href : ∀ r, S r → θ r = θ' r)
    (hinj : ∀ i, ¬ S i → (Bbus branch *ᵥ θ) i = (Bbus branch *ᵥ θ') i) : θ = θ' := by
  have hu := C88_regular branch S hpos htied
  have hM : (Matrix.of fun i j : {i // ¬ S i} => Bbus branch i.1 j.1) *ᵥ (fun i => θ i.1 - θ' i.1) = 0 := by
    funext i
    have e : (Bbus branch *ᵥ (θ - θ')) i.1 = 0 := by
      rw [Matrix.mulVec_sub, Pi.sub_apply, hinj i.1 i.2, sub_self]
    rw [Pi.zero_apply, ← e]
    simp only [Matrix.mulVec, dotProduct, Matrix.of_apply]
    rw [← Finset.sum_filter_add_sum_filter_not Finset.univ (fun j => ¬ S j), Finset.sum_subtype (p := fun j => ¬ S j) _ (by simp)]
    rw [Finset.sum_eq_zero (s := Finset.univ.filter fun j => ¬ ¬ S j), add_zero]
    · rfl
    · intro j hj
      rw [Finset.mem_filter, not_not] at hj
      rw [Pi.sub_apply, href j hj.2, sub_self, mul_zero]
  have h0 : (fun i : {i // ¬ S i} => θ i.1 - θ' i.1) = 0 := by
    have := Matrix.eq_zero_of_mulVec_eq_zero (isUnit_iff_ne_zero.1 hu) hM
    exact this
  funext i
  by_cases hi : S i
  · exact href i hi
  · exact sub_eq_zero.1 (congrFun h0 ⟨i, hi⟩)

/-- Conversely, a part of the network that no branch in service joins to a reference bus makes the matrix singular: the DC power flow of a case with an island without slack bus is not
determined by its equations. -/
theorem C88_island (branch : L → Branch B) (S : B → Prop) [DecidablePred S] (I : B → Prop) [DecidablePred I] (hne : ∃ i, I i) (hI : ∀ i, I i → ¬ S i)
    (hcl : ∀ l, (branch l).stat ≠ 0 → (I (branch l).f ↔ I (branch l).t)) : ¬ IsUnit (Matrix.of fun i j : {i // ¬ S i} => Bbus branch i.1 j.1).det := by
  rw [isUnit_iff_ne_zero, not_not]
  rw [← Matrix.exists_mulVec_eq_zero_iff]
  let w : B → ℝ := fun i => if I i then 1 else 0
  obtain ⟨i0, hi0⟩ := hne
  refine ⟨fun i => w i.1, fun h => ?_, ?_⟩
  · have := congrFun h ⟨i0, hI i0 hi0⟩
    simp [w, hi0] at this
  have hB : Bbus branch *ᵥ w = 0 := by
    have hf : Bf branch *ᵥ w = 0 := by
      funext l
      rw [Bf_mulVec, Pi.zero_apply]
      by_cases hl : (branch l).stat = 0
      · simp [bdc, hl]
      · by_cases h1 : I (branch l).f
        · simp [w, h1, (hcl l hl).1 h1]
        · have h2 : ¬ I (branch l).t := fun h => h1 ((hcl l hl).2 h)
          simp [w, h1, h2]
    rw [Bbus, ← Matrix.mulVec_mulVec, hf, Matrix.mulVec_zero]
  funext i
  have e := congrFun hB i.1
  rw [Pi.zero_apply] at e
  rw [Pi.zero_apply, ← e]
  simp only [Matrix.mulVec, dotProduct, Matrix.of_apply]
  rw [← Finset.sum_filter_add_sum_filter_not Finset.univ (fun j => ¬ S j), Finset.sum_subtype (p := fun j => ¬ S j) _ (by simp)]
  rw [Finset.sum_eq_zero (s := Finset.univ.filter fun j => ¬ ¬ S j), add_zero]
  intro j hj
  rw [Finset.mem_filter, not_not] at hj
  have : ¬ I j := fun h => hI j h hj.2
  simp [w, this]

/-- Two buses, a branch in service, bus 0 as reference: the hypotheses of `C88_regular` and `C88_unique`. -/
def exLine : Fin 1 → Branch (Fin 2) := fun _ => { f := 0, t := 1, stat := 1, r := 0.01, x := 0.1, b := 0, tap := 0, shift := 0 }

example : (∀ l, (exLine l).stat ≠ 0 → 0 < (exLine l).stat ∧ 0 < (exLine l).x ∧ 0 ≤ (exLine l).tap) ∧ ∀ i, ∃ r, r = (0 : Fin 2) ∧ Relation.ReflTransGen (Joined exLine) r i := by
  refine ⟨fun l _ => by norm_num [exLine], fun i => ⟨0, rfl, ?_⟩⟩
  fin_cases i
  · exact .refl
  · exact .single ⟨0, by norm_num [exLine], Or.inl ⟨rfl, rfl⟩⟩

/-- Three buses, bus 2 not joined to anything: the hypotheses of `C88_island`. -/
def exIsland : Fin 1 → Branch (Fin 3) := fun _ => { f := 0, t := 1, stat := 1, r := 0.01, x := 0.1, b := 0, tap := 0, shift := 0 }

example : (∃ i : Fin 3, i = 2) ∧ (∀ i : Fin 3, i = 2 → ¬ i = 0) ∧ ∀ l, (exIsland l).stat ≠ 0 → ((exIsland l).f = 2 ↔ (exIsland l).t = 2) :=
  ⟨⟨2, rfl⟩, by decide, fun l _ => by simp [exIsland]⟩

end Verif.Network
