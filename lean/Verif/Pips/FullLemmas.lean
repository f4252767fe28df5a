import Verif.Pips.Full
import Verif.Pips.Props
import Verif.Pips.SplitProps

/-! # Lemmas: regrouping the multipliers of the split system by original row -/

open Matrix

namespace Verif.Pips

theorem iRows_nodup (n : ℕ) (ll uu : ℕ → EReal) : (iRows n ll uu).Nodup := by
  have inj : ∀ b : Bool, Function.Injective (Prod.mk b : ℕ → Bool × ℕ) := fun b x y h => (Prod.mk.inj h).2
  have dLB : ∀ k ∈ ilt n ll uu, k ∉ ibx n ll uu := fun k h1 h2 =>
    absurd (mem_ilt.1 h1).2.1 (not_le.2 (mem_ibx.1 h2).2.2.2)
  have dGB : ∀ k ∈ igt n ll uu, k ∉ ibx n ll uu := fun k h1 h2 =>
    absurd (mem_igt.1 h1).2.1 (not_le.2 (mem_ibx.1 h2).2.2.1)
  unfold iRows
  have h1 := (ilt_nodup n ll uu).map (inj true)
  have h2 := (igt_nodup n ll uu).map (inj false)
  have h3 := (ibx_nodup n ll uu).map (inj true)
  have h4 := (ibx_nodup n ll uu).map (inj false)
  refine List.nodup_append.2 ⟨List.nodup_append.2 ⟨List.nodup_append.2 ⟨h1, h2, ?_⟩, h3, ?_⟩, h4, ?_⟩
  · intro a ha b hb hab
    simp only [List.mem_map] at ha hb
    obtain ⟨x, _, rfl⟩ := ha
    obtain ⟨y, _, rfl⟩ := hb
    simp at hab
  · intro a ha b hb hab
    simp only [List.mem_append, List.mem_map] at ha hb
    obtain ⟨y, hy, rfl⟩ := hb
    rcases ha with ⟨x, hx, rfl⟩ | ⟨x, hx, rfl⟩
    · simp at hab; subst hab; exact dLB _ hx hy
    · simp at hab
  · intro a ha b hb hab
    simp only [List.mem_append, List.mem_map] at ha hb
    obtain ⟨y, hy, rfl⟩ := hb
    rcases ha with (⟨x, hx, rfl⟩ | ⟨x, hx, rfl⟩) | ⟨x, hx, rfl⟩
    · simp at hab
    · simp at hab; subst hab; exact dGB _ hx hy
    · simp at hab

theorem iRows_row_lt {n : ℕ} {ll uu : ℕ → EReal} {r : Bool × ℕ} (h : r ∈ iRows n ll uu) : r.2 < n := by
  unfold iRows at h
  simp only [List.mem_append, List.mem_map] at h
  rcases h with ((⟨x, hx, rfl⟩ | ⟨x, hx, rfl⟩) | ⟨x, hx, rfl⟩) | ⟨x, hx, rfl⟩
  · exact (mem_ilt.1 hx).1
  · exact (mem_igt.1 hx).1
  · exact (mem_ibx.1 hx).1
  · exact (mem_ibx.1 hx).1

/-- An upper inequality row has an upper bound below `1e10`, a lower one a lower bound above `-1e10`. -/
theorem iRows_bound {n : ℕ} {ll uu : ℕ → EReal} {r : Bool × ℕ} (h : r ∈ iRows n ll uu) :
    (r.1 = true → uu r.2 < big) ∧ (r.1 = false → -big < ll r.2) := by
  unfold iRows at h
  simp only [List.mem_append, List.mem_map] at h
  rcases h with ((⟨x, hx, rfl⟩ | ⟨x, hx, rfl⟩) | ⟨x, hx, rfl⟩) | ⟨x, hx, rfl⟩
  · exact ⟨fun _ => (mem_ilt.1 hx).2.2, by simp⟩
  · exact ⟨by simp, fun _ => (mem_igt.1 hx).2.2⟩
  · exact ⟨fun _ => (mem_ibx.1 hx).2.2.1, by simp⟩
  · exact ⟨by simp, fun _ => (mem_ibx.1 hx).2.2.2⟩

/-- Equality rows do not occur among the inequality rows (their bounds being inside `(-1e10, 1e10)`). -/
theorem ieq_not_iRows {n : ℕ} {ll uu : ℕ → EReal}
    (hin : ∀ k < n, Equal (ll k) (uu k) → ((-10 ^ 10 : ℝ) : EReal) < ll k ∧ uu k < ((10 ^ 10 : ℝ) : EReal))
    {k : ℕ} (h : k ∈ ieq n ll uu) (b : Bool) : (b, k) ∉ iRows n ll uu := by
  obtain ⟨hk, hn⟩ := mem_ieq.1 h
  have hE := hin k hk ((near_iff _ _).1 hn)
  rw [← neg_big] at hE
  intro hm
  unfold iRows at hm
  simp only [List.mem_append, List.mem_map, Prod.mk.injEq] at hm
  rcases hm with ((⟨x, hx, hb, rfl⟩ | ⟨x, hx, hb, rfl⟩) | ⟨x, hx, hb, rfl⟩) | ⟨x, hx, hb, rfl⟩
  · exact absurd (mem_ilt.1 hx).2.1 (not_le.2 hE.1)
  · exact absurd (mem_igt.1 hx).2.1 (not_le.2 hE.2)
  · exact (mem_ibx.1 hx).2.1 hn
  · exact (mem_ibx.1 hx).2.1 hn

/-- Sum over the positions of a list without repetitions, of the values at the positions holding `a`. -/
theorem sum_pos {α : Type} [DecidableEq α] (xs : List α) (hnd : xs.Nodup) (v : Fin xs.length → ℝ) (a : α) :
    (∀ p, xs.get p = a → ∑ p, (if xs.get p = a then v p else 0) = v p) ∧
    (a ∉ xs → ∑ p, (if xs.get p = a then v p else 0) = 0) := by
  constructor
  · intro p hp
    rw [Finset.sum_eq_single p]
    · rw [if_pos hp]
    · intro p' _ hne
      rw [if_neg]
      intro hp'
      exact hne (List.nodup_iff_injective_get.1 hnd (hp'.trans hp.symm))
    · intro h; exact absurd (Finset.mem_univ p) h
  · intro ha
    refine Finset.sum_eq_zero fun p _ => if_neg fun hp => ha ?_
    rw [← hp]; exact List.get_mem _ _

/-- **Regrouping.**  The packed multipliers reproduce, row by row, the contributions of the split system. -/
theorem regroup (N : ℕ) (ll uu : ℕ → EReal) (lam : Fin (ieq N ll uu).length → ℝ) (mu : Fin (iRows N ll uu).length → ℝ)
    (hin : ∀ k < N, Equal (ll k) (uu k) → ((-10 ^ 10 : ℝ) : EReal) < ll k ∧ uu k < ((10 ^ 10 : ℝ) : EReal)) :
    ∃ L U, muL N ll uu (List.ofFn lam) (List.ofFn mu) = some L ∧ muU N ll uu (List.ofFn lam) (List.ofFn mu) = some U ∧
      L.length = N ∧ U.length = N ∧
      (∀ a : ℕ → ℝ, ∑ k ∈ Finset.range N, a k * (U.getD k 0 - L.getD k 0) =
        ∑ p, a ((ieq N ll uu).get p) * lam p + ∑ p, sgn ((iRows N ll uu).get p).1 * a ((iRows N ll uu).get p).2 * mu p) ∧
      ((∀ p, 0 ≤ mu p) → ∀ k, 0 ≤ L.getD k 0 ∧ 0 ≤ U.getD k 0) := by
  obtain ⟨L, U, hL, hU, lL, lU, mT, mF, mE, zT, zF, hpos⟩ := C36_multipliers N ll uu (List.ofFn lam) (List.ofFn mu) (by simp) (by simp) hin
  refine ⟨L, U, hL, hU, lL, lU, ?_, ?_⟩
  · intro a
    have hnd := iRows_nodup N ll uu
    have hne := ieq_nodup N ll uu
    have getE : ∀ p : Fin (ieq N ll uu).length, (ieq N ll uu)[(p : ℕ)]? = some ((ieq N ll uu).get p) := fun p => by simp
    have getR : ∀ p : Fin (iRows N ll uu).length, (iRows N ll uu)[(p : ℕ)]? = some ((iRows N ll uu).get p) := fun p => by simp
    have key : ∀ k ∈ Finset.range N, U.getD k 0 - L.getD k 0 =
        (∑ p, (if (ieq N ll uu).get p = k then lam p else 0)) +
          ((∑ p, (if (iRows N ll uu).get p = (true, k) then mu p else 0)) - ∑ p, (if (iRows N ll uu).get p = (false, k) then mu p else 0)) := by
      intro k hk
      have hkN := Finset.mem_range.1 hk
      by_cases he : k ∈ ieq N ll uu
      · obtain ⟨p, hp⟩ := List.mem_iff_get.1 he
        have hE := mE p k (lam p) (by rw [getE, hp]) (by simp)
        rw [(sum_pos _ hne lam k).1 p hp, (sum_pos _ hnd mu (true, k)).2 (ieq_not_iRows hin he true),
          (sum_pos _ hnd mu (false, k)).2 (ieq_not_iRows hin he false)]
        rw [List.getD_eq_getElem?_getD, List.getD_eq_getElem?_getD, hE.1, hE.2]
        simp only [Option.getD_some, sub_zero, add_zero]
        rcases le_total (lam p) 0 with h | h
        · rw [max_eq_right h, max_eq_left (by linarith)]; ring
        · rw [max_eq_left h, max_eq_right (by linarith)]; ring
      · rw [(sum_pos _ hne lam k).2 he]
        have hUk : U.getD k 0 = ∑ p, (if (iRows N ll uu).get p = (true, k) then mu p else 0) := by
          by_cases hr : (true, k) ∈ iRows N ll uu
          · obtain ⟨p, hp⟩ := List.mem_iff_get.1 hr
            rw [(sum_pos _ hnd mu (true, k)).1 p hp, List.getD_eq_getElem?_getD, mT p k (by rw [getR, hp])]
            simp
          · rw [(sum_pos _ hnd mu (true, k)).2 hr, List.getD_eq_getElem?_getD, zT k hkN hr he]
            simp
        have hLk : L.getD k 0 = ∑ p, (if (iRows N ll uu).get p = (false, k) then mu p else 0) := by
          by_cases hr : (false, k) ∈ iRows N ll uu
          · obtain ⟨p, hp⟩ := List.mem_iff_get.1 hr
            rw [(sum_pos _ hnd mu (false, k)).1 p hp, List.getD_eq_getElem?_getD, mF p k (by rw [getR, hp])]
            simp
          · rw [(sum_pos _ hnd mu (false, k)).2 hr, List.getD_eq_getElem?_getD, zF k hkN hr he]
            simp
        rw [hUk, hLk]; ring
    rw [Finset.sum_congr rfl fun k hk => by rw [key k hk]]
    simp only [mul_add, Finset.sum_add_distrib, ← Finset.sum_sub_distrib, Finset.mul_sum]
    congr 1
    · rw [Finset.sum_comm]
      refine Finset.sum_congr rfl fun p _ => ?_
      rw [Finset.sum_eq_single ((ieq N ll uu).get p)]
      · rw [if_pos rfl]
      · intro k _ hne'
        rw [if_neg (Ne.symm hne'), mul_zero]
      · intro h
        exact absurd (Finset.mem_range.2 (mem_ieq.1 (List.get_mem _ p)).1) h
    · rw [Finset.sum_comm]
      refine Finset.sum_congr rfl fun p _ => ?_
      have hlt := iRows_row_lt (List.get_mem (iRows N ll uu) p)
      rw [Finset.sum_eq_single ((iRows N ll uu).get p).2]
      · rcases hr : (iRows N ll uu).get p with ⟨b, k⟩
        cases b <;> simp [sgn]
      · intro k _ hne'
        rw [if_neg (fun h => hne' (by rw [h])), if_neg (fun h => hne' (by rw [h]))]
        simp
      · intro h
        exact absurd (Finset.mem_range.2 hlt) h
  · intro h k
    obtain ⟨h1, h2⟩ := hpos (by intro t ht; obtain ⟨p, rfl⟩ := (List.mem_ofFn' _ _).1 ht; exact h p)
    constructor
    · rw [List.getD_eq_getElem?_getD]
      cases hk : L[k]? with
      | none => simp
      | some t => simpa using h1 t (List.mem_iff_getElem?.2 ⟨k, hk⟩)
    · rw [List.getD_eq_getElem?_getD]
      cases hk : U[k]? with
      | none => simp
      | some t => simpa using h2 t (List.mem_iff_getElem?.2 ⟨k, hk⟩)

end Verif.Pips
