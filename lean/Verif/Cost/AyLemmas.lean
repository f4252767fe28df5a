import Verif.Cost.ModRow

set_option linter.unusedSectionVars false

namespace Verif.Cost
open Polynomial Verif.NumPy

variable {K : Type} [Field K] [LinearOrder K] [IsStrictOrderedRing K]

theorem line_right (r : CostRow K) (k : Nat) (h : (bp r k).1 < (bp r (k + 1)).1) :
    line r k (bp r (k + 1)).1 = (bp r (k + 1)).2 := by
  have : (bp r (k + 1)).1 - (bp r k).1 ≠ 0 := by
    intro hc; have := sub_eq_zero.1 hc; rw [this] at h; exact lt_irrefl _ h
  unfold line slope
  rw [div_mul_cancel₀ _ this]; ring

theorem line_left (r : CostRow K) (k : Nat) : line r k (bp r k).1 = (bp r k).2 := by
  unfold line; ring

theorem line_from_right (r : CostRow K) (k : Nat) (h : (bp r k).1 < (bp r (k + 1)).1) (x : K) :
    line r k x = (bp r (k + 1)).2 + slope r k * (x - (bp r (k + 1)).1) := by
  have := line_right r k h
  unfold line at this ⊢
  rw [← this]; ring

/-- A segment is active at `x`. -/
theorem exists_active (r : CostRow K) (h : PwlRow r) (x : K) :
    ∃ k, k + 1 < r.ncost ∧ (k = 0 ∨ (bp r k).1 ≤ x) ∧ (k + 2 = r.ncost ∨ x < (bp r (k + 1)).1) := by
  have h2 := h.two
  have key : ∀ m, m + 1 < r.ncost → (∃ k, k + 1 < r.ncost ∧ (k = 0 ∨ (bp r k).1 ≤ x) ∧ (k + 2 = r.ncost ∨ x < (bp r (k + 1)).1)) ∨
      (m = 0 ∨ (bp r m).1 ≤ x) := by
    intro m
    induction m with
    | zero => intro _; exact Or.inr (Or.inl rfl)
    | succ m ih =>
      intro hm
      rcases ih (by omega) with ih | ih
      · exact Or.inl ih
      · by_cases hx : x < (bp r (m + 1)).1
        · exact Or.inl ⟨m, by omega, ih, Or.inr hx⟩
        · exact Or.inr (Or.inr (not_lt.1 hx))
  rcases key (r.ncost - 2) (by omega) with h3 | h3
  · exact h3
  · exact ⟨r.ncost - 2, by omega, h3, Or.inl (by omega)⟩

theorem line_step_up (r : CostRow K) (h : PwlRow r) (hc : ConvexRow r) (k : Nat) (hk : k + 2 < r.ncost) (x : K)
    (hx : (bp r (k + 1)).1 ≤ x) : line r k x ≤ line r (k + 1) x := by
  rw [line_from_right r k (h.incr k (by omega))]
  unfold line
  have := mul_le_mul_of_nonneg_right (hc k hk) (sub_nonneg.2 hx)
  linarith

theorem line_step_down (r : CostRow K) (h : PwlRow r) (hc : ConvexRow r) (k : Nat) (hk : k + 2 < r.ncost) (x : K)
    (hx : x ≤ (bp r (k + 1)).1) : line r (k + 1) x ≤ line r k x := by
  rw [line_from_right r k (h.incr k (by omega))]
  unfold line
  have := mul_le_mul_of_nonpos_right (hc k hk) (sub_nonpos.2 hx)
  linarith

theorem line_le_active (r : CostRow K) (h : PwlRow r) (hc : ConvexRow r) (x : K) (k : Nat) (hk : k + 1 < r.ncost)
    (h1 : k = 0 ∨ (bp r k).1 ≤ x) (h2 : k + 2 = r.ncost ∨ x < (bp r (k + 1)).1) (j : Nat) (hj : j + 1 < r.ncost) :
    line r j x ≤ line r k x := by
  have below : ∀ d, d ≤ k → line r (k - d) x ≤ line r k x := by
    intro d
    induction d with
    | zero => intro _; exact le_refl _
    | succ d ih =>
      intro hd
      have hkx : (bp r k).1 ≤ x := by
        rcases h1 with h1 | h1
        · omega
        · exact h1
      have hm := bp_mono r h.incr d (k - d) (by omega)
      rw [Nat.sub_add_cancel (by omega)] at hm
      refine le_trans ?_ (ih (by omega))
      have := line_step_up r h hc (k - (d + 1)) (by omega) x
      rw [show k - (d + 1) + 1 = k - d by omega] at this
      exact this (le_trans hm hkx)
  have above : ∀ d, k + d + 1 < r.ncost → line r (k + d) x ≤ line r k x := by
    intro d
    induction d with
    | zero => intro _; exact le_refl _
    | succ d ih =>
      intro hd
      have hkx : x < (bp r (k + 1)).1 := by
        rcases h2 with h2 | h2
        · omega
        · exact h2
      have hm := bp_mono r h.incr d (k + 1) (by omega)
      refine le_trans ?_ (ih (by omega))
      have := line_step_down r h hc (k + d) (by omega) x
      exact this (le_trans (le_of_lt hkx) (by rw [show k + d + 1 = k + 1 + d by omega]; exact hm))
  by_cases hjk : j ≤ k
  · have := below (k - j) (by omega)
    rwa [show k - (k - j) = j by omega] at this
  · have := above (j - k) (by omega)
    rwa [show k + (j - k) = j by omega] at this

theorem pwlCost_max (r : CostRow K) (h : PwlRow r) (hc : ConvexRow r) (x : K) :
    (∀ k, k + 1 < r.ncost → line r k x ≤ pwlCost r x) ∧ ∃ k, k + 1 < r.ncost ∧ pwlCost r x = line r k x := by
  obtain ⟨k, hk, h1, h2⟩ := exists_active r h x
  rw [pwlCost_line r h k hk x h1 h2]
  exact ⟨fun j hj => line_le_active r h hc x k hk h1 h2 j hj, k, hk, rfl⟩

theorem pwlCost_le_iff (r : CostRow K) (h : PwlRow r) (hc : ConvexRow r) (x y : K) :
    pwlCost r x ≤ y ↔ ∀ k, k + 1 < r.ncost → line r k x ≤ y := by
  obtain ⟨h1, k, hk, h2⟩ := pwlCost_max r h hc x
  constructor
  · intro hy j hj; exact le_trans (h1 j hj) hy
  · intro hy; rw [h2]; exact hy k hk

theorem segRows_holds (col ycol : Nat) (x : Nat → K) : ∀ (pts : List (K × K)),
    (∀ row ∈ segRows col ycol pts, row.holds x) ↔
      ∀ (k : Nat) (a b : K × K), pts[k]? = some a → pts[k + 1]? = some b → seg a b (x col) ≤ x ycol := by
  intro pts
  induction pts with
  | nil => simp [segRows]
  | cons p pts ih =>
    cases pts with
    | nil => simp [segRows]
    | cons q rest =>
      rw [segRows]
      simp only [List.forall_mem_cons, ih]
      have e : AyRow.holds x ⟨col, (q.2 - p.2) / (q.1 - p.1), ycol, (q.2 - p.2) / (q.1 - p.1) * p.1 - p.2⟩ ↔
          seg p q (x col) ≤ x ycol := by
        unfold AyRow.holds seg
        simp only
        constructor <;> intro h <;> linarith
      rw [e]
      constructor
      · rintro ⟨h1, h2⟩ k a b ha hb
        cases k with
        | zero =>
          simp only [List.getElem?_cons_zero, Option.some.injEq, zero_add, List.getElem?_cons_succ] at ha hb
          rw [← ha, ← hb]; exact h1
        | succ k =>
          simp only [List.getElem?_cons_succ] at ha hb
          exact h2 k a b ha (by simpa using hb)
      · intro h
        exact ⟨h 0 p q rfl rfl, fun k a b ha hb => h (k + 1) a b (by simpa using ha) (by simpa using hb)⟩

theorem seg_scale (base : K) (hb : base ≠ 0) (a b : K × K) (x : K) :
    seg (a.1 / base, a.2) (b.1 / base, b.2) x = seg a b (base * x) := by
  unfold seg
  have e : b.1 / base - a.1 / base = (b.1 - a.1) / base := by ring
  have e2 : base * x - a.1 = base * (x - a.1 / base) := by field_simp
  simp only
  rw [e, e2, div_div_eq_mul_div]; ring

theorem rowSeg_holds (base : K) (hb : 0 < base) (r : CostRow K) (h : PwlRow r) (hc : ConvexRow r) (col ycol : Nat) (x : Nat → K) :
    (∀ row ∈ segRows col ycol (((pairs r.data).take r.ncost).map (fun pc => (pc.1 / base, pc.2))), row.holds x) ↔
      pwlCost r (base * x col) ≤ x ycol := by
  rw [segRows_holds, pwlCost_le_iff r h hc]
  have hl := ptsOf_length r h.data
  constructor
  · intro h1 k hk
    have := h1 k ((bp r k).1 / base, (bp r k).2) ((bp r (k + 1)).1 / base, (bp r (k + 1)).2)
      (by rw [List.getElem?_map, show (List.take r.ncost (pairs r.data))[k]? = _ from ptsOf_get r h.data k (by omega)]; rfl)
      (by rw [List.getElem?_map, show (List.take r.ncost (pairs r.data))[k + 1]? = _ from ptsOf_get r h.data (k + 1) hk]; rfl)
    rw [seg_scale base (ne_of_gt hb)] at this
    exact this
  · intro h1 k a b ha hb'
    have hk : k + 1 < r.ncost := by
      have := (List.getElem?_eq_some_iff.1 hb').1
      rw [List.length_map] at this
      have h3 : (List.take r.ncost (pairs r.data)).length = r.ncost := hl
      omega
    rw [List.getElem?_map, show (List.take r.ncost (pairs r.data))[k]? = _ from ptsOf_get r h.data k (by omega)] at ha
    rw [List.getElem?_map, show (List.take r.ncost (pairs r.data))[k + 1]? = _ from ptsOf_get r h.data (k + 1) hk] at hb'
    rw [← Option.some.inj ha, ← Option.some.inj hb', seg_scale base (ne_of_gt hb)]
    exact h1 k hk

/-- Semantics of the whole constraint system. -/
theorem ayLoop_holds (base : K) (hb : 0 < base) (ng pgbas qgbas ybas : Nat) (x : Nat → K) :
    ∀ (rows : List (CostRow K)) (i j : Nat), (∀ r ∈ rows, r.model = 1 → PwlRow r ∧ ConvexRow r) →
    ((∀ row ∈ ayLoop base ng pgbas qgbas ybas i j rows, row.holds x) ↔
      ∀ (n : Nat) (r : CostRow K), rows[n]? = some r → r.model = 1 →
        pwlCost r (base * x (ayCol ng pgbas qgbas (i + n))) ≤
          x (ybas + (j + (rows.take n).countP (fun r => r.model == 1)) - 1)) := by
  intro rows
  induction rows with
  | nil => intro i j _; simp [ayLoop]
  | cons r rows ih =>
    intro i j hr
    have hr' : ∀ s ∈ rows, s.model = 1 → PwlRow s ∧ ConvexRow s := fun s hs => hr s (List.mem_cons_of_mem _ hs)
    have shift : ∀ (c : Nat) (P : Nat → CostRow K → Prop),
        (∀ (n : Nat) (s : CostRow K), (r :: rows)[n]? = some s → P n s) ↔
          (P 0 r ∧ ∀ (n : Nat) (s : CostRow K), rows[n]? = some s → P (n + 1) s) := by
      intro _ P
      constructor
      · intro h; exact ⟨h 0 r rfl, fun n s hs => h (n + 1) s (by simpa using hs)⟩
      · rintro ⟨h0, h1⟩ n s hs
        cases n with
        | zero => simp only [List.getElem?_cons_zero, Option.some.injEq] at hs; rw [← hs]; exact h0
        | succ n => exact h1 n s (by simpa using hs)
    rw [shift 0 (fun n s => s.model = 1 → pwlCost s (base * x (ayCol ng pgbas qgbas (i + n))) ≤
          x (ybas + (j + ((r :: rows).take n).countP (fun r => r.model == 1)) - 1))]
    rw [ayLoop]
    by_cases hm : r.model = 1
    · obtain ⟨hp, hcv⟩ := hr r (by simp) hm
      rw [if_pos hm]
      simp only [List.mem_append, or_imp, forall_and, rowSeg_holds base hb r hp hcv, ih (i + 1) (j + 1) hr']
      have e : ∀ n, j + ((r :: rows).take (n + 1)).countP (fun r => r.model == 1) =
          j + 1 + (rows.take n).countP (fun r => r.model == 1) := by
        intro n; simp [hm]; omega
      have e2 : ∀ n, i + 1 + n = i + (n + 1) := by intro n; omega
      simp only [e, e2, hm, forall_true_left]
      simp
    · rw [if_neg hm, ih (i + 1) j hr']
      have e : ∀ n, j + ((r :: rows).take (n + 1)).countP (fun r => r.model == 1) =
          j + (rows.take n).countP (fun r => r.model == 1) := by
        intro n; simp [hm]
      have e2 : ∀ n, i + 1 + n = i + (n + 1) := by intro n; omega
      simp only [e, e2, hm, IsEmpty.forall_iff, true_and]

end Verif.Cost
