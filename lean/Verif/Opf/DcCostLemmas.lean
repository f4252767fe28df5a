import Verif.Opf.DcCostModel
import Verif.Opf.DcLemmas
import Verif.OpfCost.DcProps
import Verif.Cost.Props
import Mathlib.Data.List.OfFn

/-! # Lemmas for the costs of the DC optimal power flow -/

open Matrix

namespace Verif.Opf

open Verif.OpfModel Verif.Pips Verif.Network Verif.Cost Verif.OpfCost

variable {nb ng nl : ℕ}

/-! ### Numbering of the helper variables -/

/-- Number of piecewise linear rows before row `p`. -/
noncomputable def pwlPos (gc : Fin ng → CostRow ℝ) (p : ℕ) : ℕ := pwlBefore (List.ofFn gc) p

theorem filter_at {α : Type} (q : α → Bool) : ∀ (l : List α) (i : ℕ) (a : α), l[i]? = some a → q a = true →
    (l.filter q)[(l.take i).countP q]? = some a := by
  intro l
  induction l with
  | nil => intro i a h; simp at h
  | cons b l ih =>
    intro i a h ha
    cases i with
    | zero =>
      simp only [List.getElem?_cons_zero, Option.some.injEq] at h
      subst h
      simp [ha]
    | succ i =>
      simp only [List.getElem?_cons_succ] at h
      have := ih i a h ha
      rw [List.take_succ_cons]
      by_cases hb : q b = true
      · rw [List.filter_cons_of_pos hb, List.countP_cons_of_pos hb, List.getElem?_cons_succ]; exact this
      · rw [List.filter_cons_of_neg hb, List.countP_cons_of_neg hb]; exact this

theorem pwlPos_eq (gc : Fin ng → CostRow ℝ) (p : ℕ) : pwlPos gc p = ((List.finRange ng).take p).countP fun p => (gc p).model = 1 := by
  unfold pwlPos pwlBefore
  rw [List.ofFn_eq_map, ← List.map_take, List.countP_map]
  congr 1

theorem ipwl_at (gc : Fin ng → CostRow ℝ) (p : Fin ng) (hp : (gc p).model = 1) : (ipwl gc)[pwlPos gc p]? = some p := by
  rw [pwlPos_eq]
  exact filter_at _ _ _ _ (by simp) (by simp [hp])

theorem ipwl_nodup (gc : Fin ng → CostRow ℝ) : (ipwl gc).Nodup := (List.nodup_finRange ng).filter _

theorem ipwl_mem (gc : Fin ng → CostRow ℝ) (p : Fin ng) : p ∈ ipwl gc ↔ (gc p).model = 1 := by simp [ipwl]

theorem pwlPos_lt (gc : Fin ng → CostRow ℝ) (p : Fin ng) (hp : (gc p).model = 1) : pwlPos gc p < nyOf gc :=
  (List.getElem?_eq_some_iff.1 (ipwl_at gc p hp)).1

theorem pwlPos_get (gc : Fin ng → CostRow ℝ) (j : Fin (nyOf gc)) : pwlPos gc ((ipwl gc).get j) = j := by
  have hm : (gc ((ipwl gc).get j)).model = 1 := (ipwl_mem gc _).1 (List.get_mem _ _)
  have h1 := ipwl_at gc _ hm
  obtain ⟨h2, h3⟩ := List.getElem?_eq_some_iff.1 h1
  have := List.nodup_iff_injective_get.1 (ipwl_nodup gc) (a₁ := ⟨_, h2⟩) (a₂ := j) (by simpa using h3)
  exact congrArg Fin.val this

/-- A sum over the helper variables is a sum over the piecewise linear rows. -/
theorem sum_pwl (gc : Fin ng → CostRow ℝ) (F : Fin ng → ℕ → ℝ) :
    ∑ j : Fin (nyOf gc), F ((ipwl gc).get j) j = ∑ p with (gc p).model = 1, F p (pwlPos gc p) := by
  refine Finset.sum_bij (fun j _ => (ipwl gc).get j) ?_ ?_ ?_ ?_
  · intro j _
    rw [Finset.mem_filter]
    exact ⟨Finset.mem_univ _, (ipwl_mem gc _).1 (List.get_mem _ _)⟩
  · intro j _ k _ h; exact List.nodup_iff_injective_get.1 (ipwl_nodup gc) h
  · intro p hp
    obtain ⟨j, hj⟩ := List.mem_iff_get.1 ((ipwl_mem gc p).2 (Finset.mem_filter.1 hp).2)
    exact ⟨j, Finset.mem_univ _, hj⟩
  · intro j _; rw [pwlPos_get]

theorem countP_ofFn (gc : Fin ng → CostRow ℝ) : (List.ofFn gc).countP (fun r => r.model == 1) = nyOf gc := by
  rw [List.ofFn_eq_map, List.countP_map, nyOf, ipwl, List.countP_eq_length_filter]
  congr 2

/-! ### The rows of `Ay` -/

theorem segRows_cols (col ycol : ℕ) : ∀ (pts : List (ℝ × ℝ)) (r : AyRow ℝ), r ∈ segRows col ycol pts → r.col = col ∧ r.ycol = ycol := by
  intro pts
  induction pts with
  | nil => intro r h; simp [segRows] at h
  | cons a pts ih =>
    intro r h
    cases pts with
    | nil => simp [segRows] at h
    | cons b pts =>
      rw [segRows] at h
      rcases List.mem_cons.1 h with rfl | h
      · exact ⟨rfl, rfl⟩
      · exact ih r h

theorem ayLoop_cols (base : ℝ) (ng q : ℕ) : ∀ (rows : List (CostRow ℝ)) (i j : ℕ), i + rows.length ≤ ng →
    ∀ r ∈ ayLoop base ng 1 q (1 + ng) i j rows, r.col < ng ∧ ng ≤ r.ycol ∧ r.ycol < ng + j + rows.countP (fun r => r.model == 1) := by
  intro rows
  induction rows with
  | nil => intro i j _ r h; simp [ayLoop] at h
  | cons a rows ih =>
    intro i j hl r h
    rw [List.length_cons] at hl
    rw [ayLoop] at h
    by_cases ha : a.model = 1
    · rw [if_pos ha, List.mem_append] at h
      rw [List.countP_cons_of_pos (by simp [ha])]
      rcases h with h | h
      · obtain ⟨h1, h2⟩ := segRows_cols _ _ _ _ h
        rw [h1, h2]
        unfold ayCol
        rw [if_neg (by omega)]
        omega
      · obtain ⟨h1, h2, h3⟩ := ih (i + 1) (j + 1) (by omega) r h
        exact ⟨h1, h2, by omega⟩
    · rw [if_neg ha] at h
      rw [List.countP_cons_of_neg (by simp [ha])]
      exact ih (i + 1) j (by omega) r h

theorem ayRows_cols (base : ℝ) (gc : Fin ng → CostRow ℝ) (r : AyRow ℝ) (h : r ∈ ayRows base gc) :
    r.col < ng ∧ ng ≤ r.ycol ∧ r.ycol < ng + nyOf gc := by
  have := ayLoop_cols base ng 0 (List.ofFn gc) 0 0 (by simp) r h
  rw [countP_ofFn] at this
  simpa using this

theorem rowDot_ay (w : ℕ) (rows : List (AyRow ℝ)) (i : ℕ) (r : AyRow ℝ) (hi : rows[i]? = some r) (h1 : r.col < w) (h2 : r.ycol < w)
    (hne : r.col ≠ r.ycol) (u : List ℝ) : rowDot (ayMat w rows) i u = r.slope * u.getD r.col 0 - u.getD r.ycol 0 := by
  unfold rowDot ayMat
  simp only [hi, Option.map_some, Option.getD_some]
  rw [Finset.sum_eq_add r.ycol r.col (Ne.symm hne)]
  · simp [hne]; ring
  · intro k _ hk
    rw [if_neg hk.1, if_neg hk.2, zero_mul]
  · intro h; exact absurd (Finset.mem_range.2 h2) h
  · intro h; exact absurd (Finset.mem_range.2 h1) h

/-- The rows of `Ay` hold up to `t` iff every helper variable is at least the cost of its generator, up to `t`. -/
theorem ay_rows (base : ℝ) (hb : 0 < base) (gc : Fin ng → CostRow ℝ) (hrow : ∀ p, (gc p).model = 1 → PwlRow (gc p) ∧ ConvexRow (gc p))
    (u : List ℝ) (t : ℝ) :
    (∀ (i : ℕ) (r : AyRow ℝ), (ayRows base gc)[i]? = some r → rowDot (ayMat (ng + nyOf gc) (ayRows base gc)) i u ≤ r.rhs + t) ↔
      ∀ p : Fin ng, (gc p).model = 1 → pwlCost (gc p) (base * u.getD p 0) ≤ u.getD (ng + pwlPos gc p) 0 + t := by
  have key := ayLoop_holds base hb ng 1 0 (1 + ng) (fun k => u.getD k 0 + if ng ≤ k then t else 0) (List.ofFn gc) 0 0 (by
    intro r hr
    obtain ⟨p, rfl⟩ := (List.mem_ofFn' _ _).1 hr
    exact hrow p)
  have lhs : (∀ (i : ℕ) (r : AyRow ℝ), (ayRows base gc)[i]? = some r → rowDot (ayMat (ng + nyOf gc) (ayRows base gc)) i u ≤ r.rhs + t) ↔
      ∀ row ∈ ayLoop base ng 1 0 (1 + ng) 0 0 (List.ofFn gc), row.holds (fun k => u.getD k 0 + if ng ≤ k then t else 0) := by
    have one : ∀ (i : ℕ) (r : AyRow ℝ), (ayRows base gc)[i]? = some r →
        (rowDot (ayMat (ng + nyOf gc) (ayRows base gc)) i u ≤ r.rhs + t ↔ r.holds (fun k => u.getD k 0 + if ng ≤ k then t else 0)) := by
      intro i r hi
      obtain ⟨h1, h2, h3⟩ := ayRows_cols base gc r (List.mem_of_getElem? hi)
      rw [rowDot_ay _ _ _ _ hi (by omega) (by omega) (by omega)]
      unfold AyRow.holds
      simp only [if_pos h2, if_neg (not_le.2 h1), add_zero]
      constructor <;> intro h <;> linarith
    constructor
    · intro h row hrow'
      obtain ⟨i, hi⟩ := List.getElem?_of_mem hrow'
      exact (one i row hi).1 (h i row hi)
    · intro h i r hi
      exact (one i r hi).2 (h r (List.mem_of_getElem? hi))
  rw [lhs, key]
  constructor
  · intro h p hp
    have := h p (gc p) (by simp) hp
    have e1 : ayCol ng 1 0 (0 + (p : ℕ)) = p := by
      unfold ayCol
      rw [if_neg (by have := p.isLt; omega)]; omega
    have e2 : 1 + ng + (0 + ((List.ofFn gc).take p).countP fun r => r.model == 1) - 1 = ng + pwlPos gc p := by
      unfold pwlPos pwlBefore; omega
    rw [e1, e2, if_neg (by have := p.isLt; omega), if_pos (by omega), add_zero] at this
    exact this
  · intro h n r hn hr
    obtain ⟨hlt, rfl⟩ := List.getElem?_eq_some_iff.1 hn
    rw [List.length_ofFn] at hlt
    simp only [List.getElem_ofFn] at hr ⊢
    have e1 : ayCol ng 1 0 (0 + n) = n := by
      unfold ayCol
      rw [if_neg (by omega)]; omega
    have e2 : 1 + ng + (0 + ((List.ofFn gc).take n).countP fun r => r.model == 1) - 1 = ng + pwlPos gc n := by
      unfold pwlPos pwlBefore; omega
    rw [e1, e2, if_neg (by omega), if_pos (by omega), add_zero]
    exact h ⟨n, hlt⟩ hr

/-! ### Layout with helper variables -/

section layout
variable (d : Case nb ng nl) (gc : Fin ng → CostRow ℝ) (lin post : List Op) (hlin : varBlocks lin = [])

include hlin in
theorem dcy_varBlocks : varBlocks (dcOps d ++ (lin ++ (pwlOps d.base gc ++ post))) =
    ("Va", nb) :: ("Pg", ng) :: ((if nyOf gc = 0 then [] else [("y", nyOf gc)]) ++ varBlocks post) := by
  rw [dc_varBlocks]
  have e : varBlocks (lin ++ (pwlOps d.base gc ++ post)) = varBlocks lin ++ (varBlocks (pwlOps d.base gc) ++ varBlocks post) := by
    simp [varBlocks]
  rw [e, hlin, List.nil_append]
  congr 3
  unfold pwlOps
  split_ifs <;> simp [varBlocks]

include hlin in
theorem dcy_y (hy : nyOf gc ≠ 0) : start (varBlocks (dcOps d ++ (lin ++ (pwlOps d.base gc ++ post)))) "y" = nb + ng ∧
    size (varBlocks (dcOps d ++ (lin ++ (pwlOps d.base gc ++ post)))) "y" = nyOf gc := by
  rw [dcy_varBlocks d gc lin post hlin, if_neg hy]
  simp [start, size, total]

include hlin in
theorem subvec_PgY (hy : nyOf gc ≠ 0) (x : ℕ → ℝ) :
    let vb := varBlocks (dcOps d ++ (lin ++ (pwlOps d.base gc ++ post)))
    (∀ p : Fin ng, (subvec vb x (eff vb ["Pg", "y"])).getD p 0 = x (nb + p)) ∧
    (∀ j < nyOf gc, (subvec vb x (eff vb ["Pg", "y"])).getD (ng + j) 0 = x (nb + ng + j)) := by
  intro vb
  obtain ⟨h1, h2⟩ := dcy_y d gc lin post hlin hy
  obtain ⟨-, h3, -, h4, -⟩ := dc_starts d (lin ++ (pwlOps d.base gc ++ post))
  simp only [eff, subvec, List.cons_ne_nil, if_false, List.flatMap_cons, List.flatMap_nil, List.append_nil]
  constructor
  · intro p
    rw [List.getD_append _ _ _ _ (by rw [part_length, h4]; exact p.isLt), part_getD _ _ _ _ (by rw [h4]; exact p.isLt), h3]
  · intro j hj
    rw [List.getD_append_right _ _ _ _ (by rw [part_length, h4]; omega), part_length, h4, Nat.add_sub_cancel_left,
      part_getD _ _ _ _ (by rw [h2]; exact hj), h1]

end layout

/-- The number of variables. -/
theorem dc_width {d : Case nb ng nl} {extra : List Op} {m : Model} (hm : OpfModel.run (dcOps d ++ extra) = some m)
    (g : Good (dcOps d ++ extra)) : nb + ng ≤ m.var.total := by
  obtain ⟨-, -, ht, -⟩ := linearOf_spec hm g
  rw [ht, dc_varBlocks, total_cons, total_cons]
  simp only
  omega

/-! ### Costs -/

theorem pwl1_val (r : CostRow ℝ) (h : PwlRow r ∨ PolyRow r) (x : ℝ) : rowVal (pwl1Row r) x = rowVal r x := by
  by_cases hc : r.model = 1 ∧ r.ncost = 2
  · have hp : PwlRow r := by
      rcases h with h | h
      · exact h
      · have := h.model; omega
    obtain ⟨m, n, d⟩ := r
    simp only at hc
    obtain ⟨rfl, rfl⟩ := hc
    have hd : 4 ≤ d.length := by simpa using hp.data
    match d, hd with
    | x0 :: y0 :: x1 :: y1 :: rest, _ =>
      simp [pwl1Row, rowVal, pwlCost, pairs, pwlLoop, rowPoly, Finset.sum_range_succ]
  · have e : pwl1Row r = r := by unfold pwl1Row; rw [if_neg hc]
    rw [e]

theorem sum_zipWith_ofFn {n : ℕ} (f : CostRow ℝ → ℝ → ℝ) (a : Fin n → CostRow ℝ) (b : Fin n → ℝ) :
    (List.zipWith f (List.ofFn a) (List.ofFn b)).sum = ∑ i, f (a i) (b i) := by
  rw [← List.sum_ofFn]
  congr 1
  apply List.ext_getElem
  · simp
  · intro i h1 h2; simp

end Verif.Opf
