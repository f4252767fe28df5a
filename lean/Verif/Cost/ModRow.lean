import Verif.Cost.ModLemmas

set_option linter.unusedSectionVars false

namespace Verif.Cost
open Polynomial Verif.NumPy

variable {K : Type} [Field K] [LinearOrder K]

theorem bp_mapY (f : K → K) (r : CostRow K) (k : Nat) (hk : 2 * k + 1 < r.data.length) :
    bp { r with data := mapY f r.data } k = ((bp r k).1, f (bp r k).2) := by
  have h1 := pairs_get r.data k hk
  have h2 := pairs_get (mapY f r.data) k (by rw [length_mapY]; exact hk)
  rw [pairs_mapY, List.getElem?_map, h1] at h2
  exact (Option.some.inj h2).symm

theorem bp_mapX (f : K → K) (r : CostRow K) (k : Nat) (hk : 2 * k + 1 < r.data.length) :
    bp { r with data := mapX f r.data } k = (f (bp r k).1, (bp r k).2) := by
  have h1 := pairs_get r.data k hk
  have h2 := pairs_get (mapX f r.data) k (by rw [length_mapX]; exact hk)
  rw [pairs_mapX, List.getElem?_map, h1] at h2
  exact (Option.some.inj h2).symm

theorem PwlRow.mapY {r : CostRow K} (h : PwlRow r) (f : K → K) : PwlRow { r with data := Cost.mapY f r.data } where
  model := h.model
  two := h.two
  data := by simpa [length_mapY] using h.data
  incr := by
    intro k hk
    have hk' : k + 1 < r.ncost := hk
    have := h.data
    rw [bp_mapY f r k (by omega), bp_mapY f r (k + 1) (by omega)]
    exact h.incr k hk

theorem PwlRow.mapX {r : CostRow K} (h : PwlRow r) (f : K → K) (hf : StrictMono f) :
    PwlRow { r with data := Cost.mapX f r.data } where
  model := h.model
  two := h.two
  data := by simpa [length_mapX] using h.data
  incr := by
    intro k hk
    have hk' : k + 1 < r.ncost := hk
    have := h.data
    rw [bp_mapX f r k (by omega), bp_mapX f r (k + 1) (by omega)]
    exact hf (h.incr k hk)

theorem rowPoly_eval (r : CostRow K) (x : K) :
    (rowPoly r).eval x = ∑ i ∈ Finset.range r.ncost, r.data.getD i 0 * x ^ (r.ncost - 1 - i) := by
  simp [rowPoly, eval_finsetSum]

theorem modRow_scaleF (α : K) (r : CostRow K) (h : PwlRow r ∨ PolyRow r) :
    ∃ r', modRow α .scaleF r = some r' ∧ (PwlRow r' ∨ PolyRow r') ∧ ∀ x, rowVal r' x = α * rowVal r x := by
  rcases h with h | h
  · refine ⟨_, by simp only [modRow, h.model]; rfl, Or.inl (h.mapY _), ?_⟩
    intro x
    simp only [rowVal, h.model, if_true, pwlCost, pairs_mapY, ← List.map_take]
    rw [← pwlLoop_scaleF, mul_zero]
  · refine ⟨{ r with data := r.data.map (α * ·) }, by rw [modRow, if_pos h.model],
      Or.inr ⟨h.model, h.one, by simpa using h.data⟩, ?_⟩
    intro x
    simp only [rowVal, h.model]
    rw [if_neg (by omega), if_neg (by omega), rowPoly_eval, rowPoly_eval, Finset.mul_sum]
    apply Finset.sum_congr rfl
    intro i hi
    have hi' : i < r.data.length := lt_of_lt_of_le (Finset.mem_range.1 hi) h.data
    simp only [List.getD_eq_getElem?_getD, List.getElem?_map, List.getElem?_eq_getElem hi', Option.map_some,
      Option.getD_some, mul_assoc]

theorem modRow_shiftF (α : K) (r : CostRow K) (h : PwlRow r ∨ PolyRow r) :
    ∃ r', modRow α .shiftF r = some r' ∧ (PwlRow r' ∨ PolyRow r') ∧ ∀ x, rowVal r' x = α + rowVal r x := by
  rcases h with h | h
  · refine ⟨_, by simp only [modRow, h.model]; rfl, Or.inl (h.mapY _), ?_⟩
    intro x
    simp only [rowVal, h.model, if_true, pwlCost, pairs_mapY, ← List.map_take]
    rw [← pwlLoop_shiftF]
    apply pwlLoop_acc
    have := h.two; have := h.data
    simp [pairs_length]; omega
  · have h1 := h.one
    have h2 := h.data
    refine ⟨{ r with data := r.data.mapIdx (fun i a => if i = r.ncost - 1 then α + a else a) },
      by rw [modRow, if_pos h.model]; exact if_neg (by omega), Or.inr ⟨h.model, h.one, by simpa using h.data⟩, ?_⟩
    intro x
    simp only [rowVal, h.model]
    rw [if_neg (by omega), if_neg (by omega), rowPoly_eval, rowPoly_eval]
    obtain ⟨n, hn⟩ : ∃ n, r.ncost = n + 1 := ⟨r.ncost - 1, by omega⟩
    simp only [hn, Finset.sum_range_succ, Nat.add_sub_cancel, Nat.sub_self, pow_zero, mul_one]
    have e1 : (r.data.mapIdx (fun i a => if i = n then α + a else a)).getD n 0 = α + r.data.getD n 0 := by
      have hi' : n < r.data.length := by omega
      simp [List.getD_eq_getElem?_getD, List.getElem?_mapIdx, List.getElem?_eq_getElem hi']
    have e2 : ∑ i ∈ Finset.range n, (r.data.mapIdx (fun i a => if i = n then α + a else a)).getD i 0 * x ^ (n - i) =
        ∑ i ∈ Finset.range n, r.data.getD i 0 * x ^ (n - i) := by
      apply Finset.sum_congr rfl
      intro i hi
      have hin : i < n := Finset.mem_range.1 hi
      have hi' : i < r.data.length := by omega
      simp [List.getD_eq_getElem?_getD, List.getElem?_mapIdx, List.getElem?_eq_getElem hi', Nat.ne_of_lt hin]
    rw [e1, e2]; ring

variable [IsStrictOrderedRing K]

theorem modRow_scaleX_poly (α : K) (hα : α ≠ 0) (r : CostRow K) (h : PolyRow r) :
    ∃ r', modRow α .scaleX r = some r' ∧ PolyRow r' ∧ ∀ x, rowVal r' (α * x) = rowVal r x := by
  have h2 := h.data
  refine ⟨{ r with data := r.data.mapIdx (fun i a => if i < r.ncost then a / α ^ (r.ncost - i - 1) else a) },
    by rw [modRow, if_pos h.model]; exact if_neg (by omega), ⟨h.model, h.one, by simpa using h.data⟩, ?_⟩
  intro x
  simp only [rowVal, h.model]
  rw [if_neg (by omega), if_neg (by omega), rowPoly_eval, rowPoly_eval]
  apply Finset.sum_congr rfl
  intro i hi
  have hin : i < r.ncost := Finset.mem_range.1 hi
  have hi' : i < r.data.length := by omega
  simp only [List.getD_eq_getElem?_getD, List.getElem?_mapIdx, List.getElem?_eq_getElem hi', Option.map_some,
    Option.getD_some, if_pos hin]
  rw [mul_pow, show r.ncost - i - 1 = r.ncost - 1 - i by omega, div_mul_eq_mul_div, div_eq_iff (pow_ne_zero _ hα)]
  ring

theorem modRow_scaleX (α : K) (hα : 0 < α) (r : CostRow K) (h : PwlRow r ∨ PolyRow r) :
    ∃ r', modRow α .scaleX r = some r' ∧ (PwlRow r' ∨ PolyRow r') ∧ ∀ x, rowVal r' (α * x) = rowVal r x := by
  rcases h with h | h
  · refine ⟨_, by simp only [modRow, h.model]; rfl, Or.inl (h.mapX _ ?_), ?_⟩
    · intro a b hab; exact mul_lt_mul_of_pos_left hab hα
    · intro x
      simp only [rowVal, h.model, if_true, pwlCost, pairs_mapX, ← List.map_take]
      rw [pwlLoop_scaleX α x hα]
  · obtain ⟨r', h1, h2, h3⟩ := modRow_scaleX_poly α (ne_of_gt hα) r h
    exact ⟨r', h1, Or.inr h2, h3⟩

theorem modRow_shiftX (α : K) (r : CostRow K) (h : PwlRow r ∨ PolyRow r) :
    ∃ r', modRow α .shiftX r = some r' ∧ (PwlRow r' ∨ PolyRow r') ∧ ∀ x, rowVal r' (x + α) = rowVal r x := by
  rcases h with h | h
  · refine ⟨_, by simp only [modRow, h.model]; rfl, Or.inl (h.mapX _ ?_), ?_⟩
    · intro a b hab; exact add_lt_add_right hab α
    · intro x
      simp only [rowVal, h.model, if_true, pwlCost, pairs_mapX, ← List.map_take]
      rw [pwlLoop_shiftX α x]
  · have h2 := h.data
    have hl : (polyshift (r.data.take r.ncost) α).length = r.ncost := by
      rw [polyshift_length, List.length_take]; omega
    refine ⟨{ r with data := polyshift (r.data.take r.ncost) α ++ r.data.drop r.ncost },
      by rw [modRow, if_pos h.model]; exact if_neg (by omega),
      Or.inr ⟨h.model, h.one, by simp [hl]⟩, ?_⟩
    intro x
    simp only [rowVal, h.model]
    rw [if_neg (by omega), if_neg (by omega), ← listPoly_reverse_take, ← listPoly_reverse_take r h2]
    · simp only
      rw [List.take_left' hl, polyshift_listPoly]
      simp
    · simp [hl]

theorem modcost_rows (α : K) (t : ModType) (g h : K → K)
    (step : ∀ r : CostRow K, PwlRow r ∨ PolyRow r →
      ∃ r', modRow α t r = some r' ∧ (PwlRow r' ∨ PolyRow r') ∧ ∀ x, rowVal r' (g x) = h (rowVal r x)) :
    ∀ rows : List (CostRow K), WFTable rows →
      ∃ rows', modcost α t rows = some rows' ∧ WFTable rows' ∧ rows'.length = rows.length ∧
        ∀ Pg : List K, List.zipWith rowVal rows' (Pg.map g) = (List.zipWith rowVal rows Pg).map h := by
  intro rows
  induction rows with
  | nil => intro _; exact ⟨[], rfl, by intro r hr; simp at hr, rfl, by simp⟩
  | cons r rows ih =>
    intro hwf
    obtain ⟨rows', h1, h2, h3, h4⟩ := ih (fun s hs => hwf s (List.mem_cons_of_mem _ hs))
    obtain ⟨r', k1, k2, k3⟩ := step r (hwf r (by simp))
    refine ⟨r' :: rows', by simp [modcost, k1, h1], ?_, by simp [h3], ?_⟩
    · intro s hs
      rcases List.mem_cons.1 hs with hs | hs
      · rw [hs]; exact k2
      · exact h2 s hs
    · intro Pg
      cases Pg with
      | nil => simp
      | cons x Pg => simp [k3, h4]

theorem modcost_totcost (α : K) (t : ModType) (g h : K → K)
    (step : ∀ r : CostRow K, PwlRow r ∨ PolyRow r →
      ∃ r', modRow α t r = some r' ∧ (PwlRow r' ∨ PolyRow r') ∧ ∀ x, rowVal r' (g x) = h (rowVal r x))
    (rows : List (CostRow K)) (hwf : WFTable rows) :
    ∃ rows', modcost α t rows = some rows' ∧ WFTable rows' ∧ rows'.length = rows.length ∧
      ∀ Pg : List K, Pg.length = rows.length →
        ∃ F, totcost rows Pg = some F ∧ F.length = rows.length ∧ totcost rows' (Pg.map g) = some (F.map h) := by
  obtain ⟨rows', h1, h2, h3, h4⟩ := modcost_rows α t g h step rows hwf
  refine ⟨rows', h1, h2, h3, ?_⟩
  intro Pg hl
  exact ⟨_, totcost_eq rows Pg hl.symm hwf, by simp [hl], by rw [totcost_eq rows' _ (by simp [hl, h3]) h2, h4]⟩

end Verif.Cost
