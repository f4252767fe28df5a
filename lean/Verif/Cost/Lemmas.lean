import Mathlib.Algebra.Polynomial.Derivative
import Mathlib.Algebra.BigOperators.Intervals
import Mathlib.Tactic.Ring
import Mathlib.Tactic.Linarith
import Mathlib.Tactic.FieldSimp
import Verif.NumPyLemmas
import Verif.Cost.Spec

set_option linter.unusedSectionVars false

namespace Verif.Cost
open Polynomial Verif.NumPy

section Poly
variable {K : Type} [Field K]

/-- Polynomial with coefficient list `c`, constant term first. -/
noncomputable def listPoly : List K → K[X]
  | [] => 0
  | a :: c => C a + X * listPoly c

theorem evalLoop_eq (x : K) (c : List K) : ∀ f k, evalLoop x f k c = f + x ^ k * (listPoly c).eval x := by
  induction c with
  | nil => intro f k; simp [evalLoop, listPoly]
  | cons a c ih =>
    intro f k
    simp only [evalLoop, ih, listPoly, eval_add, eval_C, eval_mul, eval_X]
    ring

theorem evalCols_eq (c : List K) (x : K) : evalCols c x = (listPoly c).eval x := by
  cases c with
  | nil => simp [evalCols, evalLoop, listPoly]
  | cons a c => simp [evalCols, evalLoop_eq, listPoly]

theorem listPoly_append_zeros (c : List K) (n : Nat) : listPoly (c ++ List.replicate n 0) = listPoly c := by
  induction c with
  | nil =>
    simp only [List.nil_append, listPoly]
    induction n with
    | zero => rfl
    | succ n ih => simp [List.replicate_succ, listPoly, ih]
  | cons a c ih => simp [listPoly, ih]

theorem listPoly_eq_sum (c : List K) : listPoly c = ∑ i ∈ Finset.range c.length, C (c.getD i 0) * X ^ i := by
  induction c with
  | nil => simp [listPoly]
  | cons a c ih =>
    rw [List.length_cons, Finset.sum_range_succ', listPoly, ih, Finset.mul_sum, add_comm]
    simp only [List.getD_cons_succ, List.getD_cons_zero, pow_zero, mul_one]
    congr 1
    apply Finset.sum_congr rfl
    intro i _
    ring

theorem listPoly_reverse_take (r : CostRow K) (h : r.ncost ≤ r.data.length) :
    listPoly (r.data.take r.ncost).reverse = rowPoly r := by
  rw [listPoly_eq_sum, rowPoly, List.length_reverse, List.length_take, Nat.min_eq_left h]
  rw [← Finset.sum_range_reflect]
  apply Finset.sum_congr rfl
  intro i hi
  have hi' : i < r.ncost := Finset.mem_range.1 hi
  have e : r.ncost - 1 - (r.ncost - 1 - i) = i := by omega
  have : ((r.data.take r.ncost).reverse).getD (r.ncost - 1 - i) 0 = r.data.getD i 0 := by
    simp only [List.getD_eq_getElem?_getD]
    rw [List.getElem?_reverse (by simp; omega)]
    simp only [List.length_take, Nat.min_eq_left h, List.getElem?_take]
    rw [e, if_pos hi']
  rw [this]

theorem listPoly_mapIdx_deriv (c : List K) (n : Nat) :
    listPoly (c.mapIdx (fun j a => a * ((j + n + 1 : Nat) : K))) =
      derivative (X * listPoly c) + C (n : K) * listPoly c := by
  induction c generalizing n with
  | nil => simp [listPoly]
  | cons a c ih =>
    have : (fun (j : Nat) (a : K) => a * ((j + 1 + n + 1 : Nat) : K)) =
        fun (j : Nat) (a : K) => a * ((j + (n + 1) + 1 : Nat) : K) := by
      funext j a; congr 2; omega
    simp only [List.mapIdx_cons, listPoly]
    rw [this, ih (n + 1)]
    simp only [derivative_mul, derivative_add, derivative_X, derivative_C, Nat.cast_add, Nat.cast_one,
      C_add, C_mul, C_1, zero_add, map_natCast]
    simp
    ring

theorem listPoly_derivCols (c : List K) : listPoly (derivCols c) = derivative (listPoly c) := by
  cases c with
  | nil => simp [derivCols, listPoly]
  | cons a c =>
    have : (fun (j : Nat) (a : K) => if j = 0 then a else a * ((j + 1 : Nat) : K)) =
        fun (j : Nat) (a : K) => a * ((j + 0 + 1 : Nat) : K) := by
      funext j a; by_cases h : j = 0 <;> simp [h]
    simp only [derivCols, List.drop_one, List.tail_cons]
    rw [this, listPoly_mapIdx_deriv c 0]
    simp [listPoly]

theorem iterate_derivative_C (d : Nat) (a : K) : derivative^[d + 1] (C a) = 0 := by
  rw [Function.iterate_succ_apply, derivative_C]; exact Polynomial.iterate_derivative_zero

theorem listPoly_derivs (d : Nat) : ∀ c : List K, listPoly (derivs d c) = derivative^[d] (listPoly c) := by
  induction d with
  | zero => intro c; rfl
  | succ d ih =>
    intro c
    simp only [derivs]
    split
    · rw [ih, listPoly_derivCols, Function.iterate_succ_apply]
    · rename_i h
      match c, h with
      | [], _ => simp [listPoly]
      | [a], _ =>
        have := iterate_derivative_C (K := K) d a
        simp [listPoly]
      | _ :: _ :: _, h => simp at h

theorem foldl_max_le (l : List Nat) : ∀ (b a : Nat), (a = b ∨ a ∈ l) → a ≤ l.foldl max b := by
  induction l with
  | nil => intro b a h; simp_all
  | cons x l ih =>
    intro b a h
    simp only [List.foldl_cons]
    have h1 : max b x ≤ l.foldl max (max b x) := ih _ _ (Or.inl rfl)
    rcases h with h | h
    · exact le_trans (by omega) h1
    · rcases List.mem_cons.1 h with h | h
      · exact le_trans (by omega) h1
      · exact ih _ _ (Or.inr h)

theorem evalRow_eq (r : CostRow K) (h : r.ncost ≤ r.data.length) (maxN der : Nat) (x : K) :
    evalCols (derivs der (polyCoeffs maxN r)) x = (derivative^[der] (rowPoly r)).eval x := by
  rw [evalCols_eq, listPoly_derivs, polyCoeffs, listPoly_append_zeros, listPoly_reverse_take r h]

theorem polycost_eq (rows : List (CostRow K)) (Pg : List K) (der : Nat) (hl : rows.length = Pg.length)
    (hrow : ∀ r ∈ rows, 1 ≤ r.ncost ∧ r.ncost ≤ r.data.length) :
    polycost rows Pg der = some (List.zipWith (fun r x => (derivative^[der] (rowPoly r)).eval x) rows Pg) := by
  unfold polycost
  by_cases he : rows = []
  · subst he; simp
  · rw [if_neg he, if_neg (by simp [hl])]
    rw [if_neg]
    · obtain ⟨r, hr⟩ := List.exists_mem_of_ne_nil rows he
      have : r.ncost ≤ (rows.map (·.ncost)).foldl max 0 :=
        foldl_max_le _ _ _ (Or.inr (List.mem_map.2 ⟨r, hr, rfl⟩))
      have h1 := (hrow r hr).1
      simp only
      rw [if_neg (by omega)]
      congr 1
      apply List.ext_getElem?
      intro i
      simp only [List.getElem?_zipWith]
      cases hri : rows[i]? with
      | none => rfl
      | some r' =>
        cases Pg[i]? with
        | none => rfl
        | some x => simp only [evalRow_eq r' (hrow r' (List.mem_of_getElem? hri)).2]
    · simp only [List.any_eq_true, decide_eq_true_eq, not_exists, not_and]
      intro r hr
      have := (hrow r hr).2
      omega

end Poly

section Pwl
variable {K : Type} [Field K] [LinearOrder K]

/-- Line through two points. -/
def seg (a b : K × K) (x : K) : K := a.2 + (b.2 - a.2) / (b.1 - a.1) * (x - a.1)

theorem seg_code (a b : K × K) (x : K) :
    (b.2 - a.2) / (b.1 - a.1) * x + (a.2 - (b.2 - a.2) / (b.1 - a.1) * a.1) = seg a b x := by
  unfold seg; ring

theorem pwlLoop_seg (x : K) : ∀ (k : Nat) (acc : K) (pts : List (K × K)) (a b : K × K),
    pts.Pairwise (fun a b => a.1 ≤ b.1) → pts[k]? = some a → pts[k + 1]? = some b →
    (k = 0 ∨ a.1 ≤ x) → (pts.length = k + 2 ∨ x < b.1) → pwlLoop x acc pts = seg a b x := by
  intro k
  induction k with
  | zero =>
    intro acc pts a b hp ha hb _ hx
    match pts, ha, hb with
    | p :: q :: rest, ha, hb =>
      simp only [List.getElem?_cons_zero, Option.some.injEq, zero_add, List.getElem?_cons_succ] at ha hb
      subst ha; subst hb
      rw [pwlLoop]
      simp only [seg_code]
      rcases hx with hx | hx
      · have : rest = [] := by simpa using hx
        subst this
        simp [pwlLoop]
      · rw [if_pos hx]
  | succ k ih =>
    intro acc pts a b hp ha hb hk hx
    match pts, hp, ha, hb, hx with
    | p :: q :: rest, hp, ha, hb, hx =>
      simp only [List.getElem?_cons_succ] at ha hb
      have hle : q.1 ≤ a.1 := by
        have hp' := (List.pairwise_cons.1 hp).2
        cases k with
        | zero => simp only [List.getElem?_cons_zero, Option.some.injEq] at ha; rw [ha]
        | succ k =>
          simp only [List.getElem?_cons_succ] at ha
          exact (List.pairwise_cons.1 hp').1 a (List.mem_of_getElem? ha)
      have hax : a.1 ≤ x := by rcases hk with hk | hk; · omega
                               · exact hk
      rw [pwlLoop]
      rw [if_neg (not_lt.2 (le_trans hle hax))]
      apply ih _ _ a b (List.pairwise_cons.1 hp).2 ha (by simpa using hb) (Or.inr hax)
      rcases hx with hx | hx
      · left; simpa using hx
      · right; exact hx
    | [p], _, ha, _, _ => simp at ha

theorem pairs_get (l : List K) : ∀ k : Nat, 2 * k + 1 < l.length →
    (pairs l)[k]? = some (l.getD (2 * k) 0, l.getD (2 * k + 1) 0) := by
  induction l using pairs.induct with
  | case1 a b r ih =>
    intro k hk
    cases k with
    | zero => simp [pairs]
    | succ k =>
      simp only [pairs, List.getElem?_cons_succ]
      rw [ih k (by simp at hk; omega)]
      have e1 : 2 * (k + 1) = 2 * k + 2 := by omega
      rw [e1]; simp
  | case2 l h =>
    intro k hk
    match l, h with
    | [], _ => simp at hk
    | [_], _ => simp at hk
    | a :: b :: r, h => exact absurd rfl (h a b r)

theorem pairs_length (l : List K) : (pairs l).length = l.length / 2 := by
  induction l using pairs.induct with
  | case1 a b r ih => simp only [pairs, List.length_cons, ih]; omega
  | case2 l h =>
    match l, h with
    | [], _ => simp [pairs]
    | [_], _ => simp [pairs]
    | a :: b :: r, h => exact absurd rfl (h a b r)

/-- The breakpoints actually used. -/
def ptsOf (r : CostRow K) : List (K × K) := (pairs r.data).take r.ncost

theorem ptsOf_get (r : CostRow K) (h : 2 * r.ncost ≤ r.data.length) (k : Nat) (hk : k < r.ncost) :
    (ptsOf r)[k]? = some (bp r k) := by
  rw [ptsOf, List.getElem?_take, if_pos hk, pairs_get _ _ (by omega)]; rfl

theorem ptsOf_length (r : CostRow K) (h : 2 * r.ncost ≤ r.data.length) : (ptsOf r).length = r.ncost := by
  rw [ptsOf, List.length_take, pairs_length]; omega

theorem bp_mono (r : CostRow K) (h : ∀ k, k + 1 < r.ncost → (bp r k).1 < (bp r (k + 1)).1) :
    ∀ j i, i + j < r.ncost → (bp r i).1 ≤ (bp r (i + j)).1 := by
  intro j
  induction j with
  | zero => intro i _; exact le_refl _
  | succ j ih =>
    intro i hi
    exact le_trans (ih i (by omega)) (le_of_lt (h (i + j) (by omega)))

theorem ptsOf_pairwise (r : CostRow K) (h : PwlRow r) : (ptsOf r).Pairwise (fun a b => a.1 ≤ b.1) := by
  rw [List.pairwise_iff_getElem]
  intro i j hi hj hij
  have hl := ptsOf_length r h.data
  have h1 := ptsOf_get r h.data i (by omega)
  have h2 := ptsOf_get r h.data j (by omega)
  rw [List.getElem?_eq_getElem hi, Option.some.injEq] at h1
  rw [List.getElem?_eq_getElem hj, Option.some.injEq] at h2
  rw [h1, h2]
  have := bp_mono r h.incr (j - i) i (by omega)
  rwa [Nat.add_sub_cancel' (le_of_lt hij)] at this

theorem pwlCost_line (r : CostRow K) (h : PwlRow r) (k : Nat) (hk : k + 1 < r.ncost) (x : K)
    (h1 : k = 0 ∨ (bp r k).1 ≤ x) (h2 : k + 2 = r.ncost ∨ x < (bp r (k + 1)).1) : pwlCost r x = line r k x := by
  have := pwlLoop_seg x k 0 (ptsOf r) _ _ (ptsOf_pairwise r h) (ptsOf_get r h.data k (by omega))
    (ptsOf_get r h.data (k + 1) hk) h1 (by rw [ptsOf_length r h.data]; rcases h2 with h2 | h2; exact Or.inl h2.symm; exact Or.inr h2)
  exact this

/-- Value of a row as the code computes it. -/
noncomputable def rowVal (r : CostRow K) (x : K) : K :=
  if r.model = 1 then pwlCost r x else (rowPoly r).eval x

theorem totcost_eq (rows : List (CostRow K)) (Pg : List K) (hl : rows.length = Pg.length) (hwf : WFTable rows) :
    totcost rows Pg = some (List.zipWith rowVal rows Pg) := by
  unfold totcost
  rw [if_neg (by simp [hl]), if_neg]
  · simp only
    split
    · rename_i hnil
      congr 1
      apply List.ext_getElem?
      intro i
      simp only [List.getElem?_zipWith]
      cases hri : rows[i]? with
      | none => rfl
      | some r =>
        cases Pg[i]? with
        | none => rfl
        | some x =>
          have hmem := List.mem_of_getElem? hri
          have hm : r.model = 1 := by
            rcases hwf r hmem with h | h
            · exact h.model
            · exfalso
              have : i ∈ find (rows.map (fun r => r.model == 2)) := by
                rw [mem_find]; simp [hri, h.model]
              rw [hnil] at this; simp at this
          simp [rowVal, hm]
    · generalize hip : find (rows.map (fun r : CostRow K => r.model == 2)) = ipol
      have hin : ∀ i ∈ ipol, i < rows.length := by
        intro i hi
        rw [← hip, mem_find] at hi
        have := (List.getElem?_eq_some_iff.1 hi).1
        simpa using this
      obtain ⟨prows, hpr⟩ := gather_isSome rows ipol hin
      obtain ⟨pPg, hpp⟩ := gather_isSome Pg ipol (by rw [← hl]; exact hin)
      have hpl := gather_length hpr
      have hql := gather_length hpp
      have hprow : ∀ r ∈ prows, 1 ≤ r.ncost ∧ r.ncost ≤ r.data.length := by
        intro r hr
        obtain ⟨k, hk⟩ := List.getElem?_of_mem hr
        rw [gather_get hpr] at hk
        cases hik : ipol[k]? with
        | none => rw [hik] at hk; simp at hk
        | some i =>
          rw [hik] at hk
          simp only [Option.bind_some] at hk
          have hi : i ∈ find (rows.map (fun r : CostRow K => r.model == 2)) := by
            rw [hip]; exact List.mem_of_getElem? hik
          rw [mem_find] at hi
          simp only [List.getElem?_map, hk, Option.map_some, Option.some.injEq, beq_iff_eq] at hi
          rcases hwf r (List.mem_of_getElem? hk) with h | h
          · have := h.model; omega
          · exact ⟨h.one, h.data⟩
      have hpc := polycost_eq prows pPg 0 (by omega) hprow
      simp only [hpr, hpp, hpc, Option.bind_eq_bind, Option.bind_some]
      obtain ⟨res, h1, h2, h3, h4⟩ := scatter_spec
        (List.zipWith (fun (r : CostRow K) x => if r.model = 1 then pwlCost r x else 0) rows Pg) ipol
        (List.zipWith (fun r x => (derivative^[0] (rowPoly r)).eval x) prows pPg)
        (hip ▸ find_nodup _) (by intro i hi; have := hin i hi; simp; omega) (by simp; omega)
      rw [h1]
      congr 1
      apply List.ext_getElem?
      intro i
      by_cases hi : i ∈ ipol
      · obtain ⟨k, hk⟩ := List.getElem?_of_mem hi
        rw [h3 k i hk]
        simp only [List.getElem?_zipWith, gather_get hpr, gather_get hpp, hk, Option.bind_some]
        have hi' := hi
        rw [← hip, mem_find] at hi'
        cases hri : rows[i]? with
        | none => rfl
        | some r =>
          simp only [List.getElem?_map, hri, Option.map_some, Option.some.injEq, beq_iff_eq] at hi'
          cases Pg[i]? with
          | none => rfl
          | some x => simp [rowVal, hi']
      · rw [h4 i hi]
        simp only [List.getElem?_zipWith]
        rw [← hip, mem_find] at hi
        cases hri : rows[i]? with
        | none => rfl
        | some r =>
          simp only [List.getElem?_map, hri, Option.map_some, Option.some.injEq, beq_iff_eq] at hi
          cases Pg[i]? with
          | none => rfl
          | some x =>
            rcases hwf r (List.mem_of_getElem? hri) with h | h
            · simp [rowVal, h.model]
            · exact absurd h.model hi
  · simp only [List.any_eq_true, Bool.and_eq_true, beq_iff_eq, decide_eq_true_eq, not_exists, not_and, not_lt]
    intro r hr hm
    rcases hwf r hr with h | h
    · rw [pairs_length]; have := h.data; omega
    · have := h.model; omega

end Pwl

end Verif.Cost
