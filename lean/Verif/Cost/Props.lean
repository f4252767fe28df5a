import Mathlib.Data.Rat.Defs
import Mathlib.Algebra.Order.Ring.Rat
import Mathlib.Tactic.NormNum
import Verif.Cost.AyLemmas

/-!
# Properties of the cost routines (C11-C17)
-/

set_option linter.unusedSectionVars false

namespace Verif.Cost
open Polynomial Verif.NumPy

variable {K : Type} [Field K]

/-- **C11.** `polycost` returns, row by row, the `der`-th derivative of the row's polynomial (highest order coefficient first)
evaluated at the row's output.  Rows may have different numbers of coefficients and any trailing data. -/
theorem C11_polycost (rows : List (CostRow K)) (Pg : List K) (der : Nat) (hl : rows.length = Pg.length)
    (hrow : ∀ r ∈ rows, 1 ≤ r.ncost ∧ r.ncost ≤ r.data.length) :
    ∃ f, polycost rows Pg der = some f ∧ f.length = rows.length ∧
      ∀ (i : Nat) (r : CostRow K) (x : K), rows[i]? = some r → Pg[i]? = some x →
        f[i]? = some ((derivative^[der] (rowPoly r)).eval x) := by
  refine ⟨_, polycost_eq rows Pg der hl hrow, by simp [hl], ?_⟩
  intro i r x hr hx
  simp [List.getElem?_zipWith, hr, hx]

/-- **C11** (failure): a row that holds fewer coefficients than it announces is never evaluated silently. -/
theorem C11_short_row (rows : List (CostRow K)) (Pg : List K) (der : Nat) (r : CostRow K) (hr : r ∈ rows)
    (hs : r.data.length < r.ncost) : polycost rows Pg der = none := by
  unfold polycost
  rw [if_neg (List.ne_nil_of_mem hr)]
  split
  · rfl
  · rw [if_pos]
    rw [List.any_eq_true]
    exact ⟨r, hr, by simpa using hs⟩

-- Non-vacuity: a quadratic and a linear row, with padding.
example : ∃ f, polycost [⟨2, 3, [1, 2, 3]⟩, ⟨2, 2, [5, 7, 99]⟩] [10, 20] 1 = some f ∧ f.length = 2 ∧ f = [(22 : ℚ), 5] := by
  refine ⟨_, rfl, rfl, ?_⟩
  norm_num [evalCols, derivs, derivCols, polyCoeffs, evalLoop]

variable [LinearOrder K] [IsStrictOrderedRing K]

/-- **C12.** In a table of well-formed rows, the value `totcost` gives for a piecewise linear row: it passes through every breakpoint,
is the straight line between neighbouring breakpoints, extends the first and the last segment, and for convex data it is the maximum of all
segment lines.  For a polynomial row it is the polynomial's value. The other rows have no influence. -/
theorem C12_totcost (rows : List (CostRow K)) (Pg : List K) (hl : rows.length = Pg.length) (hwf : WFTable rows) :
    ∃ f, totcost rows Pg = some f ∧ f.length = rows.length ∧
      ∀ (i : Nat) (r : CostRow K) (x : K), rows[i]? = some r → Pg[i]? = some x → ∃ v, f[i]? = some v ∧
        (r.model = 2 → v = (rowPoly r).eval x) ∧
        (r.model = 1 →
          (∀ k, k < r.ncost → x = (bp r k).1 → v = (bp r k).2) ∧
          (∀ k, k + 1 < r.ncost → (bp r k).1 ≤ x → x ≤ (bp r (k + 1)).1 → v = line r k x) ∧
          (x ≤ (bp r 0).1 → v = line r 0 x) ∧
          ((bp r (r.ncost - 1)).1 ≤ x → v = line r (r.ncost - 2) x) ∧
          (ConvexRow r → (∀ k, k + 1 < r.ncost → line r k x ≤ v) ∧ ∃ k, k + 1 < r.ncost ∧ v = line r k x)) := by
  refine ⟨_, totcost_eq rows Pg hl hwf, by simp [hl], ?_⟩
  intro i r x hr hx
  refine ⟨rowVal r x, by simp [List.getElem?_zipWith, hr, hx], ?_, ?_⟩
  · intro hm; simp [rowVal, hm]
  · intro hm
    have hp : PwlRow r := by
      rcases hwf r (List.mem_of_getElem? hr) with h | h
      · exact h
      · have := h.model; omega
    have hv : rowVal r x = pwlCost r x := by simp [rowVal, hm]
    rw [hv]
    have h2 := hp.two
    have mid : ∀ k, k + 1 < r.ncost → (bp r k).1 ≤ x → x ≤ (bp r (k + 1)).1 → pwlCost r x = line r k x := by
      intro k hk h1 h3
      rcases lt_or_eq_of_le h3 with h3 | h3
      · exact pwlCost_line r hp k hk x (Or.inr h1) (Or.inr h3)
      · by_cases hlast : k + 2 = r.ncost
        · exact pwlCost_line r hp k hk x (Or.inr h1) (Or.inl hlast)
        · have hk2 : k + 2 < r.ncost := by omega
          rw [pwlCost_line r hp (k + 1) hk2 x (Or.inr (le_of_eq h3.symm)) (Or.inr (by rw [h3]; exact hp.incr (k + 1) hk2)), h3,
            line_left, line_right r k (hp.incr k hk)]
    refine ⟨?_, mid, ?_, ?_, ?_⟩
    · intro k hk hxk
      by_cases hk1 : k + 1 < r.ncost
      · rw [mid k hk1 (le_of_eq hxk.symm) (by rw [hxk]; exact le_of_lt (hp.incr k hk1)), hxk, line_left]
      · obtain ⟨j, rfl⟩ : ∃ j, k = j + 1 := ⟨k - 1, by omega⟩
        rw [mid j hk (by rw [hxk]; exact le_of_lt (hp.incr j hk)) (le_of_eq hxk), hxk, line_right r j (hp.incr j hk)]
    · intro h1
      refine pwlCost_line r hp 0 (by omega) x (Or.inl rfl) (Or.inr ?_)
      exact lt_of_le_of_lt h1 (hp.incr 0 (by omega))
    · intro h1
      refine pwlCost_line r hp (r.ncost - 2) (by omega) x (Or.inr ?_) (Or.inl (by omega))
      have := hp.incr (r.ncost - 2) (by omega)
      rw [show r.ncost - 2 + 1 = r.ncost - 1 by omega] at this
      exact le_trans (le_of_lt this) h1
    · intro hc; exact pwlCost_max r hp hc x

/-- **C12** (boundary): a piecewise linear row with a single breakpoint has cost 0 everywhere, whatever that breakpoint is. -/
theorem C12_single_point (data : List K) (x : K) : totcost [⟨1, 1, data⟩] [x] = some [0] := by
  have hv : pwlCost (⟨1, 1, data⟩ : CostRow K) x = 0 := by
    unfold pwlCost
    cases hp : pairs data with
    | nil => simp [pwlLoop]
    | cons p ps => simp [pwlLoop]
  simp [totcost, find, findFrom, hv]

/-- A convex three-point row and a quadratic, used as the standard concrete case. -/
def exPwl : CostRow ℚ := ⟨1, 3, [0, 0, 10, 100, 20, 400, 0]⟩
def exPoly : CostRow ℚ := ⟨2, 3, [1, 2, 3, 0, 0, 0, 0]⟩

theorem exPwl_wf : PwlRow exPwl where
  model := rfl
  two := by decide
  data := by decide
  incr := by
    intro k hk
    have : k + 1 < 3 := hk
    match k with
    | 0 => norm_num [bp, exPwl]
    | 1 => norm_num [bp, exPwl]
    | k + 2 => omega

theorem exPwl_convex : ConvexRow exPwl := by
  intro k hk
  have : k + 2 < 3 := hk
  obtain rfl : k = 0 := by omega
  norm_num [slope, bp, exPwl]

theorem exPoly_wf : PolyRow exPoly := ⟨rfl, by decide, by decide⟩

theorem ex_wf : WFTable [exPwl, exPoly] := by
  intro r hr
  rcases List.mem_cons.1 hr with h | h
  · rw [h]; exact Or.inl exPwl_wf
  · rw [List.mem_singleton.1 h]; exact Or.inr exPoly_wf

-- Non-vacuity of C12: the table above at outputs 15 and 2; cost 250 and 11.
example : totcost [exPwl, exPoly] [15, 2] = some [250, 11] := by
  rw [totcost_eq _ _ rfl ex_wf]
  norm_num [rowVal, exPwl, exPoly, pwlCost, pwlLoop, pairs, rowPoly, Finset.sum_range_succ]

/-! ### C13 -/

/-- **C13, SCALE_F**: the cost of every output is multiplied by `alpha`. -/
theorem C13_scaleF (alpha : K) (rows : List (CostRow K)) (hwf : WFTable rows) :
    ∃ rows', modcost alpha .scaleF rows = some rows' ∧ WFTable rows' ∧ rows'.length = rows.length ∧
      ∀ Pg : List K, Pg.length = rows.length →
        ∃ F, totcost rows Pg = some F ∧ F.length = rows.length ∧ totcost rows' Pg = some (F.map (alpha * ·)) := by
  have := modcost_totcost alpha .scaleF id (alpha * ·) (modRow_scaleF alpha) rows hwf
  simpa using this

/-- **C13, SHIFT_F**: `alpha` is added to the cost of every output. -/
theorem C13_shiftF (alpha : K) (rows : List (CostRow K)) (hwf : WFTable rows) :
    ∃ rows', modcost alpha .shiftF rows = some rows' ∧ WFTable rows' ∧ rows'.length = rows.length ∧
      ∀ Pg : List K, Pg.length = rows.length →
        ∃ F, totcost rows Pg = some F ∧ F.length = rows.length ∧ totcost rows' Pg = some (F.map (alpha + ·)) := by
  have := modcost_totcost alpha .shiftF id (alpha + ·) (modRow_shiftF alpha) rows hwf
  simpa using this

/-- **C13, SHIFT_X**: the new cost at `x + alpha` is the old cost at `x`. -/
theorem C13_shiftX (alpha : K) (rows : List (CostRow K)) (hwf : WFTable rows) :
    ∃ rows', modcost alpha .shiftX rows = some rows' ∧ WFTable rows' ∧ rows'.length = rows.length ∧
      ∀ Pg : List K, Pg.length = rows.length →
        ∃ F, totcost rows Pg = some F ∧ F.length = rows.length ∧ totcost rows' (Pg.map (· + alpha)) = some F := by
  have := modcost_totcost alpha .shiftX (· + alpha) id (modRow_shiftX alpha) rows hwf
  simpa using this

/-- **C13, SCALE_X** for positive `alpha`: the new cost at `alpha * x` is the old cost at `x`.
Partial: the property asks for every nonzero `alpha`; it is false for piecewise linear rows and negative `alpha`
(`C13_negation`), and `C13_scaleX_poly` settles polynomial rows for every nonzero `alpha`. -/
theorem C13_scaleX_partial (alpha : K) (ha : 0 < alpha) (rows : List (CostRow K)) (hwf : WFTable rows) :
    ∃ rows', modcost alpha .scaleX rows = some rows' ∧ WFTable rows' ∧ rows'.length = rows.length ∧
      ∀ Pg : List K, Pg.length = rows.length →
        ∃ F, totcost rows Pg = some F ∧ F.length = rows.length ∧ totcost rows' (Pg.map (alpha * ·)) = some F := by
  have := modcost_totcost alpha .scaleX (alpha * ·) id (modRow_scaleX alpha ha) rows hwf
  simpa using this

/-- **C13, SCALE_X** for tables of polynomial rows and every nonzero `alpha`. -/
theorem C13_scaleX_poly (alpha : K) (ha : alpha ≠ 0) (rows : List (CostRow K)) (hwf : ∀ r ∈ rows, PolyRow r) :
    ∃ rows', modcost alpha .scaleX rows = some rows' ∧ WFTable rows' ∧
      ∀ Pg : List K, Pg.length = rows.length → ∃ F, totcost rows Pg = some F ∧ totcost rows' (Pg.map (alpha * ·)) = some F := by
  have key : ∀ rows : List (CostRow K), (∀ r ∈ rows, PolyRow r) →
      ∃ rows', modcost alpha .scaleX rows = some rows' ∧ WFTable rows' ∧ rows'.length = rows.length ∧
        ∀ Pg : List K, List.zipWith rowVal rows' (Pg.map (alpha * ·)) = List.zipWith rowVal rows Pg := by
    intro rows
    induction rows with
    | nil => intro _; exact ⟨[], rfl, by intro r hr; simp at hr, rfl, by simp⟩
    | cons r rows ih =>
      intro hw
      obtain ⟨rows', h1, h2, h3, h4⟩ := ih (fun s hs => hw s (List.mem_cons_of_mem _ hs))
      obtain ⟨r', k1, k2, k3⟩ := modRow_scaleX_poly alpha ha r (hw r (by simp))
      refine ⟨r' :: rows', by simp [modcost, k1, h1], ?_, by simp [h3], ?_⟩
      · intro s hs
        rcases List.mem_cons.1 hs with hs | hs
        · rw [hs]; exact Or.inr k2
        · exact h2 s hs
      · intro Pg
        cases Pg with
        | nil => simp
        | cons x Pg => simp [k3, h4]
  obtain ⟨rows', h1, h2, h3, h4⟩ := key rows hwf
  refine ⟨rows', h1, h2, ?_⟩
  intro Pg hl
  exact ⟨_, totcost_eq rows Pg hl.symm (fun r hr => Or.inr (hwf r hr)), by rw [totcost_eq rows' _ (by simp [hl, h3]) h2, h4]⟩

/-- **C13 is false** for SCALE_X with a negative factor on a piecewise linear row: the breakpoints end up in decreasing order and
evaluation picks the wrong segment. -/
theorem C13_negation : ∃ (alpha : ℚ) (rows rows' : List (CostRow ℚ)) (x F : ℚ), alpha ≠ 0 ∧ WFTable rows ∧
    modcost alpha .scaleX rows = some rows' ∧ totcost rows [x] = some [F] ∧ totcost rows' [alpha * x] ≠ some [F] := by
  refine ⟨-1, [exPwl], [⟨1, 3, [0, 0, -10, 100, -20, 400, 0]⟩], 15, 250, by norm_num, ?_, ?_, ?_, ?_⟩
  · intro r hr; rw [List.mem_singleton.1 hr]; exact Or.inl exPwl_wf
  · norm_num [modcost, modRow, exPwl, mapX]
  · norm_num [totcost, exPwl, pairs, find, findFrom, pwlCost, pwlLoop]
  · norm_num [totcost, pairs, find, findFrom, pwlCost, pwlLoop]

-- Non-vacuity of C13: `ex_wf` is a table with both kinds of rows.
example : ∃ rows', modcost (3 : ℚ) .shiftX [exPwl, exPoly] = some rows' ∧ totcost rows' [18, 5] = some [250, 11] := by
  obtain ⟨rows', h1, _, _, h⟩ := C13_shiftX (3 : ℚ) [exPwl, exPoly] ex_wf
  obtain ⟨F, hF, _, h2⟩ := h [15, 2] rfl
  refine ⟨rows', h1, ?_⟩
  have e : totcost [exPwl, exPoly] [15, 2] = some [250, 11] := by
    rw [totcost_eq _ _ rfl ex_wf]
    norm_num [rowVal, exPwl, exPoly, pwlCost, pwlLoop, pairs, rowPoly, Finset.sum_range_succ]
  rw [e] at hF
  have h3 : ([15, 2] : List ℚ).map (· + 3) = [18, 5] := by norm_num
  rw [← h3, h2, hF]

/-! ### C14 -/

/-- **C14.** Splitting a cost table for `ng` generators: with `ng` rows all are active costs; with `2*ng` rows the first `ng` are active
and the last `ng` reactive, the selection `on` applies to both halves (row `k` of each result is the row of generator `on[k]`); any other
number of rows is rejected. -/
theorem C14_pqcost {α : Type} (gencost : List α) (ng : Nat) :
    (∀ on : List Nat, (∀ i ∈ on, i < ng) →
      (gencost.length = ng → ∃ p, pqcost gencost ng (some on) = some (p, []) ∧ p.length = on.length ∧
        ∀ (k i : Nat), on[k]? = some i → p[k]? = gencost[i]?) ∧
      (gencost.length = 2 * ng → ng ≠ 0 → ∃ p q, pqcost gencost ng (some on) = some (p, q) ∧ p.length = on.length ∧
        q.length = on.length ∧ ∀ (k i : Nat), on[k]? = some i → p[k]? = gencost[i]? ∧ q[k]? = gencost[ng + i]?)) ∧
    (gencost.length = ng → pqcost gencost ng none = some (gencost, [])) ∧
    (gencost.length = 2 * ng → ng ≠ 0 →
      ∃ p q, pqcost gencost ng none = some (p, q) ∧ p.length = ng ∧ q.length = ng ∧ p ++ q = gencost) ∧
    (gencost.length ≠ ng → gencost.length ≠ 2 * ng → ∀ on, pqcost gencost ng on = none) := by
  refine ⟨?_, ?_, ?_, ?_⟩
  · intro on hon
    constructor
    · intro hl
      obtain ⟨p, hp⟩ := gather_isSome gencost on (by rw [hl]; exact hon)
      refine ⟨p, by simp [pqcost, hl, hp], gather_length hp, ?_⟩
      intro k i hk
      rw [gather_get hp, hk]; rfl
    · intro hl hz
      obtain ⟨p, hp⟩ := gather_isSome gencost on (by intro i hi; have := hon i hi; omega)
      obtain ⟨q, hq⟩ := gather_isSome gencost (on.map (· + ng))
        (by intro i hi; obtain ⟨j, hj, rfl⟩ := List.mem_map.1 hi; have := hon j hj; omega)
      refine ⟨p, q, ?_, gather_length hp, by rw [gather_length hq, List.length_map], ?_⟩
      · simp only [pqcost, Option.getD_some]
        rw [if_neg (by omega), if_pos hl]
        simp [hp, hq]
      · intro k i hk
        constructor
        · rw [gather_get hp, hk]; rfl
        · rw [gather_get hq]; simp [hk, Nat.add_comm]
  · intro hl
    simp only [pqcost, Option.getD_none]
    rw [if_pos hl, ← hl, gather_range]; rfl
  · intro hl hz
    refine ⟨gencost.take ng, gencost.drop ng, ?_, by simp; omega, by simp; omega, by simp⟩
    simp only [pqcost, Option.getD_none]
    rw [if_neg (by omega), if_pos hl]
    have h1 : gather gencost (List.range ng) = some (gencost.take ng) := by
      rw [List.range_eq_range', gather_range' _ _ _ (by omega)]; simp
    have h2 : gather gencost ((List.range ng).map (· + ng)) = some (gencost.drop ng) := by
      have : (List.range ng).map (· + ng) = List.range' ng ng := by
        rw [List.range'_eq_map_range]
        apply List.map_congr_left
        intro a _; omega
      rw [this, gather_range' _ _ _ (by omega), List.take_of_length_le (by simp; omega)]
    simp [h1, h2]
  · intro h1 h2 on
    simp [pqcost, h1, h2]

-- Non-vacuity: two generators with reactive costs, second generator selected.
example : pqcost ["p0", "p1", "q0", "q1"] 2 (some [1]) = some (["p1"], ["q1"]) := rfl

/-! ### C15 -/

/-- **C15 is false**: the conversion raises for every nonempty table, so no converted row is ever produced. -/
theorem C15_negation (rows : List (CostRow K)) (Pmin Pmax : List K) (npts : Nat) (h : rows ≠ []) :
    poly2pwl rows Pmin Pmax npts = none := by
  match rows, Pmin, Pmax with
  | [], _, _ => exact absurd rfl h
  | _ :: _, [], _ => simp [poly2pwl]
  | _ :: _, _ :: _, [] => simp [poly2pwl]
  | r :: rs, lo :: los, hi :: his => simp [poly2pwl, totcostVec]

/-! ### C16 -/

/-- Number of piecewise linear rows before row `i`: the index of row `i`'s helper variable. -/
def pwlBefore (gencost : List (CostRow K)) (i : Nat) : Nat := (gencost.take i).countP (fun r => r.model == 1)

/-- **C16** for active power costs (any table of at most `ng` rows, as in the DC OPF and in the AC OPF without reactive costs):
the generated constraints hold at `x = [Pg; …; y]` (`Pg` of generator `i` in column `i`, helper variable `j` in column `ybas - 1 + j`) iff every
helper variable is at least the cost of its own generator's output in MW.
Partial: reactive cost rows (row `ng + i`) are not covered; they are attached to the wrong generator (`C16_negation`). -/
theorem C16_partial (baseMVA : K) (hb : 0 < baseMVA) (ng : Nat) (gencost : List (CostRow K)) (hlen : gencost.length ≤ ng)
    (hrow : ∀ r ∈ gencost, r.model = 1 → PwlRow r ∧ ConvexRow r) (qgbas ybas : Nat) (hy : 1 ≤ ybas) (x : Nat → K) :
    (∀ row ∈ makeAy baseMVA ng gencost 1 qgbas ybas, row.holds x) ↔
      ∀ (i : Nat) (r : CostRow K), gencost[i]? = some r → r.model = 1 →
        ∃ v, totcost [r] [baseMVA * x i] = some [v] ∧ v ≤ x (ybas - 1 + pwlBefore gencost i) := by
  unfold makeAy
  rw [ayLoop_holds baseMVA hb ng 1 qgbas ybas x gencost 0 0 hrow]
  apply forall_congr'; intro i
  apply forall_congr'; intro r
  apply forall_congr'; intro hi
  apply forall_congr'; intro hm
  have hlt : i < gencost.length := (List.getElem?_eq_some_iff.1 hi).1
  have hp := (hrow r (List.mem_of_getElem? hi) hm).1
  have hcol : ayCol ng 1 qgbas (0 + i) = i := by
    simp only [ayCol, zero_add]; rw [if_neg (by omega)]; omega
  have hyc : ybas + (0 + (gencost.take i).countP (fun r => r.model == 1)) - 1 = ybas - 1 + pwlBefore gencost i := by
    unfold pwlBefore; omega
  have ht : totcost [r] [baseMVA * x i] = some [pwlCost r (baseMVA * x i)] := by
    rw [totcost_eq [r] [_] rfl (by intro s hs; rw [List.mem_singleton.1 hs]; exact Or.inl hp)]
    simp [rowVal, hm]
  rw [hcol, hyc, ht]
  constructor
  · intro h; exact ⟨_, rfl, h⟩
  · rintro ⟨v, hv, h⟩; simp at hv; rw [hv]; exact h

/-- **C16**, wrong columns: with the arguments used by the AC OPF (`pgbas = 1`, `qgbas = ng`) the constraints of the reactive cost row of
generator `g ≥ 1` (row `ng + g`) bound the helper variable by that cost evaluated at the reactive output of generator `g - 1`
(column `ng + (g - 1)`). -/
theorem C16_reactive_columns (baseMVA : K) (hb : 0 < baseMVA) (ng : Nat) (gencost : List (CostRow K))
    (hrow : ∀ r ∈ gencost, r.model = 1 → PwlRow r ∧ ConvexRow r) (ybas : Nat) (x : Nat → K)
    (hall : ∀ row ∈ makeAy baseMVA ng gencost 1 ng ybas, row.holds x) (g : Nat) (hg : 1 ≤ g) (r : CostRow K)
    (hr : gencost[ng + g]? = some r) (hm : r.model = 1) :
    ∃ v, totcost [r] [baseMVA * x (ng + (g - 1))] = some [v] ∧ v ≤ x (ybas + pwlBefore gencost (ng + g) - 1) := by
  unfold makeAy at hall
  rw [ayLoop_holds baseMVA hb ng 1 ng ybas x gencost 0 0 hrow] at hall
  have h := hall (ng + g) r hr hm
  have hp := (hrow r (List.mem_of_getElem? hr) hm).1
  have hcol : ayCol ng 1 ng (0 + (ng + g)) = ng + (g - 1) := by
    simp only [ayCol]; rw [if_pos (by omega)]; omega
  refine ⟨pwlCost r (baseMVA * x (ng + (g - 1))), ?_, ?_⟩
  · rw [totcost_eq [r] [_] rfl (by intro s hs; rw [List.mem_singleton.1 hs]; exact Or.inl hp)]
    simp [rowVal, hm]
  · rw [hcol] at h
    simpa [pwlBefore] using h

/-- Two generators; the reactive power of the second one has a piecewise linear cost. -/
def exQ : List (CostRow ℚ) := [exPoly, exPoly, exPoly, exPwl]

/-- **C16 is false** for reactive costs as the AC OPF calls it: all constraints hold although the helper variable (0) is below the cost of the
second generator's reactive output (column 3, 15 MVAr, cost 250). -/
theorem C16_negation : ∃ x : Nat → ℚ,
    (∀ row ∈ makeAy 1 2 exQ 1 2 5, row.holds x) ∧ totcost [exPwl] [1 * x 3] = some [250] ∧ x (5 - 1 + pwlBefore exQ 3) = 0 := by
  refine ⟨fun n => if n = 3 then 15 else 0, ?_, ?_, ?_⟩
  · unfold makeAy
    rw [ayLoop_holds (1 : ℚ) one_pos]
    · intro n r hn hm
      match n with
      | 0 => simp [exQ, exPoly] at hn; rw [← hn] at hm; simp at hm
      | 1 => simp [exQ, exPoly] at hn; rw [← hn] at hm; simp at hm
      | 2 => simp [exQ, exPoly] at hn; rw [← hn] at hm; simp at hm
      | 3 =>
        have : r = exPwl := by simpa [exQ] using hn.symm
        subst this
        norm_num [ayCol, exQ, exPoly, exPwl, pwlCost, pwlLoop, pairs]
      | n + 4 => simp [exQ] at hn
    · intro r hr hm
      have : r = exPoly ∨ r = exPwl := by simpa [exQ] using hr
      rcases this with h | h
      · rw [h] at hm; simp [exPoly] at hm
      · rw [h]; exact ⟨exPwl_wf, exPwl_convex⟩
  · norm_num [totcost, exPwl, pairs, find, findFrom, pwlCost, pwlLoop]
  · norm_num [pwlBefore, exQ, exPoly]

-- Non-vacuity of C16: one convex row.
example : ∀ r ∈ [exPwl, exPoly], r.model = 1 → PwlRow r ∧ ConvexRow r := by
  intro r hr hm
  have : r = exPwl ∨ r = exPoly := by simpa using hr
  rcases this with h | h
  · rw [h]; exact ⟨exPwl_wf, exPwl_convex⟩
  · rw [h] at hm; simp [exPoly] at hm

/-! ### C17 -/

/-- **C17.** Replacing the two-point piecewise linear rows by linear polynomials changes no cost, whatever the outputs. -/
theorem C17_one_segment (rows : List (CostRow K)) (hwf : WFTable rows) (Pg : List K) (hl : rows.length = Pg.length) :
    WFTable (rows.map pwl1Row) ∧ (∀ r ∈ rows.map pwl1Row, ¬ (r.model = 1 ∧ r.ncost = 2)) ∧
    ∃ F, totcost rows Pg = some F ∧ totcost (rows.map pwl1Row) Pg = some F := by
  have step : ∀ r : CostRow K, PwlRow r ∨ PolyRow r →
      (PwlRow (pwl1Row r) ∨ PolyRow (pwl1Row r)) ∧ ¬ ((pwl1Row r).model = 1 ∧ (pwl1Row r).ncost = 2) ∧
        ∀ x, rowVal (pwl1Row r) x = rowVal r x := by
    intro r h
    by_cases hc : r.model = 1 ∧ r.ncost = 2
    · have hp : PwlRow r := by
        rcases h with h | h
        · exact h
        · have := h.model; omega
      obtain ⟨m, n, d⟩ := r
      simp only at hc
      obtain ⟨rfl, rfl⟩ := hc
      have hd : 4 ≤ d.length := by simpa using hp.data
      match d, hd with
      | x0 :: y0 :: x1 :: y1 :: rest, _ =>
        have e : pwl1Row (⟨1, 2, x0 :: y0 :: x1 :: y1 :: rest⟩ : CostRow K) =
            ⟨2, 2, (y1 - y0) / (x1 - x0) :: (y0 - (y1 - y0) / (x1 - x0) * x0) :: x1 :: y1 :: rest⟩ := by simp [pwl1Row]
        rw [e]
        refine ⟨Or.inr ⟨rfl, by simp, by simp⟩, by simp, ?_⟩
        intro x
        simp [rowVal, pwlCost, pairs, pwlLoop, rowPoly, Finset.sum_range_succ]
    · have e : pwl1Row r = r := by unfold pwl1Row; rw [if_neg hc]
      rw [e]; exact ⟨h, hc, fun x => rfl⟩
  have hw : WFTable (rows.map pwl1Row) := by
    intro r hr
    obtain ⟨s, hs, rfl⟩ := List.mem_map.1 hr
    exact (step s (hwf s hs)).1
  refine ⟨hw, ?_, _, totcost_eq rows Pg hl hwf, ?_⟩
  · intro r hr
    obtain ⟨s, hs, rfl⟩ := List.mem_map.1 hr
    exact (step s (hwf s hs)).2.1
  · rw [totcost_eq _ _ (by simpa using hl) hw]
    congr 1
    apply List.ext_getElem?
    intro i
    simp only [List.getElem?_zipWith, List.getElem?_map]
    cases hri : rows[i]? with
    | none => rfl
    | some r =>
      cases Pg[i]? with
      | none => rfl
      | some x => simp [(step r (hwf r (List.mem_of_getElem? hri))).2.2]

-- Non-vacuity: a two-point row through (0, 5) and (10, 25) becomes 2 p + 5.
example : pwl1Row (⟨1, 2, [0, 5, 10, 25]⟩ : CostRow ℚ) = ⟨2, 2, [2, 5, 10, 25]⟩ := by
  norm_num [pwl1Row]

end Verif.Cost
