import Verif.Opf.CompProps
import Verif.Opf.DcCostProps
import Mathlib.Analysis.Convex.Deriv

/-! # C85: at the reported prices no generator would rather produce something else -/

open Matrix

namespace Verif.Opf

open Verif.OpfModel Verif.Pips Verif.Network Verif.OpfNl Verif.OpfCost Verif.Cost

variable {nb ng nl : ℕ}

/-! ### Specification -/

/-- No row of the blocks `bs` contains the variable at position `j`. -/
def Untouched (vb : List (String × ℕ)) (bs : List (String × LinBlk)) (j : ℕ) : Prop := ∀ b ∈ bs, ∀ i < b.2.A.rows, coef vb b.2 i j = 0

/-! ### Lemmas -/

/-- A generator whose marginal cost is the price, corrected by shadow prices that are paid only at binding limits, cannot gain. -/
theorem profit_of_price (c : ℝ → ℝ) (mc lam muU muL pmin pmax P P' t G : ℝ) (hmc : c P + mc * (P' - P) ≤ c P') (hpr : |mc - (lam - muU + muL)| ≤ t)
    (hU : 0 ≤ muU) (hL : 0 ≤ muL) (cU : muU * (pmax - P) ≤ G) (cL : muL * (P - pmin) ≤ G) (h1 : pmin ≤ P') (h2 : P' ≤ pmax) :
    c P - lam * P ≤ c P' - lam * P' + t * |P' - P| + 2 * G := by
  have e1 : (mc - (lam - muU + muL)) * (P' - P) ≥ -(t * |P' - P|) := by
    have := neg_abs_le ((mc - (lam - muU + muL)) * (P' - P))
    rw [abs_mul] at this
    have := mul_le_mul_of_nonneg_right hpr (abs_nonneg (P' - P))
    linarith
  have e2 : muU * (P' - P) ≤ G := le_trans (mul_le_mul_of_nonneg_left (by linarith) hU) cU
  have e3 : muL * (P - P') ≤ G := le_trans (mul_le_mul_of_nonneg_left (by linarith) hL) cL
  nlinarith

/-- The same for a generator whose cost is a helper variable `x` bounded from below by rows with multipliers `E1`, `E2`. -/
theorem profit_of_prices {base : ℝ} (cP cP' x M1 M2 E1 E2 lam muU muL pmin pmax P P' t1 t2 G tol n : ℝ)
    (hpr : |M1 / base - (lam - muU + muL) + E1 / base| ≤ t1) (hpy : |M2 + E2| ≤ t2)
    (hch : M1 * ((P' - P) / base) + M2 * (cP' - x) ≤ cP' - x) (hE : E1 * ((P' - P) / base) + E2 * (cP' - x) ≤ (n - 1) * G) (hx : cP ≤ x + tol)
    (hU : 0 ≤ muU) (hL : 0 ≤ muL) (cU : muU * (pmax - P) ≤ G) (cL : muL * (P - pmin) ≤ G) (h1 : pmin ≤ P') (h2 : P' ≤ pmax) :
    cP - lam * P ≤ cP' - lam * P' + t1 * |P' - P| + t2 * |cP' - x| + (n + 1) * G + tol := by
  have f1 := (abs_le.1 (le_trans (abs_mul _ (P' - P)).le (mul_le_mul_of_nonneg_right hpr (abs_nonneg (P' - P))))).1
  have f2 := (abs_le.1 (le_trans (abs_mul _ (cP' - x)).le (mul_le_mul_of_nonneg_right hpy (abs_nonneg (cP' - x))))).1
  have f3 : muU * (P' - P) ≤ G := le_trans (mul_le_mul_of_nonneg_left (by linarith) hU) cU
  have f4 : muL * (P - P') ≤ G := le_trans (mul_le_mul_of_nonneg_left (by linarith) hL) cL
  have g1 : M1 * ((P' - P) / base) = M1 / base * (P' - P) := by ring
  have g2 : E1 * ((P' - P) / base) = E1 / base * (P' - P) := by ring
  rw [g1] at hch
  rw [g2] at hE
  generalize t1 * |P' - P| = T1 at f1 ⊢
  generalize t2 * |cP' - x| = T2 at f2 ⊢
  generalize M1 / base = m1 at f1 hch
  generalize E1 / base = e1 at f1 hE
  linarith [mul_add (m1 - (lam - muU + muL) + e1) P' P]

/-- A convex function lies above its tangent. -/
theorem convex_tangent {f : ℝ → ℝ} {f' x : ℝ} (hf : ConvexOn ℝ Set.univ f) (hd : HasDerivAt f f' x) (y : ℝ) : f x + f' * (y - x) ≤ f y := by
  rcases lt_trichotomy x y with h | rfl | h
  · have := hf.le_slope_of_hasDerivAt (Set.mem_univ _) (Set.mem_univ _) h hd
    rw [slope_def_field, le_div_iff₀ (by linarith)] at this
    linarith
  · simp
  · have := hf.slope_le_of_hasDerivAt (Set.mem_univ _) (Set.mem_univ _) h hd
    rw [slope_def_field, div_le_iff₀ (by linarith)] at this
    linarith

theorem overRows_untouched (F : ℝ → ℝ → ℝ) (hF : ∀ y, F 0 y = 0) (vb lb : List (String × ℕ)) (bs : List (String × LinBlk)) (j : ℕ) (y : ℕ → ℝ)
    (h : Untouched vb bs j) : overRows F vb lb bs j y = 0 := by
  unfold overRows
  refine List.sum_eq_zero fun t ht => ?_
  obtain ⟨b, hb, rfl⟩ := List.mem_map.1 ht
  exact Finset.sum_eq_zero fun i hi => by rw [h b hb i (Finset.mem_range.1 hi), hF]

/-! ### The AC optimal power flow -/

section
variable (d : Case nb ng nl) (extra : List Op) (m : Model) (hm : OpfModel.run (acOps d ++ extra) = some m) (g : Good (acOps d ++ extra))
  (hn : (names (nlnBlocks (acOps d ++ extra))).Nodup) (hb : 0 < d.base) (lim : Int) (c : AcData) (o : Opt) (solve : AnySolver) (x0 : Fin m.var.total → ℝ)
  (s : AcRes nb ng nl) (hs : pipsopfSolver d lim c m o solve x0 = some s) (hc : 0 < o.costMult) (hft : 0 ≤ o.feastol) (hok : s.success = true)

include hm g hn hb hs hc hft hok

/-- **C85 (AC).**  On success, paid the reported price `LAM_P` at its bus, no generator with a convex polynomial cost earns more with another output within its limits
(up to the tolerances). -/
theorem C85_ac (hrate : ∀ l, 0 ≤ d.rateA l) (hA : AcOk (acNl d lim c).cost) (hlen : c.gencost.length = ng) (huser : c.user = false)
    (hy : 2 * nb + 2 * ng ≤ c.iy) (p : Fin ng) (hp : (c.row p).model = 2) (hconv : ConvexOn ℝ Set.univ fun P => (rowPoly (c.row p)).eval P)
    (hfree : Untouched (varBlocks (acOps d ++ extra)) (linBlks extra) (2 * nb + p)) (P : ℝ) (h1 : d.pmin p ≤ P) (h2 : P ≤ d.pmax p) :
    (rowPoly (c.row p)).eval (s.PG p) - s.LAM_P (d.gen p).bus * s.PG p ≤ (rowPoly (c.row p)).eval P - s.LAM_P (d.gen p).bus * P +
      (o.gradtol * (1 + s.dual) + 1 / 10 ^ 5 * 2) / o.costMult / d.base * |P - s.PG p| +
        2 * compGap o ‖fun i : Fin m.var.total => s.x i‖ s.dual s.tol := by
  have hpr := C80_polynomial_price d extra m hm g hn hb lim c o solve x0 s hs hc hok hA hlen huser hy p hp
  rw [acExtraTerm, overRows_untouched _ (fun y => zero_mul y) _ _ _ _ _ hfree, acExtraAbs, overRows_untouched _ (fun y => abs_zero) _ _ _ _ _ hfree] at hpr
  simp only [zero_div, add_zero, mul_one] at hpr
  obtain ⟨-, -, c1, c2, -⟩ := C84_ac d extra m hm g hn hb lim c o solve x0 s hs hc hft hok
  obtain ⟨sg, -⟩ := C80_signs d extra m hm g hn hb lim c o solve x0 s hs hc hrate
  exact profit_of_price (fun P => (rowPoly (c.row p)).eval P) _ _ _ _ _ _ _ _ _ _
    (convex_tangent hconv (Polynomial.hasDerivAt _ _) P) hpr (sg p).2.1 (sg p).1 (c1 p) (c2 p) h1 h2

end

/-! ### The rows of `Ay` by generator -/

theorem ayLoop_owner (base : ℝ) (ng q : ℕ) : ∀ (rows : List (CostRow ℝ)) (i j : ℕ), i + rows.length ≤ ng →
    ∀ r ∈ ayLoop base ng 1 q (1 + ng) i j rows, ∃ k, ∃ hk : k < rows.length, rows[k].model = 1 ∧ r.col = i + k ∧ r.ycol = ng + j + pwlBefore rows k := by
  intro rows
  induction rows with
  | nil => intro i j _ r h; simp [ayLoop] at h
  | cons a rows ih =>
    intro i j hl r h
    rw [List.length_cons] at hl
    rw [ayLoop] at h
    by_cases ha : a.model = 1
    · rw [if_pos ha, List.mem_append] at h
      rcases h with h | h
      · obtain ⟨h1, h2⟩ := segRows_cols _ _ _ _ h
        refine ⟨0, by simp, ha, ?_, ?_⟩
        · rw [h1]; unfold ayCol; rw [if_neg (by omega)]; omega
        · rw [h2]; simp [pwlBefore]; omega
      · obtain ⟨k, hk, e1, e2, e3⟩ := ih (i + 1) (j + 1) (by omega) r h
        refine ⟨k + 1, by simpa using hk, by simpa using e1, by omega, ?_⟩
        rw [e3]
        simp [pwlBefore, List.countP_cons_of_pos, ha]
        omega
    · rw [if_neg ha] at h
      obtain ⟨k, hk, e1, e2, e3⟩ := ih (i + 1) j (by omega) r h
      refine ⟨k + 1, by simpa using hk, by simpa using e1, by omega, ?_⟩
      rw [e3]
      simp [pwlBefore, ha]

/-- Every row of `Ay` belongs to one generator with a piecewise linear cost: it contains that generator's output and helper variable. -/
theorem ay_owner (base : ℝ) (gc : Fin ng → CostRow ℝ) (r : AyRow ℝ) (h : r ∈ ayRows base gc) :
    ∃ p : Fin ng, (gc p).model = 1 ∧ r.col = p ∧ r.ycol = ng + pwlPos gc p := by
  obtain ⟨k, hk, e1, e2, e3⟩ := ayLoop_owner base ng 0 (List.ofFn gc) 0 0 (by simp) r h
  rw [List.length_ofFn] at hk
  refine ⟨⟨k, hk⟩, by simpa using e1, by simpa using e2, ?_⟩
  rw [e3]
  simp [pwlPos]

theorem segRows_length (col ycol : ℕ) : ∀ pts : List (ℝ × ℝ), (segRows col ycol pts).length = pts.length - 1 := by
  intro pts
  induction pts with
  | nil => rfl
  | cons a pts ih =>
    cases pts with
    | nil => rfl
    | cons b pts => rw [segRows, List.length_cons, ih]; simp

theorem pairs_length (l : List ℝ) : (pairs l).length = l.length / 2 := by
  induction l using pairs.induct with
  | case1 a b l ih => rw [pairs, List.length_cons, ih]; simp only [List.length_cons]; omega
  | case2 l h =>
    match l, h with
    | [], _ => rfl
    | [a], _ => simp [pairs]
    | a :: b :: l, h => exact absurd rfl (h a b l)

theorem ayLoop_count (base : ℝ) (ng q : ℕ) : ∀ (rows : List (CostRow ℝ)) (i j : ℕ), i + rows.length ≤ ng → ∀ (k : ℕ) (hk : k < rows.length),
    PwlRow rows[k] → (ayLoop base ng 1 q (1 + ng) i j rows).countP (fun r => r.col = i + k) = rows[k].ncost - 1 := by
  intro rows
  induction rows with
  | nil => intro i j _ k hk; simp at hk
  | cons a rows ih =>
    intro i j hl k hk hrow
    rw [List.length_cons] at hl
    have hcol : ayCol ng 1 q i = i := by unfold ayCol; rw [if_neg (by omega)]; omega
    rw [ayLoop]
    cases k with
    | zero =>
      simp only [List.getElem_cons_zero] at hrow ⊢
      rw [if_pos hrow.model, List.countP_append]
      have z : (ayLoop base ng 1 q (1 + ng) (i + 1) (j + 1) rows).countP (fun r => r.col = i + 0) = 0 := by
        rw [List.countP_eq_zero]
        intro r hr
        obtain ⟨k, -, -, e, -⟩ := ayLoop_owner base ng q rows (i + 1) (j + 1) (by omega) r hr
        simp only [decide_eq_true_eq]
        omega
      have f : (segRows (ayCol ng 1 q i) (1 + ng + j - 1) (((pairs a.data).take a.ncost).map fun pc => (pc.1 / base, pc.2))).countP (fun r => r.col = i + 0) =
          (segRows (ayCol ng 1 q i) (1 + ng + j - 1) (((pairs a.data).take a.ncost).map fun pc => (pc.1 / base, pc.2))).length := by
        rw [List.countP_eq_length]
        intro r hr
        have := (segRows_cols _ _ _ _ hr).1
        simp only [decide_eq_true_eq]
        omega
      rw [z, f, segRows_length, List.length_map, List.length_take, pairs_length]
      have := hrow.data
      omega
    | succ k =>
      simp only [List.getElem_cons_succ] at hrow ⊢
      rw [List.length_cons] at hk
      have e : ∀ r : AyRow ℝ, decide (r.col = i + (k + 1)) = decide (r.col = i + 1 + k) := fun r => by congr 1; exact propext (by omega)
      simp only [e]
      split_ifs with ha
      · rw [List.countP_append, ih (i + 1) (j + 1) (by omega) k (by omega) hrow, Nat.add_eq_right, List.countP_eq_zero]
        intro r hr
        have := (segRows_cols _ _ _ _ hr).1
        simp only [decide_eq_true_eq]
        omega
      · exact ih (i + 1) j (by omega) k (by omega) hrow

/-- A generator with `n` breakpoints has `n − 1` rows in `Ay`. -/
theorem ay_count (base : ℝ) (gc : Fin ng → CostRow ℝ) (p : Fin ng) (h : PwlRow (gc p)) :
    (ayRows base gc).countP (fun r => r.col = (p : ℕ)) = (gc p).ncost - 1 := by
  have := ayLoop_count base ng 0 (List.ofFn gc) 0 0 (by simp) p (by simp) (by simpa using h)
  simpa [ayRows, makeAy] using this

theorem sum_countP (l : List (AyRow ℝ)) (q : AyRow ℝ → Prop) [DecidablePred q] (G : ℝ) :
    ∑ i : Fin l.length, (if q l[(i : ℕ)] then G else 0) = l.countP (fun r => q r) * G := by
  rw [Fin.sum_univ_fun_getElem l fun r => if q r then G else 0]
  induction l with
  | nil => simp
  | cons a l ih =>
    rw [List.map_cons, List.sum_cons, ih]
    by_cases h : q a
    · rw [List.countP_cons_of_pos (by simpa using h), if_pos h]; push_cast; ring
    · rw [List.countP_cons_of_neg (by simpa using h), if_neg h]; ring

section
variable (d : Case nb ng nl) (gc : Fin ng → CostRow ℝ) (lin post : List Op) (hlin : varBlocks lin = [])

include hlin in
/-- A row of the constraints on helper variables, at any point. -/
theorem ycon_dot (i : ℕ) (r : AyRow ℝ) (hi : (ayRows d.base gc)[i]? = some r) (x : ℕ → ℝ) :
    rowDot (ayMat (ng + nyOf gc) (ayRows d.base gc)) i
      (subvec (varBlocks (dcOps d ++ (lin ++ (pwlOps d.base gc ++ post)))) x
        (eff (varBlocks (dcOps d ++ (lin ++ (pwlOps d.base gc ++ post)))) ["Pg", "y"])) = r.slope * x (nb + r.col) - x (nb + r.ycol) := by
  obtain ⟨p, h1, h2, h3⟩ := ay_owner d.base gc r (List.mem_of_getElem? hi)
  have hlt := pwlPos_lt gc p h1
  have hp := p.isLt
  obtain ⟨f1, f2⟩ := subvec_PgY d gc lin post hlin (by omega) x
  rw [rowDot_ay _ _ i r hi (by omega) (by omega) (by omega), h2, h3, f1, f2 _ hlt, add_assoc]

/-- Sums over the rows of the further constraints: those on helper variables and the others. -/
theorem extra_rows_split (F : ℝ → ℝ → ℝ) (j : ℕ) (y : ℕ → ℝ) :
    overRows F (varBlocks (dcOps d ++ (lin ++ (pwlOps d.base gc ++ post)))) (linBlocks (dcOps d ++ (lin ++ (pwlOps d.base gc ++ post))))
      (linBlks (lin ++ (pwlOps d.base gc ++ post))) j y =
    overRows F (varBlocks (dcOps d ++ (lin ++ (pwlOps d.base gc ++ post)))) (linBlocks (dcOps d ++ (lin ++ (pwlOps d.base gc ++ post))))
      (linBlks (lin ++ post)) j y +
    overRows F (varBlocks (dcOps d ++ (lin ++ (pwlOps d.base gc ++ post)))) (linBlocks (dcOps d ++ (lin ++ (pwlOps d.base gc ++ post))))
      (linBlks (pwlOps d.base gc)) j y := by
  have e : ∀ a b : List Op, linBlks (a ++ b) = linBlks a ++ linBlks b := fun a b => by simp [linBlks]
  rw [e, e, e]
  unfold overRows
  rw [List.map_append, List.map_append, List.map_append, List.sum_append, List.sum_append, List.sum_append]
  ring

/-- Sums over the rows of the further constraints, of which only those on helper variables touch `j`. -/
theorem extra_rows (F : ℝ → ℝ → ℝ) (hF : ∀ y, F 0 y = 0) (j : ℕ) (y : ℕ → ℝ)
    (hfree : Untouched (varBlocks (dcOps d ++ (lin ++ (pwlOps d.base gc ++ post)))) (linBlks (lin ++ post)) j) :
    overRows F (varBlocks (dcOps d ++ (lin ++ (pwlOps d.base gc ++ post)))) (linBlocks (dcOps d ++ (lin ++ (pwlOps d.base gc ++ post))))
      (linBlks (lin ++ (pwlOps d.base gc ++ post))) j y =
    overRows F (varBlocks (dcOps d ++ (lin ++ (pwlOps d.base gc ++ post)))) (linBlocks (dcOps d ++ (lin ++ (pwlOps d.base gc ++ post))))
      (linBlks (pwlOps d.base gc)) j y := by
  have e : ∀ a b : List Op, linBlks (a ++ b) = linBlks a ++ linBlks b := fun a b => by simp [linBlks]
  have a1 := overRows_untouched F hF (varBlocks (dcOps d ++ (lin ++ (pwlOps d.base gc ++ post)))) (linBlocks (dcOps d ++ (lin ++ (pwlOps d.base gc ++ post))))
    (linBlks lin) j y fun b hb => hfree b (by rw [e]; exact List.mem_append_left _ hb)
  have a2 := overRows_untouched F hF (varBlocks (dcOps d ++ (lin ++ (pwlOps d.base gc ++ post)))) (linBlocks (dcOps d ++ (lin ++ (pwlOps d.base gc ++ post))))
    (linBlks post) j y fun b hb => hfree b (by rw [e]; exact List.mem_append_right _ hb)
  rw [e, e]
  unfold overRows at *
  rw [List.map_append, List.map_append, List.sum_append, List.sum_append, a1, a2]
  ring

end

/-! ### The DC optimal power flow -/

section
variable (d : Case nb ng nl) (gc0 : Fin ng → CostRow ℝ) (hgc : ∀ p, CostOK (gc0 p)) (hb : 0 < d.base) (lin post : List Op) (hlin : varBlocks lin = [])
  (m : Model) (hm : OpfModel.run (dcOps d ++ (lin ++ (pwlOps d.base (fun p => pwl1Row (gc0 p)) ++ post))) = some m)
  (g : Good (dcOps d ++ (lin ++ (pwlOps d.base (fun p => pwl1Row (gc0 p)) ++ post))))
  {W : Type} [Fintype W] [DecidableEq W] (u : UserCost m.var.total W) (hu : u.Convex)
  (o : Opt) (solve : AnySolver) (x0 : Fin m.var.total → ℝ) (hc : 0 < o.costMult) (hft : 0 ≤ o.feastol)
  (D : DcData (Fin m.var.total) {p : Fin ng // (pwl1Row (gc0 p)).model = 2} W)
  (hD : D = dcData d.base (fun p => pwl1Row (gc0 p)) u nb (nb + ng) (dc_width hm g))
  (s : DcRes nb ng nl) (hs : dcopfSolver d m (HH D) (CC D) (C0 D) o solve x0 = some s) (hok : s.success = true)

omit [Fintype W] [DecidableEq W] in
/-- User costs that do not contain the changed variables. -/
theorem user_same [Fintype W] (x y : ℕ → ℝ) (h : ∀ a (j : Fin m.var.total), x j ≠ y j → u.N a j = 0) :
    u.value (fun i : Fin m.var.total => x i) = u.value (fun i : Fin m.var.total => y i) := by
  have e : ∀ a, ∑ j : Fin m.var.total, u.N a j * x j = ∑ j : Fin m.var.total, u.N a j * y j := by
    intro a
    refine Finset.sum_congr rfl fun j _ => ?_
    by_cases hj : x j = y j
    · rw [hj]
    · rw [h a j hj, zero_mul, zero_mul]
  unfold UserCost.value
  simp only [e]

include hgc hlin hm g hu hD in
/-- The cost of a changed point, from the marginal costs at the original one. -/
theorem change (x y : ℕ → ℝ) (hN : ∀ a (j : Fin m.var.total), x j ≠ y j → u.N a j = 0) :
    ∑ j : Fin m.var.total, marginal (HH D) (CC D) x j * (y j - x j) ≤
      (∑ q : {p : Fin ng // (pwl1Row (gc0 p)).model = 2}, (rowPoly (pwl1Row (gc0 q))).eval (d.base * y (nb + q.1)) +
        ∑ p with (pwl1Row (gc0 p)).model = 1, y (nb + ng + pwlPos (fun p => pwl1Row (gc0 p)) p)) -
      (∑ q : {p : Fin ng // (pwl1Row (gc0 p)).model = 2}, (rowPoly (pwl1Row (gc0 q))).eval (d.base * x (nb + q.1)) +
        ∑ p with (pwl1Row (gc0 p)).model = 1, x (nb + ng + pwlPos (fun p => pwl1Row (gc0 p)) p)) := by
  have hgc' : ∀ p, CostOK ((fun p => pwl1Row (gc0 p)) p) := fun p => costOK_pwl1 (hgc p)
  have hox := objective_eq (fun p => pwl1Row (gc0 p)) hgc' d.base u nb (nb + ng) (dc_width hm g) (y_width d gc0 lin post hlin m hm g) hu.symm x
  have hoy := objective_eq (fun p => pwl1Row (gc0 p)) hgc' d.base u nb (nb + ng) (dc_width hm g) (y_width d gc0 lin post hlin m hm g) hu.symm y
  rw [← hD] at hox hoy
  have hH : ∀ a b, D.H a b = D.H b a := by rw [hD]; exact hu.symm
  have hP : ∀ w : W → ℝ, 0 ≤ ∑ a, ∑ b, w a * D.H a b * w b := by rw [hD]; exact hu.psd
  have hpol : ∀ q, 0 ≤ (polycf D q).1 := by rw [hD]; exact polycf_nonneg (fun p => pwl1Row (gc0 p)) hgc' d.base u nb (nb + ng) (dc_width hm g)
  have ht := qp_tangent (HH D) (CC D) (HH_symm D hH) (HH_psd D hpol hP) (fun i => x i) (fun i => y i)
  have huu := user_same m u x y hN
  have em : ∀ j : Fin m.var.total, marginal (HH D) (CC D) x j = (qp (HH D) (CC D)).df (fun i => x i) j := by
    intro j
    unfold marginal pad
    rw [dif_pos j.isLt]
    rfl
  simp only [em]
  unfold dcObjective at hox hoy
  simp only [qp] at ht ⊢
  rw [huu] at hox
  linarith

include hm g hc hs hok in
/-- The condition on a helper variable. -/
theorem helper_price (hlin : varBlocks lin = []) (k : ℕ) (hk : k < nyOf fun p => pwl1Row (gc0 p)) :
    |marginal (HH D) (CC D) s.x (nb + ng + k) + extraTerm d (lin ++ (pwlOps d.base (fun p => pwl1Row (gc0 p)) ++ post)) s (nb + ng + k)| ≤
      (o.gradtol * (1 + s.dual) +
        1 / 10 ^ 5 * (2 * (1 + extraAbs d (lin ++ (pwlOps d.base (fun p => pwl1Row (gc0 p)) ++ post)) (nb + ng + k)))) / o.costMult := by
  have hw := y_width d gc0 lin post hlin m hm g
  obtain ⟨sy, -⟩ := dcy_y d (fun p => pwl1Row (gc0 p)) lin post hlin (by omega)
  have hvy : ("y", (⟨nyOf fun p => pwl1Row (gc0 p), none, none, none⟩ : VarVals)) ∈ varVals (lin ++ (pwlOps d.base (fun p => pwl1Row (gc0 p)) ++ post)) := by
    have e : ∀ a b : List Op, varVals (a ++ b) = varVals a ++ varVals b := fun a b => by simp [varVals]
    have hpv : varVals (pwlOps d.base fun p => pwl1Row (gc0 p)) = [("y", ⟨nyOf fun p => pwl1Row (gc0 p), none, none, none⟩)] := by
      unfold pwlOps; rw [if_neg (by omega)]; rfl
    rw [e, e, hpv]
    simp
  generalize hX : lin ++ (pwlOps d.base (fun p => pwl1Row (gc0 p)) ++ post) = X at *
  obtain ⟨q, r, hq, hr, e1, -, e3, e4, e5, eV, eG, eF, eT, eQ, eL, eSf, eSt, ePl, ePu, el, eu⟩ := dc_ofSolver hm g hs
  obtain ⟨q', hq', ht, hA, hv, hl, hqok⟩ := linearOf_spec hm g
  rw [hq] at hq'; cases hq'
  have hlt : nb + ng + k < m.var.total := by omega
  have htot : nb + ng + k < total (varBlocks (dcOps d ++ X)) := by rw [← ht]; exact hlt
  have st := C76_stationary (qp (HH D) (CC D)) q o (solve _ _) x0 hqok hc r hr (by rw [← e1]; exact hok) ⟨nb + ng + k, hlt⟩
  obtain ⟨ab1, ab2⟩ := C76_absent (qp (HH D) (CC D)) q o (solve _ _) x0 hqok r hr
  have hy := hv _ (by rw [dc_varVals]; exact List.mem_cons_of_mem _ (List.mem_cons_of_mem _ hvy)) k hk
  rw [sy] at hy
  have z1 := (ab1 _ hlt).1 (by rw [hy.1]; simp [VarVals.lo, orDefault, hk])
  have z2 := (ab1 _ hlt).2 (by rw [hy.2]; simp [VarVals.hi, orDefault, hk])
  rw [linearOf_column hm g hq (fun a y => a * y) _ htot fun k => r.mu_u k - r.mu_l k,
    linearOf_column hm g hq (fun a _ => |a|) _ htot 0] at st
  have z : (fun i : Fin nb => (Pi.single (nb + ng + k) (1 : ℝ) : ℕ → ℝ) i) = 0 := by
    funext i
    rw [Pi.single_eq_of_ne (by have := i.isLt; omega)]; rfl
  have zp : ∀ p : Fin ng, (Pi.single (nb + ng + k) (1 : ℝ) : ℕ → ℝ) (nb + p) = 0 := fun p => Pi.single_eq_of_ne (by have := p.isLt; omega) _
  have c1 : ∀ b : Fin nb, coef (varBlocks (dcOps d ++ X)) ⟨hcat (Bbus d.branch) d.negCg, vec d.bmis, vec d.bmis, ["Va", "Pg"]⟩ b (nb + ng + k) = 0 := by
    intro b
    unfold coef
    rw [Pmis_row, z, Matrix.mulVec_zero, Pi.zero_apply, zero_sub, Finset.sum_eq_zero fun p _ => zp p, neg_zero]
  have c2 : ∀ i : Fin d.il.length, coef (varBlocks (dcOps d ++ X)) ⟨matOf d.BfIl, List.replicate d.il.length ⊥, vec d.upf, ["Va"]⟩ i (nb + ng + k) = 0 := by
    intro i
    unfold coef
    rw [Pf_row, z, Matrix.mulVec_zero, Pi.zero_apply]
  have c3 : ∀ i : Fin d.il.length, coef (varBlocks (dcOps d ++ X)) ⟨matOf (-d.BfIl), List.replicate d.il.length ⊥, vec d.upt, ["Va"]⟩ i (nb + ng + k) = 0 := by
    intro i
    unfold coef
    rw [Pt_row, z, Matrix.mulVec_zero, Pi.zero_apply, neg_zero]
  rw [dc_overRows, dc_overRows] at st
  simp only [c1, c2, c3, z1, z2, sub_zero, zero_mul, abs_zero, Finset.sum_const_zero, Finset.univ_eq_empty, Finset.sum_empty, add_zero, zero_add] at st
  have hx : (fun i : Fin m.var.total => s.x i) = r.x := by rw [e3]; funext i; simp [pad]
  have hm' : marginal (HH D) (CC D) s.x (nb + ng + k) = (qp (HH D) (CC D)).df r.x ⟨nb + ng + k, hlt⟩ := by
    unfold marginal pad qp
    rw [hx, dif_pos hlt]
  rw [hm', extraTerm, el, eu, extraAbs, e5]
  exact st

include hm g hc hs in
/-- The multipliers of the constraints on helper variables. -/
theorem ycon_mu (i : ℕ) (hi : i < (ayRows d.base fun p => pwl1Row (gc0 p)).length) (hy : nyOf (fun p => pwl1Row (gc0 p)) ≠ 0) :
    0 ≤ s.mu_u (start (linBlocks (dcOps d ++ (lin ++ (pwlOps d.base (fun p => pwl1Row (gc0 p)) ++ post)))) "ycon" + i) ∧
    s.mu_l (start (linBlocks (dcOps d ++ (lin ++ (pwlOps d.base (fun p => pwl1Row (gc0 p)) ++ post)))) "ycon" + i) = 0 := by
  have hmem : ("ycon", (⟨ayMat (ng + nyOf (fun p => pwl1Row (gc0 p))) (ayRows d.base (fun p => pwl1Row (gc0 p))), [],
      (ayRows d.base (fun p => pwl1Row (gc0 p))).map fun r => ((r.rhs : ℝ) : EReal), ["Pg", "y"]⟩ : LinBlk)) ∈
      linBlks (lin ++ (pwlOps d.base (fun p => pwl1Row (gc0 p)) ++ post)) := by
    have e : ∀ a b : List Op, linBlks (a ++ b) = linBlks a ++ linBlks b := fun a b => by simp [linBlks]
    rw [e, e, pwlOps_linBlks _ _ hy]
    simp
  obtain ⟨q, r, hq, hr, e1, -, e3, e4, e5, eV, eG, eF, eT, eQ, eL, eSf, eSt, ePl, ePu, el, eu⟩ := dc_ofSolver hm g hs
  obtain ⟨q', hq', ht, hA, hv, hl, hqok⟩ := linearOf_spec hm g
  rw [hq] at hq'; cases hq'
  obtain ⟨-, sg⟩ := C76_signs (qp (HH D) (CC D)) q o (solve _ _) x0 hqok hc r hr
  obtain ⟨-, ab2⟩ := C76_absent (qp (HH D) (CC D)) q o (solve _ _) x0 hqok r hr
  have hmem' := List.mem_cons_of_mem ("Pmis", (⟨hcat (Bbus d.branch) d.negCg, vec d.bmis, vec d.bmis, ["Va", "Pg"]⟩ : LinBlk))
    (List.mem_cons_of_mem ("Pf", (⟨matOf d.BfIl, List.replicate d.il.length ⊥, vec d.upf, ["Va"]⟩ : LinBlk))
      (List.mem_cons_of_mem ("Pt", (⟨matOf (-d.BfIl), List.replicate d.il.length ⊥, vec d.upt, ["Va"]⟩ : LinBlk)) hmem))
  rw [← dc_linBlks] at hmem'
  have hlo := (hl _ hmem' i hi).2.1
  have hlt : start (linBlocks (dcOps d ++ (lin ++ (pwlOps d.base (fun p => pwl1Row (gc0 p)) ++ post)))) "ycon" + i < q.nA := by
    rw [hA]
    exact start_lt (linBlocks (dcOps d ++ (lin ++ (pwlOps d.base (fun p => pwl1Row (gc0 p)) ++ post)))) (by rw [linBlocks_names]; exact g.linNames) ("ycon", (ayRows d.base fun p => pwl1Row (gc0 p)).length)
      (List.mem_map.2 ⟨_, hmem', rfl⟩) i hi
  rw [eu, el]
  exact ⟨(sg _).2.2.2, (ab2 _ hlt).1 (by rw [hlo]; simp [LinBlk.lo])⟩

include hgc hb hlin hm g hu hc hft hD hs hok

/-- The price of a generator with a polynomial cost, corrected by what the further constraints `lin` and `post` contribute. -/
theorem polynomial_gen (p : Fin ng) (hp : (pwl1Row (gc0 p)).model = 2) (hN : ∀ a (j : Fin m.var.total), (j : ℕ) = nb + p → u.N a j = 0)
    (E0 A0 : ℝ) (hE0 : E0 = overRows (fun a y => a * y) (varBlocks (dcOps d ++ (lin ++ (pwlOps d.base (fun p => pwl1Row (gc0 p)) ++ post))))
        (linBlocks (dcOps d ++ (lin ++ (pwlOps d.base (fun p => pwl1Row (gc0 p)) ++ post)))) (linBlks (lin ++ post)) (nb + p) fun k => s.mu_u k - s.mu_l k)
    (hA0 : A0 = overRows (fun a _ => |a|) (varBlocks (dcOps d ++ (lin ++ (pwlOps d.base (fun p => pwl1Row (gc0 p)) ++ post))))
        (linBlocks (dcOps d ++ (lin ++ (pwlOps d.base (fun p => pwl1Row (gc0 p)) ++ post)))) (linBlks (lin ++ post)) (nb + p) 0)
    (P : ℝ) (h1 : d.pmin p ≤ P) (h2 : P ≤ d.pmax p) :
    rowVal (gc0 p) (s.PG p) - (s.LAM_P (d.gen p).bus - E0 / d.base) * s.PG p ≤ rowVal (gc0 p) P - (s.LAM_P (d.gen p).bus - E0 / d.base) * P +
      (o.gradtol * (1 + s.dual) + 1 / 10 ^ 5 * (2 * (2 + A0))) / o.costMult / d.base * |P - s.PG p| +
        2 * compGap o ‖fun i : Fin m.var.total => s.x i‖ s.dual s.tol := by
  have hpr := C78_generator_price d _ m hm g hb _ _ _ o solve x0 s hs hc hok p
  have hco : ∀ (i : ℕ) (r : AyRow ℝ), (ayRows d.base fun p => pwl1Row (gc0 p))[i]? = some r → r.col ≠ p ∧ r.ycol ≠ p := by
    intro i r hi
    obtain ⟨p', q1, q2, q3⟩ := ay_owner d.base _ r (List.mem_of_getElem? hi)
    refine ⟨?_, by have := p.isLt; omega⟩
    rw [q2]
    intro h
    rw [Fin.ext h, hp] at q1
    omega
  have hun : Untouched (varBlocks (dcOps d ++ (lin ++ (pwlOps d.base (fun p => pwl1Row (gc0 p)) ++ post))))
      (linBlks (pwlOps d.base (fun p => pwl1Row (gc0 p)))) (nb + p) := by
    by_cases hy : nyOf (fun p => pwl1Row (gc0 p)) = 0
    · have : pwlOps d.base (fun p => pwl1Row (gc0 p)) = [] := by unfold pwlOps; rw [if_pos hy]
      rw [this]
      intro b hb'
      simp [linBlks] at hb'
    · rw [pwlOps_linBlks _ _ hy]
      intro b hb'
      rw [List.mem_singleton] at hb'
      subst hb'
      intro i (hi : i < (ayRows d.base fun p => pwl1Row (gc0 p)).length)
      have hr := List.getElem?_eq_getElem hi
      have := ycon_dot d (fun p => pwl1Row (gc0 p)) lin post hlin i _ hr (Pi.single (nb + p) 1)
      unfold coef
      rw [this, Pi.single_eq_of_ne (by have := (hco i _ hr).1; omega), Pi.single_eq_of_ne (by have := (hco i _ hr).2; omega)]
      ring
  rw [extraTerm, extra_rows_split, overRows_untouched _ (fun y => zero_mul y) _ _ _ _ _ hun,
    extraAbs, extra_rows_split, overRows_untouched _ (fun y => abs_zero) _ _ _ _ _ hun, ← hE0, ← hA0, add_zero, add_zero] at hpr
  have hpr : |marginal (HH D) (CC D) s.x (nb + p) / d.base - (s.LAM_P (d.gen p).bus - E0 / d.base - s.MU_PMAX p + s.MU_PMIN p)| ≤
      (o.gradtol * (1 + s.dual) + 1 / 10 ^ 5 * (2 * (2 + A0))) / o.costMult / d.base := by
    refine le_trans (le_of_eq (congrArg _ ?_)) hpr
    ring
  obtain ⟨c1, c2, -⟩ := C84_dc d _ m hm g hb _ _ _ o solve x0 s hs hc hft hok
  obtain ⟨sg, -⟩ := C78_signs d _ m hm g hb _ _ _ o solve x0 s hs hc
  obtain ⟨-, -, -, hPG⟩ := C77_extra d _ m hm g _ _ _ o solve x0 s hs hok
  have hPG' : ∀ p, s.PG p = d.base * s.x (nb + p) := by
    intro p
    rw [hPG, (dc_starts d _).2.1, mul_comm]
  have hw := dc_width hm g
  have hplt := p.isLt
  have hval : ∀ t, rowVal (gc0 p) t = (rowPoly (pwl1Row (gc0 p))).eval t := by
    intro t
    rw [← pwl1_val _ (costOK_wf (hgc p))]
    simp [rowVal, hp]
  refine profit_of_price (rowVal (gc0 p)) _ _ _ _ _ _ _ _ _ _ ?_ hpr (sg p).2 (sg p).1 (c1 p) (c2 p) h1 h2
  set y : ℕ → ℝ := Function.update s.x (nb + p) (P / d.base) with hydef
  have hne : ∀ j, j ≠ nb + p → y j = s.x j := fun j hj => by rw [hydef, Function.update_of_ne hj]
  have hsame : y (nb + p) = P / d.base := by rw [hydef, Function.update_self]
  have hch := change d gc0 hgc lin post hlin m hm g u hu D hD s.x y (fun a j hj => by
    refine hN a j ?_
    by_contra h
    exact hj (hne j h).symm)
  have hsum : ∑ j : Fin m.var.total, marginal (HH D) (CC D) s.x j * (y j - s.x j) = marginal (HH D) (CC D) s.x (nb + p) * (P / d.base - s.x (nb + p)) := by
    rw [Finset.sum_eq_single ⟨nb + p, by omega⟩]
    · rw [hsame]
    · intro j _ hj
      rw [hne j (fun h => hj (Fin.ext h)), sub_self, mul_zero]
    · intro h; exact absurd (Finset.mem_univ _) h
  have hpw : ∑ p with (pwl1Row (gc0 p)).model = 1, y (nb + ng + pwlPos (fun p => pwl1Row (gc0 p)) p) =
      ∑ p with (pwl1Row (gc0 p)).model = 1, s.x (nb + ng + pwlPos (fun p => pwl1Row (gc0 p)) p) :=
    Finset.sum_congr rfl fun p' _ => hne _ (by omega)
  have hpo : ∑ q : {p : Fin ng // (pwl1Row (gc0 p)).model = 2}, (rowPoly (pwl1Row (gc0 q))).eval (d.base * y (nb + q.1)) -
      ∑ q : {p : Fin ng // (pwl1Row (gc0 p)).model = 2}, (rowPoly (pwl1Row (gc0 q))).eval (d.base * s.x (nb + q.1)) =
        (rowPoly (pwl1Row (gc0 p))).eval P - (rowPoly (pwl1Row (gc0 p))).eval (d.base * s.x (nb + p)) := by
    rw [← Finset.sum_sub_distrib, Finset.sum_eq_single ⟨p, hp⟩]
    · rw [hsame, mul_div_cancel₀ _ hb.ne']
    · intro q _ hq
      rw [hne _ (fun h => hq (Subtype.ext (Fin.ext (show (q.1 : ℕ) = p by omega)))), sub_self]
    · intro h; exact absurd (Finset.mem_univ _) h
  rw [hsum, hpw] at hch
  rw [hval, hval, hPG']
  have hfin : marginal (HH D) (CC D) s.x (nb + p) / d.base * (P - d.base * s.x (nb + p)) = marginal (HH D) (CC D) s.x (nb + p) * (P / d.base - s.x (nb + p)) := by
    field_simp
  rw [hfin]
  linarith

/-- **C85 (DC, polynomial costs).**  On success, paid the reported price `LAM_P` at its bus, no generator with a linear or quadratic cost earns more with another output within
its limits (up to the tolerances), unless further constraints or user costs involve its output. -/
theorem C85_polynomial (p : Fin ng) (hp : (pwl1Row (gc0 p)).model = 2) (hN : ∀ a (j : Fin m.var.total), (j : ℕ) = nb + p → u.N a j = 0)
    (hfree : Untouched (varBlocks (dcOps d ++ (lin ++ (pwlOps d.base (fun p => pwl1Row (gc0 p)) ++ post)))) (linBlks (lin ++ post)) (nb + p))
    (P : ℝ) (h1 : d.pmin p ≤ P) (h2 : P ≤ d.pmax p) :
    rowVal (gc0 p) (s.PG p) - s.LAM_P (d.gen p).bus * s.PG p ≤ rowVal (gc0 p) P - s.LAM_P (d.gen p).bus * P +
      (o.gradtol * (1 + s.dual) + 1 / 10 ^ 5 * 4) / o.costMult / d.base * |P - s.PG p| +
        2 * compGap o ‖fun i : Fin m.var.total => s.x i‖ s.dual s.tol := by
  have h := polynomial_gen d gc0 hgc hb lin post hlin m hm g u hu o solve x0 hc hft D hD s hs hok p hp hN 0 0
    (overRows_untouched _ (fun y => zero_mul y) _ _ _ _ _ hfree).symm (overRows_untouched _ (fun y => abs_zero) _ _ _ _ _ hfree).symm P h1 h2
  simp only [zero_div, add_zero, sub_zero] at h
  rw [show (2 : ℝ) * 2 = 4 by norm_num] at h
  exact h

/-- The same for a generator with a convex piecewise linear cost. -/
theorem piecewise_gen (p : Fin ng) (hp : (pwl1Row (gc0 p)).model = 1)
    (hN : ∀ a (j : Fin m.var.total), (j : ℕ) = nb + p ∨ (j : ℕ) = nb + ng + pwlPos (fun p => pwl1Row (gc0 p)) p → u.N a j = 0)
    (E0 : ℝ) (hE0 : E0 = overRows (fun a y => a * y) (varBlocks (dcOps d ++ (lin ++ (pwlOps d.base (fun p => pwl1Row (gc0 p)) ++ post))))
        (linBlocks (dcOps d ++ (lin ++ (pwlOps d.base (fun p => pwl1Row (gc0 p)) ++ post)))) (linBlks (lin ++ post)) (nb + p) fun k => s.mu_u k - s.mu_l k)
    (hfree' : Untouched (varBlocks (dcOps d ++ (lin ++ (pwlOps d.base (fun p => pwl1Row (gc0 p)) ++ post)))) (linBlks (lin ++ post))
      (nb + ng + pwlPos (fun p => pwl1Row (gc0 p)) p))
    (hbig : ∀ r ∈ ayRows d.base (fun p => pwl1Row (gc0 p)), r.rhs < 10 ^ 10)
    (P : ℝ) (h1 : d.pmin p ≤ P) (h2 : P ≤ d.pmax p) :
    rowVal (gc0 p) (s.PG p) - (s.LAM_P (d.gen p).bus - E0 / d.base) * s.PG p ≤ rowVal (gc0 p) P - (s.LAM_P (d.gen p).bus - E0 / d.base) * P +
      (o.gradtol * (1 + s.dual) + 1 / 10 ^ 5 * (2 * (2 + extraAbs d (lin ++ (pwlOps d.base (fun p => pwl1Row (gc0 p)) ++ post)) (nb + p)))) /
        o.costMult / d.base * |P - s.PG p| +
      (o.gradtol * (1 + s.dual) + 1 / 10 ^ 5 * (2 * (1 + extraAbs d (lin ++ (pwlOps d.base (fun p => pwl1Row (gc0 p)) ++ post))
        (nb + ng + pwlPos (fun p => pwl1Row (gc0 p)) p)))) / o.costMult * |rowVal (gc0 p) P - s.x (nb + ng + pwlPos (fun p => pwl1Row (gc0 p)) p)| +
      ((gc0 p).ncost + 1) * compGap o ‖fun i : Fin m.var.total => s.x i‖ s.dual s.tol + s.tol := by
  have hgc' : ∀ p, CostOK ((fun p => pwl1Row (gc0 p)) p) := fun p => costOK_pwl1 (hgc p)
  have hrow : ∀ p, (pwl1Row (gc0 p)).model = 1 → PwlRow (pwl1Row (gc0 p)) ∧ ConvexRow (pwl1Row (gc0 p)) := fun p hp => by
    rcases costOK_cases (hgc' p) with h | h
    · exact h.2
    · exact absurd h.1 (by simp only [hp]; omega)
  have hpos := pwlPos_lt (fun p => pwl1Row (gc0 p)) p hp
  have hyw := y_width d gc0 lin post hlin m hm g
  have hplt := p.isLt
  have hy0 : nyOf (fun p => pwl1Row (gc0 p)) ≠ 0 := by omega
  have hval : ∀ t, rowVal (gc0 p) t = pwlCost (pwl1Row (gc0 p)) t := by
    intro t
    rw [← pwl1_val _ (costOK_wf (hgc p))]
    simp [rowVal, hp]
  have hnc : (pwl1Row (gc0 p)).ncost = (gc0 p).ncost := by
    unfold pwl1Row
    split_ifs with hc'
    · split
      · exact hc'.2.symm
      · rfl
    · rfl
  have hpr := C78_generator_price d _ m hm g hb _ _ _ o solve x0 s hs hc hok p
  have hpy := helper_price d gc0 lin post m hm g o solve x0 hc D s hs hok hlin _ hpos
  obtain ⟨c1, c2, -⟩ := C84_dc d _ m hm g hb _ _ _ o solve x0 s hs hc hft hok
  obtain ⟨sg, -⟩ := C78_signs d _ m hm g hb _ _ _ o solve x0 s hs hc
  obtain ⟨-, hrows, -, hPG⟩ := C77_extra d _ m hm g _ _ _ o solve x0 s hs hok
  have hPG' : s.PG p = d.base * s.x (nb + p) := by rw [hPG, (dc_starts d _).2.1, mul_comm]
  have hmem : ("ycon", (⟨ayMat (ng + nyOf (fun p => pwl1Row (gc0 p))) (ayRows d.base (fun p => pwl1Row (gc0 p))), [],
      (ayRows d.base (fun p => pwl1Row (gc0 p))).map fun r => ((r.rhs : ℝ) : EReal), ["Pg", "y"]⟩ : LinBlk)) ∈
      linBlks (lin ++ (pwlOps d.base (fun p => pwl1Row (gc0 p)) ++ post)) := by
    have e : ∀ a b : List Op, linBlks (a ++ b) = linBlks a ++ linBlks b := fun a b => by simp [linBlks]
    rw [e, e, pwlOps_linBlks _ _ hy0]
    simp
  have hcomp := C84_dc_extra d _ m hm g _ _ _ o solve x0 s hs hc hft hok _ hmem
  -- the helper variable is at least the cost
  have hcost : pwlCost (pwl1Row (gc0 p)) (s.PG p) ≤ s.x (nb + ng + pwlPos (fun p => pwl1Row (gc0 p)) p) + s.tol := by
    obtain ⟨f1, f2⟩ := subvec_PgY d (fun p => pwl1Row (gc0 p)) lin post hlin hy0 s.x
    have key := (ay_rows d.base hb (fun p => pwl1Row (gc0 p)) hrow
      (subvec (varBlocks (dcOps d ++ (lin ++ (pwlOps d.base (fun p => pwl1Row (gc0 p)) ++ post)))) s.x (eff (varBlocks (dcOps d ++ (lin ++ (pwlOps d.base (fun p => pwl1Row (gc0 p)) ++ post)))) ["Pg", "y"])) s.tol).1 ?_ p hp
    · rw [f1, f2 _ hpos] at key
      rw [hPG']
      exact key
    · intro i r hi
      have hw := hrows _ hmem i (List.getElem?_eq_some_iff.1 hi).1
      rw [ycon_hi _ _ _ _ _ _ hi] at hw
      exact (within_upper hw (hbig r (List.mem_of_getElem? hi))).le
  set pos := pwlPos (fun p => pwl1Row (gc0 p)) p with hposdef
  -- the changed point
  set y : ℕ → ℝ := Function.update (Function.update s.x (nb + p) (P / d.base)) (nb + ng + pos) (rowVal (gc0 p) P) with hydef
  have hne : ∀ j, j ≠ nb + p → j ≠ nb + ng + pos → y j = s.x j := fun j hj hj' => by
    rw [hydef, Function.update_of_ne hj', Function.update_of_ne hj]
  have hs1 : y (nb + p) = P / d.base := by rw [hydef, Function.update_of_ne (by omega), Function.update_self]
  have hs2 : y (nb + ng + pos) = rowVal (gc0 p) P := by rw [hydef, Function.update_self]
  have hch := change d gc0 hgc lin post hlin m hm g u hu D hD s.x y (fun a j hj => by
    refine hN a j ?_
    by_contra h
    rw [not_or] at h
    exact hj (hne j h.1 h.2).symm)
  have hsum : ∑ j : Fin m.var.total, marginal (HH D) (CC D) s.x j * (y j - s.x j) = marginal (HH D) (CC D) s.x (nb + p) * (P / d.base - s.x (nb + p)) +
      marginal (HH D) (CC D) s.x (nb + ng + pos) * (rowVal (gc0 p) P - s.x (nb + ng + pos)) := by
    rw [Finset.sum_eq_add ⟨nb + p, by omega⟩ ⟨nb + ng + pos, by omega⟩ (fun h => by have := congrArg Fin.val h; simp only at this; omega)]
    · simp only [hs1, hs2]
    · intro j _ hj
      rw [hne j (fun h => hj.1 (Fin.ext h)) (fun h => hj.2 (Fin.ext h)), sub_self, mul_zero]
    · intro h; exact absurd (Finset.mem_univ _) h
    · intro h; exact absurd (Finset.mem_univ _) h
  have hinj : ∀ p', (pwl1Row (gc0 p')).model = 1 → pwlPos (fun p => pwl1Row (gc0 p)) p' = pos → p' = p := by
    intro p' h' e
    have a := ipwl_at (fun p => pwl1Row (gc0 p)) p' h'
    have b := ipwl_at (fun p => pwl1Row (gc0 p)) p hp
    rw [e, hposdef, b] at a
    exact (Option.some.inj a).symm
  have hpw : ∑ p with (pwl1Row (gc0 p)).model = 1, y (nb + ng + pwlPos (fun p => pwl1Row (gc0 p)) p) -
      ∑ p with (pwl1Row (gc0 p)).model = 1, s.x (nb + ng + pwlPos (fun p => pwl1Row (gc0 p)) p) = rowVal (gc0 p) P - s.x (nb + ng + pos) := by
    rw [← Finset.sum_sub_distrib, Finset.sum_eq_single p]
    · rw [← hposdef, hs2]
    · intro p' h' hp'
      rw [hne _ (by omega) (fun h => hp' (hinj p' (Finset.mem_filter.1 h').2 (by omega))), sub_self]
    · intro h; exact absurd (by simp [hp]) h
  have hpo : ∑ q : {p : Fin ng // (pwl1Row (gc0 p)).model = 2}, (rowPoly (pwl1Row (gc0 q))).eval (d.base * y (nb + q.1)) =
      ∑ q : {p : Fin ng // (pwl1Row (gc0 p)).model = 2}, (rowPoly (pwl1Row (gc0 q))).eval (d.base * s.x (nb + q.1)) := by
    refine Finset.sum_congr rfl fun q _ => ?_
    rw [hne _ (fun h => ?_) (by have := q.1.isLt; omega)]
    have := q.2
    rw [Fin.ext (show (q.1 : ℕ) = p by omega), hp] at this
    omega
  rw [hsum] at hch
  -- the rows of the generator
  have hterm : ∀ j y, overRows (fun a y => a * y) (varBlocks (dcOps d ++ (lin ++ (pwlOps d.base (fun p => pwl1Row (gc0 p)) ++ post))))
        (linBlocks (dcOps d ++ (lin ++ (pwlOps d.base (fun p => pwl1Row (gc0 p)) ++ post)))) (linBlks (lin ++ (pwlOps d.base (fun p => pwl1Row (gc0 p)) ++ post))) j y =
      overRows (fun a y => a * y) (varBlocks (dcOps d ++ (lin ++ (pwlOps d.base (fun p => pwl1Row (gc0 p)) ++ post))))
        (linBlocks (dcOps d ++ (lin ++ (pwlOps d.base (fun p => pwl1Row (gc0 p)) ++ post)))) (linBlks (lin ++ post)) j y +
      ∑ i : Fin (ayRows d.base fun p => pwl1Row (gc0 p)).length,
        (((ayRows d.base fun p => pwl1Row (gc0 p))[i].slope * (Pi.single j 1 : ℕ → ℝ) (nb + (ayRows d.base fun p => pwl1Row (gc0 p))[i].col) -
          (Pi.single j 1 : ℕ → ℝ) (nb + (ayRows d.base fun p => pwl1Row (gc0 p))[i].ycol))) *
            y (start (linBlocks (dcOps d ++ (lin ++ (pwlOps d.base (fun p => pwl1Row (gc0 p)) ++ post)))) "ycon" + i) := by
    intro j y
    rw [extra_rows_split, pwlOps_linBlks _ _ hy0]
    congr 1
    unfold overRows
    rw [List.map_singleton, List.sum_singleton]
    show ∑ i ∈ Finset.range (ayRows d.base fun p => pwl1Row (gc0 p)).length, _ = _
    rw [Finset.sum_range]
    refine Finset.sum_congr rfl fun i _ => ?_
    unfold coef
    rw [ycon_dot d (fun p => pwl1Row (gc0 p)) lin post hlin i _ (List.getElem?_eq_getElem i.isLt)]
    rfl
  have hE1 := hterm (nb + p) (fun k => s.mu_u k - s.mu_l k)
  have hE2 := hterm (nb + ng + pos) (fun k => s.mu_u k - s.mu_l k)
  rw [overRows_untouched _ (fun y => zero_mul y) _ _ _ _ _ hfree', zero_add] at hE2
  rw [← hE0] at hE1
  rw [extraTerm, hE1] at hpr
  rw [extraTerm, hE2] at hpy
  have hcount := ay_count d.base (fun p => pwl1Row (gc0 p)) p (hrow p hp).1
  have hmu := fun i hi => ycon_mu d gc0 lin post m hm g o solve x0 hc D s hs i hi hy0
  -- a point at which all these constraints hold, with the changed output and helper variable
  have hhold : ∀ (i : ℕ) (r : AyRow ℝ), (ayRows d.base fun p => pwl1Row (gc0 p))[i]? = some r → r.col = (p : ℕ) →
      r.slope * (P / d.base) - rowVal (gc0 p) P ≤ r.rhs := by
    intro i r hi hrc
    set M := ∑ p' : Fin ng, |pwlCost (pwl1Row (gc0 p')) (d.base * y (nb + p'))| with hM
    let w : ℕ → ℝ := fun j => if j < nb + ng ∨ j = nb + ng + pos then y j else M
    have hw := pwl_holds d (fun p => pwl1Row (gc0 p)) hgc' hb lin post hlin w (by
      intro p' hp'
      have e1 : w (nb + p') = y (nb + p') := if_pos (Or.inl (by have := p'.isLt; omega))
      rw [e1]
      by_cases hpp : p' = p
      · subst hpp
        have e2 : w (nb + ng + pwlPos (fun p => pwl1Row (gc0 p)) p') = y (nb + ng + pos) := if_pos (Or.inr rfl)
        rw [e2, hs1, hs2, hval, mul_div_cancel₀ _ hb.ne']
      · have e2 : w (nb + ng + pwlPos (fun p => pwl1Row (gc0 p)) p') = M := if_neg (by
          rintro (h | h)
          · omega
          · exact hpp (hinj p' hp' (by omega)))
        rw [e2]
        exact (le_abs_self _).trans (Finset.single_le_sum (f := fun p' : Fin ng => |pwlCost (pwl1Row (gc0 p')) (d.base * y (nb + p'))|)
          (fun _ _ => abs_nonneg _) (Finset.mem_univ p')))
    have := (hw.rows _ (by rw [pwlOps_linBlks _ _ hy0]; exact List.mem_cons_self) i (List.getElem?_eq_some_iff.1 hi).1).2
    rw [ycon_hi _ _ _ _ _ _ hi, ycon_dot d (fun p => pwl1Row (gc0 p)) lin post hlin i r hi, EReal.coe_le_coe_iff] at this
    obtain ⟨p', q1, q2, q3⟩ := ay_owner d.base _ r (List.mem_of_getElem? hi)
    have hpp : p' = p := Fin.ext (by omega)
    subst hpp
    have e1 : w (nb + r.col) = P / d.base := by rw [hrc, ← hs1]; exact if_pos (Or.inl (by omega))
    have e2 : w (nb + r.ycol) = rowVal (gc0 p') P := by rw [q3, ← hs2, ← add_assoc]; exact if_pos (Or.inr rfl)
    rwa [e1, e2] at this
  have hrowsum : (∑ i : Fin (ayRows d.base fun p => pwl1Row (gc0 p)).length,
        (((ayRows d.base fun p => pwl1Row (gc0 p))[i].slope * (Pi.single (nb + (p : ℕ)) 1 : ℕ → ℝ) (nb + (ayRows d.base fun p => pwl1Row (gc0 p))[i].col) -
          (Pi.single (nb + (p : ℕ)) 1 : ℕ → ℝ) (nb + (ayRows d.base fun p => pwl1Row (gc0 p))[i].ycol))) *
            (s.mu_u (start (linBlocks (dcOps d ++ (lin ++ (pwlOps d.base (fun p => pwl1Row (gc0 p)) ++ post)))) "ycon" + i) -
              s.mu_l (start (linBlocks (dcOps d ++ (lin ++ (pwlOps d.base (fun p => pwl1Row (gc0 p)) ++ post)))) "ycon" + i))) * (P / d.base - s.x (nb + p)) +
      (∑ i : Fin (ayRows d.base fun p => pwl1Row (gc0 p)).length,
        (((ayRows d.base fun p => pwl1Row (gc0 p))[i].slope * (Pi.single (nb + ng + pos) 1 : ℕ → ℝ) (nb + (ayRows d.base fun p => pwl1Row (gc0 p))[i].col) -
          (Pi.single (nb + ng + pos) 1 : ℕ → ℝ) (nb + (ayRows d.base fun p => pwl1Row (gc0 p))[i].ycol))) *
            (s.mu_u (start (linBlocks (dcOps d ++ (lin ++ (pwlOps d.base (fun p => pwl1Row (gc0 p)) ++ post)))) "ycon" + i) -
              s.mu_l (start (linBlocks (dcOps d ++ (lin ++ (pwlOps d.base (fun p => pwl1Row (gc0 p)) ++ post)))) "ycon" + i))) *
                (rowVal (gc0 p) P - s.x (nb + ng + pos)) ≤
      ((gc0 p).ncost - 1) * compGap o ‖fun i : Fin m.var.total => s.x i‖ s.dual s.tol := by
    have hn1 : ((gc0 p).ncost - 1 : ℝ) = ((ayRows d.base fun p => pwl1Row (gc0 p)).countP (fun r => r.col = (p : ℕ)) : ℕ) := by
      rw [hcount, hnc]
      have := (hrow p hp).1.two
      rw [hnc] at this
      rw [Nat.cast_sub (by omega)]
      simp
    rw [hn1, ← sum_countP, Finset.sum_mul, Finset.sum_mul, ← Finset.sum_add_distrib]
    refine Finset.sum_le_sum fun i _ => ?_
    have hi := List.getElem?_eq_getElem i.isLt
    obtain ⟨m1, m2⟩ := hmu i i.isLt
    have hcm := (hcomp i i.isLt).1 _ (ycon_hi _ _ _ _ _ _ hi)
    rw [ycon_dot d (fun p => pwl1Row (gc0 p)) lin post hlin i _ hi] at hcm
    obtain ⟨p', q1, q2, q3⟩ := ay_owner d.base _ _ (List.mem_of_getElem? hi)
    simp only [Fin.getElem_fin, m2, sub_zero] at hcm ⊢
    set r := (ayRows d.base fun p => pwl1Row (gc0 p))[(i : ℕ)] with hrdef
    have hp'lt := p'.isLt
    by_cases hpp : p' = p
    · subst hpp
      rw [if_pos q2, q2, q3, ← add_assoc, Pi.single_eq_same, ← hposdef, Pi.single_eq_same, Pi.single_eq_of_ne (by omega), Pi.single_eq_of_ne (by omega)]
      have hh := mul_le_mul_of_nonneg_left (hhold i r hi q2) m1
      rw [q2, q3, ← add_assoc, ← hposdef] at hcm
      nlinarith
    · rw [if_neg (fun h => hpp (Fin.ext (by omega))), Pi.single_eq_of_ne (fun h => hpp (Fin.ext (by omega))), Pi.single_eq_of_ne (by omega),
        Pi.single_eq_of_ne (by omega), Pi.single_eq_of_ne (fun h => hpp (hinj p' q1 (by omega)))]
      simp
  have hdelta : P / d.base - s.x (nb + p) = (P - s.PG p) / d.base := by rw [hPG']; field_simp
  rw [hdelta] at hrowsum hch
  have hgain : rowVal (gc0 p) (s.PG p) ≤ s.x (nb + ng + pos) + s.tol := by rw [hval]; exact hcost
  rw [hpo] at hch
  rw [add_div, ← add_assoc, show ∀ a b c e f : ℝ, a - (b - c + e) + f = a - (b - f - c + e) from fun a b c e f => by ring] at hpr
  exact profit_of_prices (base := d.base) _ _ _ _ _ _ _ _ _ _ _ _ _ _ _ _ _ _ _ hpr hpy (by linarith) hrowsum hgain (sg p).2 (sg p).1 (c1 p) (c2 p) h1 h2

/-- **C85 (DC, piecewise linear costs).**  The same for a generator with a convex piecewise linear cost. -/
theorem C85_piecewise (p : Fin ng) (hp : (pwl1Row (gc0 p)).model = 1)
    (hN : ∀ a (j : Fin m.var.total), (j : ℕ) = nb + p ∨ (j : ℕ) = nb + ng + pwlPos (fun p => pwl1Row (gc0 p)) p → u.N a j = 0)
    (hfree : Untouched (varBlocks (dcOps d ++ (lin ++ (pwlOps d.base (fun p => pwl1Row (gc0 p)) ++ post)))) (linBlks (lin ++ post)) (nb + p))
    (hfree' : Untouched (varBlocks (dcOps d ++ (lin ++ (pwlOps d.base (fun p => pwl1Row (gc0 p)) ++ post)))) (linBlks (lin ++ post))
      (nb + ng + pwlPos (fun p => pwl1Row (gc0 p)) p))
    (hbig : ∀ r ∈ ayRows d.base (fun p => pwl1Row (gc0 p)), r.rhs < 10 ^ 10)
    (P : ℝ) (h1 : d.pmin p ≤ P) (h2 : P ≤ d.pmax p) :
    rowVal (gc0 p) (s.PG p) - s.LAM_P (d.gen p).bus * s.PG p ≤ rowVal (gc0 p) P - s.LAM_P (d.gen p).bus * P +
      (o.gradtol * (1 + s.dual) + 1 / 10 ^ 5 * (2 * (2 + extraAbs d (lin ++ (pwlOps d.base (fun p => pwl1Row (gc0 p)) ++ post)) (nb + p)))) /
        o.costMult / d.base * |P - s.PG p| +
      (o.gradtol * (1 + s.dual) + 1 / 10 ^ 5 * (2 * (1 + extraAbs d (lin ++ (pwlOps d.base (fun p => pwl1Row (gc0 p)) ++ post))
        (nb + ng + pwlPos (fun p => pwl1Row (gc0 p)) p)))) / o.costMult * |rowVal (gc0 p) P - s.x (nb + ng + pwlPos (fun p => pwl1Row (gc0 p)) p)| +
      ((gc0 p).ncost + 1) * compGap o ‖fun i : Fin m.var.total => s.x i‖ s.dual s.tol + s.tol := by
  have h := piecewise_gen d gc0 hgc hb lin post hlin m hm g u hu o solve x0 hc hft D hD s hs hok p hp hN 0
    (overRows_untouched _ (fun y => zero_mul y) _ _ _ _ _ hfree).symm hfree' hbig P h1 h2
  simp only [zero_div, sub_zero] at h
  exact h

end

/-! ### Non-vacuity -/

/-- The generator of the example has a convex cost, and no further constraint involves it. -/
example : (exCost.row 0).model = 2 ∧ ConvexOn ℝ Set.univ (fun P => (rowPoly (exCost.row 0)).eval P) ∧ exCost.gencost.length = 1 ∧ exCost.user = false ∧
    2 * 2 + 2 * 1 ≤ exCost.iy ∧ Untouched (varBlocks (acOps exCase ++ [])) (linBlks []) (2 * 2 + 0) ∧ exCase.pmin 0 ≤ 50 ∧ (50 : ℝ) ≤ exCase.pmax 0 ∧
    ∀ l, 0 ≤ exCase.rateA l := by
  refine ⟨rfl, ?_, rfl, rfl, by simp [exCost], fun b hb => by simp [linBlks] at hb, by norm_num [exCase], by norm_num [exCase], fun l => by norm_num [exCase]⟩
  have e : (fun P : ℝ => (rowPoly (exCost.row 0)).eval P) = fun P => P ^ 2 + (2 * P + 3) := by
    funext P
    simp [rowPoly, exCost, AcData.row, Finset.sum_range_succ]
    ring
  rw [e]
  refine ⟨convex_univ, fun x _ y _ a b ha hb' hab => ?_⟩
  simp only [smul_eq_mul]
  obtain rfl : b = 1 - a := by linarith
  nlinarith [mul_nonneg (mul_nonneg ha hb') (sq_nonneg (x - y))]

/-- A successful DC run with a piecewise linear and one with a quadratic cost, with neither user costs nor further constraints. -/
example (gc0 : Fin 1 → CostRow ℝ) (hgc : ∀ p, CostOK (gc0 p)) :
    ∃ (m : Model) (hm : OpfModel.run (dcOps exCase ++ ([] ++ (pwlOps exCase.base (fun p => pwl1Row (gc0 p)) ++ []))) = some m)
    (g : Good (dcOps exCase ++ ([] ++ (pwlOps exCase.base (fun p => pwl1Row (gc0 p)) ++ [])))) (o : Opt) (s : DcRes 2 1 1)
    (D : DcData (Fin m.var.total) {p : Fin 1 // (pwl1Row (gc0 p)).model = 2} (Fin 0)),
    D = dcData exCase.base (fun p => pwl1Row (gc0 p)) (exUser _) 2 (2 + 1) (dc_width hm g) ∧ (∀ p, CostOK (gc0 p)) ∧
    (exUser m.var.total).Convex ∧ 0 < o.costMult ∧ 0 ≤ o.feastol ∧ dcopfSolver exCase m (HH D) (CC D) (C0 D) o (fun _ _ _ _ => none) 0 = some s ∧
    s.success = true ∧ ∀ j, Untouched (varBlocks (dcOps exCase ++ ([] ++ (pwlOps exCase.base (fun p => pwl1Row (gc0 p)) ++ [])))) (linBlks ([] ++ [])) j := by
  obtain ⟨m, hm, g, hall⟩ := C83_completes exCase exCase_ok (fun p => pwl1Row (gc0 p))
  obtain ⟨q, hq, -, -, -, -, hok⟩ := linearOf_spec hm g
  obtain ⟨o, h1, h3, h2⟩ := exists_success (problem (qp (HH (dcData exCase.base (fun p => pwl1Row (gc0 p)) (exUser _) 2 (2 + 1) (dc_width hm g)))
    (CC (dcData exCase.base (fun p => pwl1Row (gc0 p)) (exUser _) 2 (2 + 1) (dc_width hm g)))) q) 0
  obtain ⟨s, hs⟩ := hall (Fin 0) (exUser _) o (fun _ _ _ _ => none) 0
  obtain ⟨q', r, hq', hr, e1, -⟩ := dc_ofSolver hm g hs
  rw [hq] at hq'; cases hq'
  refine ⟨m, hm, g, o, s, _, rfl, hgc, ⟨fun a => a.elim0, fun w => by simp⟩, h1, h3.le, hs, ?_, fun j b hb => by simp [linBlks] at hb⟩
  rw [e1, (ofFull hr).2.1]; exact h2 _

/-- Rows of both kinds: `exGc` (piecewise linear) and `0.02 P² + 5 P + 100`. -/
example : (pwl1Row (exGc 0)).model = 1 ∧ CostOK (⟨2, 3, [0.02, 5, 100]⟩ : CostRow ℝ) ∧ (pwl1Row (⟨2, 3, [0.02, 5, 100]⟩ : CostRow ℝ)).model = 2 := by
  refine ⟨by simp [pwl1Row, exGc], Or.inr ⟨⟨rfl, by simp, by simp⟩, Or.inr ⟨rfl, by norm_num⟩⟩, by simp [pwl1Row]⟩

end Verif.Opf
