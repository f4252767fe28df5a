import Verif.Opf.ResKkt

/-! # Reserves in the DC formulation: their cost, their marginal conditions, and those of the generators that provide them -/

open Matrix

namespace Verif.Opf

open Verif.OpfModel Verif.Pips Verif.Network Verif.Cost Verif.OpfCost

variable {nb ng nl n nz : ℕ}

/-- The parameters the cost block of the reserves leads to. -/
structure RParams (W : RData ng n nz) (iR t : ℕ) (P : Params) : Prop where
  nw : P.nw = n
  nx : P.nx = t
  N : ∀ i < n, ∀ j < t, P.N i j = if j = iR + i then 1 else 0
  Cw : ∀ k : Fin n, P.Cw k = W.cw k
  H : ∀ i < n, ∀ k < n, P.H i k = 0
  dd : ∀ i, P.dd i = 1
  rh : ∀ i, P.rh i = 0
  kk : ∀ i, P.kk i = 0
  mm : ∀ i, P.mm i = 1

section
variable (W : RData ng n nz) {iR nx : ℕ} {P : Params} (hP : RParams W iR nx P) (hw : iR + n ≤ nx)

include hP hw in
theorem RParams.dot (x : ℕ → ℝ) (k : Fin n) : ∑ j ∈ Finset.range nx, P.N k j * x j = x (iR + k) := by
  rw [Finset.sum_eq_single (iR + k)]
  · rw [hP.N k k.isLt _ (by have := k.isLt; omega), if_pos rfl, one_mul]
  · intro j hj hne
    rw [hP.N k k.isLt _ (Finset.mem_range.1 hj), if_neg hne, zero_mul]
  · intro h; exact absurd (Finset.mem_range.2 (by have := k.isLt; omega)) h

include hP in
theorem RParams.convex : (userOf P nx).Convex := by
  have z : ∀ a b : Fin P.nw, (userOf P nx).H a b = 0 := fun a b => hP.H a (hP.nw ▸ a.isLt) b (hP.nw ▸ b.isLt)
  exact ⟨fun a b => by rw [z, z], fun w => by simp [z]⟩

include hP in
theorem RParams.offset : (userOf P nx).offset = 0 := by
  unfold UserCost.offset
  refine Finset.sum_eq_zero fun a _ => ?_
  rw [show (userOf P nx).rh a = 0 from hP.rh a]
  ring

include hP hw in
/-- The user cost is the cost of the reserves. -/
theorem RParams.value (x : ℕ → ℝ) : (userOf P nx).value (fun i => x i) = ∑ k, W.cw k * x (iR + k) := by
  have z : ∀ a b : Fin P.nw, (userOf P nx).H a b = 0 := fun a b => hP.H a (hP.nw ▸ a.isLt) b (hP.nw ▸ b.isLt)
  have e : ∀ a : Fin P.nw, (userOf P nx).mm a * (∑ j, (userOf P nx).N a j * x j - (userOf P nx).rh a) = x (iR + a) := by
    intro a
    rw [show (userOf P nx).mm a = 1 from hP.mm a, show (userOf P nx).rh a = 0 from hP.rh a, one_mul, sub_zero]
    have := RParams.dot W hP hw x ⟨a, hP.nw ▸ a.isLt⟩
    rw [Finset.sum_range] at this
    exact this
  unfold UserCost.value
  simp only [e, z, mul_zero, zero_mul, Finset.sum_const_zero, zero_add]
  have h1 : ∑ a : Fin P.nw, (userOf P nx).Cw a * x (iR + a) = ∑ i ∈ Finset.range P.nw, P.Cw i * x (iR + i) := by rw [Finset.sum_range]; rfl
  rw [h1, hP.nw, Finset.sum_range]
  exact Finset.sum_congr rfl fun k _ => by rw [hP.Cw k]

include hP hw in
/-- `compute_cost` of the whole block. -/
theorem RParams.docF (x : ℕ → ℝ) : docF (costRows P 0 n) x = ∑ k, W.cw k * x (iR + k) := by
  have hd : ∀ k : Fin n, docW (costRows P 0 n) x k = x (iR + k) := by
    intro k
    have := RParams.dot W hP hw x k
    have h0 : ∀ j, (costRows P 0 n).N k j = P.N k j := fun j => by simp [costRows]
    have hR : docR (costRows P 0 n) x k = x (iR + k) := by
      unfold docR
      simp only [h0]
      rw [show (costRows P 0 n).nx = nx from hP.nx, this]
      simp [costRows, hP.rh]
    have hk : ∀ i, (costRows P 0 n).kk i = 0 := fun i => by simp [costRows, hP.kk]
    have hK : docK (costRows P 0 n) x k = 0 := by
      unfold docK
      simp [hk]
    unfold docW docRR
    rw [hR, hK, hk]
    simp only [costRows, zero_add, hP.dd, hP.mm, neg_zero, if_true, one_mul, add_zero]
    split_ifs with h
    · linarith [h.1, h.2]
    · rfl
  unfold OpfModel.docF
  have hn : (costRows P 0 n).nw = n := rfl
  rw [hn]
  have z : ∑ a ∈ Finset.range n, ∑ b ∈ Finset.range n, docW (costRows P 0 n) x a * (costRows P 0 n).H a b * docW (costRows P 0 n) x b = 0 := by
    refine Finset.sum_eq_zero fun a ha => Finset.sum_eq_zero fun b hb => ?_
    have : (costRows P 0 n).H a b = 0 := by
      simp only [costRows, zero_add]
      exact hP.H a (Finset.mem_range.1 ha) b (Finset.mem_range.1 hb)
    rw [this]; ring
  rw [z, mul_zero, zero_add, Finset.sum_range]
  refine Finset.sum_congr rfl fun k _ => ?_
  rw [hd k]
  simp only [costRows, zero_add, hP.Cw k]

end

section
variable (d : Case nb ng nl) (gc0 : Fin ng → CostRow ℝ) (lin : List Op) (hlin : varBlocks lin = []) (hcl : costBlks lin = []) (W : RData ng n nz)
  (m : Model) (hm : OpfModel.run (dcOps d ++ (lin ++ (pwlOps d.base (fun p => pwl1Row (gc0 p)) ++ W.ops))) = some m)
  (g : Good (dcOps d ++ (lin ++ (pwlOps d.base (fun p => pwl1Row (gc0 p)) ++ W.ops))))

include hcl in
theorem res_costBlks : costBlks (dcOps d ++ (lin ++ (pwlOps d.base (fun p => pwl1Row (gc0 p)) ++ W.ops))) = [("Rcost", W.cst)] := by
  have e1 : costBlks (dcOps d) = [] := by simp [dcOps, costBlks]
  have e2 : costBlks (pwlOps d.base (fun p => pwl1Row (gc0 p))) = [] := by unfold pwlOps; split_ifs <;> rfl
  rw [costBlks_append, costBlks_append, costBlks_append, e1, hcl, e2, W.costBlks_eq]
  rfl

include hlin hm g in
theorem res_total : m.var.total = nb + ng + (nyOf fun p => pwl1Row (gc0 p)) + n := by
  obtain ⟨-, -, ht, -⟩ := linearOf_spec hm g
  rw [ht, W.total d _ lin hlin]

include hlin hcl hm g in
theorem res_params : ∃ P, m.buildCostParams = some { m with params := some P } ∧ RParams W (nb + ng + nyOf fun p => pwl1Row (gc0 p)) m.var.total P := by
  have hcb := res_costBlks d gc0 lin hcl W
  have ht := res_total d gc0 lin hlin W m hm g
  obtain ⟨P, h1, h2, h3, h4, -, h6⟩ := C43_partial _ m hm g.varNames (by rw [hcb]; simp [names])
    (by
      rw [hcb]
      intro b hb
      rw [List.mem_singleton] at hb
      subst hb
      refine ⟨by simp [RData.cst], ?_⟩
      simp only [RData.cst, widthOf, eff, List.cons_ne_nil, if_false, List.map_cons, List.map_nil, List.sum_cons, List.sum_nil, add_zero]
      exact (W.start_R d _ lin hlin).2.symm) (by rw [hcb]; simp [names])
  rw [hcb] at h4
  have hs0 : start (costBlocks (dcOps d ++ (lin ++ (pwlOps d.base (fun p => pwl1Row (gc0 p)) ++ W.ops)))) "Rcost" = 0 := by
    unfold costBlocks; rw [hcb]; simp [start, total]
  have h4' := fun i (hi : i < n) => h4 ("Rcost", W.cst) (by simp) i hi
  simp only [hs0] at h4'
  refine ⟨P, h1, ⟨?_, ?_, ?_, ?_, ?_, fun i => (h6 i).1, fun i => (h6 i).2.1, fun i => (h6 i).2.2.1, fun i => (h6 i).2.2.2⟩⟩
  · rw [h2]; unfold costBlocks; rw [hcb]; simp [total, RData.cst]
  · rw [h3, W.total d _ lin hlin, ht]
  · intro i hi j hj
    have e := (h4' i hi).N (Pi.single j 1)
    rw [W.cst_row d _ lin hlin _ ⟨i, hi⟩, W.total d _ lin hlin, ← ht, zero_add, Finset.sum_eq_single j] at e
    · rw [Pi.single_eq_same, mul_one] at e
      rw [e]
      by_cases hji : j = nb + ng + (nyOf fun p => pwl1Row (gc0 p)) + i
      · rw [if_pos hji, ← hji, Pi.single_eq_same]
      · rw [if_neg hji, Pi.single_eq_of_ne (Ne.symm hji)]
    · intro k _ hk
      rw [Pi.single_eq_of_ne hk, mul_zero]
    · intro h; exact absurd (Finset.mem_range.2 hj) h
  · intro k
    have e := (h4' k k.isLt).Cw
    rw [zero_add] at e
    simp only [RData.cst, List.getElem?_ofFn, k.isLt, dif_pos, Fin.eta, Option.some.injEq] at e
    exact e.symm
  · intro i hi k hk
    have e := (h4' i hi).H k hk
    simpa [RData.cst] using e

include hlin hcl hm g in
/-- The cost of reserves `results` reports. -/
theorem res_computeCost (hn : 0 < n) {m' : Model} (hm' : m.buildCostParams = some m') (x : ℕ → ℝ) :
    ∃ mm, m'.computeCost x (some "Rcost") = some (∑ k, W.cw k * x (nb + ng + (nyOf fun p => pwl1Row (gc0 p)) + k), mm) := by
  obtain ⟨P, h1, hP⟩ := res_params d gc0 lin hlin hcl W m hm g
  rw [h1] at hm'; cases hm'
  have hcb := res_costBlks d gc0 lin hcl W
  have hbs : costBlocks (dcOps d ++ (lin ++ (pwlOps d.base (fun p => pwl1Row (gc0 p)) ++ W.ops))) = [("Rcost", n)] := by
    unfold costBlocks; rw [hcb]; rfl
  have hidx := (foldIdx_lookup [("Rcost", n)] (by simp [names])).1 "Rcost" (by simp [names])
  have hc : m.cost = foldIdx [("Rcost", n)] := by rw [(Rep.run hm).cost, hbs]
  rw [← hc] at hidx
  simp only [start, size, total] at hidx
  obtain ⟨mm, e⟩ := (C45_value { m with params := some P } P rfl (fun i _ => by rw [hP.kk]) x).2 "Rcost" 0 n (by simpa using hidx.2.2) (by simpa using hidx.1)
    (by simpa using hidx.2.1) hn (by rw [hP.nw]; omega)
  exact ⟨mm, by rw [e, RParams.docF W hP (by rw [res_total d gc0 lin hlin W m hm g]) x]⟩

end

section
variable (d : Case nb ng nl) (gc0 : Fin ng → CostRow ℝ) (hgc : ∀ p, CostOK (gc0 p)) (hb : 0 < d.base) (lin : List Op) (hlin : varBlocks lin = [])
  (hlv : ∀ b ∈ linBlks lin, b.2.vs = ["Va"]) (hla : ∀ b ∈ linBlks lin, b.2.A.cols = nb) (W : RData ng n nz)
  (m : Model) (hm : OpfModel.run (dcOps d ++ (lin ++ (pwlOps d.base (fun p => pwl1Row (gc0 p)) ++ W.ops))) = some m)
  (g : Good (dcOps d ++ (lin ++ (pwlOps d.base (fun p => pwl1Row (gc0 p)) ++ W.ops))))
  {P : Params} (hP : RParams W (nb + ng + nyOf fun p => pwl1Row (gc0 p)) m.var.total P)
  (o : Opt) (solve : AnySolver) (x0 : Fin m.var.total → ℝ) (hc : 0 < o.costMult) (hft : 0 ≤ o.feastol)
  (D : DcData (Fin m.var.total) {p : Fin ng // (pwl1Row (gc0 p)).model = 2} (Fin P.nw))
  (hD : D = dcData d.base (fun p => pwl1Row (gc0 p)) (userOf P m.var.total) nb (nb + ng) (dc_width hm g))
  (s : DcRes nb ng nl) (hs : dcopfSolver d m (HH D) (CC D) (C0 D) o solve x0 = some s) (hok : s.success = true)

local notation "rops" => dcOps d ++ (lin ++ (pwlOps d.base (fun p => pwl1Row (gc0 p)) ++ RData.ops W))
local notation "iR" => nb + ng + nyOf fun p => pwl1Row (gc0 p)
local notation "jP" => start (linBlocks rops) "Pg_plus_R"
local notation "jR" => start (linBlocks rops) "Rreq"

include hgc hlin hm g hP hD in
/-- The marginal cost of reserve is its cost. -/
theorem res_marginal (x : ℕ → ℝ) (k : Fin n) : marginal (HH D) (CC D) x (iR + k) = W.cw k := by
  have ht := res_total d gc0 lin hlin W m hm g
  have hk := k.isLt
  have key : ∀ t : ℝ, marginal (HH D) (CC D) x (iR + k) * t ≤ W.cw k * t := by
    intro t
    have h := change_user d gc0 hgc lin W.ops hlin m hm g (userOf P m.var.total) hP.convex D hD x (Function.update x (iR + k) (x (iR + k) + t))
    have hne : ∀ j, j ≠ iR + k → Function.update x (iR + k) (x (iR + k) + t) j = x j := fun j hj => Function.update_of_ne hj _ _
    have hsum : ∑ j : Fin m.var.total, marginal (HH D) (CC D) x j * (Function.update x (iR + k) (x (iR + k) + t) j - x j) =
        marginal (HH D) (CC D) x (iR + k) * t := by
      rw [Finset.sum_eq_single ⟨iR + k, by omega⟩]
      · rw [Function.update_self, add_sub_cancel_left]
      · intro j _ hj
        rw [hne j (fun h => hj (Fin.ext h)), sub_self, mul_zero]
      · intro h; exact absurd (Finset.mem_univ _) h
    have hpol : ∑ q : {p : Fin ng // (pwl1Row (gc0 p)).model = 2}, (rowPoly (pwl1Row (gc0 q))).eval (d.base * Function.update x (iR + k) (x (iR + k) + t) (nb + q.1)) =
        ∑ q : {p : Fin ng // (pwl1Row (gc0 p)).model = 2}, (rowPoly (pwl1Row (gc0 q))).eval (d.base * x (nb + q.1)) :=
      Finset.sum_congr rfl fun q _ => by rw [hne _ (by have := q.1.isLt; omega)]
    have hpw : ∑ p with (pwl1Row (gc0 p)).model = 1, Function.update x (iR + k) (x (iR + k) + t) (nb + ng + pwlPos (fun p => pwl1Row (gc0 p)) p) =
        ∑ p with (pwl1Row (gc0 p)).model = 1, x (nb + ng + pwlPos (fun p => pwl1Row (gc0 p)) p) :=
      Finset.sum_congr rfl fun p hp => hne _ (by have := pwlPos_lt (fun p => pwl1Row (gc0 p)) p (Finset.mem_filter.1 hp).2; omega)
    have hv : ∑ a, W.cw a * Function.update x (iR + k) (x (iR + k) + t) (iR + a) = ∑ a, W.cw a * x (iR + a) + W.cw k * t := by
      rw [← sub_eq_iff_eq_add', ← Finset.sum_sub_distrib, Finset.sum_eq_single k]
      · rw [Function.update_self]; ring
      · intro a _ ha
        rw [hne _ (fun h => ha (Fin.ext (by omega))), sub_self]
      · intro h; exact absurd (Finset.mem_univ _) h
    rw [hsum, hpol, hpw, RParams.value W hP (by omega), RParams.value W hP (by omega), hv] at h
    linarith
  linarith [key 1, key (-1)]

include hlin in
theorem res_coef_pgR (k : Fin n) (j : ℕ) : coef (varBlocks rops) W.pgR k j =
    (if j = nb + W.jp k then 1 else 0) + if j = iR + k then 1 else 0 := by
  unfold coef
  rw [W.pgR_row d _ lin hlin]
  simp only [Pi.single_apply, eq_comm]

include hlin in
theorem res_coef_req (z : Fin nz) (j : ℕ) : coef (varBlocks rops) W.req z j = ∑ k : Fin n, W.Z z k * if j = iR + k then 1 else 0 := by
  unfold coef
  rw [W.req_row d _ lin hlin]
  simp only [Pi.single_apply, eq_comm]

include hlv hla in
theorem res_lin_untouched (j : ℕ) (hj : nb ≤ j) : Untouched (varBlocks rops) (linBlks lin) j := by
  intro b hb' i hi
  unfold coef rowDot
  rw [hlv b hb', hla b hb']
  refine Finset.sum_eq_zero fun k hk => ?_
  have := subvec_Va d (lin ++ (pwlOps d.base (fun p => pwl1Row (gc0 p)) ++ W.ops)) (Pi.single j 1) ⟨k, Finset.mem_range.1 hk⟩
  rw [this, Pi.single_eq_of_ne (by have := Finset.mem_range.1 hk; simp only; omega), mul_zero]

include hlin in
theorem res_pwl_untouched (j : ℕ) (hj : iR ≤ j) : Untouched (varBlocks rops) (linBlks (pwlOps d.base (fun p => pwl1Row (gc0 p)))) j := by
  by_cases hy : nyOf (fun p => pwl1Row (gc0 p)) = 0
  · have : pwlOps d.base (fun p => pwl1Row (gc0 p)) = [] := by unfold pwlOps; rw [if_pos hy]
    rw [this]
    intro b hb'
    simp [linBlks] at hb'
  · rw [pwlOps_linBlks _ _ hy]
    intro b hb'
    rw [List.mem_singleton] at hb'
    subst hb'
    intro i (hi : i < (ayRows d.base fun p => pwl1Row (gc0 p)).length)
    have hr := List.getElem?_eq_getElem hi
    have := ycon_dot d (fun p => pwl1Row (gc0 p)) lin W.ops hlin i _ hr (Pi.single j 1)
    obtain ⟨p', q1, q2, q3⟩ := ay_owner d.base _ _ (List.mem_of_getElem? hr)
    have hpos := pwlPos_lt (fun p => pwl1Row (gc0 p)) p' q1
    have hp' := p'.isLt
    unfold coef
    rw [this, Pi.single_eq_of_ne (by omega), Pi.single_eq_of_ne (by omega)]
    ring

/-- Sums over the rows of the reserve constraints. -/
theorem res_overRows (F : ℝ → ℝ → ℝ) (vb lb : List (String × ℕ)) (j : ℕ) (y : ℕ → ℝ) : overRows F vb lb (linBlks W.ops) j y =
    ∑ k : Fin n, F (coef vb W.pgR k j) (y (start lb "Pg_plus_R" + k)) + ∑ z : Fin nz, F (coef vb W.req z j) (y (start lb "Rreq" + z)) := by
  rw [W.linBlks_eq]
  unfold overRows
  simp only [List.map_cons, List.map_nil, List.sum_cons, List.sum_nil, add_zero]
  exact congrArg₂ _ (Finset.sum_range fun i => F (coef vb W.pgR i j) (y (start lb "Pg_plus_R" + i)))
    (Finset.sum_range fun i => F (coef vb W.req i j) (y (start lb "Rreq" + i)))

theorem res_mem_pgR : ("Pg_plus_R", W.pgR) ∈ linBlks (lin ++ (pwlOps d.base (fun p => pwl1Row (gc0 p)) ++ W.ops)) := by
  rw [linBlks_append, linBlks_append, W.linBlks_eq]; simp

theorem res_mem_req : ("Rreq", W.req) ∈ linBlks (lin ++ (pwlOps d.base (fun p => pwl1Row (gc0 p)) ++ W.ops)) := by
  rw [linBlks_append, linBlks_append, W.linBlks_eq]; simp

theorem res_mem_R : ("R", W.vars) ∈ varVals (lin ++ (pwlOps d.base (fun p => pwl1Row (gc0 p)) ++ W.ops)) := by
  rw [varVals_append, varVals_append, W.varVals_eq]; simp

include hm g hs in
/-- `Pg_plus_R` has no lower, `Rreq` no upper bounds. -/
theorem res_absent : (∀ k : Fin n, s.mu_l (jP + k) = 0) ∧ ∀ z : Fin nz, s.mu_u (jR + z) = 0 :=
  ⟨fun k => (extra_absent hm g hs _ (res_mem_pgR d gc0 lin W) k k.isLt).1 (W.pgR_lo k),
    fun z => (extra_absent hm g hs _ (res_mem_req d gc0 lin W) z z.isLt).2 (W.req_hi z)⟩

include hgc hlin hlv hla hm g hP hc hD hs hok in
/-- **The price of reserve**: its cost is covered by the prices of the zones, less the shadow prices of its limits and of the capacity of the generator. -/
theorem reserve_price (k : Fin n) : |W.cw k + (s.upper (iR + k) - s.lower (iR + k)) + s.mu_u (jP + k) - ∑ z, W.Z z k * s.mu_l (jR + z)| ≤
    (o.gradtol * (1 + s.dual) + 1 / 10 ^ 5 * (2 * (2 + ∑ z, |W.Z z k|))) / o.costMult := by
  have ht := res_total d gc0 lin hlin W m hm g
  have hk := k.isLt
  have h := extra_price hm g hs hc hok (iR + k) (by omega) (by omega)
  rw [res_marginal d gc0 hgc lin hlin W m hm g hP D hD] at h
  have u1 := res_lin_untouched d gc0 lin hlv hla W (iR + k) (by omega)
  have u2 := res_pwl_untouched d gc0 lin hlin W (iR + k) (by omega)
  obtain ⟨a1, a2⟩ := res_absent d gc0 lin W m hm g o solve x0 D s hs
  have cP : ∀ i : Fin n, coef (varBlocks rops) W.pgR i (iR + k) = if i = k then 1 else 0 := by
    intro i
    rw [res_coef_pgR d gc0 lin hlin W, if_neg (by have := (W.jp i).isLt; omega), zero_add]
    by_cases hik : i = k
    · subst hik; simp
    · rw [if_neg hik, if_neg (fun h => hik (Fin.ext (by omega)))]
  have cR : ∀ z : Fin nz, coef (varBlocks rops) W.req z (iR + k) = W.Z z k := by
    intro z
    rw [res_coef_req d gc0 lin hlin W, Finset.sum_eq_single k]
    · rw [if_pos rfl, mul_one]
    · intro b _ hb'
      rw [if_neg (fun h => hb' (Fin.ext (by omega))), mul_zero]
    · intro h; exact absurd (Finset.mem_univ _) h
  have hT : extraTerm d (lin ++ (pwlOps d.base (fun p => pwl1Row (gc0 p)) ++ W.ops)) s (iR + k) = s.mu_u (jP + k) - ∑ z, W.Z z k * s.mu_l (jR + z) := by
    rw [extraTerm, linBlks_append, linBlks_append, overRows_append, overRows_append, overRows_untouched _ (fun y => zero_mul y) _ _ _ _ _ u1,
      overRows_untouched _ (fun y => zero_mul y) _ _ _ _ _ u2, res_overRows]
    simp only [cP, cR, a1, a2, zero_add, sub_zero, zero_sub, ite_mul, one_mul, zero_mul, Finset.sum_ite_eq', Finset.mem_univ, if_true, mul_neg, Finset.sum_neg_distrib]
    ring
  have hA : extraAbs d (lin ++ (pwlOps d.base (fun p => pwl1Row (gc0 p)) ++ W.ops)) (iR + k) = 1 + ∑ z, |W.Z z k| := by
    rw [extraAbs, linBlks_append, linBlks_append, overRows_append, overRows_append, overRows_untouched _ (fun y => abs_zero) _ _ _ _ _ u1,
      overRows_untouched _ (fun y => abs_zero) _ _ _ _ _ u2, res_overRows]
    simp only [cP, cR, zero_add]
    congr 1
    rw [Finset.sum_eq_single k]
    · simp
    · intro b _ hb'; simp [hb']
    · intro h; exact absurd (Finset.mem_univ _) h
  rw [hT, hA] at h
  refine le_trans (le_of_eq (congrArg _ (by ring))) (le_trans h (le_of_eq (by ring)))

include hlin hlv hla hm g hs in
/-- What the constraints besides those on helper variables contribute to the condition on the output of a generator. -/
theorem res_gen_term (p : Fin ng) : overRows (fun a y => a * y) (varBlocks rops) (linBlocks rops) (linBlks (lin ++ W.ops)) (nb + p) (fun k => s.mu_u k - s.mu_l k) =
    ∑ k with W.jp k = p, s.mu_u (jP + k) := by
  obtain ⟨a1, a2⟩ := res_absent d gc0 lin W m hm g o solve x0 D s hs
  have hp := p.isLt
  have cP : ∀ i : Fin n, coef (varBlocks rops) W.pgR i (nb + p) = if W.jp i = p then 1 else 0 := by
    intro i
    rw [res_coef_pgR d gc0 lin hlin W, if_neg (show ¬ nb + (p : ℕ) = iR + i by omega), add_zero]
    by_cases hik : W.jp i = p
    · rw [hik]; simp
    · rw [if_neg hik, if_neg (fun h => hik (Fin.ext (by omega)))]
  have cR : ∀ z : Fin nz, coef (varBlocks rops) W.req z (nb + p) = 0 := by
    intro z
    rw [res_coef_req d gc0 lin hlin W]
    exact Finset.sum_eq_zero fun k _ => by rw [if_neg (by omega), mul_zero]
  rw [linBlks_append, overRows_append, overRows_untouched _ (fun y => zero_mul y) _ _ _ _ _ (res_lin_untouched d gc0 lin hlv hla W (nb + p) (by omega)), res_overRows]
  simp only [cP, cR, a1, zero_add, sub_zero, ite_mul, one_mul, zero_mul, Finset.sum_const_zero, add_zero]
  rw [Finset.sum_filter]

include hlin hlv hla in
theorem res_gen_abs (p : Fin ng) : overRows (fun a _ => |a|) (varBlocks rops) (linBlocks rops) (linBlks (lin ++ W.ops)) (nb + p) 0 =
    (Finset.univ.filter fun k => W.jp k = p).card := by
  have hp := p.isLt
  have cP : ∀ i : Fin n, coef (varBlocks rops) W.pgR i (nb + p) = if W.jp i = p then 1 else 0 := by
    intro i
    rw [res_coef_pgR d gc0 lin hlin W, if_neg (show ¬ nb + (p : ℕ) = iR + i by omega), add_zero]
    by_cases hik : W.jp i = p
    · rw [hik]; simp
    · rw [if_neg hik, if_neg (fun h => hik (Fin.ext (by omega)))]
  have cR : ∀ z : Fin nz, coef (varBlocks rops) W.req z (nb + p) = 0 := by
    intro z
    rw [res_coef_req d gc0 lin hlin W]
    exact Finset.sum_eq_zero fun k _ => by rw [if_neg (by omega), mul_zero]
  rw [linBlks_append, overRows_append, overRows_untouched _ (fun y => abs_zero) _ _ _ _ _ (res_lin_untouched d gc0 lin hlv hla W (nb + p) (by omega)), res_overRows]
  simp only [cP, cR, zero_add, abs_zero, Finset.sum_const_zero, add_zero, abs_ite, abs_one]
  simp

end

end Verif.Opf
