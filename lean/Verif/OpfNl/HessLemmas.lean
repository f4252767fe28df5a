import Verif.OpfNl.Props

/-!
# Lemmas for the Hessian of the Lagrangian
-/

open Matrix ComplexConjugate

namespace Verif.OpfNl

open Verif.Derivs Verif.Network Verif.OpfCost Verif.Cost Verif.NumPy

noncomputable section

variable {nb ng nl : Nat}

section blocks
variable {d : Nl nb ng nl} (h : Layout d) (aa av va vv : Matrix (Fin nb) (Fin nb) ℝ)
include h

theorem blocks_aa (b c : Fin nb) : blocks aa av va vv (d.iVa + b) (d.iVa + c) = aa b c := by
  have := b.2; have := c.2; have := h.va; have := h.vm
  unfold blocks
  rw [dif_pos (by omega), dif_pos (by omega)]
  congr 1 <;> (ext; simp; omega)

theorem blocks_av (b c : Fin nb) : blocks aa av va vv (d.iVa + b) (d.iVm + c) = av b c := by
  have := b.2; have := c.2; have := h.va; have := h.vm
  unfold blocks
  rw [dif_pos (by omega), dif_neg (by omega), dif_pos (by omega)]
  congr 1 <;> (ext; simp; omega)

theorem blocks_va (b c : Fin nb) : blocks aa av va vv (d.iVm + b) (d.iVa + c) = va b c := by
  have := b.2; have := c.2; have := h.va; have := h.vm
  unfold blocks
  rw [dif_neg (by omega), dif_pos (by omega), dif_pos (by omega)]
  congr 1 <;> (ext; simp; omega)

theorem blocks_vv (b c : Fin nb) : blocks aa av va vv (d.iVm + b) (d.iVm + c) = vv b c := by
  have := b.2; have := c.2; have := h.va; have := h.vm
  unfold blocks
  rw [dif_neg (by omega), dif_pos (by omega), dif_neg (by omega), dif_pos (by omega)]
  congr 1 <;> (ext; simp; omega)

omit h in
theorem blocks_left {j : Nat} (k : Nat) (hj : 2 * nb ≤ j) : blocks aa av va vv j k = 0 := by
  unfold blocks
  rw [dif_neg (by omega), dif_neg (by omega)]

omit h in
theorem blocks_right (j : Nat) {k : Nat} (hk : 2 * nb ≤ k) : blocks aa av va vv j k = 0 := by
  unfold blocks
  split_ifs <;> first | omega | rfl

end blocks

theorem vkinds (d : Nl nb ng nl) (h : Layout d) (j : Nat) :
    (∃ b : Fin nb, j = d.iVa + b) ∨ (∃ b : Fin nb, j = d.iVm + b) ∨ 2 * nb ≤ j := by
  rcases h with ⟨h1, h2, h3, h4, -⟩
  by_cases c1 : j < nb
  · exact .inl ⟨⟨j, c1⟩, by simp [h1]⟩
  by_cases c2 : j < 2 * nb
  · exact .inr (.inl ⟨⟨j - nb, by omega⟩, by simp; omega⟩)
  · exact .inr (.inr (by omega))

theorem partial_const (c : ℝ) (x : Nat → ℝ) (k : Nat) : PartialX (fun _ => c) x k 0 := hasDerivAt_const _ _

/-- Derivatives of a function of the voltages that has the given partial derivatives. -/
theorem partial_volt {d : Nl nb ng nl} (h : Layout d) {F : (Fin nb → ℂ) → ℝ} {x : Nat → ℝ} {D : Nat → ℝ}
    (ha : ∀ b, PartialVa F (d.m x) (d.a x) b (D (d.iVa + b))) (hm : ∀ b, PartialVm F (d.m x) (d.a x) b (D (d.iVm + b))) (h0 : ∀ k, 2 * nb ≤ k → D k = 0)
    (k : Nat) : PartialX (fun y => F (d.V y)) x k (D k) := by
  rcases vkinds d h k with ⟨b, rfl⟩ | ⟨b, rfl⟩ | hk
  · exact partial_a h (ha b)
  · exact partial_m h (hm b)
  · rw [h0 k hk]; exact partial_other h F x hk

/-! ## Equality constraints -/

theorem wsum (lamP lamQ : Fin nb → ℝ) (z : Fin nb → ℂ) :
    ∑ i, lamP i * (z i).re + ∑ i, lamQ i * (z i).im = (∑ i, (lamP i : ℂ) * z i).re + (∑ i, (lamQ i : ℂ) * z i).im := by
  rw [Complex.re_sum, Complex.im_sum]
  simp

theorem bus_part (d : Nl nb ng nl) (hl : Layout d) (x : Nat → ℝ) (hm : ∀ b : Fin nb, 0 < x (d.iVm + b)) (lamP lamQ : Fin nb → ℝ) (j k : Nat) :
    PartialX (fun y => ∑ i, lamP i * d.dg y (.inl i) j + ∑ i, lamQ i * d.dg y (.inr i) j) x k (d.d2G x lamP lamQ j k) := by
  simp only [Nl.dg, Sum.elim_inl, Sum.elim_inr, Nl.d2G]
  have hp := C60_bus d.Y (d.m x) (d.a x) hm (fun b => (lamP b : ℂ))
  have hq := C60_bus d.Y (d.m x) (d.a x) hm (fun b => (lamQ b : ℂ))
  have hpg := hl.pg; have hqg := hl.qg
  rcases kinds d hl j with ⟨b, rfl⟩ | ⟨b, rfl⟩ | ⟨g, rfl⟩ | ⟨g, rfl⟩ | hj
  · simp only [place_a hl, wsum]
    refine partial_volt hl (F := fun V => (∑ i, (lamP i : ℂ) * dSbus_dVa d.Y V i b).re + (∑ i, (lamQ i : ℂ) * dSbus_dVa d.Y V i b).im)
      (D := fun k => blocks _ _ _ _ (d.iVa + b) k) (fun c => ?_) (fun c => ?_) (fun k hk => blocks_right _ _ _ _ _ hk) k
    · rw [blocks_aa hl]
      exact HasDerivAt.add (re_partialVa (hp b c).1) (im_partialVa (hq b c).1)
    · rw [blocks_av hl]
      exact HasDerivAt.add (re_partialVm (hp b c).2.1) (im_partialVm (hq b c).2.1)
  · simp only [place_m hl, wsum]
    refine partial_volt hl (F := fun V => (∑ i, (lamP i : ℂ) * dSbus_dVm d.Y V i b).re + (∑ i, (lamQ i : ℂ) * dSbus_dVm d.Y V i b).im)
      (D := fun k => blocks _ _ _ _ (d.iVm + b) k) (fun c => ?_) (fun c => ?_) (fun k hk => blocks_right _ _ _ _ _ hk) k
    · rw [blocks_va hl]
      exact HasDerivAt.add (re_partialVa (hp b c).2.2.1) (im_partialVa (hq b c).2.2.1)
    · rw [blocks_vv hl]
      exact HasDerivAt.add (re_partialVm (hp b c).2.2.2) (im_partialVm (hq b c).2.2.2)
  · rw [blocks_left _ _ _ _ _ (by omega)]
    simp only [place_p hl]
    exact partial_const _ _ _
  · rw [blocks_left _ _ _ _ _ (by omega)]
    simp only [place_q hl]
    exact partial_const _ _ _
  · rw [blocks_left _ _ _ _ _ (by omega)]
    simp only [place_other hl _ _ _ _ hj]
    exact partial_const _ _ _

/-! ## Flow constraints -/

theorem flow_part (d : Nl nb ng nl) (hl : Layout d) (x : Nat → ℝ) (hm : ∀ b : Fin nb, 0 < x (d.iVm + b)) (lim : Int) (f : Fin nl → Fin nb)
    (Y : Matrix (Fin nl) (Fin nb) ℂ) (mu : Fin nl → ℝ) (j k : Nat) :
    PartialX (fun y => ∑ l, mu l * d.placeV (dAbr (flowVa lim f Y (d.V y)) (flow lim f Y (d.V y)) l) (dAbr (flowVm lim f Y (d.V y)) (flow lim f Y (d.V y)) l) j)
      x k (endH lim f Y (d.V x) mu j k) := by
  have key : ∀ b c : Fin nb,
      PartialVa (fun V => ∑ l, mu l * dAbr (flowVa lim f Y V) (flow lim f Y V) l b) (d.m x) (d.a x) c (endH lim f Y (d.V x) mu (d.iVa + b) (d.iVa + c)) ∧
      PartialVm (fun V => ∑ l, mu l * dAbr (flowVa lim f Y V) (flow lim f Y V) l b) (d.m x) (d.a x) c (endH lim f Y (d.V x) mu (d.iVa + b) (d.iVm + c)) ∧
      PartialVa (fun V => ∑ l, mu l * dAbr (flowVm lim f Y V) (flow lim f Y V) l b) (d.m x) (d.a x) c (endH lim f Y (d.V x) mu (d.iVm + b) (d.iVa + c)) ∧
      PartialVm (fun V => ∑ l, mu l * dAbr (flowVm lim f Y V) (flow lim f Y V) l b) (d.m x) (d.a x) c (endH lim f Y (d.V x) mu (d.iVm + b) (d.iVm + c)) := by
    intro b c
    unfold endH flowVa flowVm flow
    by_cases h2 : lim = 2
    · simp only [h2, if_true, blocks_aa hl, blocks_av hl, blocks_va hl, blocks_vv hl]
      exact C60_sq_current Y (d.m x) (d.a x) hm mu b c
    · by_cases h1 : lim = 1
      · simp only [if_neg h2, if_pos h1, blocks_aa hl, blocks_av hl, blocks_va hl, blocks_vv hl]
        exact C60_sq_real f Y (d.m x) (d.a x) hm mu b c
      · simp only [h2, h1, if_false, blocks_aa hl, blocks_av hl, blocks_va hl, blocks_vv hl]
        exact C60_sq_flow f Y (d.m x) (d.a x) hm mu b c
  have hr : ∀ (i k : Nat), 2 * nb ≤ k → endH lim f Y (d.V x) mu i k = 0 := by
    intro i k hk; unfold endH; split_ifs <;> exact blocks_right _ _ _ _ _ hk
  rcases vkinds d hl j with ⟨b, rfl⟩ | ⟨b, rfl⟩ | hj
  · simp only [placeV_a hl]
    exact partial_volt hl (F := fun V => ∑ l, mu l * dAbr (flowVa lim f Y V) (flow lim f Y V) l b)
      (D := fun k => endH lim f Y (d.V x) mu (d.iVa + b) k) (fun c => (key b c).1) (fun c => (key b c).2.1) (fun k hk => hr _ k hk) k
  · simp only [placeV_m hl]
    exact partial_volt hl (F := fun V => ∑ l, mu l * dAbr (flowVm lim f Y V) (flow lim f Y V) l b)
      (D := fun k => endH lim f Y (d.V x) mu (d.iVm + b) k) (fun c => (key b c).2.2.1) (fun c => (key b c).2.2.2) (fun k hk => hr _ k hk) k
  · have : endH lim f Y (d.V x) mu j k = 0 := by
      unfold endH; split_ifs <;> exact blocks_left _ _ _ _ _ hj
    rw [this]
    simp only [placeV_other hl _ _ hj]
    exact partial_const _ _ _

/-! ## Costs -/

theorem r_partial (P : OpfModel.Params) (x : Nat → ℝ) {k : Nat} (hk : k < P.nx) (i : Nat) : PartialX (fun y => P.r y i) x k (P.N i k) := by
  unfold PartialX OpfModel.Params.r
  refine HasDerivAt.sub_const (c := P.rh i) ?_
  refine (HasDerivAt.fun_sum fun j _ => (update_deriv x j k).const_mul (P.N i j)).congr_deriv ?_
  simp [hk]

/-- `dw` as a function of the residual. -/
def dwOf (P : OpfModel.Params) (i : Nat) (r : ℝ) : ℝ :=
  ((if r < -P.kk i then P.mm i else 0) + (if r = 0 ∧ P.kk i = 0 then P.mm i else 0) + (if r > P.kk i then P.mm i else 0)) *
    ((if P.dd i = 1 then 1 else 0) + 2 * (if P.dd i = 2 then 1 else 0) *
      (r + ((if r < -P.kk i then 1 else 0) + (if r = 0 ∧ P.kk i = 0 then 0 else 0) + (if r > P.kk i then -1 else 0)) * P.kk i))

theorem dw_eq (P : OpfModel.Params) (x : Nat → ℝ) (i : Nat) : dw P x i = dwOf P i (P.r x i) := rfl

theorem smooth1 (m l q k r : ℝ) : HasDerivAt (fun r => m * (l + 2 * q * (r + k))) (2 * m * q) r := by
  have h1 : HasDerivAt (fun r : ℝ => r + k) 1 r := (hasDerivAt_id r).add_const k
  exact (((h1.const_mul (2 * q)).const_add l).const_mul m).congr_deriv (by ring)

theorem dwOf_deriv (P : OpfModel.Params) (x : Nat → ℝ) (i : Nat) (hk : 0 ≤ P.kk i) (hb : P.kk i = 0 ∨ |P.r x i| ≠ P.kk i) :
    HasDerivAt (dwOf P i) (2 * P.M x i * (if P.dd i = 2 then 1 else 0)) (P.r x i) := by
  set r0 := P.r x i with hr0
  set l : ℝ := if P.dd i = 1 then 1 else 0
  set q : ℝ := if P.dd i = 2 then 1 else 0
  rcases hk.eq_or_lt with h0 | hpos
  · have hfun : dwOf P i = fun r => P.mm i * (l + 2 * q * (r + 0)) := by
      funext r
      unfold dwOf
      rw [← h0]
      rcases lt_trichotomy r 0 with h | h | h
      · simp [h, h.ne, not_lt.2 h.le, l, q]
      · simp [h, l, q]
      · simp [h, h.ne', not_lt.2 h.le, l, q]
    have hM : P.M x i = P.mm i := by
      unfold OpfModel.Params.M
      rw [← hr0, ← h0]
      rcases lt_trichotomy r0 0 with h | h | h
      · simp [h, h.ne, not_lt.2 h.le]
      · simp [h]
      · simp [h, h.ne', not_lt.2 h.le]
    rw [hfun, hM]
    exact smooth1 _ _ _ _ _
  · have hb' : |r0| ≠ P.kk i := by
      rcases hb with h | h
      · exact absurd h hpos.ne'
      · exact h
    rcases lt_or_gt_of_ne hb' with hin | hout
    · obtain ⟨h1, h2⟩ := abs_lt.1 hin
      have hM : P.M x i = 0 := by
        unfold OpfModel.Params.M
        rw [← hr0]
        simp [not_lt.2 h1.le, not_lt.2 h2.le, hpos.ne']
      rw [hM, mul_zero, zero_mul]
      have : dwOf P i =ᶠ[nhds r0] fun _ => 0 := by
        filter_upwards [lt_mem_nhds h1, gt_mem_nhds h2] with r a b
        unfold dwOf
        simp [not_lt.2 a.le, not_lt.2 b.le, hpos.ne']
      exact (hasDerivAt_const r0 (0 : ℝ)).congr_of_eventuallyEq this
    · rcases lt_abs.1 hout with h | h
      · have hM : P.M x i = P.mm i := by
          unfold OpfModel.Params.M
          rw [← hr0]
          have : ¬ r0 < -P.kk i := by linarith
          simp [this, h, hpos.ne']
        have : dwOf P i =ᶠ[nhds r0] fun r => P.mm i * (l + 2 * q * (r + -P.kk i)) := by
          filter_upwards [lt_mem_nhds h] with r a
          unfold dwOf
          have : ¬ r < -P.kk i := by linarith
          simp [this, a, hpos.ne', l, q]
        rw [hM]
        exact (smooth1 _ _ _ _ _).congr_of_eventuallyEq this
      · have h' : r0 < -P.kk i := by linarith
        have hM : P.M x i = P.mm i := by
          unfold OpfModel.Params.M
          rw [← hr0]
          have : ¬ P.kk i < r0 := by linarith
          simp [this, h', hpos.ne']
        have : dwOf P i =ᶠ[nhds r0] fun r => P.mm i * (l + 2 * q * (r + P.kk i)) := by
          filter_upwards [gt_mem_nhds h'] with r a
          unfold dwOf
          have : ¬ P.kk i < r := by linarith
          simp [this, a, hpos.ne', l, q]
        rw [hM]
        exact (smooth1 _ _ _ _ _).congr_of_eventuallyEq this

theorem dw_partial (P : OpfModel.Params) (x : Nat → ℝ) {k : Nat} (hk : k < P.nx) (i : Nat) (h0 : 0 ≤ P.kk i) (hb : P.kk i = 0 ∨ |P.r x i| ≠ P.kk i) :
    PartialX (fun y => dw P y i) x k (2 * P.M x i * (if P.dd i = 2 then 1 else 0) * P.N i k) := by
  simp only [dw_eq]
  have h := dwOf_deriv P x i h0 hb
  have h2 := r_partial P x hk i
  unfold PartialX at h2 ⊢
  rw [show P.r x i = P.r (Function.update x k (x k)) i by rw [Function.update_eq_self]] at h
  exact h.comp (x k) h2

theorem w_partial (P : OpfModel.Params) (x : Nat → ℝ) {k : Nat} (hk : k < P.nx) (i : Nat) (h0 : 0 ≤ P.kk i) (hb : P.kk i = 0 ∨ |P.r x i| ≠ P.kk i) :
    PartialX (fun y => P.w y i) x k (dw P x i * P.N i k) := by
  simp only [w_eq]
  have h := wOf_deriv P x i h0 hb
  have h2 := r_partial P x hk i
  unfold PartialX at h2 ⊢
  rw [show P.r x i = P.r (Function.update x k (x k)) i by rw [Function.update_eq_self]] at h
  exact h.comp (x k) h2

theorem user_part (P : OpfModel.Params) (x : Nat → ℝ) {k : Nat} (hk : k < P.nx) (j : Nat) (h0 : ∀ i, i < P.nw → 0 ≤ P.kk i)
    (hb : ∀ i, i < P.nw → P.kk i = 0 ∨ |P.r x i| ≠ P.kk i) : PartialX (fun y => AAHwC P y j) x k (d2user P x j k) := by
  have hH : ∀ i, PartialX (fun y => HwC P y i) x k (∑ b ∈ Finset.range P.nw, P.H i b * (dw P x b * P.N b k)) := by
    intro i
    unfold HwC
    refine HasDerivAt.add_const (c := P.Cw i) ?_
    exact HasDerivAt.fun_sum fun b hb' =>
      (w_partial P x hk b (h0 b (Finset.mem_range.1 hb')) (hb b (Finset.mem_range.1 hb'))).const_mul _
  have : PartialX (fun y => AAHwC P y j) x k (∑ i ∈ Finset.range P.nw,
      ((P.N i j * (2 * P.M x i * (if P.dd i = 2 then 1 else 0) * P.N i k)) * HwC P x i +
        P.N i j * dw P x i * ∑ b ∈ Finset.range P.nw, P.H i b * (dw P x b * P.N b k))) := by
    unfold AAHwC
    refine HasDerivAt.fun_sum fun i hi => ?_
    have := HasDerivAt.fun_mul (HasDerivAt.const_mul (P.N i j) (dw_partial P x hk i (h0 i (Finset.mem_range.1 hi)) (hb i (Finset.mem_range.1 hi)))) (hH i)
    simp only [Function.update_eq_self] at this
    exact this
  refine HasDerivAt.congr_deriv this ?_
  unfold d2user
  rw [Finset.sum_add_distrib, add_comm]
  congr 1
  · refine Finset.sum_congr rfl fun i _ => ?_
    rw [Finset.mul_sum]
    exact Finset.sum_congr rfl fun b _ => by ring
  · rw [Finset.mul_sum]
    exact Finset.sum_congr rfl fun b _ => by ring

theorem d2fPg_spec (c : AcData) (h : AcOk c) (hlen : c.gencost.length = c.ng) (x : Nat → ℝ)
    (hk : c.kind ≠ .pyFloat ∨ ∃ i, i < c.gencost.length ∧ (c.row i).model = 2) :
    ∃ p, d2fPg c x = some p ∧ ∀ i, i < c.ng → p.getD i 0 =
      if (c.row i).model = 2 then c.base ^ 2 * (rowPoly (c.row i)).derivative.derivative.eval (c.base * x (c.iPg + i)) else 0 := by
  unfold d2fPg
  have hg : gather c.gencost (List.range c.ng) = some c.gencost := by rw [← hlen]; exact gather_range _
  rw [hg]
  simp only [Option.bind_eq_bind, Option.bind_some]
  change ∃ p, ((gather c.gencost c.ipol).bind fun rows => (gather _ c.ipol).bind fun p => (polycost rows _ 2).bind fun v =>
    if c.ipol = [] ∧ c.kind = NumKind.pyFloat then none else scatter _ c.ipol _) = some p ∧ _
  rw [gather_rows]
  have hp : gather ((List.range c.ng).map fun i => x (c.iPg + i)) c.ipol = some (c.ipol.map fun i => x (c.iPg + i)) :=
    gather_eq_map _ _ _ fun i hi => by
      have := ((mem_ipol c i).1 hi).1
      rw [List.getElem?_map, List.getElem?_range (by omega)]; rfl
  rw [hp]
  simp only [Option.bind_some]
  rw [polycost_eq _ _ _ (by simp) fun r hr => ⟨(ipol_poly c h r hr).one, (ipol_poly c h r hr).data⟩]
  simp only [Option.bind_some]
  rw [if_neg, List.map_map, zipWith_map_map]
  · obtain ⟨v, hv, hlen', h1, h2⟩ := scatter_spec (List.replicate c.ng (0 : ℝ)) c.ipol
      ((c.ipol.map fun i => (Polynomial.derivative^[2] (rowPoly (c.row i))).eval (((· * c.base) ∘ fun i => x (c.iPg + i)) i)).map (c.base ^ 2 * ·)) (find_nodup _)
      (by intro i hi; rw [List.length_replicate, ← hlen]; exact ((mem_ipol c i).1 hi).1) (by simp)
    refine ⟨v, hv, fun i hi => ?_⟩
    rw [List.getD_eq_getElem?_getD]
    by_cases hm : i ∈ c.ipol
    · obtain ⟨k, hk1, hk2⟩ := List.getElem_of_mem hm
      have hk' : c.ipol[k]? = some i := by rw [List.getElem?_eq_getElem hk1, hk2]
      rw [h1 k i hk', if_pos ((mem_ipol c i).1 hm).2]
      simp [hk', mul_comm]
    · rw [h2 i hm, if_neg (fun hc => hm ((mem_ipol c i).2 ⟨by omega, hc⟩))]
      simp [hi]
  · rintro ⟨hn, hf⟩
    rcases hk with hk | ⟨i, hi⟩
    · exact hk hf
    · have := (mem_ipol c i).2 hi
      rw [hn] at this; simp at this

/-- The gradient of the costs, entry by entry. -/
theorem grad_spec (c : AcData) (h : AcOk c) (hlen : c.gencost.length = c.ng)
    (hk : c.kind ≠ .pyFloat ∨ ∃ i, i < c.gencost.length ∧ (c.row i).model = 2) :
    ∃ grad : (Nat → ℝ) → Nat → ℝ, (∀ y, c.df y = some (grad y)) ∧ ∀ y j, grad y j =
      (if c.iPg ≤ j ∧ j < c.iPg + c.ng ∧ (c.row (j - c.iPg)).model = 2 then
        c.base * (rowPoly (c.row (j - c.iPg))).derivative.eval (c.base * y j) else 0) + c.ccost j + (if c.user then AAHwC c.P y j else 0) := by
  choose v hv hget using fun y => dPgQg_spec c h y hk
  refine ⟨fun y j => c.place (v y) j + c.ccost j + (if c.user then AAHwC c.P y j else 0), fun y => ?_, fun y j => ?_⟩
  · unfold AcData.df; rw [hv]; rfl
  · beta_reduce
    congr 2
    unfold AcData.place
    by_cases hq : c.iQg ≤ j ∧ j < c.iQg + c.ng
    · rw [if_pos hq, hget y _ (by omega), if_neg (by omega), if_neg]
      have := h.disj
      omega
    · rw [if_neg hq]
      by_cases hp : c.iPg ≤ j ∧ j < c.iPg + c.ng
      · rw [if_pos hp, hget y _ (by omega)]
        have hpos : c.pos (j - c.iPg) = j := by
          unfold AcData.pos
          rw [if_pos (by omega)]; omega
        rw [hpos]
        have h1 : j - c.iPg < c.gencost.length := by omega
        simp only [hp, h1, true_and]
      · rw [if_neg hp, if_neg (fun hc => hp ⟨hc.1, hc.2.1⟩)]

theorem cost_part (c : AcData) (h : AcOk c) (hlen : c.gencost.length = c.ng) (x : Nat → ℝ)
    (hk : c.kind ≠ .pyFloat ∨ ∃ i, i < c.gencost.length ∧ (c.row i).model = 2)
    (hu : c.user = true → (∀ i, i < c.P.nw → 0 ≤ c.P.kk i) ∧ ∀ i, i < c.P.nw → c.P.kk i = 0 ∨ |c.P.r x i| ≠ c.P.kk i) :
    ∃ (H : Nat → Nat → ℝ) (grad : (Nat → ℝ) → Nat → ℝ), d2f c x = some H ∧ (∀ y, c.df y = some (grad y)) ∧ ∀ j k, k < c.P.nx → PartialX (fun y => grad y j) x k (H j k) := by
  obtain ⟨p, hp, hget⟩ := d2fPg_spec c h hlen x hk
  obtain ⟨grad, hg, hgrad⟩ := grad_spec c h hlen hk
  have hQ : d2fQg c = some () := by unfold d2fQg; rw [if_neg (by omega)]
  refine ⟨_, grad, by unfold d2f; rw [hp, hQ]; rfl, hg, fun j k hkn => ?_⟩
  simp only [hgrad]
  have hA : PartialX (fun y => if c.user then AAHwC c.P y j else 0) x k (if c.user then d2user c.P x j k else 0) := by
    by_cases hd : c.user = true
    · simp only [hd, if_true]
      exact user_part c.P x hkn j (hu hd).1 (hu hd).2
    · simp only [hd]
      exact partial_const _ _ _
  refine HasDerivAt.add ?_ hA
  refine HasDerivAt.add_const (c := c.ccost j) ?_
  by_cases hj : c.iPg ≤ j ∧ j < c.iPg + c.ng ∧ (c.row (j - c.iPg)).model = 2
  · simp only [hj, and_self, if_true, and_true]
    by_cases hjk : j = k
    · subst hjk
      rw [if_pos rfl, hget _ (by omega), if_pos hj.2.2]
      simp only [Function.update_self]
      have h1 : HasDerivAt (fun t : ℝ => c.base * t) c.base (x j) := by simpa using (hasDerivAt_id' (x j)).const_mul c.base
      have h2 := (rowPoly (c.row (j - c.iPg))).derivative.hasDerivAt (c.base * x j)
      refine ((h2.comp (x j) h1).const_mul c.base).congr_deriv ?_
      rw [show c.iPg + (j - c.iPg) = j by omega]; ring
    · rw [if_neg hjk]
      simp only [Function.update_of_ne hjk]
      exact hasDerivAt_const _ _
  · simp only [hj, if_false]
    refine (hasDerivAt_const _ _).congr_deriv ?_
    by_cases hjj : j = k ∧ c.iPg ≤ j ∧ j < c.iPg + c.ng
    · rw [if_pos hjj, hget _ (by omega), if_neg (fun hm => hj ⟨hjj.2.1, hjj.2.2, hm⟩)]
    · rw [if_neg hjj]

end

end Verif.OpfNl
