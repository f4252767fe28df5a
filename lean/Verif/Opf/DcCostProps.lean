import Verif.Opf.DcCostLemmas
import Verif.Opf.DcProps
import Verif.Pips.ConvexProps

/-!
# C83, C84: a successful DC optimal power flow is a least-cost dispatch, and its prices are marginal costs

The cost tables enter the objective through `dcData` (`Verif/Opf/DcCostModel.lean`); costs are compared as `totcost` evaluates them.
-/

open Matrix

namespace Verif.Opf

open Verif.OpfModel Verif.Pips Verif.Network Verif.Cost Verif.OpfCost

variable {nb ng nl : ℕ}

/-! ### Specification -/

/-- A cost row the DC formulation can represent and that is convex: piecewise linear with slopes that do not decrease, linear, or quadratic with a coefficient `≥ 0`. -/
def CostOK (r : CostRow ℝ) : Prop :=
  (PwlRow r ∧ ConvexRow r) ∨ (PolyRow r ∧ (r.ncost = 2 ∨ (r.ncost = 3 ∧ 0 ≤ r.data.getD 0 0)))

/-- Angles (radians) and outputs (MW) that supply the demand within all limits of the case. -/
structure Alternative (d : Case nb ng nl) (va : Fin nb → ℝ) (pg : Fin ng → ℝ) : Prop where
  balance : ∀ b, mismatchP d pg (fun l => d.base * dcFlow (d.branch l) va) (fun l => -(d.base * dcFlow (d.branch l) va)) b = 0
  flow : ∀ l, d.rateA l ≠ 0 → d.rateA l < 10 ^ 10 → |d.base * dcFlow (d.branch l) va| ≤ d.rateA l
  gen : ∀ p, d.pmin p ≤ pg p ∧ pg p ≤ d.pmax p
  ref : ∀ b, d.isRef b = true → va b = d.vaRad b

/-- The variables and linear constraints added by `ops` hold at `x`. -/
structure Holds (vb : List (String × ℕ)) (ops : List Op) (x : ℕ → ℝ) : Prop where
  vars : ∀ b ∈ varVals ops, ∀ i < b.2.n, VarVals.lo b.2 i ≤ (x (start vb b.1 + i) : EReal) ∧ (x (start vb b.1 + i) : EReal) ≤ VarVals.hi b.2 i
  rows : ∀ b ∈ linBlks ops, ∀ i < b.2.A.rows, LinBlk.lo b.2 i ≤ (rowDot b.2.A i (subvec vb x (eff vb b.2.vs)) : EReal) ∧
    (rowDot b.2.A i (subvec vb x (eff vb b.2.vs)) : EReal) ≤ LinBlk.hi b.2 i

/-- The user costs at `x`: `½ w'Hw + Cw'w` with `w = mm (N x − rh)`. -/
noncomputable def UserCost.value {n : ℕ} {W : Type} [Fintype W] (u : UserCost n W) (x : Fin n → ℝ) : ℝ :=
  let w : W → ℝ := fun a => u.mm a * (∑ j, u.N a j * x j - u.rh a)
  1 / 2 * ∑ a, ∑ b, w a * u.H a b * w b + ∑ a, u.Cw a * w a

/-- Convex user costs. -/
structure UserCost.Convex {n : ℕ} {W : Type} [Fintype W] (u : UserCost n W) : Prop where
  symm : ∀ a b, u.H a b = u.H b a
  psd : ∀ w : W → ℝ, 0 ≤ ∑ a, ∑ b, w a * u.H a b * w b

/-- The user offset `Cw' (mm rh)` by which the objective of the DC formulation differs from the cost (C18). -/
noncomputable def UserCost.offset {n : ℕ} {W : Type} [Fintype W] (u : UserCost n W) : ℝ := ∑ a, u.Cw a * (u.mm a * u.rh a)

/-- The stacked vector of a dispatch: angles, outputs in p.u., the cost of each generator with a piecewise linear cost, further variables `z`. -/
noncomputable def stack (d : Case nb ng nl) (gc : Fin ng → CostRow ℝ) (va : Fin nb → ℝ) (pg : Fin ng → ℝ) (z : ℕ → ℝ) (i : ℕ) : ℝ :=
  if h : i < nb then va ⟨i, h⟩
  else if h : i - nb < ng then pg ⟨i - nb, h⟩ / d.base
  else if h : i - nb - ng < nyOf gc then rowVal (gc ((ipwl gc).get ⟨i - nb - ng, h⟩)) (pg ((ipwl gc).get ⟨i - nb - ng, h⟩))
  else z (i - nb - ng - nyOf gc)

/-! ### Quadratic programmes -/

theorem qp_tangent {n : ℕ} (H : Matrix (Fin n) (Fin n) ℝ) (C : Fin n → ℝ) (hs : ∀ x y : Fin n → ℝ, x ⬝ᵥ (H *ᵥ y) = y ⬝ᵥ (H *ᵥ x))
    (hp : ∀ x : Fin n → ℝ, 0 ≤ x ⬝ᵥ (H *ᵥ x)) (x : Fin n → ℝ) : AboveTangent (qp H C).f ((qp H C).df x) x := by
  intro y
  have e1 : ∑ v, (qp H C).df x v * (y v - x v) = (y - x) ⬝ᵥ (H *ᵥ x) + C ⬝ᵥ (y - x) := by
    simp only [qp, dotProduct, Pi.add_apply, Pi.sub_apply, ← Finset.sum_add_distrib]
    exact Finset.sum_congr rfl fun v _ => by ring
  have h1 := hp (y - x)
  have h2 := hs x y
  rw [e1]
  simp only [qp]
  rw [mulVec_sub, sub_dotProduct, dotProduct_sub, dotProduct_sub] at h1
  rw [sub_dotProduct, dotProduct_sub]
  linarith

theorem qp_convexCons {n : ℕ} (H : Matrix (Fin n) (Fin n) ℝ) (C : Fin n → ℝ) : ConvexCons (qp H C) := ⟨fun e => e.elim0, fun i => i.elim0⟩

/-- A point at which every block holds is feasible for the solver. -/
theorem holds_feasible {h : List Op} {m : Model} (hm : OpfModel.run h = some m) (g : Good h) {q : Linear} (hq : linearOf m = some q)
    (H : Matrix (Fin m.var.total) (Fin m.var.total) ℝ) (C : Fin m.var.total → ℝ) (x : ℕ → ℝ) (hx : Holds (varBlocks h) h x) :
    Feasible (qp H C) q (fun i : Fin m.var.total => x i) := by
  obtain ⟨q', hq', ht, hA, hv, hl, hok⟩ := linearOf_spec hm g
  rw [hq] at hq'; cases hq'
  refine ⟨fun e => e.elim0, fun i => i.elim0, ?_, ?_⟩
  · intro j
    have hj : (j : ℕ) < total (varBlocks h) := by rw [← ht]; exact j.isLt
    obtain ⟨b, hb, i, hi, e⟩ := cover _ g.varNames _ hj
    rw [← varVals_blocks] at hb
    obtain ⟨b', hb', rfl⟩ := List.mem_map.1 hb
    obtain ⟨e1, e2⟩ := hv b' hb' i hi
    have := hx.vars b' hb' i hi
    simp only [e, e1, e2]
    exact this
  · intro k hk
    rw [hA] at hk
    obtain ⟨b, hb, i, hi, rfl⟩ := cover (linBlocks h) (by rw [linBlocks_names]; exact g.linNames) k hk
    obtain ⟨b', hb', rfl⟩ := List.mem_map.1 hb
    obtain ⟨e0, e1, e2⟩ := hl b' hb' i hi
    have := hx.rows b' hb' i hi
    have es : ∑ j : Fin m.var.total, q.A (start (linBlocks h) b'.1 + i) j * x j =
        ∑ j ∈ Finset.range (total (varBlocks h)), q.A (start (linBlocks h) b'.1 + i) j * x j := by
      rw [← ht, Finset.sum_range]
    simp only
    rw [e1, e2, es, e0]
    exact this

/-- On success, no point at which every block holds has a lower objective, up to `gap`. -/
theorem dc_optimal {d : Case nb ng nl} {extra : List Op} {m : Model} (hm : OpfModel.run (dcOps d ++ extra) = some m) (g : Good (dcOps d ++ extra))
    {H : Matrix (Fin m.var.total) (Fin m.var.total) ℝ} {C : Fin m.var.total → ℝ} {C0 : ℝ} {o : Opt} {solve : AnySolver} {x0 : Fin m.var.total → ℝ}
    {s : DcRes nb ng nl} (hs : dcopfSolver d m H C C0 o solve x0 = some s) (hc : 0 < o.costMult) (hft : 0 ≤ o.feastol)
    (hsym : ∀ x y : Fin m.var.total → ℝ, x ⬝ᵥ (H *ᵥ y) = y ⬝ᵥ (H *ᵥ x)) (hpsd : ∀ x : Fin m.var.total → ℝ, 0 ≤ x ⬝ᵥ (H *ᵥ x)) (hok : s.success = true)
    (y : ℕ → ℝ) (hy : Holds (varBlocks (dcOps d ++ extra)) (dcOps d ++ extra) y) :
    s.f ≤ (1 / 2 * ((fun i : Fin m.var.total => y i) ⬝ᵥ (H *ᵥ fun i : Fin m.var.total => y i)) + C ⬝ᵥ (fun i : Fin m.var.total => y i) + C0) +
      gap o (m.var.total + m.lin.total) ‖fun i : Fin m.var.total => s.x i‖ s.dual s.tol (∑ i : Fin m.var.total, |y i - s.x i|) := by
  obtain ⟨q, r, hq, hr, e1, e2, e3, e4, e5, -⟩ := dc_ofSolver hm g hs
  obtain ⟨q', hq', ht, hA, hv, hl, hqok⟩ := linearOf_spec hm g
  rw [hq] at hq'; cases hq'
  have hx : (fun i : Fin m.var.total => s.x i) = r.x := by rw [e3]; funext i; simp [pad]
  have hx' : ∀ i : Fin m.var.total, s.x i = r.x i := fun i => congrFun hx i
  have main := C82_optimal (qp H C) (qp_convexCons H C) q hqok o (solve _ _) x0 hc hft r hr (by rw [← e1]; exact hok) (qp_tangent H C hsym hpsd _)
    _ (holds_feasible hm g hq H C y hy)
  have hnA : q.nA = m.lin.total := by
    rw [hA, (Rep.run hm).lin, (foldIdx_basic _).1]
  rw [hnA, Fintype.card_fin, zero_add] at main
  rw [hx, e2, e4, e5]
  simp only [hx']
  have ef : (qp H C).f (fun i : Fin m.var.total => y i) = 1 / 2 * ((fun i : Fin m.var.total => y i) ⬝ᵥ (H *ᵥ fun i : Fin m.var.total => y i)) +
    C ⬝ᵥ (fun i : Fin m.var.total => y i) := rfl
  rw [ef] at main
  linarith

/-! ### The Hessian of the DC objective -/

section hess
variable {X Q W : Type*} [Fintype X] [Fintype Q] [Fintype W] [DecidableEq X] [DecidableEq Q] [DecidableEq W]

theorem HH_form (D : DcData X Q W) (x y : X → ℝ) : x ⬝ᵥ (HH D *ᵥ y) =
    ∑ q, 2 * (polycf D q).1 * (x (D.pg q) * y (D.pg q)) +
      ∑ a, ∑ b, (D.mm a * ∑ j, D.N a j * x j) * D.H a b * (D.mm b * ∑ j, D.N b j * y j) := by
  unfold HH
  rw [← mulVec_mulVec, ← mulVec_mulVec, mulVec_transpose, dotProduct_comm, ← dotProduct_mulVec, dotProduct_comm]
  simp only [dotProduct, Fintype.sum_sum_type, HHw_mulVec, MN_mulVec, mul_zero, Finset.sum_const_zero, zero_add]
  congr 1
  · exact Finset.sum_congr rfl fun q _ => by ring
  · refine Finset.sum_congr rfl fun a _ => ?_
    rw [Finset.mul_sum]
    exact Finset.sum_congr rfl fun b _ => by ring

theorem HH_symm (D : DcData X Q W) (hH : ∀ a b, D.H a b = D.H b a) (x y : X → ℝ) : x ⬝ᵥ (HH D *ᵥ y) = y ⬝ᵥ (HH D *ᵥ x) := by
  rw [HH_form, HH_form]
  congr 1
  · exact Finset.sum_congr rfl fun q _ => by ring
  · rw [Finset.sum_comm]
    exact Finset.sum_congr rfl fun a _ => Finset.sum_congr rfl fun b _ => by rw [hH b a]; ring

theorem HH_psd (D : DcData X Q W) (hq : ∀ q, 0 ≤ (polycf D q).1) (hH : ∀ w : W → ℝ, 0 ≤ ∑ a, ∑ b, w a * D.H a b * w b) (x : X → ℝ) :
    0 ≤ x ⬝ᵥ (HH D *ᵥ x) := by
  rw [HH_form]
  refine add_nonneg (Finset.sum_nonneg fun q _ => ?_) (hH _)
  have := hq q
  have := mul_self_nonneg (x (D.pg q))
  positivity
end hess

/-! ### Costs -/

theorem costOK_wf {r : CostRow ℝ} (h : CostOK r) : PwlRow r ∨ PolyRow r := h.imp And.left And.left

theorem costOK_pwl1 {r : CostRow ℝ} (h : CostOK r) : CostOK (pwl1Row r) := by
  unfold pwl1Row
  split_ifs with hc
  · obtain ⟨m, n, dat⟩ := r
    obtain ⟨rfl, rfl⟩ := hc
    rcases h with h | h
    · have hd : 4 ≤ dat.length := by simpa using h.1.data
      match dat, hd with
      | x0 :: y0 :: x1 :: y1 :: rest, _ => exact Or.inr ⟨⟨rfl, by simp, by simp⟩, Or.inl rfl⟩
    · have := h.1.model
      simp at this
  · exact h

theorem costOK_cases {r : CostRow ℝ} (h : CostOK r) :
    (r.model = 1 ∧ PwlRow r ∧ ConvexRow r) ∨ (r.model = 2 ∧ PolyRow r ∧ (r.ncost = 2 ∨ (r.ncost = 3 ∧ 0 ≤ r.data.getD 0 0))) := by
  rcases h with h | h
  · exact Or.inl ⟨h.1.model, h⟩
  · exact Or.inr ⟨h.1.model, h⟩

section cost
variable (gc : Fin ng → CostRow ℝ) (hgc : ∀ p, CostOK (gc p))

include hgc

/-- The total cost of the outputs, split by cost model. -/
theorem cost_split (pg : Fin ng → ℝ) : ∑ p, rowVal (gc p) (pg p) =
    ∑ q : {p : Fin ng // (gc p).model = 2}, (rowPoly (gc q)).eval (pg q) + ∑ p with (gc p).model = 1, pwlCost (gc p) (pg p) := by
  rw [← Finset.sum_filter_add_sum_filter_not Finset.univ (fun p => (gc p).model = 2)]
  congr 1
  · rw [← Finset.sum_subtype_eq_sum_filter, ← Finset.subtype_univ]
    refine Finset.sum_congr rfl fun q _ => ?_
    have := q.2
    simp [rowVal, this]
  · have : (Finset.univ.filter fun p => ¬(gc p).model = 2) = Finset.univ.filter fun p => (gc p).model = 1 := by
      refine Finset.filter_congr fun p _ => ?_
      rcases costOK_cases (hgc p) with h | h <;> omega
    rw [this]
    refine Finset.sum_congr rfl fun p hp => ?_
    simp [rowVal, (Finset.mem_filter.1 hp).2]

variable {n : ℕ} {W : Type} [Fintype W] [DecidableEq W] (base : ℝ) (u : UserCost n W) (iPg iY : ℕ) (h : iPg + ng ≤ n) (hy : iY + nyOf gc ≤ n)

include hy in
/-- The objective at `x`: polynomial costs, helper variables, user costs. -/
theorem objective_eq (hH : ∀ a b, u.H a b = u.H b a) (x : ℕ → ℝ) :
    dcObjective (dcData base gc u iPg iY h) (fun i : Fin n => x i) =
      ∑ q : {p : Fin ng // (gc p).model = 2}, (rowPoly (gc q)).eval (base * x (iPg + q.1)) + ∑ p with (gc p).model = 1, x (iY + pwlPos gc p) +
        u.value (fun i : Fin n => x i) + u.offset := by
  rw [dcObjective_exact (dcData base gc u iPg iY h) hH, totalCost]
  have z : ∑ q, (if ((dcData base gc u iPg iY h).row q).ncost = 2 ∨ ((dcData base gc u iPg iY h).row q).ncost = 3 then 0
      else genCost (dcData base gc u iPg iY h) (fun i : Fin n => x i) q) = 0 := by
    refine Finset.sum_eq_zero fun q _ => if_pos ?_
    rcases costOK_cases (hgc q.1) with h' | h'
    · exact absurd h'.1 (by have := q.2; omega)
    · exact h'.2.2.imp_right And.left
  have ey : ∑ j ∈ (dcData base gc u iPg iY h).y, x j = ∑ p with (gc p).model = 1, x (iY + pwlPos gc p) := by
    have := sum_pwl gc fun _ j => x (iY + j)
    rw [← this]
    refine (Finset.sum_bij (fun j _ => ⟨iY + j, by have := j.isLt; omega⟩) ?_ ?_ ?_ ?_).symm
    · intro j _
      simp [dcData]
    · intro j _ k _ e
      simp only [Fin.mk.injEq] at e
      exact Fin.ext (by omega)
    · intro j hj
      simp only [dcData, Finset.mem_filter, Finset.mem_univ, true_and] at hj
      exact ⟨⟨j - iY, by omega⟩, Finset.mem_univ _, Fin.ext (by simp only; omega)⟩
    · intro j _; rfl
  rw [z, ey, sub_zero]
  rfl

omit [Fintype W] [DecidableEq W] in
theorem polycf_nonneg (q : {p : Fin ng // (gc p).model = 2}) : 0 ≤ (polycf (dcData base gc u iPg iY h) q).1 := by
  rcases costOK_cases (hgc q.1) with h' | h'
  · exact absurd h'.1 (by have := q.2; omega)
  · unfold polycf
    simp only [dcData]
    rcases h'.2.2 with h2 | ⟨h3, h0⟩
    · simp [h2]
    · simp only [h3, if_true]
      positivity

end cost

theorem totcost_sum (gc0 : Fin ng → CostRow ℝ) (hgc : ∀ p, CostOK (gc0 p)) (pg : Fin ng → ℝ) :
    ∃ F, totcost (List.ofFn gc0) (List.ofFn pg) = some F ∧ F.sum = ∑ p, rowVal (pwl1Row (gc0 p)) (pg p) := by
  refine ⟨_, totcost_eq _ _ (by simp) ?_, ?_⟩
  · intro r hr
    obtain ⟨p, rfl⟩ := (List.mem_ofFn' _ _).1 hr
    exact costOK_wf (hgc p)
  · rw [sum_zipWith_ofFn]
    exact Finset.sum_congr rfl fun p _ => (pwl1_val _ (costOK_wf (hgc p)) _).symm

/-! ### Points of the formulation -/

/-- A dispatch that supplies the demand within the limits satisfies the DC formulation. -/
theorem alt_holds (d : Case nb ng nl) (hb : 0 < d.base) (hstat : ∀ l, (d.branch l).stat = 0 ∨ (d.branch l).stat = 1) (extra : List Op)
    (va : Fin nb → ℝ) (pg : Fin ng → ℝ) (ha : Alternative d va pg) (x : ℕ → ℝ) (h1 : ∀ b : Fin nb, x b = va b) (h2 : ∀ p : Fin ng, x (nb + p) = pg p / d.base) :
    Holds (varBlocks (dcOps d ++ extra)) (dcOps d) x := by
  have hva : (fun j : Fin nb => x j) = va := funext h1
  obtain ⟨l1, l2, -⟩ := C24_lossless d.branch hstat va
  have hvv := dc_varVals d []
  have hlb := dc_linBlks d []
  rw [List.append_nil] at hvv hlb
  obtain ⟨s1, s2, -⟩ := dc_starts d extra
  refine ⟨?_, ?_⟩
  · rw [hvv]
    simp only [varVals, List.filterMap_nil, List.mem_cons, List.not_mem_nil, or_false, forall_eq_or_imp, forall_eq]
    constructor
    · intro i hi
      rw [varLo_val _ _ _ _ hi, varHi_vau _ _ _ _ hi, s1, zero_add]
      have e := h1 ⟨i, hi⟩
      simp only at e
      split_ifs with hr
      · rw [e, ha.ref _ hr]; exact ⟨le_rfl, le_rfl⟩
      · exact ⟨bot_le, le_top⟩
    · intro i hi
      rw [varLo_vec _ _ _ _ hi, varHi_vec _ _ _ _ hi, s2]
      have e := h2 ⟨i, hi⟩
      simp only at e
      rw [e, EReal.coe_le_coe_iff, EReal.coe_le_coe_iff]
      exact ⟨div_le_div_of_nonneg_right (ha.gen _).1 hb.le, div_le_div_of_nonneg_right (ha.gen _).2 hb.le⟩
  · rw [hlb]
    simp only [linBlks, List.filterMap_nil, List.mem_cons, List.not_mem_nil, or_false, forall_eq_or_imp, forall_eq]
    refine ⟨?_, ?_, ?_⟩
    · intro i (hi : i < nb)
      rw [linLo_vec _ _ _ _ _ hi, linHi_vec _ _ _ _ _ hi, Pmis_row d extra x ⟨i, hi⟩, hva]
      have hbal := ha.balance ⟨i, hi⟩
      have e2 := l2 ⟨i, hi⟩
      unfold mismatchP at hbal
      rw [← Finset.mul_sum, Finset.sum_neg_distrib, ← Finset.mul_sum] at hbal
      have e : (Bbus d.branch *ᵥ va) ⟨i, hi⟩ - ∑ g with (d.gen g).bus = ⟨i, hi⟩, x (nb + g) = d.bmis ⟨i, hi⟩ := by
        have e3 : ∑ g with (d.gen g).bus = ⟨i, hi⟩, x (nb + g) = (∑ g with (d.gen g).bus = ⟨i, hi⟩, pg g) / d.base := by
          rw [div_eq_mul_inv, Finset.sum_mul]
          exact Finset.sum_congr rfl fun g _ => by rw [h2]; ring
        rw [e3]
        unfold Case.bmis
        field_simp
        linear_combination d.base * e2 - hbal
      rw [e]
      exact ⟨le_rfl, le_rfl⟩
    · intro k (hk : k < d.il.length)
      rw [linLo_bot, linHi_vec _ _ _ _ _ hk, Pf_row d extra x ⟨k, hk⟩, hva, EReal.coe_le_coe_iff]
      refine ⟨bot_le, ?_⟩
      obtain ⟨r1, r2⟩ := (mem_il d _).1 (List.get_mem d.il ⟨k, hk⟩)
      have := (abs_le.1 (ha.flow _ r1 r2)).2
      have e := l1 (d.il.get ⟨k, hk⟩)
      unfold Case.upf
      rw [le_sub_iff_add_le, le_div_iff₀ hb, e]
      linarith
    · intro k (hk : k < d.il.length)
      rw [linLo_bot, linHi_vec _ _ _ _ _ hk, Pt_row d extra x ⟨k, hk⟩, hva, EReal.coe_le_coe_iff]
      refine ⟨bot_le, ?_⟩
      obtain ⟨r1, r2⟩ := (mem_il d _).1 (List.get_mem d.il ⟨k, hk⟩)
      have := (abs_le.1 (ha.flow _ r1 r2)).1
      have e := l1 (d.il.get ⟨k, hk⟩)
      unfold Case.upt
      rw [← sub_le_iff_le_add, le_div_iff₀ hb]
      have : -(Bf d.branch *ᵥ va) (d.il.get ⟨k, hk⟩) - Pfinj d.branch (d.il.get ⟨k, hk⟩) = -dcFlow (d.branch (d.il.get ⟨k, hk⟩)) va := by
        rw [← e]; ring
      rw [this]
      linarith

theorem Holds.append {vb : List (String × ℕ)} {a b : List Op} {x : ℕ → ℝ} (ha : Holds vb a x) (hb : Holds vb b x) : Holds vb (a ++ b) x := by
  refine ⟨fun c hc => ?_, fun c hc => ?_⟩
  · have : varVals (a ++ b) = varVals a ++ varVals b := by simp [varVals]
    rw [this, List.mem_append] at hc
    exact hc.elim (ha.vars c) (hb.vars c)
  · have : linBlks (a ++ b) = linBlks a ++ linBlks b := by simp [linBlks]
    rw [this, List.mem_append] at hc
    exact hc.elim (ha.rows c) (hb.rows c)

theorem pwlOps_linBlks (base : ℝ) (gc : Fin ng → CostRow ℝ) (hy : nyOf gc ≠ 0) : linBlks (pwlOps base gc) =
    [("ycon", ⟨ayMat (ng + nyOf gc) (ayRows base gc), [], (ayRows base gc).map fun r => ((r.rhs : ℝ) : EReal), ["Pg", "y"]⟩)] := by
  unfold pwlOps
  rw [if_neg hy]
  rfl

theorem ycon_hi (A : Mat) (rows : List (AyRow ℝ)) (l : List EReal) (vs : List String) (i : ℕ) (r : AyRow ℝ) (hi : rows[i]? = some r) :
    LinBlk.hi ⟨A, l, rows.map fun r => ((r.rhs : ℝ) : EReal), vs⟩ i = ((r.rhs : ℝ) : EReal) := by
  unfold LinBlk.hi
  have hne : rows.map (fun r => ((r.rhs : ℝ) : EReal)) ≠ [] := by
    intro h
    rw [List.map_eq_nil_iff] at h
    rw [h] at hi
    simp at hi
  simp only [if_neg hne]
  simp [hi]

section point
variable (d : Case nb ng nl) (gc : Fin ng → CostRow ℝ) (hgc : ∀ p, CostOK (gc p)) (hb : 0 < d.base) (lin post : List Op) (hlin : varBlocks lin = [])

include hgc hb hlin in
/-- The constraints on the helper variables hold iff each is at least the cost of its generator. -/
theorem pwl_holds (x : ℕ → ℝ) (hx : ∀ p : Fin ng, (gc p).model = 1 → pwlCost (gc p) (d.base * x (nb + p)) ≤ x (nb + ng + pwlPos gc p)) :
    Holds (varBlocks (dcOps d ++ (lin ++ (pwlOps d.base gc ++ post)))) (pwlOps d.base gc) x := by
  by_cases hy : nyOf gc = 0
  · have : pwlOps d.base gc = [] := by unfold pwlOps; rw [if_pos hy]
    rw [this]
    exact ⟨fun b h => by simp [varVals] at h, fun b h => by simp [linBlks] at h⟩
  · have hv : varVals (pwlOps d.base gc) = [("y", ⟨nyOf gc, none, none, none⟩)] := by unfold pwlOps; rw [if_neg hy]; rfl
    refine ⟨?_, ?_⟩
    · rw [hv]
      simp only [List.mem_cons, List.not_mem_nil, or_false, forall_eq]
      intro i hi
      have e1 : VarVals.lo ⟨nyOf gc, none, none, none⟩ i = ⊥ := by simp [VarVals.lo, orDefault, hi]
      have e2 : VarVals.hi ⟨nyOf gc, none, none, none⟩ i = ⊤ := by simp [VarVals.hi, orDefault, hi]
      rw [e1, e2]
      exact ⟨bot_le, le_top⟩
    · rw [pwlOps_linBlks _ _ hy]
      simp only [List.mem_cons, List.not_mem_nil, or_false, forall_eq]
      intro i (hi : i < (ayRows d.base gc).length)
      obtain ⟨f1, f2⟩ := subvec_PgY d gc lin post hlin hy x
      have key := (ay_rows d.base hb gc (fun p hp => by
        rcases costOK_cases (hgc p) with h | h
        · exact h.2
        · exact absurd h.1 (by omega))
        (subvec (varBlocks (dcOps d ++ (lin ++ (pwlOps d.base gc ++ post)))) x (eff (varBlocks (dcOps d ++ (lin ++ (pwlOps d.base gc ++ post)))) ["Pg", "y"])) 0).2
        (fun p hp => by rw [f1, f2 _ (pwlPos_lt gc p hp), add_zero]; exact hx p hp)
      have hsome : (ayRows d.base gc)[i]? = some (ayRows d.base gc)[i] := List.getElem?_eq_getElem hi
      rw [ycon_hi _ _ _ _ _ _ hsome, EReal.coe_le_coe_iff]
      refine ⟨?_, ?_⟩
      · have : LinBlk.lo ⟨ayMat (ng + nyOf gc) (ayRows d.base gc), [], (ayRows d.base gc).map fun r => ((r.rhs : ℝ) : EReal), ["Pg", "y"]⟩ i = ⊥ := by
          simp [LinBlk.lo]
        rw [this]; exact bot_le
      · have := key i _ hsome
        rw [add_zero] at this
        exact this

end point

/-! ### C83 -/

section
variable (d : Case nb ng nl) (gc0 : Fin ng → CostRow ℝ) (hgc : ∀ p, CostOK (gc0 p)) (hb : 0 < d.base) (lin post : List Op) (hlin : varBlocks lin = [])
  (m : Model) (hm : OpfModel.run (dcOps d ++ (lin ++ (pwlOps d.base (fun p => pwl1Row (gc0 p)) ++ post))) = some m)
  (g : Good (dcOps d ++ (lin ++ (pwlOps d.base (fun p => pwl1Row (gc0 p)) ++ post))))
  {W : Type} [Fintype W] [DecidableEq W] (u : UserCost m.var.total W) (hu : u.Convex)
  (o : Opt) (solve : AnySolver) (x0 : Fin m.var.total → ℝ) (hc : 0 < o.costMult) (hft : 0 ≤ o.feastol)
  (D : DcData (Fin m.var.total) {p : Fin ng // (pwl1Row (gc0 p)).model = 2} W)
  (hD : D = dcData d.base (fun p => pwl1Row (gc0 p)) u nb (nb + ng) (dc_width hm g))
  (s : DcRes nb ng nl) (hs : dcopfSolver d m (HH D) (CC D) (C0 D) o solve x0 = some s) (hok : s.success = true)

include hlin hm g in
theorem y_width : nb + ng + nyOf (fun p => pwl1Row (gc0 p)) ≤ m.var.total := by
  obtain ⟨-, -, ht, -⟩ := linearOf_spec hm g
  rw [ht, dcy_varBlocks d _ lin post hlin, total_cons, total_cons]
  split_ifs with h
  · rw [h]; simp only; omega
  · rw [List.singleton_append, total_cons]; simp only; omega

include hgc hb hlin hm g hu hc hD hs hok

/-- On success each helper variable is at least the cost of its generator up to the tolerance; the objective is the sum of the polynomial costs, the helper
variables and the user costs. -/
theorem C83_helpers :
    (∀ p, s.PG p = d.base * s.x (nb + p)) ∧
    ((∀ r ∈ ayRows d.base (fun p => pwl1Row (gc0 p)), r.rhs < 10 ^ 10) → ∀ p, (pwl1Row (gc0 p)).model = 1 →
      pwlCost (pwl1Row (gc0 p)) (s.PG p) ≤ s.x (nb + ng + pwlPos (fun p => pwl1Row (gc0 p)) p) + s.tol) ∧
    s.f - u.offset = ∑ q : {p : Fin ng // (pwl1Row (gc0 p)).model = 2}, (rowPoly (pwl1Row (gc0 q))).eval (s.PG q) +
      ∑ p with (pwl1Row (gc0 p)).model = 1, s.x (nb + ng + pwlPos (fun p => pwl1Row (gc0 p)) p) + u.value (fun i => s.x i) := by
  have hgc' : ∀ p, CostOK ((fun p => pwl1Row (gc0 p)) p) := fun p => costOK_pwl1 (hgc p)
  have hf := C77_cost d _ m hm g _ _ _ o solve x0 s hs hc
  have hobj := objective_eq (fun p => pwl1Row (gc0 p)) hgc' d.base u nb (nb + ng) (dc_width hm g) (y_width d gc0 lin post hlin m hm g) hu.symm s.x
  unfold dcObjective at hobj
  rw [← hD] at hobj
  rw [hobj] at hf
  obtain ⟨-, hrows, -, hPG⟩ := C77_extra d _ m hm g _ _ _ o solve x0 s hs hok
  have hPG' : ∀ p, s.PG p = d.base * s.x (nb + p) := by
    intro p
    rw [hPG, (dc_starts d _).2.1, mul_comm]
  refine ⟨hPG', fun hbig p hp1 => ?_, ?_⟩
  · rw [hPG']
    have hy : nyOf (fun p => pwl1Row (gc0 p)) ≠ 0 := by
      have := pwlPos_lt (fun p => pwl1Row (gc0 p)) p hp1
      omega
    obtain ⟨f1, f2⟩ := subvec_PgY d (fun p => pwl1Row (gc0 p)) lin post hlin hy s.x
    have key := (ay_rows d.base hb (fun p => pwl1Row (gc0 p)) (fun p hp => by
      rcases costOK_cases (hgc' p) with h | h
      · exact h.2
      · exact absurd h.1 (by rw [hp]; omega))
      (subvec (varBlocks (dcOps d ++ (lin ++ (pwlOps d.base (fun p => pwl1Row (gc0 p)) ++ post)))) s.x (eff (varBlocks (dcOps d ++ (lin ++ (pwlOps d.base (fun p => pwl1Row (gc0 p)) ++ post)))) ["Pg", "y"])) s.tol).1 ?_ p hp1
    · rw [f1, f2 _ (pwlPos_lt (fun p => pwl1Row (gc0 p)) p hp1)] at key
      exact key
    · intro i r hi
      have hmem : ("ycon", (⟨ayMat (ng + nyOf (fun p => pwl1Row (gc0 p))) (ayRows d.base (fun p => pwl1Row (gc0 p))), [],
          (ayRows d.base (fun p => pwl1Row (gc0 p))).map fun r => ((r.rhs : ℝ) : EReal), ["Pg", "y"]⟩ : LinBlk)) ∈
          linBlks (lin ++ (pwlOps d.base (fun p => pwl1Row (gc0 p)) ++ post)) := by
        have e : ∀ a b : List Op, linBlks (a ++ b) = linBlks a ++ linBlks b := fun a b => by simp [linBlks]
        rw [e, e, pwlOps_linBlks _ _ hy]
        simp
      have hw := hrows _ hmem i (List.getElem?_eq_some_iff.1 hi).1
      rw [ycon_hi _ _ _ _ _ _ hi] at hw
      exact (within_upper hw (hbig r (List.mem_of_getElem? hi))).le
  · simp only [hPG']
    rw [hf]
    ring

/-- **C83 (reported cost).**  On success the cost of the reported dispatch, as `totcost` evaluates it from the cost table, plus the user costs, is at most the
reported objective (without the offset of C18), up to one tolerance for each generator with a piecewise linear cost; and equals it if there is none. -/
theorem C83_reported_cost (hbig : ∀ r ∈ ayRows d.base (fun p => pwl1Row (gc0 p)), r.rhs < 10 ^ 10) :
    ∃ F, totcost (List.ofFn gc0) (List.ofFn s.PG) = some F ∧
      F.sum + u.value (fun i => s.x i) ≤ s.f - u.offset + nyOf (fun p => pwl1Row (gc0 p)) * s.tol ∧
      (nyOf (fun p => pwl1Row (gc0 p)) = 0 → F.sum + u.value (fun i => s.x i) = s.f - u.offset) := by
  obtain ⟨F, hF, hsum⟩ := totcost_sum gc0 hgc s.PG
  refine ⟨F, hF, ?_⟩
  obtain ⟨-, h1, h2⟩ := C83_helpers d gc0 hgc hb lin post hlin m hm g u hu o solve x0 hc D hD s hs hok
  rw [hsum, h2, cost_split (fun p => pwl1Row (gc0 p)) (fun p => costOK_pwl1 (hgc p)) s.PG]
  constructor
  · have hle : ∑ p with (pwl1Row (gc0 p)).model = 1, pwlCost (pwl1Row (gc0 p)) (s.PG p) ≤
        ∑ p with (pwl1Row (gc0 p)).model = 1, (s.x (nb + ng + pwlPos (fun p => pwl1Row (gc0 p)) p) + s.tol) :=
      Finset.sum_le_sum fun p hp => h1 hbig p (Finset.mem_filter.1 hp).2
    rw [Finset.sum_add_distrib, Finset.sum_const, nsmul_eq_mul] at hle
    have hcard : (Finset.univ.filter fun p => (pwl1Row (gc0 p)).model = 1).card = nyOf (fun p => pwl1Row (gc0 p)) := by
      have := sum_pwl (fun p => pwl1Row (gc0 p)) fun _ _ => 1
      simp only [Finset.sum_const, nsmul_eq_mul, mul_one, Finset.card_univ, Fintype.card_fin] at this
      exact_mod_cast this.symm
    rw [hcard] at hle
    linarith
  · intro hy
    have hnone : (Finset.univ.filter fun p => (pwl1Row (gc0 p)).model = 1) = ∅ := by
      refine Finset.filter_eq_empty_iff.2 fun p _ hp => ?_
      have := pwlPos_lt (fun p => pwl1Row (gc0 p)) p hp
      omega
    rw [hnone]
    simp

include hft in
/-- **C83 (least cost).**  On success the reported objective is at most the cost of any other way to supply the demand within all limits — any angles `va`,
outputs `pg` and further variables `z` at which the further constraints hold too — up to `gap`, which vanishes with the solver's tolerances. -/
theorem C83_least_cost (hstat : ∀ l, (d.branch l).stat = 0 ∨ (d.branch l).stat = 1) (va : Fin nb → ℝ) (pg : Fin ng → ℝ) (z : ℕ → ℝ)
    (ha : Alternative d va pg)
    (ho : Holds (varBlocks (dcOps d ++ (lin ++ (pwlOps d.base (fun p => pwl1Row (gc0 p)) ++ post)))) (lin ++ post)
      (stack d (fun p => pwl1Row (gc0 p)) va pg z)) :
    ∃ F, totcost (List.ofFn gc0) (List.ofFn pg) = some F ∧
      s.f - u.offset ≤ F.sum + u.value (fun i => stack d (fun p => pwl1Row (gc0 p)) va pg z i) +
        gap o (m.var.total + m.lin.total) ‖fun i : Fin m.var.total => s.x i‖ s.dual s.tol
          (∑ i : Fin m.var.total, |stack d (fun p => pwl1Row (gc0 p)) va pg z i - s.x i|) := by
  obtain ⟨F, hF, hsum⟩ := totcost_sum gc0 hgc pg
  refine ⟨F, hF, ?_⟩
  have hgc' : ∀ p, CostOK ((fun p => pwl1Row (gc0 p)) p) := fun p => costOK_pwl1 (hgc p)
  set gc : Fin ng → CostRow ℝ := fun p => pwl1Row (gc0 p) with hgcdef
  set y := stack d gc va pg z with hydef
  have y1 : ∀ b : Fin nb, y b = va b := by
    intro b
    simp [hydef, stack]
  have y2 : ∀ p : Fin ng, y (nb + p) = pg p / d.base := by
    intro p
    simp [hydef, stack]
  have y3 : ∀ p : Fin ng, (gc p).model = 1 → y (nb + ng + pwlPos gc p) = pwlCost (gc p) (pg p) := by
    intro p hp
    have hlt := pwlPos_lt gc p hp
    have hget : (ipwl gc).get ⟨pwlPos gc p, hlt⟩ = p := by
      have := (List.getElem?_eq_some_iff.1 (ipwl_at gc p hp)).2
      simpa using this
    have n1 : ¬ (nb + ng + pwlPos gc p < nb) := by omega
    have n2 : ¬ (nb + ng + pwlPos gc p - nb < ng) := by omega
    have e : nb + ng + pwlPos gc p - nb - ng = pwlPos gc p := by omega
    simp only [hydef, stack, dif_neg n1, dif_neg n2, e, dif_pos hlt, hget]
    simp [rowVal, hp]
  have hbne : d.base ≠ 0 := hb.ne'
  have y2' : ∀ p : Fin ng, d.base * y (nb + p) = pg p := fun p => by rw [y2]; field_simp
  have hsplitH : Holds (varBlocks (dcOps d ++ (lin ++ (pwlOps d.base gc ++ post)))) (dcOps d ++ (lin ++ (pwlOps d.base gc ++ post))) y := by
    have ho1 : Holds (varBlocks (dcOps d ++ (lin ++ (pwlOps d.base gc ++ post)))) lin y :=
      ⟨fun b hb' => ho.vars b (by simp only [varVals, List.filterMap_append, List.mem_append]; exact Or.inl hb'),
        fun b hb' => ho.rows b (by simp only [linBlks, List.filterMap_append, List.mem_append]; exact Or.inl hb')⟩
    have ho2 : Holds (varBlocks (dcOps d ++ (lin ++ (pwlOps d.base gc ++ post)))) post y :=
      ⟨fun b hb' => ho.vars b (by simp only [varVals, List.filterMap_append, List.mem_append]; exact Or.inr hb'),
        fun b hb' => ho.rows b (by simp only [linBlks, List.filterMap_append, List.mem_append]; exact Or.inr hb')⟩
    exact (alt_holds d hb hstat _ va pg ha y y1 y2).append (ho1.append ((pwl_holds d gc hgc' hb lin post hlin y fun p hp => by
      rw [y2', y3 p hp]).append ho2))
  have hsym := HH_symm D (by rw [hD]; exact hu.symm)
  have hpsd := HH_psd D (by subst hD; exact polycf_nonneg gc hgc' d.base u nb (nb + ng) (dc_width hm g)) (by rw [hD]; exact hu.psd)
  have main := dc_optimal hm g hs hc hft hsym hpsd hok y hsplitH
  have hobj := objective_eq gc hgc' d.base u nb (nb + ng) (dc_width hm g) (y_width d gc0 lin post hlin m hm g) hu.symm y
  unfold dcObjective at hobj
  rw [← hD] at hobj
  rw [hobj] at main
  have hsplit := cost_split gc hgc' pg
  have e1 : ∑ p with (gc p).model = 1, y (nb + ng + pwlPos gc p) = ∑ p with (gc p).model = 1, pwlCost (gc p) (pg p) :=
    Finset.sum_congr rfl fun p hp => y3 p (Finset.mem_filter.1 hp).2
  simp only [y2', e1] at main
  rw [hsum, hsplit]
  linarith

end

/-! ### The formulation can be built -/

theorem dcy_runs (d : Case nb ng nl) (gc : Fin ng → CostRow ℝ) : ∃ m, OpfModel.run (dcOps d ++ ([] ++ (pwlOps d.base gc ++ []))) = some m := by
  rw [List.nil_append, List.append_nil]
  by_cases hy : nyOf gc = 0
  · rw [show pwlOps d.base gc = [] by unfold pwlOps; rw [if_pos hy], List.append_nil]
    exact dc_runs d
  · unfold pwlOps
    rw [if_neg hy]
    simp only [OpfModel.run, dcOps, List.cons_append, List.nil_append, List.foldlM_cons, List.foldlM_nil, step, Model.addLin, storeVs, Model.resolve, Model.addVars,
      Idx.add, Model.init, Idx.empty]
    simp [Model.width, Dict.set, ayMat]

/-- With piecewise linear costs added, a well-posed case still gives a well-formed model. -/
theorem dcy_good {d : Case nb ng nl} (h : d.DcOK) (gc : Fin ng → CostRow ℝ) :
    Good (dcOps d ++ ([] ++ (pwlOps d.base gc ++ []))) := by
  by_cases hy : nyOf gc = 0
  · rw [show pwlOps d.base gc = [] by unfold pwlOps; rw [if_pos hy], List.append_nil, List.append_nil, List.append_nil]
    exact h.good
  have g := h.good
  have hvb := dcy_varBlocks d gc [] [] rfl
  rw [if_neg hy] at hvb
  have hpv : varVals (pwlOps d.base gc) = [("y", ⟨nyOf gc, none, none, none⟩)] := by unfold pwlOps; rw [if_neg hy]; rfl
  have hpl := pwlOps_linBlks d.base gc hy
  have hvv : varVals (dcOps d ++ ([] ++ (pwlOps d.base gc ++ []))) = varVals (dcOps d) ++ [("y", ⟨nyOf gc, none, none, none⟩)] := by
    rw [List.nil_append, List.append_nil, ← hpv]; simp [varVals]
  have hlb : linBlks (dcOps d ++ ([] ++ (pwlOps d.base gc ++ []))) = linBlks (dcOps d) ++
      [("ycon", ⟨ayMat (ng + nyOf gc) (ayRows d.base gc), [], (ayRows d.base gc).map fun r => ((r.rhs : ℝ) : EReal), ["Pg", "y"]⟩)] := by
    rw [List.nil_append, List.append_nil, ← hpl]; simp [linBlks]
  have hlb0 : linBlks (dcOps d) = [("Pmis", ⟨hcat (Bbus d.branch) d.negCg, vec d.bmis, vec d.bmis, ["Va", "Pg"]⟩),
      ("Pf", ⟨matOf d.BfIl, List.replicate d.il.length ⊥, vec d.upf, ["Va"]⟩),
      ("Pt", ⟨matOf (-d.BfIl), List.replicate d.il.length ⊥, vec d.upt, ["Va"]⟩)] := rfl
  refine ⟨?_, ?_, ?_, ?_, ?_, ?_⟩
  · rw [hvb]; simp [names, varBlocks]
  · rw [hlb, hlb0]; simp [names]
  · rw [hvv]
    intro b hb
    rcases List.mem_append.1 hb with hb | hb
    · exact g.varFits b hb
    · rw [List.mem_singleton] at hb
      subst hb
      simp [VarFits, orDefault]
  · rw [hlb, hlb0, hvb]
    simp only [List.cons_append, List.mem_cons, List.not_mem_nil, or_false, forall_eq_or_imp, forall_eq, List.nil_append]
    refine ⟨⟨by simp, ?_, Or.inr ?_, Or.inr ?_⟩, ⟨by simp, ?_, Or.inr ?_, Or.inr ?_⟩, ⟨by simp, ?_, Or.inr ?_, Or.inr ?_⟩, ⟨by simp, ?_, Or.inl rfl, Or.inr ?_⟩⟩ <;>
      simp [hcat, matOf, widthOf, eff, size, vec_length, ayMat]
  · rw [hvv]
    intro b hb
    rcases List.mem_append.1 hb with hb | hb
    · exact g.varSane b hb
    · rw [List.mem_singleton] at hb
      subst hb
      intro i hi
      have e1 : VarVals.lo ⟨nyOf gc, none, none, none⟩ i = ⊥ := by
        simp only at hi
        simp [VarVals.lo, orDefault, hi]
      have e2 : VarVals.hi ⟨nyOf gc, none, none, none⟩ i = ⊤ := by
        simp only at hi
        simp [VarVals.hi, orDefault, hi]
      rw [e1, e2]
      exact sane_free
  · rw [hlb]
    intro b hb
    rcases List.mem_append.1 hb with hb | hb
    · exact g.linSane b hb
    · rw [List.mem_singleton] at hb
      subst hb
      intro i (hi : i < (ayRows d.base gc).length)
      rw [ycon_hi _ _ _ _ i _ (List.getElem?_eq_getElem hi)]
      have : LinBlk.lo ⟨ayMat (ng + nyOf gc) (ayRows d.base gc), [], (ayRows d.base gc).map fun r => ((r.rhs : ℝ) : EReal), ["Pg", "y"]⟩ i = ⊥ := by
        simp [LinBlk.lo]
      rw [this]
      exact sane_bot (EReal.coe_ne_bot _)

/-- **C83 (completes).**  For a well-posed case, whatever the cost table and user costs, the model can be built and `dcopf_solver` returns tables. -/
theorem C83_completes (d : Case nb ng nl) (h : d.DcOK) (gc : Fin ng → CostRow ℝ) :
    ∃ (m : Model) (hm : OpfModel.run (dcOps d ++ ([] ++ (pwlOps d.base gc ++ []))) = some m) (g : Good (dcOps d ++ ([] ++ (pwlOps d.base gc ++ [])))),
      ∀ (W : Type) [Fintype W] [DecidableEq W] (u : UserCost m.var.total W) (o : Opt) (solve : AnySolver) (x0 : Fin m.var.total → ℝ),
        ∃ s, dcopfSolver d m (HH (dcData d.base gc u nb (nb + ng) (dc_width hm g))) (CC (dcData d.base gc u nb (nb + ng) (dc_width hm g)))
          (C0 (dcData d.base gc u nb (nb + ng) (dc_width hm g))) o solve x0 = some s := by
  obtain ⟨m, hm⟩ := dcy_runs d gc
  have g := dcy_good h gc
  refine ⟨m, hm, g, fun W _ _ u o solve x0 => ?_⟩
  obtain ⟨q, hq, -, -, -, -, hok⟩ := linearOf_spec hm g
  obtain ⟨r, hr⟩ := C76_returns (qp (HH (dcData d.base gc u nb (nb + ng) (dc_width hm g))) (CC (dcData d.base gc u nb (nb + ng) (dc_width hm g)))) q o (solve _ _) x0 hok
  obtain ⟨i1, i2, i3, i4, i5⟩ := dc_idx hm g
  unfold dcopfSolver
  simp only [hq, hr, i1, i2, i3, i4, i5, Option.bind_eq_bind, Option.bind_some]
  exact ⟨_, rfl⟩

/-- 10 $/MWh up to 50 MW, 20 $/MWh from there to 200 MW. -/
def exGc : Fin 1 → CostRow ℝ := fun _ => ⟨1, 3, [0, 0, 50, 500, 200, 3500]⟩

theorem exGc_ok (p : Fin 1) : CostOK (exGc p) := by
  refine Or.inl ⟨⟨rfl, by simp [exGc], by simp [exGc], ?_⟩, ?_⟩
  · intro k hk
    have hk' : k + 1 < 3 := hk
    have hk2 : k < 2 := by omega
    interval_cases k <;> norm_num [exGc, bp, pairs]
  · intro k hk
    have hk' : k + 2 < 3 := hk
    have hk2 : k < 1 := by omega
    interval_cases k
    norm_num [exGc, slope, bp, pairs]

/-- No user costs. -/
def exUser (n : ℕ) : UserCost n (Fin 0) := ⟨0, 0, 0, 0, 0⟩

/-- A successful run on the example with a piecewise linear cost, and an alternative dispatch: 50 MW over an angle of 0.05 radians. -/
example : ∃ (m : Model) (hm : OpfModel.run (dcOps exCase ++ ([] ++ (pwlOps exCase.base (fun p => pwl1Row (exGc p)) ++ []))) = some m)
    (g : Good (dcOps exCase ++ ([] ++ (pwlOps exCase.base (fun p => pwl1Row (exGc p)) ++ [])))) (o : Opt) (s : DcRes 2 1 1)
    (D : DcData (Fin m.var.total) {p : Fin 1 // (pwl1Row (exGc p)).model = 2} (Fin 0)),
    D = dcData exCase.base (fun p => pwl1Row (exGc p)) (exUser _) 2 (2 + 1) (dc_width hm g) ∧ (∀ p, CostOK (exGc p)) ∧ 0 < exCase.base ∧
    (exUser m.var.total).Convex ∧ 0 < o.costMult ∧ 0 ≤ o.feastol ∧ dcopfSolver exCase m (HH D) (CC D) (C0 D) o (fun _ _ _ _ => none) 0 = some s ∧
    s.success = true ∧ (∀ r ∈ ayRows exCase.base (fun p => pwl1Row (exGc p)), r.rhs < 10 ^ 10) ∧ nyOf (fun p => pwl1Row (exGc p)) = 1 ∧
    Alternative exCase (fun b => if b = 0 then 0 else -0.05) (fun _ => 50) := by
  obtain ⟨m, hm, g, hall⟩ := C83_completes exCase exCase_ok (fun p => pwl1Row (exGc p))
  obtain ⟨q, hq, -, -, -, -, hok⟩ := linearOf_spec hm g
  obtain ⟨o, h1, h3, h2⟩ := exists_success (problem (qp (HH (dcData exCase.base (fun p => pwl1Row (exGc p)) (exUser _) 2 (2 + 1) (dc_width hm g)))
    (CC (dcData exCase.base (fun p => pwl1Row (exGc p)) (exUser _) 2 (2 + 1) (dc_width hm g)))) q) 0
  obtain ⟨s, hs⟩ := hall (Fin 0) (exUser _) o (fun _ _ _ _ => none) 0
  obtain ⟨q', r, hq', hr, e1, -⟩ := dc_ofSolver hm g hs
  rw [hq] at hq'; cases hq'
  refine ⟨m, hm, g, o, s, _, rfl, exGc_ok, exCase_ok.base, ⟨fun a => a.elim0, fun w => by simp⟩, h1, h3.le, hs, ?_, ?_, ?_, ?_⟩
  · rw [e1, (ofFull hr).2.1]; exact h2 _
  · intro r hr
    simp only [ayRows, makeAy, List.ofFn_succ, List.ofFn_zero, ayLoop, exGc, pwl1Row, ayCol, exCase] at hr
    norm_num [segRows, pairs] at hr
    rcases hr with rfl | rfl <;> norm_num
  · have : (pwl1Row (exGc 0)).model = 1 := by simp [pwl1Row, exGc]
    simp [nyOf, ipwl, List.finRange_succ, this]
  · refine ⟨fun b => ?_, fun l _ _ => ?_, fun p => ?_, fun b hb => ?_⟩
    · fin_cases b <;> norm_num [mismatchP, exCase, dcFlow, Finset.sum_filter]
    · norm_num [exCase, dcFlow, abs_le]
    · norm_num [exCase]
    · have : b = 0 := by simpa [exCase] using hb
      simp [this, Case.vaRad, exCase]

end Verif.Opf
