import Verif.OpfNl.HessLemmas

/-!
# C75: the Hessian of the Lagrangian of the AC OPF
-/

open Matrix ComplexConjugate

namespace Verif.OpfNl

open Verif.Derivs Verif.Network Verif.OpfCost Verif.Cost Verif.NumPy

noncomputable section

variable {nb ng nl : Nat}

/-- The gradient of the Lagrangian with respect to variable `j`, put together from what `opf_costfcn` (`grad`) and `opf_consfcn` return. -/
def lagrangianGradient (d : Nl nb ng nl) (grad : Nat → ℝ) (y : Nat → ℝ) (lamP lamQ : Fin nb → ℝ) (muF muT : Fin nl → ℝ) (costMult : ℝ) (j : Nat) : ℝ :=
  costMult * grad j + (∑ i, lamP i * d.dg y (.inl i) j + ∑ i, lamQ i * d.dg y (.inr i) j) +
    (∑ l, muF l * d.dh y (.inl l) j + ∑ l, muT l * d.dh y (.inr l) j)

/-- The Lagrangian as a function of the variables: total cost (C19), mismatches and squared flows weighted by the multipliers.  Constants (ratings) are left out. -/
def lagrangian (d : Nl nb ng nl) (lamP lamQ : Fin nb → ℝ) (muF muT : Fin nl → ℝ) (costMult : ℝ) (y : Nat → ℝ) : ℝ :=
  costMult * d.cost.total y + (∑ i, lamP i * d.g y (.inl i) + ∑ i, lamQ i * d.g y (.inr i)) +
    (∑ l, muF l * limited d.lim d.f d.Yf (d.V y) l ^ 2 + ∑ l, muT l * limited d.lim d.t d.Yt (d.V y) l ^ 2)

theorem total_partial (c : AcData) (h : AcOk c) (x : Nat → ℝ) {grad : Nat → ℝ} (hg : c.df x = some grad)
    (hk : c.kind ≠ .pyFloat ∨ ∃ i, i < c.gencost.length ∧ (c.row i).model = 2)
    (hu : c.user = true → (∀ i, i < c.P.nw → 0 ≤ c.P.kk i) ∧ (∀ i, i < c.P.nw → c.P.kk i = 0 ∨ |c.P.r x i| ≠ c.P.kk i) ∧
      ∀ a b, a < c.P.nw → b < c.P.nw → c.P.H a b = c.P.H b a) {j : Nat} (hj : j < c.P.nx) : PartialX c.total x j (grad j) := by
  obtain ⟨g, hg', hd⟩ := C19_gradient c h x hk hu
  rw [hg] at hg'
  obtain rfl := Option.some_inj.1 hg'
  have h1 := hd fun i => if i = j then 1 else 0
  have h2 : HasDerivAt (fun t : ℝ => t - x j) 1 (x j) := (hasDerivAt_id _).sub_const _
  have h4 := HasDerivAt.comp_of_eq (x j) h1 h2 (sub_self _).symm
  unfold PartialX
  refine (h4.congr_deriv ?_).congr_of_eventuallyEq (Filter.Eventually.of_forall fun t => ?_)
  · simp [hj]
  · simp only [Function.comp]
    congr 1
    funext i
    by_cases hi : i = j
    · subst hi; simp
    · simp [hi]

/-- **C75**, first derivatives: `lagrangianGradient` is the gradient of the Lagrangian. -/
theorem C75_gradient (d : Nl nb ng nl) (hl : Layout d) (hc : AcOk d.cost) (hb : d.cost.base ≠ 0) (hon : ∀ g, (d.gen g).stat > 0)
    (hk : d.cost.kind ≠ .pyFloat ∨ ∃ i, i < d.cost.gencost.length ∧ (d.cost.row i).model = 2) (x : Nat → ℝ)
    (hu : d.cost.user = true → (∀ i, i < d.cost.P.nw → 0 ≤ d.cost.P.kk i) ∧
      (∀ i, i < d.cost.P.nw → d.cost.P.kk i = 0 ∨ |d.cost.P.r x i| ≠ d.cost.P.kk i) ∧ ∀ a b, a < d.cost.P.nw → b < d.cost.P.nw → d.cost.P.H a b = d.cost.P.H b a)
    (hm : ∀ b : Fin nb, 0 < x (d.iVm + b)) (lamP lamQ : Fin nb → ℝ) (muF muT : Fin nl → ℝ) (costMult : ℝ) (grad : Nat → ℝ)
    (hg : d.cost.df x = some grad) (j : Nat) (hj : j < d.cost.P.nx) :
    PartialX (lagrangian d lamP lamQ muF muT costMult) x j (lagrangianGradient d grad x lamP lamQ muF muT costMult j) := by
  unfold lagrangian lagrangianGradient
  refine HasDerivAt.add (HasDerivAt.add (HasDerivAt.const_mul _ (total_partial d.cost hc x hg hk hu hj)) (HasDerivAt.add ?_ ?_)) (HasDerivAt.add ?_ ?_)
  · exact HasDerivAt.fun_sum fun i _ => HasDerivAt.const_mul _ (C74_dg d hl x hb hm hon (.inl i) j)
  · exact HasDerivAt.fun_sum fun i _ => HasDerivAt.const_mul _ (C74_dg d hl x hb hm hon (.inr i) j)
  · exact HasDerivAt.fun_sum fun l _ => HasDerivAt.const_mul _ (C74_dh d hl x hm l j).1
  · exact HasDerivAt.fun_sum fun l _ => HasDerivAt.const_mul _ (C74_dh d hl x hm l j).2

/-- **C75** (the part that holds): with one (active power) cost row per generator and at least one constrained branch, `opf_hessfcn` returns the matrix of
derivatives of the gradient of the Lagrangian, for all multipliers, all three kinds of flow limit, polynomial generator costs and user costs (away from
the edges of dead zones).  By `C75_gradient` that gradient is the gradient of the Lagrangian.
Missing: reactive cost rows, no constrained branch, where the code fails: `C75_negation_qcost`, `C75_negation_unconstrained`. -/
theorem C75_partial (d : Nl nb ng nl) (hl : Layout d) (hc : AcOk d.cost) (hlen : d.cost.gencost.length = ng) (hnl : nl ≠ 0)
    (hk : d.cost.kind ≠ .pyFloat ∨ ∃ i, i < d.cost.gencost.length ∧ (d.cost.row i).model = 2) (x : Nat → ℝ)
    (hu : d.cost.user = true → (∀ i, i < d.cost.P.nw → 0 ≤ d.cost.P.kk i) ∧
      ∀ i, i < d.cost.P.nw → d.cost.P.kk i = 0 ∨ |d.cost.P.r x i| ≠ d.cost.P.kk i)
    (hm : ∀ b : Fin nb, 0 < x (d.iVm + b)) (lamP lamQ : Fin nb → ℝ) (muF muT : Fin nl → ℝ) (costMult : ℝ) :
    ∃ (H : Nat → Nat → ℝ) (grad : (Nat → ℝ) → Nat → ℝ), d.hess x lamP lamQ muF muT costMult = some H ∧ (∀ y, d.cost.df y = some (grad y)) ∧
      ∀ j k, k < d.cost.P.nx → PartialX (fun y => lagrangianGradient d (grad y) y lamP lamQ muF muT costMult j) x k (H j k) := by
  obtain ⟨H, grad, hH, hg, hd⟩ := cost_part d.cost hc (by rw [hlen, hl.ng_eq]) x hk hu
  refine ⟨_, grad, by unfold Nl.hess; rw [hH]; simp only [Option.bind_eq_bind, Option.bind_some, if_neg hnl]; rfl, hg, fun j k hkn => ?_⟩
  unfold lagrangianGradient
  refine HasDerivAt.add (HasDerivAt.add ?_ (bus_part d hl x hm lamP lamQ j k))
    (HasDerivAt.add (flow_part d hl x hm d.lim d.f d.Yf muF j k) (flow_part d hl x hm d.lim d.t d.Yt muT j k))
  exact (HasDerivAt.const_mul costMult (hd j k hkn)).congr_deriv (mul_comm _ _)

/-- **C75** (negation): with reactive power cost rows the Hessian cannot be computed at all. -/
theorem C75_negation_qcost (d : Nl nb ng nl) (hl : Layout d) (hng : ng ≠ 0) (hlen : ng < d.cost.gencost.length) (x : Nat → ℝ)
    (lamP lamQ : Fin nb → ℝ) (muF muT : Fin nl → ℝ) (costMult : ℝ) : d.hess x lamP lamQ muF muT costMult = none := by
  have h := hl.ng_eq
  have hq : d2fQg d.cost = none := by unfold d2fQg; rw [if_pos (by omega), if_neg (by omega)]
  unfold Nl.hess d2f
  rw [hq]
  cases d2fPg d.cost x <;> rfl

/-- **C75** (negation): nor can it without any constrained branch. -/
theorem C75_negation_unconstrained (d : Nl nb ng 0) (x : Nat → ℝ)
    (lamP lamQ : Fin nb → ℝ) (muF muT : Fin 0 → ℝ) (costMult : ℝ) : d.hess x lamP lamQ muF muT costMult = none := by
  unfold Nl.hess
  cases d2f d.cost x <;> rfl

/-! Non-vacuity: two buses, one generator, one branch. -/

def exNl : Nl 2 1 1 where
  bus _ := ⟨50, 10, 0, 0⟩
  gen _ := ⟨0, 60, 20, 1⟩
  f _ := 0
  t _ := 1
  rateA _ := 80
  Y := fun i j => if i = j then -10 * Complex.I else 10 * Complex.I
  Yf := fun _ j => if j = 0 then -10 * Complex.I else 10 * Complex.I
  Yt := fun _ j => if j = 1 then -10 * Complex.I else 10 * Complex.I
  lim := 0
  iVa := 0
  iVm := 2
  cost := ⟨100, .pyFloat, 1, [⟨2, 3, [1, 2, 3, 0]⟩], 4, 5, 6, 0, false, ⟨0, 6, fun _ _ => 0, fun _ => 0, fun _ _ => 0, fun _ => 1, fun _ => 0, fun _ => 0, fun _ => 1⟩⟩

theorem exNl_layout : Layout exNl := ⟨rfl, rfl, rfl, rfl, rfl⟩

theorem exNl_ok : AcOk exNl.cost where
  len := by simp [exNl]
  poly := by
    intro r hr hm
    simp only [exNl, List.mem_cons, List.not_mem_nil, or_false] at hr
    rw [hr]
    exact ⟨rfl, by simp, by simp⟩
  hP := by simp [exNl]
  hQ := by simp [exNl]
  hy := by simp [exNl]
  disj := by simp [exNl]

def exX (j : Nat) : ℝ := if j = 2 ∨ j = 3 then 1 else 0

theorem exX_pos (b : Fin 2) : 0 < exX (exNl.iVm + b) := by fin_cases b <;> simp [exX, exNl]

example (lamP lamQ : Fin 2 → ℝ) (muF muT : Fin 1 → ℝ) : ∃ H, exNl.hess exX lamP lamQ muF muT 1 = some H :=
  (C75_partial exNl exNl_layout exNl_ok rfl (by decide) (Or.inr ⟨0, by simp [exNl], by simp [exNl, AcData.row]⟩) exX (by simp [exNl]) exX_pos
    lamP lamQ muF muT 1).imp fun _ ⟨_, h, _⟩ => h

example (i : Fin 2 ⊕ Fin 2) (k : Nat) : PartialX (fun y => exNl.g y i) exX k (exNl.dg exX i k) :=
  C74_dg exNl exNl_layout exX (by simp [exNl]) exX_pos (fun g => by simp [exNl]) i k

/-- The bus equations and the limit of the example: at flat voltage nothing flows, so the demand is not met and the limit holds. -/
example : (¬ ∀ i, exNl.g exX i = 0) ∧ exNl.h exX (.inl 0) ≤ 0 := by
  have hV : exNl.V exX = fun _ => 1 := by
    funext b; fin_cases b <;> simp [Nl.V, exNl, exX]
  constructor
  · rw [C73_balance exNl exX (by simp [exNl])]
    intro h
    have := congrArg Complex.re (h 1)
    rw [hV] at this
    simp [exNl, injection, exX, Fin.sum_univ_two] at this
  · rw [(C73_limits exNl exX (by simp [exNl]) 0).1]
    right
    rw [hV]
    simp [limited, exNl, Fin.sum_univ_two]
    norm_num

end

end Verif.OpfNl
