import Verif.Constr.Lemmas

/-!
# C52, C53, C54: angle limits, constant power factor, capability curves
-/

open Verif.NumPy

namespace Verif.Constr

/-! ## C52 -/

/-- A branch has an angle limit worth a constraint: one of its limits is neither zero (no limit) nor a full turn. -/
def Limited (b : Branch) : Prop := (b.angmin ≠ 0 ∧ -360 < b.angmin) ∨ (b.angmax ≠ 0 ∧ b.angmax < 360)

/-- The angle difference of a branch (radians) respects its limits (degrees); a limit of zero means no limit. -/
def AngleOk (b : Branch) (theta : Nat → ℝ) : Prop :=
  (b.angmin ≠ 0 → b.angmin * Real.pi / 180 ≤ theta b.f - theta b.t)
    ∧ (b.angmax ≠ 0 → theta b.f - theta b.t ≤ b.angmax * Real.pi / 180)

theorem hasAngleLimit_iff (b : Branch) : hasAngleLimit b = true ↔ Limited b := by
  unfold hasAngleLimit Limited; simp

/-- The constraints returned when limits are not ignored. -/
theorem makeAang_eq (nb : Nat) (branch : List Branch) (hnb : ∀ b ∈ branch, b.f < nb ∧ b.t < nb) :
    ∃ c, makeAang false nb branch = some c ∧ c.n = (find (branch.map hasAngleLimit)).length
      ∧ c.index = find (branch.map hasAngleLimit)
      ∧ (0 < c.n → c.A = twoBlocks c.n ((branch.filter hasAngleLimit).map Branch.f)
            ((branch.filter hasAngleLimit).map Branch.t) (List.replicate c.n 1) (List.replicate c.n (-1))
          ∧ c.lower = (branch.filter hasAngleLimit).map (fun b =>
              if @decide (b.angmin ≠ 0) (Classical.dec _) then ((b.angmin * Real.pi / 180 : ℝ) : EReal) else ⊥)
          ∧ c.upper = (branch.filter hasAngleLimit).map (fun b =>
              if @decide (b.angmax ≠ 0) (Classical.dec _) then ((b.angmax * Real.pi / 180 : ℝ) : EReal) else ⊤)) := by
  have hlen : (find (branch.map hasAngleLimit)).length = (branch.filter hasAngleLimit).length := find_map_length _ _
  unfold makeAang
  simp only [Bool.false_eq_true, if_false, gather_find, Option.bind_eq_bind, Option.bind_some]
  by_cases h0 : (find (branch.map hasAngleLimit)).length = 0
  · rw [if_pos h0]
    exact ⟨_, rfl, h0.symm, rfl, fun h => absurd h (by simp)⟩
  · rw [if_neg h0]
    have hany : ((branch.filter hasAngleLimit).any fun b => decide (nb ≤ b.f) || decide (nb ≤ b.t)) = false := by
      rw [List.any_eq_false]
      intro b hb
      have := hnb b (List.mem_of_mem_filter hb)
      simp only [Bool.or_eq_true, decide_eq_true_eq]; omega
    rw [hany]
    simp only [Bool.false_eq_true, if_false, hlen]
    rw [scatter_fill _ _ (fun b : Branch => ((b.angmin * Real.pi / 180 : ℝ) : EReal)) ⊥]
    simp only [Option.bind_some]
    rw [scatter_fill _ _ (fun b : Branch => ((b.angmax * Real.pi / 180 : ℝ) : EReal)) ⊤]
    exact ⟨_, rfl, rfl, rfl, fun _ => ⟨rfl, rfl, rfl⟩⟩

/-- **C52.** For every branch table with valid bus numbers the constraints hold at `theta` iff every branch with a
non-trivial limit keeps its angle difference within its limits; the reported index lists exactly these branches. -/
theorem C52 (nb : Nat) (branch : List Branch) (hnb : ∀ b ∈ branch, b.f < nb ∧ b.t < nb) :
    ∃ c, makeAang false nb branch = some c
      ∧ (∀ i : Nat, i ∈ c.index ↔ ∃ b, branch[i]? = some b ∧ Limited b)
      ∧ ∀ theta : Nat → ℝ, c.Holds theta ↔ ∀ b ∈ branch, Limited b → AngleOk b theta := by
  obtain ⟨c, hc, hn, hidx, hrest⟩ := makeAang_eq nb branch hnb
  have hlen : c.n = (branch.filter hasAngleLimit).length := hn.trans (find_map_length _ _)
  refine ⟨c, hc, ?_, ?_⟩
  · intro i
    rw [hidx, mem_find, List.getElem?_map]
    cases branch[i]? with
    | none => simp
    | some b => simp [hasAngleLimit_iff]
  · intro theta
    have hrow : c.Holds theta ↔ ∀ (k : Nat) (b : Branch), (branch.filter hasAngleLimit)[k]? = some b → AngleOk b theta := by
      unfold Lin.Holds
      constructor
      · intro h k b hb
        have hk : k < c.n := by rw [hlen]; exact (List.getElem?_eq_some_iff.1 hb).1
        obtain ⟨hA, hl, hu⟩ := hrest (by omega)
        obtain ⟨⟨l, hl1, hl2⟩, ⟨u, hu1, hu2⟩⟩ := h k hk
        have hbk : (branch.filter hasAngleLimit)[k]'(by omega) = b := (List.getElem?_eq_some_iff.1 hb).2
        rw [hA, row_twoBlocks _ _ _ _ _ (by simp [hlen]) (by simp [hlen]) (by simp) (by simp) _ _ hk] at hl2 hu2
        simp only [List.getElem_map, List.getElem_replicate, hbk, one_mul, neg_one_mul, ← sub_eq_add_neg] at hl2 hu2
        rw [hl, List.getElem?_map, hb] at hl1
        rw [hu, List.getElem?_map, hb] at hu1
        simp only [Option.map_some, Option.some.injEq] at hl1 hu1
        constructor
        · intro h0
          rw [← hl1, if_pos (by simpa using h0)] at hl2
          exact EReal.coe_le_coe_iff.1 hl2
        · intro h0
          rw [← hu1, if_pos (by simpa using h0)] at hu2
          exact EReal.coe_le_coe_iff.1 hu2
      · intro h k hk
        have hk' : k < (branch.filter hasAngleLimit).length := by omega
        obtain ⟨hA, hl, hu⟩ := hrest (by omega)
        have hb := List.getElem?_eq_getElem hk'
        obtain ⟨h1, h2⟩ := h k _ hb
        rw [hA, row_twoBlocks _ _ _ _ _ (by simp [hlen]) (by simp [hlen]) (by simp) (by simp) _ _ hk, hl, hu]
        simp only [List.getElem_map, List.getElem_replicate, one_mul, neg_one_mul, ← sub_eq_add_neg,
          List.getElem?_map, hb, Option.map_some, Option.some.injEq, exists_eq_left']
        constructor
        · by_cases h0 : (branch.filter hasAngleLimit)[k].angmin = 0
          · simp [h0]
          · rw [if_pos (by simpa using h0)]
            exact EReal.coe_le_coe_iff.2 (h1 h0)
        · by_cases h0 : (branch.filter hasAngleLimit)[k].angmax = 0
          · simp [h0]
          · rw [if_pos (by simpa using h0)]
            exact EReal.coe_le_coe_iff.2 (h2 h0)
    rw [hrow]
    constructor
    · intro h b hb hlim
      have hmem : b ∈ branch.filter hasAngleLimit := List.mem_filter.2 ⟨hb, (hasAngleLimit_iff b).2 hlim⟩
      obtain ⟨k, hk⟩ := List.mem_iff_getElem?.1 hmem
      exact h k b hk
    · intro h k b hk
      have := List.mem_filter.1 (List.mem_of_getElem? hk)
      exact h b this.1 ((hasAngleLimit_iff b).1 this.2)

/-- **C52, option.** With the limits ignored there is no constraint, whatever the branches. -/
theorem C52_ignored (nb : Nat) (branch : List Branch) :
    ∃ c, makeAang true nb branch = some c ∧ ∀ theta : Nat → ℝ, c.Holds theta := by
  refine ⟨⟨0, [], [], [], []⟩, rfl, ?_⟩
  intro theta i hi
  simp at hi

/-- Non-vacuity: one limited branch (30 degrees), violated by a difference of one radian and met by zero. -/
example : ∃ c, makeAang false 2 [⟨0, 1, -30, 30⟩] = some c ∧ c.Holds (fun _ => 0)
    ∧ ¬ c.Holds (fun i => if i = 0 then 1 else 0) := by
  obtain ⟨c, hc, -, h⟩ := C52 2 [⟨0, 1, -30, 30⟩] (by simp)
  have hlim : Limited ⟨0, 1, -30, 30⟩ := Or.inl ⟨by norm_num, by norm_num⟩
  have hpi := Real.two_le_pi
  have hpi' := Real.pi_le_four
  refine ⟨c, hc, (h _).2 ?_, fun hh => ?_⟩
  · intro b hb _
    rw [List.mem_singleton.1 hb]
    exact ⟨fun _ => by simp only; linarith, fun _ => by simp only; linarith⟩
  · have := ((h _).1 hh ⟨0, 1, -30, 30⟩ (by simp) hlim).2 (by norm_num)
    norm_num at this
    linarith

/-! ## C53 -/

/-- A dispatchable load with a reactive limit: PMIN negative, PMAX zero, some reactive limit non-zero. -/
def VarLoad (g : Gen) : Prop := g.pmin < 0 ∧ g.pmax = 0 ∧ (g.qmin ≠ 0 ∨ g.qmax ≠ 0)

/-- The reactive limit that defines the power factor: the non-zero one of the two. -/
def PfLimit (g : Gen) (q : ℝ) : Prop := (g.qmin = 0 ∧ q = g.qmax) ∨ (g.qmax = 0 ∧ q = g.qmin)

theorem isVarLoad_iff (baseMVA : ℝ) (hb : 0 < baseMVA) (g : Gen) : isVarLoad baseMVA g = true ↔ VarLoad g := by
  unfold isVarLoad isload VarLoad
  simp [hb.ne', and_assoc]

theorem sin_arctan2 (y x : ℝ) (hx : x ≠ 0) :
    Real.sin (arctan2 y x) = y / ‖(⟨x, y⟩ : ℂ)‖ ∧ Real.cos (arctan2 y x) = x / ‖(⟨x, y⟩ : ℂ)‖ ∧ 0 < ‖(⟨x, y⟩ : ℂ)‖ := by
  have hz : (⟨x, y⟩ : ℂ) ≠ 0 := fun h => hx (congrArg Complex.re h)
  refine ⟨?_, ?_, norm_pos_iff.2 hz⟩
  · rw [arctan2, Complex.sin_arg]
  · rw [arctan2, Complex.cos_arg hz]

/-- The constraints returned by `makeAvl`, row by row. -/
theorem makeAvl_holds (baseMVA : ℝ) (gen : List Gen) :
    ∃ c, makeAvl baseMVA gen = some c ∧ c.index = find (gen.map (isVarLoad baseMVA))
      ∧ ∀ x : Nat → ℝ, c.Holds x ↔ ∀ (i : Nat) (g : Gen), gen[i]? = some g → isVarLoad baseMVA g = true →
          Real.sin (arctan2 (qlim baseMVA g) (g.pmin / baseMVA)) * x i
            + -Real.cos (arctan2 (qlim baseMVA g) (g.pmin / baseMVA)) * x (i + gen.length) = 0 := by
  have hlen : (find (gen.map (isVarLoad baseMVA))).length = (gen.filter (isVarLoad baseMVA)).length := find_map_length _ _
  unfold makeAvl
  simp only [gather_find, Option.bind_eq_bind, Option.bind_some]
  refine ⟨_, rfl, rfl, ?_⟩
  intro x
  rw [← forall_flagged gen (isVarLoad baseMVA) (fun i g =>
    Real.sin (arctan2 (qlim baseMVA g) (g.pmin / baseMVA)) * x i
      + -Real.cos (arctan2 (qlim baseMVA g) (g.pmin / baseMVA)) * x (i + gen.length) = 0)]
  unfold Lin.Holds
  constructor
  · intro h k i g hk hg
    have hkl : k < (find (gen.map (isVarLoad baseMVA))).length := (List.getElem?_eq_some_iff.1 hk).1
    have hki : (find (gen.map (isVarLoad baseMVA)))[k] = i := (List.getElem?_eq_some_iff.1 hk).2
    have hkg : (gen.filter (isVarLoad baseMVA))[k]'(by omega) = g := (List.getElem?_eq_some_iff.1 hg).2
    obtain ⟨⟨l, hl1, hl2⟩, ⟨u, hu1, hu2⟩⟩ := h k hkl
    simp only [] at hl1 hu1 hl2 hu2
    rw [row_twoBlocks _ _ _ _ _ rfl (by simp) (by simp [hlen]) (by simp [hlen]) _ _ hkl] at hl2 hu2
    rw [List.getElem?_replicate, if_pos hkl, Option.some.injEq] at hl1 hu1
    rw [← hl1] at hl2
    rw [← hu1] at hu2
    simp only [List.getElem_map, hki, hkg] at hl2 hu2
    have h1 : (0 : ℝ) ≤ _ := EReal.coe_nonneg.1 hl2
    have h2 := EReal.coe_nonpos.1 hu2
    exact le_antisymm h2 h1
  · intro h k hkl
    simp only [] at hkl
    have hk := List.getElem?_eq_getElem hkl
    have hg := List.getElem?_eq_getElem (l := gen.filter (isVarLoad baseMVA)) (i := k) (by omega)
    have := h k _ _ hk hg
    simp only []
    rw [row_twoBlocks _ _ _ _ _ rfl (by simp) (by simp [hlen]) (by simp [hlen]) _ _ hkl]
    simp only [List.getElem_map, this, List.getElem?_replicate, if_pos hkl, Option.some.injEq, exists_eq_left',
      EReal.coe_zero, le_refl, and_self]

/-- **C53 (partial).** If at most one of the two reactive limits of each dispatchable load is non-zero, the constraints
hold at `[Pg, Qg]` iff for each load with a non-zero limit `q` the ratio of `Qg` to `Pg` is that of `q` to PMIN; the
index lists exactly these loads. Missing with respect to C53: ambiguous or inconsistent loads are not rejected, see
`C53_negation`. -/
theorem C53_partial (baseMVA : ℝ) (hb : 0 < baseMVA) (gen : List Gen)
    (hone : ∀ g ∈ gen, VarLoad g → g.qmin = 0 ∨ g.qmax = 0) :
    ∃ c, makeAvl baseMVA gen = some c ∧ (∀ i : Nat, i ∈ c.index ↔ ∃ g, gen[i]? = some g ∧ VarLoad g)
      ∧ ∀ x : Nat → ℝ, c.Holds x ↔
        ∀ (i : Nat) (g : Gen) (q : ℝ), gen[i]? = some g → VarLoad g → q ≠ 0 → PfLimit g q →
          x i * q = x (gen.length + i) * g.pmin := by
  obtain ⟨c, hc, hidx, h⟩ := makeAvl_holds baseMVA gen
  refine ⟨c, hc, ?_, ?_⟩
  · intro i
    rw [hidx, mem_find, List.getElem?_map]
    cases gen[i]? with
    | none => simp
    | some g => simp [isVarLoad_iff baseMVA hb]
  · intro x
    rw [h x]
    have key : ∀ (i : Nat) (g : Gen), VarLoad g → ∀ q, q ≠ 0 → PfLimit g q →
        (Real.sin (arctan2 (qlim baseMVA g) (g.pmin / baseMVA)) * x i
            + -Real.cos (arctan2 (qlim baseMVA g) (g.pmin / baseMVA)) * x (i + gen.length) = 0
          ↔ x i * q = x (gen.length + i) * g.pmin) := by
      intro i g hv q hq hpf
      have hqlim : qlim baseMVA g = q / baseMVA := by
        unfold qlim
        rcases hpf with ⟨h1, rfl⟩ | ⟨h1, rfl⟩
        · simp [h1, hb.ne', hq]
        · simp [h1, hb.ne', hq]
      have hpm : g.pmin / baseMVA ≠ 0 := div_ne_zero hv.1.ne hb.ne'
      obtain ⟨hs, hcs, hpos⟩ := sin_arctan2 (qlim baseMVA g) (g.pmin / baseMVA) hpm
      rw [hs, hcs, hqlim, Nat.add_comm i]
      set r := ‖(⟨g.pmin / baseMVA, q / baseMVA⟩ : ℂ)‖ with hr
      have hr0 : r ≠ 0 := by rw [hqlim] at hpos; exact hpos.ne'
      have hb0 := hb.ne'
      have e : q / baseMVA / r * x i + -(g.pmin / baseMVA / r) * x (gen.length + i)
          = (x i * q - x (gen.length + i) * g.pmin) / (baseMVA * r) := by field_simp; ring
      rw [e, div_eq_zero_iff, or_iff_left (mul_ne_zero hb0 hr0), sub_eq_zero]
    constructor
    · intro hh i g q hi hv hq hpf
      exact (key i g hv q hq hpf).1 (hh i g hi ((isVarLoad_iff baseMVA hb g).2 hv))
    · intro hh i g hi hv
      have hv' := (isVarLoad_iff baseMVA hb g).1 hv
      rcases hone g (List.mem_of_getElem? hi) hv' with h0 | h0
      · have hq : g.qmax ≠ 0 := hv'.2.2.resolve_left (fun h => h h0)
        exact (key i g hv' g.qmax hq (Or.inl ⟨h0, rfl⟩)).2 (hh i g g.qmax hi hv' hq (Or.inl ⟨h0, rfl⟩))
      · have hq : g.qmin ≠ 0 := hv'.2.2.resolve_right (fun h => h h0)
        exact (key i g hv' g.qmin hq (Or.inr ⟨h0, rfl⟩)).2 (hh i g g.qmin hi hv' hq (Or.inr ⟨h0, rfl⟩))

/-- **C53, negation.** A load with two non-zero reactive limits is reported but not rejected: constraints are returned for
every table, and they force the reactive power of such a load to zero. -/
theorem C53_negation (baseMVA : ℝ) (hb : 0 < baseMVA) (gen : List Gen) (i : Nat) (g : Gen) (hi : gen[i]? = some g)
    (hv : VarLoad g) (h1 : g.qmin ≠ 0) (h2 : g.qmax ≠ 0) :
    avlAmbiguous baseMVA gen = true ∧ ∃ c, makeAvl baseMVA gen = some c
      ∧ ∀ x : Nat → ℝ, c.Holds x → x (gen.length + i) = 0 := by
  have hiv := (isVarLoad_iff baseMVA hb g).2 hv
  refine ⟨?_, ?_⟩
  · unfold avlAmbiguous
    rw [List.any_eq_true]
    exact ⟨g, List.mem_filter.2 ⟨List.mem_of_getElem? hi, hiv⟩, by simp [h1, h2, hb.ne']⟩
  · obtain ⟨c, hc, -, h⟩ := makeAvl_holds baseMVA gen
    refine ⟨c, hc, fun x hx => ?_⟩
    have hrow := (h x).1 hx i g hi hiv
    have hq : qlim baseMVA g = 0 := by unfold qlim; simp [h1, h2, hb.ne']
    have hpm : g.pmin / baseMVA ≠ 0 := div_ne_zero hv.1.ne hb.ne'
    obtain ⟨hs, hcs, hpos⟩ := sin_arctan2 (qlim baseMVA g) (g.pmin / baseMVA) hpm
    rw [hs, hcs] at hrow
    rw [hq] at hrow hpos
    simp only [zero_div, zero_mul, zero_add, neg_mul, neg_eq_zero, mul_eq_zero, div_eq_zero_iff, hpos.ne',
      or_false] at hrow
    rw [Nat.add_comm] at hrow
    rcases hrow with h3 | h3
    · rcases h3 with h3 | h3
      · exact absurd h3 hv.1.ne
      · exact absurd h3 hb.ne'
    · exact h3

/-- A load of 10 MW and 5 MVAr. -/
def exLoad : Gen := ⟨-10, -5, -10, 0, -5, 0, 0, 0, 0, 0, 0, 0⟩

/-- Non-vacuity: half the load at the same ratio meets the constraint. -/
example : ∃ c, makeAvl 100 [exLoad] = some c ∧ c.Holds (fun i => if i = 0 then -0.05 else -0.025) := by
  obtain ⟨c, hc, -, h⟩ := C53_partial 100 (by norm_num) [exLoad] (by
    intro g hg _; rw [List.mem_singleton.1 hg]; exact Or.inr rfl)
  refine ⟨c, hc, (h _).2 ?_⟩
  intro i g q hi _ hq hpf
  match i with
  | 0 =>
    have : g = exLoad := by simpa using hi.symm
    subst this
    rcases hpf with ⟨h0, -⟩ | ⟨-, rfl⟩
    · norm_num [exLoad] at h0
    · norm_num [exLoad]
  | i + 1 => simp at hi

/-! ## C54 -/

/-- Generator `g` has a capability curve given by valid data. -/
structure ValidCurve (g : Gen) : Prop where
  pc : g.pc1 < g.pc2
  upper : g.qc2max ≤ g.qc1max
  lower : g.qc1min ≤ g.qc2min

/-- The point is on or below the line through `(pc1, qc1max)` and `(pc2, qc2max)`: it does not exceed the height of the
line at `p`. -/
def BelowUpper (g : Gen) (p q : ℝ) : Prop := q ≤ g.qc1max + (p - g.pc1) * ((g.qc2max - g.qc1max) / (g.pc2 - g.pc1))

/-- The point is on or above the line through `(pc1, qc1min)` and `(pc2, qc2min)`. -/
def AboveLower (g : Gen) (p q : ℝ) : Prop := g.qc1min + (p - g.pc1) * ((g.qc2min - g.qc1min) / (g.pc2 - g.pc1)) ≤ q

/-- The point lies in the box of the generator. -/
def InBox (g : Gen) (p q : ℝ) : Prop := g.pmin ≤ p ∧ p ≤ g.pmax ∧ g.qmin ≤ q ∧ q ≤ g.qmax

theorem halfRows_holds (baseMVA : ℝ) (hb : 0 < baseMVA) (mask : Gen → Bool) (half : Gen → Half) (gen : List Gen)
    (hpos : ∀ g ∈ gen, mask g = true → (half g).b ≠ 0) :
    ∃ c, halfRows baseMVA mask half gen = some c ∧ c.index = find (gen.map mask)
      ∧ ∀ x : Nat → ℝ, c.Holds x ↔ ∀ (i : Nat) (g : Gen), gen[i]? = some g → mask g = true →
          (half g).a * (baseMVA * x i) + (half g).b * (baseMVA * x (gen.length + i)) ≤ (half g).ub := by
  have hlen : (find (gen.map mask)).length = (gen.filter mask).length := find_map_length _ _
  unfold halfRows
  simp only [gather_find, Option.bind_eq_bind, Option.bind_some]
  refine ⟨_, rfl, rfl, ?_⟩
  intro x
  have scale : ∀ (i : Nat) (g : Gen), g ∈ gen → mask g = true →
      ((half g).normalise.a * x i + (half g).normalise.b * x (i + gen.length) ≤ (half g).normalise.ub / baseMVA
        ↔ (half g).a * (baseMVA * x i) + (half g).b * (baseMVA * x (gen.length + i)) ≤ (half g).ub) := by
    intro i g hg hm
    have hb0 := hpos g hg hm
    unfold Half.normalise
    simp only
    set r := Real.sqrt ((half g).a ^ 2 + (half g).b ^ 2) with hr
    have hr0 : 0 < r := Real.sqrt_pos.2 (by have := sq_nonneg (half g).a; have := pow_pos (abs_pos.2 hb0) 2; rw [sq_abs] at this; linarith)
    rw [Nat.add_comm i]
    have e1 : (half g).a / r * x i + (half g).b / r * x (gen.length + i)
        = ((half g).a * (baseMVA * x i) + (half g).b * (baseMVA * x (gen.length + i))) / (r * baseMVA) := by
      field_simp
    rw [e1, div_div, div_le_div_iff_of_pos_right (mul_pos hr0 hb)]
  rw [← forall_flagged gen mask (fun i g =>
    (half g).a * (baseMVA * x i) + (half g).b * (baseMVA * x (gen.length + i)) ≤ (half g).ub)]
  unfold Lin.Holds
  constructor
  · intro h k i g hk hg
    have hkl : k < (find (gen.map mask)).length := (List.getElem?_eq_some_iff.1 hk).1
    have hki : (find (gen.map mask))[k] = i := (List.getElem?_eq_some_iff.1 hk).2
    have hkg : (gen.filter mask)[k]'(by omega) = g := (List.getElem?_eq_some_iff.1 hg).2
    obtain ⟨-, ⟨u, hu1, hu2⟩⟩ := h k hkl
    have hmem := List.mem_filter.1 (List.mem_of_getElem? hg)
    simp only [] at hu1 hu2
    rw [row_twoBlocks _ _ _ _ _ rfl (by simp) (by simp [hlen]) (by simp [hlen]) _ _ hkl] at hu2
    rw [List.getElem?_map, List.getElem?_map, hg, Option.map_some, Option.map_some, Option.some.injEq] at hu1
    rw [← hu1] at hu2
    simp only [List.getElem_map, hki, hkg] at hu2
    exact (scale i g hmem.1 hmem.2).1 (EReal.coe_le_coe_iff.1 hu2)
  · intro h k hkl
    simp only [] at hkl
    have hk := List.getElem?_eq_getElem hkl
    have hkf : k < (gen.filter mask).length := by omega
    have hg := List.getElem?_eq_getElem hkf
    have hmem := List.mem_filter.1 (List.mem_of_getElem? hg)
    have := (scale _ _ hmem.1 hmem.2).2 (h k _ _ hk hg)
    simp only []
    rw [row_twoBlocks _ _ _ _ _ rfl (by simp) (by simp [hlen]) (by simp [hlen]) _ _ hkl]
    refine ⟨⟨⊥, by rw [List.getElem?_replicate, if_pos hkl], bot_le⟩, ?_⟩
    refine ⟨_, by rw [List.getElem?_map, List.getElem?_map, hg, Option.map_some, Option.map_some], ?_⟩
    simp only [List.getElem_map]
    exact EReal.coe_le_coe_iff.2 this

theorem hasPQcapU_iff (g : Gen) (hpc : g.pc1 < g.pc2) : hasPQcapU g = true ↔ ¬ BelowUpper g g.pmax g.qmax := by
  unfold hasPQcapU BelowUpper
  simp only [decide_eq_true_eq, not_le, mul_div_assoc, hpc.ne, ne_eq, not_false_eq_true, true_and]

theorem hasPQcapL_iff (g : Gen) (hpc : g.pc1 < g.pc2) : hasPQcapL g = true ↔ ¬ AboveLower g g.pmax g.qmin := by
  unfold hasPQcapL AboveLower
  simp only [decide_eq_true_eq, not_le, mul_div_assoc, hpc.ne, ne_eq, not_false_eq_true, true_and]

theorem upperHalf_iff (g : Gen) (hpc : g.pc1 < g.pc2) (p q : ℝ) :
    (upperHalf g).a * p + (upperHalf g).b * q ≤ (upperHalf g).ub ↔ BelowUpper g p q := by
  unfold upperHalf BelowUpper
  have h : 0 < g.pc2 - g.pc1 := sub_pos.2 hpc
  have e : g.qc1max + (p - g.pc1) * ((g.qc2max - g.qc1max) / (g.pc2 - g.pc1))
      = (g.qc1max * (g.pc2 - g.pc1) + (p - g.pc1) * (g.qc2max - g.qc1max)) / (g.pc2 - g.pc1) := by
    field_simp
  rw [e, le_div_iff₀ h]
  constructor <;> intro hh <;> simp only at * <;> nlinarith

theorem lowerHalf_iff (g : Gen) (hpc : g.pc1 < g.pc2) (p q : ℝ) :
    (lowerHalf g).a * p + (lowerHalf g).b * q ≤ (lowerHalf g).ub ↔ AboveLower g p q := by
  unfold lowerHalf AboveLower
  have h : 0 < g.pc2 - g.pc1 := sub_pos.2 hpc
  have e : g.qc1min + (p - g.pc1) * ((g.qc2min - g.qc1min) / (g.pc2 - g.pc1))
      = (g.qc1min * (g.pc2 - g.pc1) + (p - g.pc1) * (g.qc2min - g.qc1min)) / (g.pc2 - g.pc1) := by
    field_simp
  rw [e, div_le_iff₀ h]
  constructor <;> intro hh <;> simp only at * <;> nlinarith

/-- A generator has a curve (different PC1 and PC2) only with valid data. -/
def ValidData (gen : List Gen) : Prop := ∀ g ∈ gen, g.pc1 = g.pc2 ∨ ValidCurve g

/-- **C54, rows.** For a table with valid capability data, the upper rows hold at `[Pg, Qg]` iff every generator whose
corner (PMAX, QMAX) lies above its upper line is on or below that line, the lower rows iff every generator whose
corner (PMAX, QMIN) lies below its lower line is on or above it. The rows belong exactly to these generators: a
generator with the corner inside gets no row. -/
theorem C54_rows (baseMVA : ℝ) (hb : 0 < baseMVA) (gen : List Gen) (hv : ValidData gen) :
    ∃ h l, makeApq baseMVA gen = some (h, l)
      ∧ (∀ i : Nat, i ∈ h.index ↔ ∃ g, gen[i]? = some g ∧ g.pc1 ≠ g.pc2 ∧ ¬ BelowUpper g g.pmax g.qmax)
      ∧ (∀ i : Nat, i ∈ l.index ↔ ∃ g, gen[i]? = some g ∧ g.pc1 ≠ g.pc2 ∧ ¬ AboveLower g g.pmax g.qmin)
      ∧ (∀ x : Nat → ℝ, h.Holds x ↔ ∀ i ∈ h.index, ∀ g, gen[i]? = some g →
          BelowUpper g (baseMVA * x i) (baseMVA * x (gen.length + i)))
      ∧ ∀ x : Nat → ℝ, l.Holds x ↔ ∀ i ∈ l.index, ∀ g, gen[i]? = some g →
          AboveLower g (baseMVA * x i) (baseMVA * x (gen.length + i)) := by
  have hpcU : ∀ g ∈ gen, hasPQcapU g = true → g.pc1 < g.pc2 := by
    intro g hg hm
    rcases hv g hg with h | h
    · unfold hasPQcapU at hm; simp [h] at hm
    · exact h.pc
  have hpcL : ∀ g ∈ gen, hasPQcapL g = true → g.pc1 < g.pc2 := by
    intro g hg hm
    rcases hv g hg with h | h
    · unfold hasPQcapL at hm; simp [h] at hm
    · exact h.pc
  obtain ⟨h, hh, hi, hx⟩ := halfRows_holds baseMVA hb hasPQcapU upperHalf gen (by
    intro g hg hm; have := hpcU g hg hm; simp only [upperHalf]; exact (sub_pos.2 this).ne')
  obtain ⟨l, hl, li, lx⟩ := halfRows_holds baseMVA hb hasPQcapL lowerHalf gen (by
    intro g hg hm; have := hpcL g hg hm; simp only [lowerHalf]; exact (sub_neg.2 this).ne)
  refine ⟨h, l, by unfold makeApq; simp [hh, hl], ?_, ?_, ?_, ?_⟩
  · intro i
    rw [hi, mem_find, List.getElem?_map]
    cases hg : gen[i]? with
    | none => simp
    | some g =>
      simp only [Option.map_some, Option.some.injEq, exists_eq_left']
      constructor
      · intro hm
        have hp := hpcU g (List.mem_of_getElem? hg) hm
        exact ⟨hp.ne, (hasPQcapU_iff g hp).1 hm⟩
      · rintro ⟨hne, hnb⟩
        rcases hv g (List.mem_of_getElem? hg) with h | h
        · exact absurd h hne
        · exact (hasPQcapU_iff g h.pc).2 hnb
  · intro i
    rw [li, mem_find, List.getElem?_map]
    cases hg : gen[i]? with
    | none => simp
    | some g =>
      simp only [Option.map_some, Option.some.injEq, exists_eq_left']
      constructor
      · intro hm
        have hp := hpcL g (List.mem_of_getElem? hg) hm
        exact ⟨hp.ne, (hasPQcapL_iff g hp).1 hm⟩
      · rintro ⟨hne, hnb⟩
        rcases hv g (List.mem_of_getElem? hg) with h | h
        · exact absurd h hne
        · exact (hasPQcapL_iff g h.pc).2 hnb
  · intro x
    rw [hx x]
    constructor
    · intro hh i him g hg
      rw [hi, mem_find, List.getElem?_map, hg] at him
      have hm : hasPQcapU g = true := by simpa using him
      exact (upperHalf_iff g (hpcU g (List.mem_of_getElem? hg) hm) _ _).1 (hh i g hg hm)
    · intro hh i g hg hm
      refine (upperHalf_iff g (hpcU g (List.mem_of_getElem? hg) hm) _ _).2 (hh i ?_ g hg)
      rw [hi, mem_find, List.getElem?_map, hg]; simp [hm]
  · intro x
    rw [lx x]
    constructor
    · intro hh i him g hg
      rw [li, mem_find, List.getElem?_map, hg] at him
      have hm : hasPQcapL g = true := by simpa using him
      exact (lowerHalf_iff g (hpcL g (List.mem_of_getElem? hg) hm) _ _).1 (hh i g hg hm)
    · intro hh i g hg hm
      refine (lowerHalf_iff g (hpcL g (List.mem_of_getElem? hg) hm) _ _).2 (hh i ?_ g hg)
      rw [li, mem_find, List.getElem?_map, hg]; simp [hm]

/-- **C54.** For outputs within the boxes of the generators the rows hold iff every generator with a capability curve is
inside both lines: leaving out the redundant rows changes nothing. -/
theorem C54 (baseMVA : ℝ) (hb : 0 < baseMVA) (gen : List Gen) (hv : ValidData gen) :
    ∃ h l, makeApq baseMVA gen = some (h, l) ∧ ∀ x : Nat → ℝ,
      (∀ (i : Nat) (g : Gen), gen[i]? = some g → InBox g (baseMVA * x i) (baseMVA * x (gen.length + i))) →
      ((h.Holds x ∧ l.Holds x) ↔ ∀ (i : Nat) (g : Gen), gen[i]? = some g → g.pc1 ≠ g.pc2 →
        BelowUpper g (baseMVA * x i) (baseMVA * x (gen.length + i))
          ∧ AboveLower g (baseMVA * x i) (baseMVA * x (gen.length + i))) := by
  obtain ⟨h, l, hmk, hi, li, hx, lx⟩ := C54_rows baseMVA hb gen hv
  refine ⟨h, l, hmk, ?_⟩
  intro x hbox
  rw [hx x, lx x]
  constructor
  · rintro ⟨h1, h2⟩ i g hg hne
    have hc : ValidCurve g := (hv g (List.mem_of_getElem? hg)).resolve_left hne
    have hd : 0 < g.pc2 - g.pc1 := sub_pos.2 hc.pc
    have hpb := hbox i g hg
    constructor
    · by_cases hm : i ∈ h.index
      · exact h1 i hm g hg
      · have hin : BelowUpper g g.pmax g.qmax := by
          by_contra hcon
          exact hm ((hi i).2 ⟨g, hg, hne, hcon⟩)
        unfold BelowUpper at hin ⊢
        have hs : (g.qc2max - g.qc1max) / (g.pc2 - g.pc1) ≤ 0 :=
          div_nonpos_of_nonpos_of_nonneg (sub_nonpos.2 hc.upper) hd.le
        have hp := hpb.2.1
        have hq := hpb.2.2.2
        nlinarith
    · by_cases hm : i ∈ l.index
      · exact h2 i hm g hg
      · have hin : AboveLower g g.pmax g.qmin := by
          by_contra hcon
          exact hm ((li i).2 ⟨g, hg, hne, hcon⟩)
        unfold AboveLower at hin ⊢
        have hs : 0 ≤ (g.qc2min - g.qc1min) / (g.pc2 - g.pc1) := div_nonneg (sub_nonneg.2 hc.lower) hd.le
        have hp := hpb.2.1
        have hq := hpb.2.2.1
        nlinarith
  · intro hh
    refine ⟨fun i him g hg => ?_, fun i him g hg => ?_⟩
    · obtain ⟨g', hg', hne, -⟩ := (hi i).1 him
      have : g = g' := Option.some.inj (hg.symm.trans hg')
      subst this
      exact (hh i g hg hne).1
    · obtain ⟨g', hg', hne, -⟩ := (li i).1 him
      have : g = g' := Option.some.inj (hg.symm.trans hg')
      subst this
      exact (hh i g hg hne).2

/-- **C54, invalid data.** A generator with PC1 > PC2 is only reported, not rejected: if its corner lies above its upper
line, the row admits only points on or *above* that line. -/
theorem C54_reversed (baseMVA : ℝ) (hb : 0 < baseMVA) (gen : List Gen) (i : Nat) (g : Gen) (hi : gen[i]? = some g)
    (hpc : g.pc2 < g.pc1) (hcorner : ¬ BelowUpper g g.pmax g.qmax) :
    ∃ h l, makeApq baseMVA gen = some (h, l) ∧ ∀ x : Nat → ℝ, h.Holds x →
      g.qc1max + (baseMVA * x i - g.pc1) * ((g.qc2max - g.qc1max) / (g.pc2 - g.pc1)) ≤ baseMVA * x (gen.length + i) := by
  obtain ⟨h, hh, -, hx⟩ := halfRows_holds baseMVA hb hasPQcapU upperHalf gen (by
    intro g _ hm h0
    simp only [upperHalf, sub_eq_zero] at h0
    unfold hasPQcapU at hm
    simp [h0] at hm)
  obtain ⟨l, hl, -, -⟩ := halfRows_holds baseMVA hb hasPQcapL lowerHalf gen (by
    intro g _ hm h0
    simp only [lowerHalf, sub_eq_zero] at h0
    unfold hasPQcapL at hm
    simp [h0] at hm)
  refine ⟨h, l, by unfold makeApq; simp [hh, hl], ?_⟩
  intro x hxx
  have hm : hasPQcapU g = true := by
    unfold BelowUpper at hcorner
    rw [not_le] at hcorner
    unfold hasPQcapU
    simp only [decide_eq_true_eq, mul_div_assoc]
    exact ⟨hpc.ne', hcorner⟩
  have hrow := (hx x).1 hxx i g hi hm
  simp only [upperHalf] at hrow
  have hd : g.pc2 - g.pc1 < 0 := sub_neg.2 hpc
  have e : g.qc1max + (baseMVA * x i - g.pc1) * ((g.qc2max - g.qc1max) / (g.pc2 - g.pc1))
      = (g.qc1max * (g.pc2 - g.pc1) + (baseMVA * x i - g.pc1) * (g.qc2max - g.qc1max)) / (g.pc2 - g.pc1) := by
    field_simp [hd.ne]
  rw [e, div_le_iff_of_neg hd]
  nlinarith

/-- A generator with a sloped curve: at 0 MW from -50 to 50 MVAr, at 100 MW from -20 to 20 MVAr. -/
def exGen : Gen := ⟨0, 0, 0, 100, -50, 50, 0, 100, -50, 50, -20, 20⟩

theorem exGen_valid : ValidData [exGen] := by
  intro g hg
  rw [List.mem_singleton.1 hg]
  exact Or.inr ⟨by norm_num [exGen], by norm_num [exGen], by norm_num [exGen]⟩

/-- Non-vacuity: the generator gets a row, which the corner (100 MW, 50 MVAr) violates. -/
example : ∃ h l, makeApq 1 [exGen] = some (h, l) ∧ 0 ∈ h.index ∧ ¬ h.Holds (fun i => if i = 0 then 100 else 50) := by
  obtain ⟨h, l, hmk, hi, -, hx, -⟩ := C54_rows 1 one_pos [exGen] exGen_valid
  have hm : 0 ∈ h.index := (hi 0).2 ⟨exGen, rfl, by norm_num [exGen], by norm_num [BelowUpper, exGen]⟩
  refine ⟨h, l, hmk, hm, fun hh => ?_⟩
  have := (hx _).1 hh 0 hm exGen rfl
  norm_num [BelowUpper, exGen] at this

end Verif.Constr
