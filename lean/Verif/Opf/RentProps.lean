import Verif.Opf.PriceProps
import Verif.Opf.RentSpec

/-!
# C129: what consumption pays covers what generation is paid

The difference is what the binding limits of branches earn.
-/

namespace Verif.Opf

open Verif.Index (BusRow GenRow BranchRow IsArgsort WF GenInService BranchInService Connected)
open Verif.OpfModel Verif.Pips Verif.Network Verif.Cost Verif.OpfCost

/-! ### Lemmas -/

theorem sum_swap {α β : Type} (xs : List α) (ys : List β) (f : α → β → ℝ) :
    (xs.map fun x => (ys.map fun y => f x y).sum).sum = (ys.map fun y => (xs.map fun x => f x y).sum).sum := by
  induction xs with
  | nil => simp
  | cons x xs ih =>
    simp only [List.map_cons, List.sum_cons]
    rw [ih, ← List.sum_map_add]

theorem sum_filter_if {α : Type} (xs : List α) (p : α → Bool) (f : α → ℝ) : ((xs.filter p).map f).sum = (xs.map fun x => f x * if p x = true then 1 else 0).sum := by
  induction xs with
  | nil => simp
  | cons x xs ih =>
    rw [List.filter_cons, List.map_cons, List.sum_cons, ← ih]
    cases p x <;> simp

theorem onSum_le (t : Index.Case Tables) (F G : BranchRow BrD → ℝ) (h : ∀ l ∈ t.branch, BranchInService t l → F l ≤ G l) : onSum t F ≤ onSum t G := by
  unfold onSum
  refine List.sum_le_sum fun l hl => ?_
  split_ifs with hi
  · exact h l hl hi
  · exact le_rfl

/-- Finitely many numbers have a bound. -/
theorem exists_bound (A B C : Finset ℕ) (f g k : ℕ → ℝ) : ∃ M : ℝ, 0 ≤ M ∧ (∀ i ∈ A, f i ≤ M) ∧ (∀ i ∈ B, g i ≤ M) ∧ ∀ i ∈ C, k i ≤ M := by
  refine ⟨∑ i ∈ A, |f i| + ∑ i ∈ B, |g i| + ∑ i ∈ C, |k i|, ?_, ?_, ?_, ?_⟩
  · exact add_nonneg (add_nonneg (Finset.sum_nonneg fun _ _ => abs_nonneg _) (Finset.sum_nonneg fun _ _ => abs_nonneg _)) (Finset.sum_nonneg fun _ _ => abs_nonneg _)
  all_goals
    intro i hi
    have a1 : 0 ≤ ∑ i ∈ A, |f i| := Finset.sum_nonneg fun _ _ => abs_nonneg _
    have a2 : 0 ≤ ∑ i ∈ B, |g i| := Finset.sum_nonneg fun _ _ => abs_nonneg _
    have a3 : 0 ≤ ∑ i ∈ C, |k i| := Finset.sum_nonneg fun _ _ => abs_nonneg _
  · have := Finset.single_le_sum (f := fun i => |f i|) (fun _ _ => abs_nonneg _) hi
    linarith [le_abs_self (f i)]
  · have := Finset.single_le_sum (f := fun i => |g i|) (fun _ _ => abs_nonneg _) hi
    linarith [le_abs_self (g i)]
  · have := Finset.single_le_sum (f := fun i => |k i|) (fun _ _ => abs_nonneg _) hi
    linarith [le_abs_self (k i)]

section
variable {srt : List ℕ → List ℕ} (hs : IsArgsort srt) {base : ℝ} (hb : 0 < base) {E : Econ} {o : Opt} {solve : AnySolver} {c : Index.Case Tables} (h : WF c)
  (hcost : EconCosts c) (hst : ∀ l ∈ c.branch, l.status = 0 ∨ l.status = 1) (hc : 0 < o.costMult)
  (hgood : ∀ c' d, Index.ext2int srt c = some c' → readCase base c' = some d → Good (dcOps d ++ (econSetup base E).extra d c'))
  {r : Ret} (hrun : opfDcEcon srt base E o solve c = some r) (hok : r.success = true)
  (lam : ℕ → ℝ) (hlam : ∀ b ∈ r.tables.bus, lam b.num = b.data.LAM_P)

include hs hb h hcost hc hgood hrun hok hlam

/-- `C99_rent` for other potentials than the prices. -/
theorem rent_potential (φ : ℕ → ℝ) (φ0 : ℝ) (hφ : ∀ b ∈ r.tables.bus, b.typ = 3 → φ b.num = φ0) :
    |onSum r.tables fun l => (φ l.f - φ l.t) * worth E base lam l| ≤
      (r.tables.bus.map fun b => if b.typ = 4 ∨ b.typ = 3 then 0 else |φ b.num - φ0| *
        ((o.gradtol * (1 + r.dual) + 1 / 10 ^ 5 * (2 * (1 + scaleAt E r.tables b.num))) / o.costMult / base)).sum := by
  have hpr := C99_prices hs hb h hcost hc hgood hrun hok lam hlam
  obtain ⟨c', d, m, s, p, bp, gp, lp, R⟩ := econ_run hs h hcost.table hgood hrun
  have hnd : (r.tables.bus.map BusRow.num).Nodup := by rw [R.bridge.nums]; exact h.busNodup
  let a : BusRow BusD → ℝ := fun b => if b.typ = 4 ∨ b.typ = 3 then 0 else φ b.num - φ0
  have hend : ∀ n, Connected r.tables n → (r.tables.bus.map fun b => a b * if n = b.num then 1 else 0).sum = φ n - φ0 := by
    rintro n ⟨b, hbm, rfl, ht⟩
    rw [pick _ hnd b hbm a]
    simp only [a]
    split_ifs with h34
    · rw [hφ b hbm (h34.resolve_left ht), sub_self]
    · rfl
  have e : onSum r.tables (fun l => (φ l.f - φ l.t) * worth E base lam l) =
      (r.tables.bus.map fun b => a b * onSum r.tables fun l => ends b.num l * worth E base lam l).sum := by
    rw [← onSum_list]
    refine onSum_congr _ _ _ fun l hl hon => ?_
    have hf := hend _ hon.2.1
    have ht := hend _ hon.2.2
    have : φ l.f - φ l.t = (φ l.f - φ0) - (φ l.t - φ0) := by ring
    rw [this, ← hf, ← ht, sub_mul, ← List.sum_map_mul_right, ← List.sum_map_mul_right, sum_map_sub']
    refine congrArg List.sum (List.map_congr_left fun b _ => ?_)
    unfold ends
    ring
  rw [e]
  refine abs_sum_map_le _ _ _ fun b hbm => ?_
  simp only [a]
  split_ifs with h34
  · simp
  · rw [abs_mul]
    exact mul_le_mul_of_nonneg_left (hpr b hbm (fun h => h34 (Or.inl h)) fun h => h34 (Or.inr h)) (abs_nonneg _)

omit hs hb h hcost hc hgood hrun hok in
open Classical in
/-- What leaves the buses over branches is paid at the differences of prices along them. -/
theorem flows_value (hflow : ∀ l ∈ r.tables.branch, BranchInService r.tables l → l.data.PT = -l.data.PF)
    (hoff : ∀ l ∈ r.tables.branch, ¬ BranchInService r.tables l → l.data.PF = 0 ∧ l.data.PT = 0)
    (hgoff : ∀ g ∈ r.tables.gen, ¬ GenInService r.tables g → g.data.PG = 0) (hnd : (r.tables.bus.map BusRow.num).Nodup) :
    (r.tables.bus.map fun b => if b.typ = 4 then 0 else b.data.LAM_P * dcBalance r.tables b).sum =
      -surplus r.tables lam - onSum r.tables fun l => l.data.PF * (lam l.f - lam l.t) := by
  let a : BusRow BusD → ℝ := fun b => if b.typ = 4 then 0 else b.data.LAM_P
  have hend : ∀ n, Connected r.tables n → (r.tables.bus.map fun b => a b * if n = b.num then 1 else 0).sum = lam n := by
    rintro n ⟨b, hbm, rfl, ht⟩
    rw [pick _ hnd b hbm a]
    simp only [a]
    rw [if_neg ht, hlam b hbm]
  have e1 : (r.tables.bus.map fun b => a b * genAt r.tables b.num GenD.PG).sum = (r.tables.gen.map fun g => if GenInService r.tables g then lam g.bus * g.data.PG else 0).sum := by
    simp only [genAt, sum_filter_if, ← List.sum_map_mul_left]
    rw [sum_swap]
    refine congrArg List.sum (List.map_congr_left fun g hg => ?_)
    split_ifs with hon
    · rw [← hend _ hon.2, ← List.sum_map_mul_right]
      refine congrArg List.sum (List.map_congr_left fun b _ => ?_)
      simp only [beq_iff_eq]
      ring
    · rw [hgoff g hg hon]
      simp
  have e2 : (r.tables.bus.map fun b => a b * (fromAt r.tables b.num BrD.PF + toAt r.tables b.num BrD.PT)).sum =
      onSum r.tables fun l => l.data.PF * (lam l.f - lam l.t) := by
    simp only [fromAt, toAt, sum_filter_if, mul_add, ← List.sum_map_mul_left]
    rw [List.sum_map_add, sum_swap r.tables.bus r.tables.branch, sum_swap r.tables.bus r.tables.branch, ← List.sum_map_add]
    unfold onSum
    refine congrArg List.sum (List.map_congr_left fun l hl => ?_)
    split_ifs with hon
    · show _ = l.data.PF * (lam l.f - lam l.t)
      rw [← hend _ hon.2.1, ← hend _ hon.2.2, mul_sub, ← List.sum_map_mul_left, ← List.sum_map_mul_left, sum_map_sub', ← List.sum_map_add]
      refine congrArg List.sum (List.map_congr_left fun b _ => ?_)
      rw [hflow l hl hon]
      simp only [beq_iff_eq]
      ring
    · rw [(hoff l hl hon).1, (hoff l hl hon).2]
      simp
  unfold surplus
  rw [← e1, ← e2, neg_sub, sum_map_sub', sum_map_sub']
  refine congrArg List.sum (List.map_congr_left fun b _ => ?_)
  unfold dcBalance
  simp only [a]
  split_ifs
  · ring
  · ring

include hst in
/-- **C129 (identity).**  After a successful DC optimal power flow of a case without user variables, constraints and costs, what consumption pays at the returned bus prices less what
generation is paid is what the flow limits, angle limits and phase shifters earn at theirs, up to terms that vanish with the tolerances of the solver. -/
theorem C129_identity (θ : ℕ → ℝ) (hθ : ∀ b ∈ r.tables.bus, θ b.num = b.data.VA) (θ0 : ℝ) (href : ∀ b ∈ r.tables.bus, b.typ = 3 → b.data.VA = θ0) :
    |surplus r.tables lam - onSum r.tables fun l => used E θ l + shifted base lam l| ≤ rentError base E o r.tol r.dual r.tables θ0 := by
  unfold rentError
  have hpot := rent_potential hs hb h hcost hc hgood hrun hok lam hlam (fun n => θ n * (Real.pi / 180)) (θ0 * (Real.pi / 180))
    (fun b hbm h3 => by rw [hθ b hbm, href b hbm h3])
  have hbal := (C86_dc hs hb h hgood hrun hok).1
  have hfl := C86_dc_flows hs h hgood hrun hst (fun n => θ n * (Real.pi / 180)) (fun b hbm => by simp only [hθ b hbm])
  obtain ⟨-, -, hbr, hgo, hbo⟩ := C86_dc_inputs hs h hrun
  obtain ⟨c', d, m, s, p, bp, gp, lp, R⟩ := econ_run hs h hcost.table hgood hrun
  have hnd : (r.tables.bus.map BusRow.num).Nodup := by rw [R.bridge.nums]; exact h.busNodup
  have hv := flows_value lam hlam (fun l hl hon => (hfl l hl hon).2.1) (fun l hl hon => ⟨(hbo l hl hon).1, (hbo l hl hon).2.2.1⟩) (fun g hg hon => (hgo g hg hon).1) hnd
  have hst' : ∀ l ∈ r.tables.branch, l.status = 0 ∨ l.status = 1 := by
    intro l hl
    have : branchInput l ∈ c.branch.map branchInput := by rw [← hbr]; exact List.mem_map_of_mem hl
    obtain ⟨l0, h0, e0⟩ := List.mem_map.1 this
    have : l0.status = l.status := by have e1 := congrArg (fun x : BranchRow BrD => x.status) e0; exact e1
    rw [← this]
    exact hst l0 h0
  have hb0 := hb.ne'
  have hpi := Real.pi_ne_zero
  have key : base * (onSum r.tables fun l => ((θ l.f * (Real.pi / 180)) - (θ l.t * (Real.pi / 180))) * worth E base lam l) =
      (onSum r.tables fun l => l.data.PF * (lam l.f - lam l.t)) + onSum r.tables fun l => used E θ l + shifted base lam l := by
    rw [← onSum_add, ← onSum_mul]
    refine onSum_congr _ _ _ fun l hl hon => ?_
    obtain ⟨f1, f2, -⟩ := hfl l hl hon
    have hs1 : l.status = 1 := (hst' l hl).resolve_left fun h0 => by have := hon.1; rw [h0] at this; exact absurd this (by decide)
    unfold used shifted worth
    rw [f2, f1]
    have hsu : susc l = 1 / (l.data.x * (if l.data.tap = 0 then 1 else l.data.tap)) := by
      unfold susc
      rw [hs1]
      simp only [Int.cast_one, div_div]
    have hdf : dcFlow (asBranch l) (fun n => θ n * (Real.pi / 180)) = susc l * (θ l.f * (Real.pi / 180) - θ l.t * (Real.pi / 180) - l.data.shift * Real.pi / 180) := by
      unfold dcFlow asBranch
      rw [hsu]
      simp only [hs1]
      norm_num
      ring
    rw [hdf]
    split_ifs with hA
    · field_simp
      ring
    · ring
  have hsum : |(r.tables.bus.map fun b => if b.typ = 4 then 0 else b.data.LAM_P * dcBalance r.tables b).sum| ≤
      (r.tables.bus.map fun b => if b.typ = 4 then 0 else |b.data.LAM_P| * (r.tol * base)).sum := by
    refine abs_sum_map_le _ _ _ fun b hbm => ?_
    split_ifs with h4
    · simp
    · rw [abs_mul]
      exact mul_le_mul_of_nonneg_left (hbal b hbm h4).le (abs_nonneg _)
  have e2 : base * (r.tables.bus.map fun b => if b.typ = 4 ∨ b.typ = 3 then 0 else |θ b.num * (Real.pi / 180) - θ0 * (Real.pi / 180)| *
        ((o.gradtol * (1 + r.dual) + 1 / 10 ^ 5 * (2 * (1 + scaleAt E r.tables b.num))) / o.costMult / base)).sum =
      (r.tables.bus.map fun b => if b.typ = 4 ∨ b.typ = 3 then 0 else |(b.data.VA - θ0) * (Real.pi / 180)| *
        ((o.gradtol * (1 + r.dual) + 1 / 10 ^ 5 * (2 * (1 + scaleAt E r.tables b.num))) / o.costMult)).sum := by
    rw [← List.sum_map_mul_left]
    refine congrArg List.sum (List.map_congr_left fun b hbm => ?_)
    split_ifs
    · ring
    · rw [hθ b hbm, ← sub_mul]
      field_simp
  have hpot2 := mul_le_mul_of_nonneg_left hpot hb.le
  rw [e2] at hpot2
  rw [← abs_of_pos hb, ← abs_mul, abs_of_pos hb, key] at hpot2
  rw [hv] at hsum
  have tri := abs_add_le (-surplus r.tables lam - onSum r.tables fun l => l.data.PF * (lam l.f - lam l.t))
    ((onSum r.tables fun l => l.data.PF * (lam l.f - lam l.t)) + onSum r.tables fun l => used E θ l + shifted base lam l)
  rw [show -surplus r.tables lam - (onSum r.tables fun l => l.data.PF * (lam l.f - lam l.t)) +
    ((onSum r.tables fun l => l.data.PF * (lam l.f - lam l.t)) + onSum r.tables fun l => used E θ l + shifted base lam l) =
    -(surplus r.tables lam - onSum r.tables fun l => used E θ l + shifted base lam l) by ring, abs_neg] at tri
  linarith

include hst in
/-- **C129 (rents).**  The surplus is at least what the limits that bind earn: each MW of rating at `MU_SF + MU_ST`, each degree of angle limit at its shadow price (and what phase shifters are
worth), up to `rentError` and to `compGap` (as in C98; `y`, `M` as there) for each limit that has a shadow price. -/
theorem C129_rents (hft : 0 ≤ o.feastol) (hct : 0 ≤ o.comptol) (θ0 : ℝ) (href : ∀ b ∈ r.tables.bus, b.typ = 3 → b.data.VA = θ0) : ∃ y : ℕ → ℝ,
    r.f = ∑ i ∈ onGens c \ pwlGens c, genCost c i (pgAt r.tables i) + ∑ i ∈ pwlGens c, y i ∧
    ∀ M : ℝ, 0 ≤ M → (∀ i ∈ onBuses c, |vaAt r.tables i| ≤ M) → (∀ i ∈ onGens c, |pgAt r.tables i / base| ≤ M) → (∀ i ∈ pwlGens c, |y i| ≤ M) →
      (onSum r.tables fun l => rent E l + shifted base lam l) ≤
        surplus r.tables lam + rentError base E o r.tol r.dual r.tables θ0 + onSum r.tables fun l => pricedLimits E l * compGap o M r.dual r.tol := by
  have hnd : (r.tables.bus.map BusRow.num).Nodup := by
    obtain ⟨c', d, m, s, p, bp, gp, lp, R⟩ := econ_run hs h hcost.table hgood hrun
    rw [R.bridge.nums]; exact h.busNodup
  obtain ⟨θ, hθ⟩ := angle_function r.tables (fun a ha b hb hn => List.inj_on_of_nodup_map hnd ha hb hn) fun b => b.data.VA
  have hid := C129_identity hs hb h hcost hst hc hgood hrun hok lam hlam θ hθ θ0 href
  have hsg := (C98_signs_partial hs hb h hcost.table hc hgood hrun).2
  obtain ⟨y, -, hy, hM⟩ := C98_slack_partial hs hb h hcost.table hc hgood hrun hft hct hok hcost θ hθ
  refine ⟨y, hy, fun M h0 h1 h2 h3 => ?_⟩
  obtain ⟨-, hfl, hang⟩ := hM M h0 h1 h2 h3
  have hle : (onSum r.tables fun l => rent E l + shifted base lam l) ≤
      onSum r.tables fun l => (used E θ l + shifted base lam l) + pricedLimits E l * compGap o M r.dual r.tol := by
    refine onSum_le _ _ _ fun l hl hon => ?_
    obtain ⟨-, -, hz⟩ := hsg l hl hon
    have a1 : l.data.MU_SF * l.data.rateA ≤ l.data.MU_SF * l.data.PF + (if l.data.MU_SF = 0 then 0 else 1) * compGap o M r.dual r.tol := by
      split_ifs with h0
      · rw [h0]; simp
      · have := (hfl l hl hon (by by_contra hh; exact h0 (hz (by rw [not_and_or, not_not, not_lt] at hh; exact hh)).1)).1
        linarith
    have a2 : l.data.MU_ST * l.data.rateA ≤ l.data.MU_ST * l.data.PT + (if l.data.MU_ST = 0 then 0 else 1) * compGap o M r.dual r.tol := by
      split_ifs with h0
      · rw [h0]; simp
      · have := (hfl l hl hon (by by_contra hh; exact h0 (hz (by rw [not_and_or, not_not, not_lt] at hh; exact hh)).2)).2
        linarith
    unfold rent used pricedLimits
    by_cases hA : AngLimited E l
    · obtain ⟨-, -, g1, g2, g3, g4⟩ := hang l hl hon hA.1 hA.2
      have b1 : l.data.MU_ANGMAX * E.angmax l.data.rest ≤ l.data.MU_ANGMAX * (θ l.f - θ l.t) + (if l.data.MU_ANGMAX = 0 then 0 else 1) * compGap o M r.dual r.tol := by
        split_ifs with h0
        · rw [h0]; simp
        · have := g4 fun hh => h0 (g2 hh)
          linarith
      have b2 : -(l.data.MU_ANGMIN * E.angmin l.data.rest) ≤ -(l.data.MU_ANGMIN * (θ l.f - θ l.t)) + (if l.data.MU_ANGMIN = 0 then 0 else 1) * compGap o M r.dual r.tol := by
        split_ifs with h0
        · rw [h0]; simp
        · have := g3 fun hh => h0 (g1 hh)
          linarith
      simp only [if_pos hA]
      linarith
    · simp only [if_neg hA]
      linarith
  rw [onSum_add r.tables (fun l => used E θ l + shifted base lam l)] at hle
  have := (abs_le.1 hid).1
  linarith

include hst in
/-- **C129 (no loss).**  Without phase shifters, with ratings that are not negative and angle limits on either side of zero, what consumption pays covers what generation is paid, up to the
same terms. -/
theorem C129_no_loss (hft : 0 ≤ o.feastol) (hct : 0 ≤ o.comptol) (θ0 : ℝ) (href : ∀ b ∈ r.tables.bus, b.typ = 3 → b.data.VA = θ0)
    (hlim : ∀ l ∈ r.tables.branch, BranchInService r.tables l → l.data.shift = 0 ∧ 0 ≤ l.data.rateA ∧ (AngLimited E l → E.angmin l.data.rest ≤ 0 ∧ 0 ≤ E.angmax l.data.rest)) :
    ∃ y : ℕ → ℝ, r.f = ∑ i ∈ onGens c \ pwlGens c, genCost c i (pgAt r.tables i) + ∑ i ∈ pwlGens c, y i ∧
    ∀ M : ℝ, 0 ≤ M → (∀ i ∈ onBuses c, |vaAt r.tables i| ≤ M) → (∀ i ∈ onGens c, |pgAt r.tables i / base| ≤ M) → (∀ i ∈ pwlGens c, |y i| ≤ M) →
      -(rentError base E o r.tol r.dual r.tables θ0 + onSum r.tables fun l => pricedLimits E l * compGap o M r.dual r.tol) ≤ surplus r.tables lam := by
  have hnd : (r.tables.bus.map BusRow.num).Nodup := by
    obtain ⟨c', d, m, s, p, bp, gp, lp, R⟩ := econ_run hs h hcost.table hgood hrun
    rw [R.bridge.nums]; exact h.busNodup
  obtain ⟨θ, hθ⟩ := angle_function r.tables (fun a ha b hb hn => List.inj_on_of_nodup_map hnd ha hb hn) fun b => b.data.VA
  obtain ⟨y, hy, hM⟩ := C129_rents hs hb h hcost hst hc hgood hrun hok lam hlam hft hct θ0 href
  obtain ⟨-, hsg⟩ := C98_signs_partial hs hb h hcost.table hc hgood hrun
  obtain ⟨y2, -, hy2, hM2⟩ := C98_slack_partial hs hb h hcost.table hc hgood hrun hft hct hok hcost θ hθ
  refine ⟨y, hy, fun M h0 h1 h2 h3 => ?_⟩
  have hsang : ∀ l ∈ r.tables.branch, BranchInService r.tables l → AngLimited E l → 0 ≤ l.data.MU_ANGMIN ∧ 0 ≤ l.data.MU_ANGMAX := by
    obtain ⟨M2, m0, m1, m2, m3⟩ := exists_bound (onBuses c) (onGens c) (pwlGens c) (fun i => |vaAt r.tables i|) (fun i => |pgAt r.tables i / base|) fun i => |y2 i|
    intro l hl hon hA
    obtain ⟨g1, g2, -⟩ := (hM2 M2 m0 m1 m2 m3).2.2 l hl hon hA.1 hA.2
    exact ⟨g1, g2⟩
  have hpos : 0 ≤ onSum r.tables fun l => rent E l + shifted base lam l := by
    rw [← onSum_zero r.tables]
    refine onSum_le _ _ _ fun l hl hon => ?_
    obtain ⟨q1, q2, q3⟩ := hlim l hl hon
    obtain ⟨s1, s2, -⟩ := hsg l hl hon
    unfold rent shifted
    rw [q1]
    have := mul_nonneg (add_nonneg s1 s2) q2
    by_cases hA : AngLimited E l
    · simp only [if_pos hA]
      have e1 := mul_nonneg (hsang l hl hon hA).2 (q3 hA).2
      have e2 := mul_nonneg (hsang l hl hon hA).1 (neg_nonneg.2 (q3 hA).1)
      have : base * susc l * (0 * Real.pi / 180) * (lam l.f - lam l.t + l.data.MU_SF - l.data.MU_ST) = 0 := by ring
      linarith
    · simp only [if_neg hA]
      have : base * susc l * (0 * Real.pi / 180) * (lam l.f - lam l.t + l.data.MU_SF - l.data.MU_ST) = 0 := by ring
      linarith
  have := hM M h0 h1 h2 h3
  linarith

end

end Verif.Opf
