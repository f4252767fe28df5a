import Verif.Opf.EconProps
import Verif.Opf.MarketProps

/-!
# C97: at the reported prices no generator gains by another output

C85 in the tables of the caller: the price is column `LAM_P` of the bus of the generator, the cost is that of its row of the cost table.
-/

namespace Verif.Opf

open Verif.Index (BusRow GenRow BranchRow IsArgsort WF GenInService BranchInService Connected)
open Verif.OpfModel Verif.Pips Verif.Network Verif.Cost Verif.OpfCost

/-! ### Lemmas -/

/-- Angle limits involve angles only. -/
theorem ang_untouched {nb ng nl : ℕ} (d : Case nb ng nl) (E : Econ) (c' : Index.Case Tables) (hv : ∀ b ∈ angRows E c', b.f < nb ∧ b.t < nb) (extra : List Op)
    (j : ℕ) (hj : nb ≤ j) : Untouched (varBlocks (dcOps d ++ extra)) (linBlks (angOps E nb c' ++ [])) j := by
  obtain ⟨B, hB, hvs, -, -, -, hrow, -⟩ := ang_block E nb c' hv
  rw [hB]
  intro b hb i hi
  have : b = ("ang", B) := by simpa [linBlks] using hb
  subst this
  obtain ⟨b, hb, -, -, h3⟩ := hrow i hi
  obtain ⟨v1, v2⟩ := hv b hb
  have ef := subvec_Va d extra (Pi.single j 1) ⟨b.f, v1⟩
  have et := subvec_Va d extra (Pi.single j 1) ⟨b.t, v2⟩
  simp only at ef et
  unfold coef
  simp only
  rw [h3.row, hvs, ef, et, Pi.single_eq_of_ne (by omega), Pi.single_eq_of_ne (by omega), sub_zero]

/-- The slopes in the rows of `Ay`, by generator. -/
theorem ayLoop_slope (base : ℝ) (hb : 0 < base) (ng q : ℕ) : ∀ (rows : List (CostRow ℝ)) (i j : ℕ), i + rows.length ≤ ng → (∀ row ∈ rows, row.model = 1 → PwlRow row) →
    ∀ r ∈ ayLoop base ng 1 q (1 + ng) i j rows, ∃ k, ∃ hk : k < rows.length, r.col = i + k ∧ ∃ n, n + 1 < rows[k].ncost ∧ r.slope = base * slope rows[k] n := by
  intro rows
  induction rows with
  | nil => intro i j _ _ r h; simp [ayLoop] at h
  | cons a rows ih =>
    intro i j hl hrow r h
    rw [List.length_cons] at hl
    have hrow' : ∀ row ∈ rows, row.model = 1 → PwlRow row := fun row hr => hrow row (List.mem_cons_of_mem _ hr)
    have one : ∀ j', r ∈ ayLoop base ng 1 q (1 + ng) (i + 1) j' rows → ∃ k, ∃ hk : k < (a :: rows).length, r.col = i + k ∧ ∃ n, n + 1 < (a :: rows)[k].ncost ∧
        r.slope = base * slope (a :: rows)[k] n := by
      intro j' h
      obtain ⟨k, hk, e1, n, e2, e3⟩ := ih (i + 1) j' (by omega) hrow' r h
      exact ⟨k + 1, by simpa using hk, by omega, n, by simpa using e2, by simpa using e3⟩
    rw [ayLoop] at h
    by_cases ha : a.model = 1
    · rw [if_pos ha, List.mem_append] at h
      rcases h with h | h
      · obtain ⟨h1, -⟩ := segRows_cols _ _ _ _ h
        have hm : r ∈ ayLoop base ng 1 q (1 + ng) i j [a] := by
          rw [ayLoop, if_pos ha]
          exact List.mem_append_left _ h
        obtain ⟨row, hr, -, n, hn, hs, -⟩ := ayLoop_mem base hb ng q (1 + ng) [a] i j (fun row hr hm => hrow row (by
          rw [List.mem_singleton] at hr; rw [hr]; exact List.mem_cons_self) hm) r hm
        rw [List.mem_singleton] at hr
        subst hr
        refine ⟨0, by simp, ?_, n, by simpa using hn, by simpa using hs⟩
        rw [h1]; unfold ayCol; rw [if_neg (by omega)]; omega
      · exact one _ h
    · rw [if_neg ha] at h
      exact one _ h

theorem ay_slope (base : ℝ) (hb : 0 < base) {ng : ℕ} (gc : Fin ng → CostRow ℝ) (hrow : ∀ p, (gc p).model = 1 → PwlRow (gc p)) (p : Fin ng) (r : AyRow ℝ)
    (h : r ∈ ayRows base gc) (hp : r.col = (p : ℕ)) : ∃ n, n + 1 < (gc p).ncost ∧ r.slope = base * slope (gc p) n := by
  obtain ⟨k, hk, e1, n, e2, e3⟩ := ayLoop_slope base hb ng 0 (List.ofFn gc) 0 0 (by simp) (fun row hr hm => by
    obtain ⟨q, rfl⟩ := (List.mem_ofFn' _ _).1 hr
    exact hrow q hm) r h
  have : k = p := by omega
  subst this
  simp only [List.getElem_ofFn, Fin.eta] at e2 e3
  exact ⟨n, e2, e3⟩

section
variable {nb ng nl : ℕ} (d : Case nb ng nl) (gc : Fin ng → CostRow ℝ) (hb : 0 < d.base) (lin post : List Op) (hlin : varBlocks lin = [])
  (hrow : ∀ p, (gc p).model = 1 → PwlRow (gc p))

include hlin

theorem pwl_abs_rows (lb : List (String × ℕ)) (j : ℕ) (hy0 : nyOf gc ≠ 0) :
    overRows (fun a _ => |a|) (varBlocks (dcOps d ++ (lin ++ (pwlOps d.base gc ++ post)))) lb (linBlks (pwlOps d.base gc)) j 0 =
      ∑ i : Fin (ayRows d.base gc).length,
      |(ayRows d.base gc)[i].slope * (Pi.single j 1 : ℕ → ℝ) (nb + (ayRows d.base gc)[i].col) - (Pi.single j 1 : ℕ → ℝ) (nb + (ayRows d.base gc)[i].ycol)| := by
  rw [pwlOps_linBlks _ _ hy0]
  unfold overRows
  rw [List.map_singleton, List.sum_singleton]
  show ∑ i ∈ Finset.range (ayRows d.base gc).length, _ = _
  rw [Finset.sum_range]
  refine Finset.sum_congr rfl fun i _ => ?_
  unfold coef
  rw [ycon_dot d gc lin post hlin i _ (List.getElem?_eq_getElem i.isLt)]
  rfl

include hb hrow

/-- Absolute coefficients of the output and of the helper variable of a generator. -/
theorem pwlAbs_le (lb : List (String × ℕ)) (p : Fin ng) (hp : (gc p).model = 1) (S : ℝ) (hS : ∀ n, n + 1 < (gc p).ncost → |slope (gc p) n| ≤ S) :
    overRows (fun a _ => |a|) (varBlocks (dcOps d ++ (lin ++ (pwlOps d.base gc ++ post)))) lb (linBlks (pwlOps d.base gc)) (nb + p) 0 ≤
      ((gc p).ncost - 1) * (d.base * S) ∧
    overRows (fun a _ => |a|) (varBlocks (dcOps d ++ (lin ++ (pwlOps d.base gc ++ post)))) lb (linBlks (pwlOps d.base gc)) (nb + ng + pwlPos gc p) 0 ≤
      (gc p).ncost - 1 := by
  have hpos := pwlPos_lt gc p hp
  have hy0 : nyOf gc ≠ 0 := by omega
  have hplt := p.isLt
  have hn1 : ((gc p).ncost - 1 : ℝ) = ((ayRows d.base gc).countP (fun r => r.col = (p : ℕ)) : ℕ) := by
    rw [ay_count d.base gc p (hrow p hp)]
    have := (hrow p hp).two
    rw [Nat.cast_sub (by omega)]
    simp
  have own : ∀ i : Fin (ayRows d.base gc).length, ∃ p' : Fin ng, (gc p').model = 1 ∧ (ayRows d.base gc)[i].col = p' ∧ (ayRows d.base gc)[i].ycol = ng + pwlPos gc p' :=
    fun i => ay_owner d.base gc _ (List.getElem_mem i.isLt)
  have hinj : ∀ p', (gc p').model = 1 → pwlPos gc p' = pwlPos gc p → p' = p := by
    intro p' h' e
    have a := ipwl_at gc p' h'
    have b := ipwl_at gc p hp
    rw [e, b] at a
    exact (Option.some.inj a).symm
  rw [pwl_abs_rows d gc lin post hlin _ _ hy0, pwl_abs_rows d gc lin post hlin _ _ hy0, hn1]
  constructor
  · rw [← sum_countP (ayRows d.base gc) (fun r => r.col = (p : ℕ)) (d.base * S)]
    refine Finset.sum_le_sum fun i _ => ?_
    obtain ⟨p', q1, q2, q3⟩ := own i
    rw [Pi.single_eq_of_ne (show nb + (ayRows d.base gc)[i].ycol ≠ nb + p by omega), sub_zero]
    split_ifs with hc
    · have hc' : (ayRows d.base gc)[i].col = (p : ℕ) := hc
      rw [hc', Pi.single_eq_same, mul_one]
      obtain ⟨n, hn, e⟩ := ay_slope d.base hb gc hrow p _ (List.getElem_mem i.isLt) hc
      have e' : (ayRows d.base gc)[i].slope = d.base * slope (gc p) n := e
      rw [e', abs_mul, abs_of_pos hb]
      exact mul_le_mul_of_nonneg_left (hS n hn) hb.le
    · have hc' : (ayRows d.base gc)[i].col ≠ (p : ℕ) := hc
      rw [Pi.single_eq_of_ne (by omega), mul_zero, abs_zero]
  · rw [← mul_one (((ayRows d.base gc).countP (fun r => r.col = (p : ℕ)) : ℕ) : ℝ), ← sum_countP (ayRows d.base gc) (fun r => r.col = (p : ℕ)) 1]
    refine Finset.sum_le_sum fun i _ => ?_
    obtain ⟨p', q1, q2, q3⟩ := own i
    have hlt' := p'.isLt
    rw [Pi.single_eq_of_ne (show nb + (ayRows d.base gc)[i].col ≠ nb + ng + pwlPos gc p by omega), mul_zero, zero_sub, abs_neg]
    split_ifs with hc
    · have hpp : p' = p := Fin.ext (by have : (ayRows d.base gc)[i].col = (p : ℕ) := hc; omega)
      subst hpp
      rw [q3, ← add_assoc, Pi.single_eq_same, abs_one]
    · have hpp : pwlPos gc p' ≠ pwlPos gc p := fun e => hc (by
        have : (ayRows d.base gc)[i].col = (p : ℕ) := by rw [q2, hinj p' q1 e]
        exact this)
      rw [Pi.single_eq_of_ne (by omega), abs_zero]

theorem extraAbs_le (p : Fin ng) (hp : (gc p).model = 1) (S : ℝ) (hS : ∀ n, n + 1 < (gc p).ncost → |slope (gc p) n| ≤ S)
    (hfree : ∀ j, nb ≤ j → Untouched (varBlocks (dcOps d ++ (lin ++ (pwlOps d.base gc ++ post)))) (linBlks (lin ++ post)) j) :
    extraAbs d (lin ++ (pwlOps d.base gc ++ post)) (nb + p) ≤ ((gc p).ncost - 1) * (d.base * S) ∧
    extraAbs d (lin ++ (pwlOps d.base gc ++ post)) (nb + ng + pwlPos gc p) ≤ (gc p).ncost - 1 := by
  have h := pwlAbs_le d gc hb lin post hlin hrow (linBlocks (dcOps d ++ (lin ++ (pwlOps d.base gc ++ post)))) p hp S hS
  rw [extraAbs, extra_rows _ _ _ _ _ (fun y => abs_zero) _ _ (hfree _ (by omega)), extraAbs, extra_rows _ _ _ _ _ (fun y => abs_zero) _ _ (hfree _ (by omega))]
  exact h

end

/-! ### The claim -/

section
variable {srt : List ℕ → List ℕ} (hs : IsArgsort srt) {base : ℝ} (hb : 0 < base) {E : Econ} {o : Opt} {solve : AnySolver} {c : Index.Case Tables} (h : WF c)
  (hcost : EconCosts c) (hc : 0 < o.costMult) (hft : 0 ≤ o.feastol) (hct : 0 ≤ o.comptol)
  (hgood : ∀ c' d, Index.ext2int srt c = some c' → readCase base c' = some d → Good (dcOps d ++ (econSetup base E).extra d c'))
  {r : Ret} (hrun : opfDcEcon srt base E o solve c = some r) (hok : r.success = true)

include hs hb h hcost hc hft hct hgood hrun hok

/-- **C97.**  After a successful DC optimal power flow of a case without user variables, constraints and costs: paid the price `LAM_P` of its bus for its output, no
generator in service earns more with another output within its limits, up to terms that vanish with the tolerances of the solver.  `M` bounds the returned angles,
outputs in p.u. and helper values (see C96), `S` the slopes of the cost. -/
theorem C97_no_gain : ∃ y : ℕ → ℝ,
    (∀ i ∈ pwlGens c, genCost c i (pgAt r.tables i) ≤ y i + r.tol) ∧
    r.f = ∑ i ∈ onGens c \ pwlGens c, genCost c i (pgAt r.tables i) + ∑ i ∈ pwlGens c, y i ∧
    ∀ M : ℝ, 0 ≤ M → (∀ i ∈ onBuses c, |vaAt r.tables i| ≤ M) → (∀ i ∈ onGens c, |pgAt r.tables i / base| ≤ M) → (∀ i ∈ pwlGens c, |y i| ≤ M) →
      ∀ (i : ℕ) g b, r.tables.gen[i]? = some g → GenInService r.tables g → b ∈ r.tables.bus → b.num = g.bus → ∀ P, g.data.PMIN ≤ P → P ≤ g.data.PMAX →
        (i ∉ pwlGens c → genCost c i g.data.PG - b.data.LAM_P * g.data.PG ≤ genCost c i P - b.data.LAM_P * P +
          (o.gradtol * (1 + r.dual) + 1 / 10 ^ 5 * 4) / o.costMult / base * |P - g.data.PG| + 2 * compGap o M r.dual r.tol) ∧
        (i ∈ pwlGens c → ∀ S, (∀ n, n + 1 < (costAt c i).ncost → |slope (costAt c i) n| ≤ S) →
          genCost c i g.data.PG - b.data.LAM_P * g.data.PG ≤ genCost c i P - b.data.LAM_P * P +
          (o.gradtol * (1 + r.dual) + 1 / 10 ^ 5 * (2 * (2 + ((costAt c i).ncost - 1) * (base * S)))) / o.costMult / base * |P - g.data.PG| +
          (o.gradtol * (1 + r.dual) + 1 / 10 ^ 5 * (2 * (costAt c i).ncost)) / o.costMult * |genCost c i P - y i| +
          ((costAt c i).ncost + 1) * compGap o M r.dual r.tol + r.tol) := by
  obtain ⟨c', d, m, s, p, bp, gp, lp, R⟩ := econ_run hs h hcost.table hgood hrun
  have hbd : 0 < d.base := by rw [R.base]; exact hb
  have hgc : ∀ k : Fin c'.gen.length, CostOK (costAt c' k) := R.costOK hcost
  have hok' : s.success = true := by rw [← R.success]; exact hok
  have hlin := angOps_varBlocks (nb := c'.bus.length) E c'
  obtain ⟨h1, h2⟩ := R.helpers hb hcost hc hok'
  refine ⟨helper s gp, h1, h2, ?_⟩
  intro M hM hva hpg hy i g b hg hon hbm hbn P hP1 hP2
  have hnorm := R.norm_le hb hcost hok' hM hva hpg hy
  have hgap : compGap o ‖fun i : Fin m.var.total => s.x i‖ s.dual s.tol ≤ compGap o M r.dual r.tol := by
    rw [R.dual, R.tol]
    unfold compGap
    have := mul_le_mul_of_nonneg_left hnorm hct
    refine div_le_div_of_nonneg_right ?_ hc.le
    linarith
  obtain ⟨g0, hg0, e1, e2, hk, -⟩ := R.bridge.gen_at hg
  obtain ⟨k, rfl, rfl⟩ := hk ((R.bridge.genIn_iff e1 e2).1 hon)
  obtain ⟨g1, hg1, -, -, ⟨b0, hb0, hb0n⟩, -, hmin, hmax, -⟩ := R.bridge.gen k
  rw [hg0] at hg1; cases hg1
  obtain ⟨b1, hb1, ht1, hb1', -⟩ := R.bridge.bus (d.gen k).bus
  rw [hb0] at hb1; cases hb1
  have hbb : b = { b0 with data := (dcUpd s p).bus (d.gen k).bus b0.data } := by
    exact R.bridge.busOf hbm _ hb0 (by rw [hbn]; exact hb0n.symm) h
  subst hbb
  have hP1' : d.pmin k ≤ P := by rw [hmin]; exact hP1
  have hP2' : P ≤ d.pmax k := by rw [hmax]; exact hP2
  have hfree : ∀ j, c'.bus.length ≤ j → Untouched (varBlocks (dcOps d ++ (angOps E c'.bus.length c' ++
      (pwlOps d.base (fun k : Fin c'.gen.length => pwl1Row (costAt c' k)) ++ [])))) (linBlks (angOps E c'.bus.length c' ++ [])) j :=
    fun j hj => ang_untouched d E c' R.valid _ j hj
  have hval : ∀ P, genCost c (gp k) P = rowVal (costAt c' k) P := fun P => by rw [R.cost]; rfl
  show (_ → genCost c (gp k) (s.PG k) - s.LAM_P (d.gen k).bus * s.PG k ≤ genCost c (gp k) P - s.LAM_P (d.gen k).bus * P + (_ * |P - s.PG k|) + _) ∧
    (_ → ∀ S, _ → genCost c (gp k) (s.PG k) - s.LAM_P (d.gen k).bus * s.PG k ≤ genCost c (gp k) P - s.LAM_P (d.gen k).bus * P + (_ * |P - s.PG k|) + _ + _ + _)
  constructor
  · intro hnp
    rw [R.mem_pwlGens hcost] at hnp
    have hm2 : (pwl1Row (costAt c' k)).model = 2 := by
      rcases costOK_cases (costOK_pwl1 (hgc k)) with h | h
      · exact absurd h.1 hnp
      · exact h.1
    have key := C85_polynomial d (fun k : Fin c'.gen.length => costAt c' k) hgc hbd _ [] hlin m R.run R.good (noUser _) (noUser_convex _) o solve _ hc hft _ rfl s R.sol
      hok' k hm2 (fun a => a.elim0) (hfree _ (by omega)) P hP1' hP2'
    rw [hval, hval, R.dual, ← R.base]
    rw [R.dual] at hgap
    linarith
  · intro hip S hS
    rw [R.mem_pwlGens hcost] at hip
    have key := C85_piecewise d (fun k : Fin c'.gen.length => costAt c' k) hgc hbd _ [] hlin m R.run R.good (noUser _) (noUser_convex _) o solve _ hc hft _ rfl s R.sol
      hok' k hip (fun a => a.elim0) (hfree _ (by omega)) (hfree _ (by omega)) (R.big hb hcost) P hP1' hP2'
    have epw : pwl1Row (costAt c' k) = costAt c' k := by
      have := ((pwl1_model (hgc k)).1 hip).2
      unfold pwl1Row
      rw [if_neg fun h => this h.2]
    obtain ⟨a1, a2⟩ := extraAbs_le d (fun k : Fin c'.gen.length => pwl1Row (costAt c' k)) hbd (angOps E c'.bus.length c') [] hlin (fun q hq => by
      rcases costOK_cases (costOK_pwl1 (hgc q)) with h | h
      · exact h.2.1
      · exact absurd h.1 (by simp only [hq]; omega)) k hip S (by
        intro n
        rw [epw, R.cost]
        exact hS n) hfree
    simp only [epw] at a1 a2
    rw [hval, hval, R.dual, R.tol, ← R.base, R.helper_at, ← R.cost]
    rw [R.dual, R.tol] at hgap
    have n0 : (0 : ℝ) ≤ (costAt c' k).ncost := Nat.cast_nonneg _
    have f1 : (o.gradtol * (1 + s.dual) + 1 / 10 ^ 5 * (2 * (2 + extraAbs d (angOps E c'.bus.length c' ++ (pwlOps d.base (fun k : Fin c'.gen.length => pwl1Row (costAt c' k)) ++ []))
        (c'.bus.length + k)))) / o.costMult / d.base * |P - s.PG k| ≤
        (o.gradtol * (1 + s.dual) + 1 / 10 ^ 5 * (2 * (2 + ((costAt c' k).ncost - 1) * (d.base * S)))) / o.costMult / d.base * |P - s.PG k| := by
      refine mul_le_mul_of_nonneg_right (div_le_div_of_nonneg_right (div_le_div_of_nonneg_right ?_ hc.le) hbd.le) (abs_nonneg _)
      linarith
    have f2 : (o.gradtol * (1 + s.dual) + 1 / 10 ^ 5 * (2 * (1 + extraAbs d (angOps E c'.bus.length c' ++ (pwlOps d.base (fun k : Fin c'.gen.length => pwl1Row (costAt c' k)) ++ []))
        (c'.bus.length + c'.gen.length + pwlPos (fun k : Fin c'.gen.length => pwl1Row (costAt c' k)) k)))) / o.costMult *
          |rowVal (costAt c' k) P - s.x (c'.bus.length + c'.gen.length + pwlPos (fun k : Fin c'.gen.length => pwl1Row (costAt c' k)) k)| ≤
        (o.gradtol * (1 + s.dual) + 1 / 10 ^ 5 * (2 * (costAt c' k).ncost)) / o.costMult *
          |rowVal (costAt c' k) P - s.x (c'.bus.length + c'.gen.length + pwlPos (fun k : Fin c'.gen.length => pwl1Row (costAt c' k)) k)| := by
      refine mul_le_mul_of_nonneg_right (div_le_div_of_nonneg_right ?_ hc.le) (abs_nonneg _)
      linarith
    have f3 := mul_le_mul_of_nonneg_left hgap (show (0 : ℝ) ≤ (costAt c' k).ncost + 1 by linarith)
    linarith

end

/-! ### The example

The run of C96: both generators are in service, that in row 0 has a piecewise linear cost of two segments, that in row 2 a quadratic one. -/

example : ∃ o r, (0 : ℝ) < 100 ∧ WF exEcon ∧ EconCosts exEcon ∧ 0 < o.costMult ∧ 0 ≤ o.feastol ∧ 0 ≤ o.comptol ∧
    (∀ c' d, Index.ext2int Index.stableArgsort exEcon = some c' → readCase 100 c' = some d → Good (dcOps d ++ (econSetup 100 exE).extra d c')) ∧
    opfDcEcon Index.stableArgsort 100 exE o (fun _ _ _ _ => none) exEcon = some r ∧ r.success = true ∧
    (costAt exEcon 0).model = 1 ∧ (costAt exEcon 0).ncost = 3 ∧ (costAt exEcon 2).model = 2 ∧
    (∀ n, n + 1 < (costAt exEcon 0).ncost → |slope (costAt exEcon 0) n| ≤ 20) := by
  obtain ⟨o, r, h1, h2, -, h3, h4, h5⟩ := (C96_completes Index.stableArgsort_isArgsort exEcon_wf exEcon_dc exE exE_ang).2 (fun _ _ _ _ => none)
  refine ⟨o, r, by norm_num, exEcon_wf, exEcon_costs, h1, h2.le, h3.le, econ_wellposed Index.stableArgsort_isArgsort exEcon_wf exEcon_dc exE exE_ang, h4, h5, rfl, rfl, rfl, ?_⟩
  intro k hk
  have hk' : k + 1 < 3 := hk
  have hk2 : k < 2 := by omega
  interval_cases k <;> norm_num [costAt, exEcon, Cost.slope, Cost.bp]

end Verif.Opf
