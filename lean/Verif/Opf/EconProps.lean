import Verif.Opf.EconLemmas

/-!
# C96: a successful DC optimal power flow returns the cheapest dispatch

Read off the tables of the caller: the costs are those of the cost table of the case, `dispatchCost`; the alternatives are all tables in `DcFeasible`.
-/

namespace Verif.Opf

open Verif.Index (BusRow GenRow BranchRow IsArgsort WF GenInService BranchInService Connected)
open Verif.OpfModel Verif.Pips Verif.Network Verif.Cost Verif.OpfCost

theorem noUser_convex (n : ℕ) : (noUser n).Convex := ⟨fun a => a.elim0, fun w => by simp⟩

theorem noUser_value (n : ℕ) (x : Fin n → ℝ) : (noUser n).value x = 0 := by simp [UserCost.value]

theorem noUser_offset (n : ℕ) : (noUser n).offset = 0 := by simp [UserCost.offset]

section
variable {base : ℝ} {E : Econ} {c : Index.Case Tables} {r : Ret} {c' : Index.Case Tables}
    {d : Case c'.bus.length c'.gen.length c'.branch.length} {s : DcRes c'.bus.length c'.gen.length c'.branch.length}
    {p : PostMu c'.gen.length c'.branch.length} {bp : Fin c'.bus.length → ℕ} {gp : Fin c'.gen.length → ℕ} {lp : Fin c'.branch.length → ℕ}
    (R : DcRun base E c r c' d s p bp gp lp)

include R

theorem DcRun.va (k : Fin c'.bus.length) : vaAt r.tables (bp k) = s.VA k * (Real.pi / 180) := by
  obtain ⟨b, -, -, h, -⟩ := R.bridge.bus k
  simp [vaAt, h, dcUpd]

theorem DcRun.pg (k : Fin c'.gen.length) : pgAt r.tables (gp k) = s.PG k := by
  obtain ⟨b, -, -, h, -⟩ := R.bridge.gen k
  simp [pgAt, h, dcUpd]

theorem DcRun.costOK (hc : EconCosts c) (k : Fin c'.gen.length) : CostOK (costAt c' k) := by
  rw [R.cost]
  exact hc.ok _ (by rw [R.bridge.onGens_eq]; simp)

/-- The value of the helper variable of the generator in row `i`. -/
noncomputable def helper (s : DcRes c'.bus.length c'.gen.length c'.branch.length) (gp : Fin c'.gen.length → ℕ) (i : ℕ) : ℝ :=
  ∑ k with gp k = i, s.x (c'.bus.length + c'.gen.length + pwlPos (fun k : Fin c'.gen.length => pwl1Row (costAt c' k)) k)

theorem DcRun.helper_at (k : Fin c'.gen.length) :
    helper s gp (gp k) = s.x (c'.bus.length + c'.gen.length + pwlPos (fun k : Fin c'.gen.length => pwl1Row (costAt c' k)) k) := by
  unfold helper
  have : (Finset.univ.filter fun j => gp j = gp k) = {k} := by
    ext j
    simp [R.bridge.gInj.eq_iff]
  rw [this, Finset.sum_singleton]

theorem DcRun.big (hb : 0 < base) (hc : EconCosts c) :
    ∀ a ∈ ayRows d.base (fun k : Fin c'.gen.length => pwl1Row (costAt c' k)), a.rhs < 10 ^ 10 := by
  intro a ha
  unfold ayRows makeAy at ha
  obtain ⟨row, h1, h2, k, hk, -, h3⟩ := ayLoop_mem d.base (by rw [R.base]; exact hb) _ _ _ _ _ _ (fun row hr hm => by
    obtain ⟨q, rfl⟩ := (List.mem_ofFn' _ _).1 hr
    rcases costOK_cases (costOK_pwl1 (R.costOK hc q)) with h | h
    · exact h.2.1
    · exact absurd h.1 (by rw [hm]; omega)) a ha
  obtain ⟨q, rfl⟩ := (List.mem_ofFn' _ _).1 h1
  obtain ⟨h4, h5⟩ := (pwl1_model (R.costOK hc q)).1 h2
  have e : pwl1Row (costAt c' q) = costAt c' q := by
    unfold pwl1Row
    rw [if_neg (fun h => h5 h.2)]
  beta_reduce at h3 hk
  rw [e] at h3 hk
  rw [h3, R.cost]
  rw [R.cost] at hk h4
  exact hc.big _ (by rw [R.bridge.onGens_eq]; simp) h4 k hk

theorem DcRun.pwl_iff (hc : EconCosts c) (k : Fin c'.gen.length) :
    (pwl1Row (costAt c' k)).model = 1 ↔ (costAt c (gp k)).model = 1 ∧ (costAt c (gp k)).ncost ≠ 2 := by
  rw [← R.cost]
  exact pwl1_model (R.costOK hc k)

theorem DcRun.val (hc : EconCosts c) (k : Fin c'.gen.length) (P : ℝ) : genCost c (gp k) P = rowVal (pwl1Row (costAt c' k)) P := by
  rw [pwl1_val _ (costOK_wf (R.costOK hc k)), R.cost]
  rfl

theorem DcRun.pwlGens_sum (hc : EconCosts c) (F : ℕ → ℝ) :
    ∑ i ∈ pwlGens c, F i = ∑ k ∈ Finset.univ.filter (fun k : Fin c'.gen.length => (pwl1Row (costAt c' k)).model = 1), F (gp k) := by
  rw [R.bridge.pwlGens_sum]
  exact Finset.sum_congr (Finset.filter_congr fun k _ => (R.pwl_iff hc k).symm) fun _ _ => rfl

theorem DcRun.mem_pwlGens (hc : EconCosts c) (k : Fin c'.gen.length) : gp k ∈ pwlGens c ↔ (pwl1Row (costAt c' k)).model = 1 := by
  rw [R.bridge.pwlGens_eq, Finset.mem_image, R.pwl_iff hc]
  constructor
  · rintro ⟨k', hk, e⟩
    rw [← R.bridge.gInj e]
    exact (Finset.mem_filter.1 hk).2
  · intro h
    exact ⟨k, Finset.mem_filter.2 ⟨Finset.mem_univ _, h⟩, rfl⟩

theorem DcRun.of_mem_pwlGens (hc : EconCosts c) {i : ℕ} (hi : i ∈ pwlGens c) : ∃ k, gp k = i ∧ (pwl1Row (costAt c' k)).model = 1 := by
  have h := hi
  rw [R.bridge.pwlGens_eq, Finset.mem_image] at h
  obtain ⟨k, -, rfl⟩ := h
  exact ⟨k, rfl, (R.mem_pwlGens hc k).1 hi⟩

end

section
variable {srt : List ℕ → List ℕ} {base : ℝ} {E : Econ} {o : Opt} {solve : AnySolver} {c : Index.Case Tables} {r : Ret} {c' : Index.Case Tables}
    {d : Case c'.bus.length c'.gen.length c'.branch.length} {m : Model} {s : DcRes c'.bus.length c'.gen.length c'.branch.length}
    {p : PostMu c'.gen.length c'.branch.length} {bp : Fin c'.bus.length → ℕ} {gp : Fin c'.gen.length → ℕ} {lp : Fin c'.branch.length → ℕ}
    (R : EconRun srt base E o solve c r c' d m s p bp gp lp)

include R

theorem EconRun.total : m.var.total = c'.bus.length + c'.gen.length + nyOf (fun k : Fin c'.gen.length => pwl1Row (costAt c' k)) := by
  obtain ⟨-, -, ht, -⟩ := linearOf_spec R.run R.good
  rw [ht, dcy_varBlocks d _ _ [] (angOps_varBlocks E c'), total_cons, total_cons]
  split_ifs with h
  · rw [h]; rfl
  · rw [List.singleton_append, total_cons]
    simp only [varBlocks, List.filterMap_nil]
    show _ + (_ + (_ + 0)) = _
    omega

/-- The reported point. -/
theorem EconRun.point (hb : 0 < base) (hok : s.success = true) : (∀ k : Fin c'.bus.length, s.x k = vaAt r.tables (bp k)) ∧
    (∀ k : Fin c'.gen.length, s.x (c'.bus.length + k) = pgAt r.tables (gp k) / base) := by
  obtain ⟨-, -, hVA, hPG⟩ := C77_extra d _ m R.run R.good _ _ _ o solve _ s R.sol hok
  have hpi := Real.pi_pos
  constructor
  · intro k
    rw [R.va, hVA, (dc_starts d _).1, zero_add]
    field_simp
  · intro k
    rw [R.pg, hPG, (dc_starts d _).2.1, R.base]
    field_simp

theorem EconRun.norm_le (hb : 0 < base) (hc : EconCosts c) (hok : s.success = true) {M : ℝ} (hM : 0 ≤ M) (hva : ∀ i ∈ onBuses c, |vaAt r.tables i| ≤ M)
    (hpg : ∀ i ∈ onGens c, |pgAt r.tables i / base| ≤ M) (hy : ∀ i ∈ pwlGens c, |helper s gp i| ≤ M) : ‖fun i : Fin m.var.total => s.x i‖ ≤ M := by
  obtain ⟨v1, v2⟩ := R.point hb hok
  rw [pi_norm_le_iff_of_nonneg hM]
  rintro ⟨i, hi⟩
  rw [Real.norm_eq_abs]
  simp only
  rw [R.total] at hi
  by_cases i1 : i < c'.bus.length
  · have := v1 ⟨i, i1⟩
    simp only at this
    rw [this]
    refine hva _ ?_
    obtain ⟨b, hb1, hb2, -⟩ := R.bridge.bus ⟨i, i1⟩
    simp only [onBuses, Finset.mem_filter, Finset.mem_range]
    exact ⟨(List.getElem?_eq_some_iff.1 hb1).1, b, hb1, hb2⟩
  · by_cases i2 : i < c'.bus.length + c'.gen.length
    · have := v2 ⟨i - c'.bus.length, by omega⟩
      simp only [show c'.bus.length + (i - c'.bus.length) = i by omega] at this
      rw [this]
      exact hpg _ (by rw [R.bridge.onGens_eq]; simp)
    · have hj : i - c'.bus.length - c'.gen.length < nyOf (fun k : Fin c'.gen.length => pwl1Row (costAt c' k)) := by omega
      have e1 := pwlPos_get (fun k : Fin c'.gen.length => pwl1Row (costAt c' k)) ⟨_, hj⟩
      have e2 := (ipwl_mem (fun k : Fin c'.gen.length => pwl1Row (costAt c' k)) _).1 (List.get_mem _ ⟨_, hj⟩)
      have e3 := (R.helper_at ((ipwl (fun k : Fin c'.gen.length => pwl1Row (costAt c' k))).get ⟨_, hj⟩)).trans
        (congrArg (fun n => s.x (c'.bus.length + c'.gen.length + n)) e1)
      simp only [show c'.bus.length + c'.gen.length + (i - c'.bus.length - c'.gen.length) = i by omega] at e3
      rw [← e3]
      exact hy _ ((R.mem_pwlGens hc _).2 e2)

/-- The values of the helper variables and the objective. -/
theorem EconRun.helpers (hb : 0 < base) (hcost : EconCosts c) (hc : 0 < o.costMult) (hok : s.success = true) :
    (∀ i ∈ pwlGens c, genCost c i (pgAt r.tables i) ≤ helper s gp i + r.tol) ∧
    r.f = ∑ i ∈ onGens c \ pwlGens c, genCost c i (pgAt r.tables i) + ∑ i ∈ pwlGens c, helper s gp i := by
  have hbd : 0 < d.base := by rw [R.base]; exact hb
  have hgc : ∀ k : Fin c'.gen.length, CostOK (costAt c' k) := R.costOK hcost
  have hlin := angOps_varBlocks (nb := c'.bus.length) E c'
  obtain ⟨hPG, hH, hobj⟩ := C83_helpers d (fun k : Fin c'.gen.length => costAt c' k) hgc hbd _ [] hlin m R.run R.good (noUser _) (noUser_convex _) o solve _ hc _ rfl s
    R.sol hok
  have hH := hH (R.big hb hcost)
  constructor
  · intro i hi
    obtain ⟨k, rfl, hk⟩ := R.of_mem_pwlGens hcost hi
    rw [R.val hcost, R.pg, R.helper_at, R.tol]
    have := hH k hk
    simpa [rowVal, hk] using this
  · have hsub : pwlGens c ⊆ onGens c := Finset.filter_subset _ _
    have e1 := Finset.sum_sdiff (f := fun i => genCost c i (pgAt r.tables i)) hsub
    rw [R.pwlGens_sum hcost, R.bridge.onGens_sum] at e1
    simp only [R.val hcost, R.pg] at e1
    rw [cost_split (fun k : Fin c'.gen.length => pwl1Row (costAt c' k)) (fun k => costOK_pwl1 (hgc k)) s.PG] at e1
    have e2 : ∑ k ∈ Finset.univ.filter (fun k : Fin c'.gen.length => (pwl1Row (costAt c' k)).model = 1), rowVal (pwl1Row (costAt c' k)) (s.PG k) =
        ∑ k ∈ Finset.univ.filter (fun k : Fin c'.gen.length => (pwl1Row (costAt c' k)).model = 1), pwlCost (pwl1Row (costAt c' k)) (s.PG k) :=
      Finset.sum_congr rfl fun k hk => by simp [rowVal, (Finset.mem_filter.1 hk).2]
    rw [e2] at e1
    rw [noUser_value, noUser_offset, sub_zero, add_zero] at hobj
    rw [R.f, hobj, R.pwlGens_sum hcost]
    simp only [R.helper_at]
    linarith

end

section
variable {srt : List ℕ → List ℕ} (hs : IsArgsort srt) {base : ℝ} (hb : 0 < base) {E : Econ} {o : Opt} {solve : AnySolver} {c : Index.Case Tables} (h : WF c)
  (hcost : EconCosts c) (hst : ∀ l ∈ c.branch, l.status = 0 ∨ l.status = 1) (hc : 0 < o.costMult) (hft : 0 ≤ o.feastol) (hct : 0 ≤ o.comptol)
  (hgood : ∀ c' d, Index.ext2int srt c = some c' → readCase base c' = some d → Good (dcOps d ++ (econSetup base E).extra d c'))
  {r : Ret} (hrun : opfDcEcon srt base E o solve c = some r) (hok : r.success = true)

include hs hb h hcost hst hc hft hct hgood hrun hok

/-- **C96 (least cost).**  After a successful DC optimal power flow of a case without user variables, constraints and costs there are helper values `y`, one for each
generator in service with a piecewise linear cost of more than one segment, which are at least the costs of these generators (up to the tolerance).  The reported
objective is the cost of the other generators at their returned outputs plus these values, hence at least the cost of the returned dispatch (up to tolerances).  And it
is at most the cost of any other dispatch of the same system within all its limits, up to `gap`, which vanishes with the tolerances of the solver; `M` bounds the
returned angles, outputs in p.u. and helper values. -/
theorem C96_least_cost : ∃ y : ℕ → ℝ,
    (∀ i ∈ pwlGens c, genCost c i (pgAt r.tables i) ≤ y i + r.tol) ∧
    r.f = ∑ i ∈ onGens c \ pwlGens c, genCost c i (pgAt r.tables i) + ∑ i ∈ pwlGens c, y i ∧
    dispatchCost c r.tables ≤ r.f + (pwlGens c).card * r.tol ∧
    ∀ t θ, DcFeasible base E c t θ → ∀ M : ℝ, 0 ≤ M → (∀ i ∈ onBuses c, |vaAt r.tables i| ≤ M) → (∀ i ∈ onGens c, |pgAt r.tables i / base| ≤ M) →
      (∀ i ∈ pwlGens c, |y i| ≤ M) →
      r.f ≤ dispatchCost c t + gap o r.size M r.dual r.tol (dist base c r.tables t y) := by
  obtain ⟨c', d, m, s, p, bp, gp, lp, R⟩ := econ_run hs h hcost.table hgood hrun
  have hbd : 0 < d.base := by rw [R.base]; exact hb
  have hgc : ∀ k : Fin c'.gen.length, CostOK (costAt c' k) := R.costOK hcost
  have hok' : s.success = true := by rw [← R.success]; exact hok
  have hlin := angOps_varBlocks (nb := c'.bus.length) E c'
  obtain ⟨h1, h2⟩ := R.helpers hb hcost hc hok'
  have hval := R.val hcost
  have psum := R.pwlGens_sum hcost
  refine ⟨helper s gp, h1, h2, ?_, ?_⟩
  · have hsub : pwlGens c ⊆ onGens c := Finset.filter_subset _ _
    have e1 := Finset.sum_sdiff (f := fun i => genCost c i (pgAt r.tables i)) hsub
    have e2 := Finset.sum_le_sum h1
    rw [Finset.sum_add_distrib, Finset.sum_const, nsmul_eq_mul] at e2
    unfold dispatchCost
    linarith
  · intro t θ F M hM hva hpg hy
    rw [← R.base] at F
    have ha := feasible_alt R.bridge h F
    have hstat : ∀ k, (d.branch k).stat = 0 ∨ (d.branch k).stat = 1 := by
      intro k
      obtain ⟨l0, h1, -, -, -, -, -, -, -, -, -, h2, -⟩ := R.bridge.branch k
      rw [h2]
      rcases hst l0 (List.mem_of_getElem? h1) with h3 | h3 <;> simp [h3]
    set x := stack d (fun k : Fin c'.gen.length => pwl1Row (costAt c' k)) (fun k => vaAt t (bp k)) (fun k => pgAt t (gp k)) (fun _ => 0) with hx
    have x1 : ∀ k : Fin c'.bus.length, x k = vaAt t (bp k) := by intro k; simp [hx, stack]
    have x2 : ∀ k : Fin c'.gen.length, x (c'.bus.length + k) = pgAt t (gp k) / d.base := by intro k; simp [hx, stack]
    have x3 : ∀ j : Fin (nyOf (fun k : Fin c'.gen.length => pwl1Row (costAt c' k))), x (c'.bus.length + c'.gen.length + j) =
        rowVal (pwl1Row (costAt c' ((ipwl (fun k : Fin c'.gen.length => pwl1Row (costAt c' k))).get j)))
          (pgAt t (gp ((ipwl (fun k : Fin c'.gen.length => pwl1Row (costAt c' k))).get j))) := by
      intro j
      have n1 : ¬ (c'.bus.length + c'.gen.length + j < c'.bus.length) := by omega
      have n2 : ¬ (c'.bus.length + c'.gen.length + j - c'.bus.length < c'.gen.length) := by omega
      have e : c'.bus.length + c'.gen.length + j - c'.bus.length - c'.gen.length = j := by omega
      simp only [hx, stack, dif_neg n1, dif_neg n2, e, dif_pos j.isLt]
      rfl
    have hang : Holds (varBlocks (dcOps d ++ (angOps E c'.bus.length c' ++ (pwlOps d.base (fun k : Fin c'.gen.length => pwl1Row (costAt c' k)) ++ []))))
        (angOps E c'.bus.length c' ++ []) x := by
      refine ang_holds d E c' R.valid _ x fun hig b hbm hlim => ?_
      obtain ⟨l', hl', rfl⟩ := List.mem_map.1 hbm
      obtain ⟨k, hk, rfl⟩ := List.mem_iff_getElem.1 hl'
      obtain ⟨l, e0, e1, e2, e3⟩ := R.ends ⟨k, hk⟩
      obtain ⟨l0, h0, hon, -, ⟨bf, hbf, hnf⟩, ⟨bt, hbt, hnt⟩, -⟩ := R.bridge.branch ⟨k, hk⟩
      rw [e0] at h0; cases h0
      have hθ : ∀ (j : Fin c'.bus.length) b0 n, c.bus[bp j]? = some b0 → b0.num = n → x j = θ n := by
        rintro j b0 n hj rfl
        obtain ⟨b, hb1, e⟩ := map_at F.bus _ _ hj
        have e1 : b.num = b0.num := by simpa [busInput] using congrArg BusRow.num e
        rw [x1, ← e1, F.angles b (List.mem_of_getElem? hb1)]
        simp [vaAt, hb1]
      simp only [Fin.getElem_fin] at e1 e2 e3
      have key := F.angle hig l (List.mem_of_getElem? e0) hon (by
        unfold Constr.Limited at hlim ⊢
        simp only [e1] at hlim
        exact hlim)
      unfold Constr.AngleOk at key ⊢
      simp only [e1, e2, e3, hθ _ _ _ hbf hnf, hθ _ _ _ hbt hnt] at key ⊢
      exact key
    obtain ⟨T, hT, hle⟩ := C83_least_cost d (fun k : Fin c'.gen.length => costAt c' k) hgc hbd _ [] hlin m R.run R.good (noUser _) (noUser_convex _) o solve _ hc hft
      _ rfl s R.sol hok' hstat (fun k => vaAt t (bp k)) (fun k => pgAt t (gp k)) (fun _ => 0) ha hang
    obtain ⟨T', hT', hsum⟩ := totcost_sum (fun k : Fin c'.gen.length => costAt c' k) hgc (fun k => pgAt t (gp k))
    rw [hT] at hT'; cases hT'
    rw [noUser_value, noUser_offset, sub_zero, add_zero, hsum] at hle
    have eC : dispatchCost c t = ∑ k : Fin c'.gen.length, rowVal (pwl1Row (costAt c' k)) (pgAt t (gp k)) := by
      unfold dispatchCost
      rw [R.bridge.onGens_sum]
      exact Finset.sum_congr rfl fun k _ => hval k _
    rw [← eC] at hle
    -- the reported point
    obtain ⟨v1, v2⟩ := R.point hb hok'
    have hdist : ∑ i : Fin m.var.total, |x i - s.x i| = dist base c r.tables t (helper s gp) := by
      rw [Finset.sum_fin_eq_sum_range]
      have e0 : ∀ i ∈ Finset.range m.var.total, (if h : i < m.var.total then |x ((⟨i, h⟩ : Fin m.var.total) : ℕ) - s.x ((⟨i, h⟩ : Fin m.var.total) : ℕ)| else 0) =
          |x i - s.x i| := fun i hi => by rw [dif_pos (Finset.mem_range.1 hi)]
      rw [Finset.sum_congr rfl e0, R.total, Finset.sum_range_add, Finset.sum_range_add, Finset.sum_range, Finset.sum_range, Finset.sum_range]
      unfold dist
      rw [R.bridge.onBuses_sum, R.bridge.onGens_sum, psum]
      congr 1
      · congr 1
        · exact Finset.sum_congr rfl fun k _ => by rw [x1, v1]
        · refine Finset.sum_congr rfl fun k _ => ?_
          rw [x2, v2, R.base, ← sub_div, abs_div, abs_of_pos hb]
      · simp only [x3]
        rw [sum_pwl (fun k : Fin c'.gen.length => pwl1Row (costAt c' k)) (fun k j => |rowVal (pwl1Row (costAt c' k)) (pgAt t (gp k)) - s.x (c'.bus.length + c'.gen.length + j)|)]
        exact Finset.sum_congr rfl fun k _ => by rw [R.helper_at, hval]
    have hnorm := R.norm_le hb hcost hok' hM hva hpg hy
    have hgap : gap o (m.var.total + m.lin.total) ‖fun i : Fin m.var.total => s.x i‖ s.dual s.tol (∑ i : Fin m.var.total, |x i - s.x i|) ≤
        gap o r.size M r.dual r.tol (dist base c r.tables t (helper s gp)) := by
      rw [hdist, R.size, R.dual, R.tol]
      unfold gap
      have := mul_le_mul_of_nonneg_left hnorm hct
      refine div_le_div_of_nonneg_right ?_ hc.le
      linarith
    rw [R.f]
    exact hle.trans (by linarith)

end

/-! ### Angle limits of the returned tables -/

/-- **C96 (angle limits).**  On success every branch in service of the returned tables with an angle limit keeps its angle difference within its limits, up to the
tolerance, unless angle limits are ignored. -/
theorem C96_angles {srt : List ℕ → List ℕ} (hs : IsArgsort srt) {base : ℝ} {E : Econ} {o : Opt} {solve : AnySolver} {c : Index.Case Tables} (h : WF c)
    (hgc : c.gencost.isSome) (hgood : ∀ c' d, Index.ext2int srt c = some c' → readCase base c' = some d → Good (dcOps d ++ (econSetup base E).extra d c'))
    {r : Ret} (hrun : opfDcEcon srt base E o solve c = some r) (hok : r.success = true) (hig : E.ignoreAng = false)
    (θ : ℕ → ℝ) (hθ : ∀ b ∈ r.tables.bus, θ b.num = b.data.VA * (Real.pi / 180)) :
    ∀ l ∈ r.tables.branch, BranchInService r.tables l → Constr.Limited ⟨l.f, l.t, E.angmin l.data.rest, E.angmax l.data.rest⟩ →
      (E.angmin l.data.rest ≠ 0 → -10 ^ 10 < E.angmin l.data.rest * Real.pi / 180 → E.angmin l.data.rest * Real.pi / 180 - r.tol < θ l.f - θ l.t) ∧
      (E.angmax l.data.rest ≠ 0 → E.angmax l.data.rest * Real.pi / 180 < 10 ^ 10 → θ l.f - θ l.t < E.angmax l.data.rest * Real.pi / 180 + r.tol) := by
  obtain ⟨c', d, m, s, p, bp, gp, lp, R⟩ := econ_run hs h hgc hgood hrun
  have hok' : s.success = true := by rw [← R.success]; exact hok
  obtain ⟨-, hrows, hVA, -⟩ := C77_extra d _ m R.run R.good _ _ _ o solve _ s R.sol hok'
  obtain ⟨B, hB, hvs, -, -, -, -, hall, -⟩ := ang_block E c'.bus.length c' R.valid
  intro l hlm hon hlim
  obtain ⟨k, l0, h0, rfl, ⟨bf, hbf, hnf⟩, ⟨bt, hbt, hnt⟩, -⟩ := R.bridge.brRow hlm hon
  obtain ⟨l1, e0, e1, e2, e3⟩ := R.ends k
  rw [h0] at e0; cases e0
  have hpi := Real.pi_pos
  have ang : ∀ (j : Fin c'.bus.length) b0 n, c.bus[bp j]? = some b0 → b0.num = n → s.x j = θ n := by
    rintro j b0 n hj rfl
    obtain ⟨b1, h1, -, h2, -⟩ := R.bridge.bus j
    rw [hj] at h1; cases h1
    rw [hθ _ (List.mem_of_getElem? h2)]
    simp only [dcUpd, hVA, (dc_starts d _).1, zero_add]
    field_simp
  have hmem : (⟨c'.branch[k].f, c'.branch[k].t, E.angmin c'.branch[k].data.rest, E.angmax c'.branch[k].data.rest⟩ : Constr.Branch) ∈ angRows E c' :=
    List.mem_map.2 ⟨c'.branch[k], List.getElem_mem _, rfl⟩
  obtain ⟨i, hi, hrow⟩ := hall hig _ hmem (by
    unfold Constr.Limited at hlim ⊢
    rw [e1]
    exact hlim)
  have hin : ("ang", B) ∈ linBlks (angOps E c'.bus.length c' ++ (pwlOps d.base (fun k : Fin c'.gen.length => pwl1Row (costAt c' k)) ++ [])) := by
    rw [hB]; simp [linBlks]
  have hw := hrows _ hin i hi
  have ef := subvec_Va d (angOps E c'.bus.length c' ++ (pwlOps d.base (fun k : Fin c'.gen.length => pwl1Row (costAt c' k)) ++ [])) s.x (d.branch k).f
  have et := subvec_Va d (angOps E c'.bus.length c' ++ (pwlOps d.base (fun k : Fin c'.gen.length => pwl1Row (costAt c' k)) ++ [])) s.x (d.branch k).t
  simp only at hw
  rw [hrow.lo, hrow.hi, hrow.row, hvs] at hw
  simp only [e1, e2, e3] at hw
  rw [ef, et, ang _ _ _ hbf hnf, ang _ _ _ hbt hnt, ← R.tol] at hw
  constructor
  · intro h1 h2
    have h1' : E.angmin l0.data.rest ≠ 0 := h1
    rw [if_pos (by simpa using h1')] at hw
    exact within_lower hw h2
  · intro h1 h2
    have h1' : E.angmax l0.data.rest ≠ 0 := h1
    split_ifs at hw with h3 h4 h4
    · exact within_upper hw h2
    · exact absurd (by simpa using h4) h1'
    · exact within_upper hw h2
    · exact absurd (by simpa using h4) h1'

/-! ### Runs exist -/

section complete
variable {nb ng nl : ℕ} {d : Case nb ng nl} (hd : d.DcOK) (E : Econ) (c' : Index.Case Tables) (hv : ∀ b ∈ angRows E c', b.f < nb ∧ b.t < nb)
  (gc : Fin ng → CostRow ℝ)

theorem econ_varBlocks : varBlocks (dcOps d ++ (angOps E nb c' ++ (pwlOps d.base gc ++ []))) =
    ("Va", nb) :: ("Pg", ng) :: (if nyOf gc = 0 then [] else [("y", nyOf gc)]) := by
  rw [dcy_varBlocks d gc _ [] (angOps_varBlocks E c')]
  simp [varBlocks]

include hv

theorem econ_runs : ∃ m, OpfModel.run (dcOps d ++ (angOps E nb c' ++ (pwlOps d.base gc ++ []))) = some m := by
  obtain ⟨B, hB, hvs, -⟩ := ang_block E nb c' hv
  rw [hB, hvs]
  by_cases hy : nyOf gc = 0
  · rw [show pwlOps d.base gc = [] by unfold pwlOps; rw [if_pos hy]]
    simp only [OpfModel.run, dcOps, List.cons_append, List.nil_append, List.foldlM_cons, List.foldlM_nil, step, Model.addLin, storeVs, Model.resolve, Model.addVars,
      Idx.add, Model.init, Idx.empty]
    simp [Model.width, Dict.set]
  · unfold pwlOps
    rw [if_neg hy]
    simp only [OpfModel.run, dcOps, List.cons_append, List.nil_append, List.foldlM_cons, List.foldlM_nil, step, Model.addLin, storeVs, Model.resolve, Model.addVars,
      Idx.add, Model.init, Idx.empty]
    simp [Model.width, Dict.set, ayMat]

include hd in
theorem econ_good (hang : ∀ b ∈ angRows E c', |b.angmin * Real.pi / 180| < 10 ^ 10 ∧ |b.angmax * Real.pi / 180| < 10 ^ 10 ∧
    (b.angmin ≠ 0 → b.angmax ≠ 0 → b.angmin ≤ b.angmax)) :
    Good (dcOps d ++ (angOps E nb c' ++ (pwlOps d.base gc ++ []))) := by
  obtain ⟨B, hB, hvs, hcols, hl, hu, hrow, -⟩ := ang_block E nb c' hv
  have g := dcy_good hd gc
  have hvb0 := dcy_varBlocks d gc [] [] rfl
  have hvb := dcy_varBlocks d gc _ [] (angOps_varBlocks (nb := nb) E c')
  have hvb' : varBlocks (dcOps d ++ (angOps E nb c' ++ (pwlOps d.base gc ++ []))) = varBlocks (dcOps d ++ ([] ++ (pwlOps d.base gc ++ []))) := by
    rw [hvb, hvb0]
  have hvv : varVals (dcOps d ++ (angOps E nb c' ++ (pwlOps d.base gc ++ []))) = varVals (dcOps d ++ ([] ++ (pwlOps d.base gc ++ []))) := by
    rw [hB]; simp [varVals]
  have hlb : ∀ b, b ∈ linBlks (dcOps d ++ (angOps E nb c' ++ (pwlOps d.base gc ++ []))) ↔
      b = ("ang", B) ∨ b ∈ linBlks (dcOps d ++ ([] ++ (pwlOps d.base gc ++ []))) := by
    intro b
    rw [hB]
    simp only [linBlks, List.filterMap_append, List.mem_append, List.filterMap_cons, List.filterMap_nil, List.mem_cons, List.not_mem_nil, or_false, false_or]
    tauto
  refine ⟨?_, ?_, ?_, ?_, ?_, ?_⟩
  · rw [hvb']; exact g.varNames
  · have hlb0 : linBlks (dcOps d) = [("Pmis", ⟨hcat (Bbus d.branch) d.negCg, vec d.bmis, vec d.bmis, ["Va", "Pg"]⟩),
      ("Pf", ⟨matOf d.BfIl, List.replicate d.il.length ⊥, vec d.upf, ["Va"]⟩),
      ("Pt", ⟨matOf (-d.BfIl), List.replicate d.il.length ⊥, vec d.upt, ["Va"]⟩)] := rfl
    have e : ∀ a b : List Op, linBlks (a ++ b) = linBlks a ++ linBlks b := fun a b => by simp [linBlks]
    rw [e, e, e, hlb0, hB]
    by_cases hy : nyOf gc = 0
    · rw [show pwlOps d.base gc = [] by unfold pwlOps; rw [if_pos hy]]
      simp [names, linBlks]
    · rw [pwlOps_linBlks _ _ hy]
      simp [names, linBlks]
  · rw [hvv]; exact g.varFits
  · intro b hb
    rw [hvb']
    rcases (hlb b).1 hb with rfl | hb
    · refine ⟨by simp [hvs], ?_, Or.inr hl, Or.inr hu⟩
      simp only [hvs, hcols, hvb0]
      simp [widthOf, eff, size]
    · exact g.linFits b hb
  · rw [hvv]; exact g.varSane
  · intro b hb
    rcases (hlb b).1 hb with rfl | hb
    · intro i hi
      obtain ⟨a, ha, -, -, h3⟩ := hrow i hi
      obtain ⟨a1, a2, a3⟩ := hang a ha
      simp only
      rw [h3.lo, h3.hi]
      by_cases c1 : a.angmin = 0
      · rw [if_neg (by simpa using c1)]
        refine sane_bot ?_
        split_ifs
        · exact EReal.coe_ne_bot _
        · simp
      · rw [if_pos (by simpa using c1)]
        by_cases c2 : a.angmax = 0
        · rw [if_neg (by simpa using c2)]
          exact ⟨le_top, by simp, EReal.coe_ne_top _, by rintro ⟨x, y, -, hy, -⟩; exact absurd hy (EReal.top_ne_coe y)⟩
        · rw [if_pos (by simpa using c2)]
          refine sane_real ?_ (finite_of_abs a1) (finite_of_abs a2)
          have := mul_le_mul_of_nonneg_right (a3 c1 c2) Real.pi_pos.le
          linarith
    · exact g.linSane b hb

end complete

/-- Tolerances at which the starting point is accepted, all of them nonnegative. -/
theorem exists_success_nonneg {X Q I : Type} [Fintype X] [Fintype Q] [Fintype I] [DecidableEq X] [DecidableEq I] (P : Problem X Q I) (x0 : X → ℝ) :
    ∃ o : Opt, 0 < o.costMult ∧ 0 < o.feastol ∧ 0 < o.gradtol ∧ 0 < o.comptol ∧ ∀ solve : Solver X Q, (pips P o solve x0).eflag = true := by
  let o1 : Opt := ⟨0, 0, 0, 0, 0, 0, false, 1⟩
  let s := Pips.init P o1 x0
  let o : Opt := ⟨|feascond P s.x s.z| + 1, |gradcond P o1 s.x s.lam s.mu| + 1, |compcond s.x s.z s.mu| + 1, costcond (Pips.cost P o1 s.x) s.f0 + 1, 0, 0, false, 1⟩
  refine ⟨o, by norm_num [o], by simp only [o]; positivity, by simp only [o]; positivity, by simp only [o]; positivity, fun solve => ?_⟩
  have hc : conv P o (Pips.init P o x0) := by
    refine ⟨?_, ?_, ?_, ?_⟩
    · exact lt_of_le_of_lt (le_abs_self _) (lt_add_one _)
    · exact lt_of_le_of_lt (le_abs_self _) (lt_add_one _)
    · exact lt_of_le_of_lt (le_abs_self _) (lt_add_one _)
    · exact lt_add_one _
  simp [pips, Pips.run, hc]

section
variable {srt : List ℕ → List ℕ} (hs : IsArgsort srt) {base : ℝ} {c : Index.Case Tables} (h : WF c) (hin : DcInputs base c) (E : Econ) (hang : AngInputs E c)

include hs h hin hang

theorem econ_wellposed : ∀ c' d, Index.ext2int srt c = some c' → readCase base c' = some d → Good (dcOps d ++ (econSetup base E).extra d c') := by
  intro c' d he hd
  obtain ⟨c1, d1, he1, hd1, hw⟩ := bridge_exists hs base h
  rw [he] at he1; cases he1
  obtain ⟨r, hr⟩ := hw ⟨fun _ b => b, fun _ g => g, fun _ l => l⟩
  obtain ⟨bp, gp, lp, B, -, -, -, hbr, -⟩ := bridge_full hs h he hd _ hr opfOff
  refine econ_good (dcInputs_ok hs h hin he hd) E c' (readCase_valid hd E) _ ?_
  intro b hb
  obtain ⟨l', hl', rfl⟩ := List.mem_map.1 hb
  obtain ⟨k, hk, rfl⟩ := List.mem_iff_getElem.1 hl'
  obtain ⟨l, e0, e1, -⟩ := hbr ⟨k, hk⟩
  obtain ⟨l0, h0, hon, -⟩ := B.branch ⟨k, hk⟩
  rw [e0] at h0; cases h0
  simp only [Fin.getElem_fin] at e1
  simp only [e1]
  exact hang l (List.mem_of_getElem? e0) hon

/-- **C96 (completes).**  On every well-formed case with data and angle limits in range, whatever the cost table, the DC optimal power flow returns, whatever the linear
solver does; with tolerances wide enough for the starting point it succeeds. -/
theorem C96_completes : (∀ (o : Opt) (solve : AnySolver), ∃ r, opfDcEcon srt base E o solve c = some r) ∧
    ∀ solve : AnySolver, ∃ o r, 0 < o.costMult ∧ 0 < o.feastol ∧ 0 < o.gradtol ∧ 0 < o.comptol ∧ opfDcEcon srt base E o solve c = some r ∧ r.success = true := by
  have hgood := econ_wellposed hs h hin E hang
  obtain ⟨c', d, he, hd, hw⟩ := bridge_exists hs base h
  have g := hgood c' d he hd
  obtain ⟨m, hm⟩ := econ_runs (d := d) E c' (readCase_valid hd E) (fun k : Fin c'.gen.length => pwl1Row (costAt c' k))
  have hm' : OpfModel.run (dcOps d ++ (econSetup base E).extra d c') = some m := hm
  obtain ⟨q, hq, -, -, -, -, hok⟩ := linearOf_spec hm g
  obtain ⟨i1, i2, i3, i4, i5⟩ := dc_idx hm g
  have sol : ∀ (o : Opt) (solve : AnySolver), ∃ s, dcopfSolver d m ((econSetup base E).H c' m) ((econSetup base E).C c' m) ((econSetup base E).C0 c' m) o solve
      ((econSetup base E).x0 c' m) = some s := by
    intro o solve
    obtain ⟨r, hr⟩ := C76_returns (qp ((econSetup base E).H c' m) ((econSetup base E).C c' m)) q o (solve _ _) ((econSetup base E).x0 c' m) hok
    unfold dcopfSolver
    simp only [hq, hr, i1, i2, i3, i4, i5, Option.bind_eq_bind, Option.bind_some]
    exact ⟨_, rfl⟩
  constructor
  · intro o solve
    obtain ⟨s, hs'⟩ := sol o solve
    obtain ⟨r, hr⟩ := hw (dcUpd s ((econSetup base E).post c' m s))
    unfold opfDcEcon opfDc
    simp only [he, hd, hm', hs', hr, Option.bind_eq_bind, Option.bind_some]
    exact ⟨_, rfl⟩
  · intro solve
    obtain ⟨o, h1, h3, h4, h5, h2⟩ := exists_success_nonneg (problem (qp ((econSetup base E).H c' m) ((econSetup base E).C c' m)) q) ((econSetup base E).x0 c' m)
    obtain ⟨s, hs'⟩ := sol o solve
    obtain ⟨r, hr⟩ := hw (dcUpd s ((econSetup base E).post c' m s))
    obtain ⟨q', r', hq', hr', e1, -⟩ := dc_ofSolver hm' g hs'
    rw [hq] at hq'; cases hq'
    refine ⟨o, ⟨s.success, s.f, s.tol, s.dual, m.var.total + m.lin.total, zeroOff opfOff r⟩, h1, h3, h4, h5, ?_, ?_⟩
    · unfold opfDcEcon opfDc
      simp only [he, hd, hm', hs', hr, Option.bind_eq_bind, Option.bind_some]
    · show s.success = true
      rw [e1, (ofFull hr').2.1]; exact h2 _

end

/-! ### The example -/

noncomputable section

/-- The tables of C86 with costs (three breakpoints; quadratic; two out of service) and an angle limit of 30 degrees on the first branch. -/
def exEcon : Index.Case Tables :=
  { exTables with
    branch := [⟨9, 2, 1, ⟨0.01, 0.1, 0.02, 60, 0, 0, 0, 0, 0, 0, 0, 0, 0, 0, [-30, 30]⟩⟩, ⟨9, 7, 1, ⟨0.01, 0.1, 0.02, 60, 0, 0, 8, 0, 0, 0, 0, 0, 0, 0, []⟩⟩,
      ⟨2, 9, 0, ⟨0.01, 0.1, 0.02, 60, 0, 0, 0, 9, 0, 0, 0, 0, 0, 0, []⟩⟩]
    gencost := some [⟨1, 3, [0, 0, 50, 500, 200, 3500]⟩, ⟨2, 2, [1, 0]⟩, ⟨2, 3, [0.1, 5, 0]⟩, ⟨2, 2, [7, 0]⟩] }

def exE : Econ where
  angmin := fun l => l.getD 0 0
  angmax := fun l => l.getD 1 0
  ignoreAng := false
  x0 := fun _ _ => 0

/-- Another dispatch: 50 MW at bus 2, 41 MW from bus 9 over an angle of 0.041 radians. -/
def exAlt : Index.Case Tables :=
  { exEcon with
    bus := [⟨9, 3, ⟨0, 0, 0, 0, 1, 5, 1.1, 0.9, 0, 0, 0, 0, []⟩⟩, ⟨7, 4, ⟨10, 5, 0, 0, 1, 0, 1.1, 0.9, 0, 0, 0, 0, []⟩⟩,
      ⟨2, 1, ⟨90, 30, 1, 2, 1, 5 - 0.041 * (180 / Real.pi), 1.1, 0.9, 0, 0, 0, 0, [345]⟩⟩]
    gen := [⟨2, 1, ⟨50, 0, 50, -50, 1, 100, 10, 0, 0, 0, 0, []⟩⟩, ⟨7, 1, ⟨0, 1, 50, -50, 1, 100, 10, 0, 0, 0, 0, []⟩⟩,
      ⟨9, 1, ⟨41, 0, 50, -50, 1, 200, 10, 0, 0, 0, 0, []⟩⟩, ⟨9, 0, ⟨0, 3, 50, -50, 1, 100, 10, 4, 0, 0, 0, []⟩⟩]
    branch := [⟨9, 2, 1, ⟨0.01, 0.1, 0.02, 60, 0, 0, 41, 0, -41, 0, 0, 0, 0, 0, [-30, 30]⟩⟩, ⟨9, 7, 1, ⟨0.01, 0.1, 0.02, 60, 0, 0, 0, 0, 0, 0, 0, 0, 0, 0, []⟩⟩,
      ⟨2, 9, 0, ⟨0.01, 0.1, 0.02, 60, 0, 0, 0, 9, 0, 0, 0, 0, 0, 0, []⟩⟩] }

def exθ (n : ℕ) : ℝ := if n = 9 then 5 * (Real.pi / 180) else if n = 2 then 5 * (Real.pi / 180) - 0.041 else 0

theorem exEcon_wf : WF exEcon where
  busNodup := by simp [exEcon, exTables]
  typValid := by simp [exEcon, exTables]
  someOn := ⟨_, List.mem_cons_self, by decide⟩
  genRef := by simp [exEcon, exTables, Index.HasBus]
  fRef := by simp [exEcon, exTables, Index.HasBus]
  tRef := by simp [exEcon, exTables, Index.HasBus]
  areaRef := by simp [exEcon, exTables]
  costRows := by simp [exEcon, exTables]
  aCols := by simp [exEcon, exTables]
  nCols := by simp [exEcon, exTables]
  notInternal := by simp [exEcon, exTables]

theorem exEcon_plain : DcPlain 100 exEcon where
  pos := exTables_plain.pos
  bus := exTables_plain.bus
  gen := exTables_plain.gen
  branch := by
    simp only [exEcon, List.mem_cons, List.not_mem_nil, or_false, forall_eq_or_imp, forall_eq]
    norm_num [BranchInService]
  shift := by
    simp only [exEcon, List.mem_cons, List.not_mem_nil, or_false, forall_eq_or_imp, forall_eq]
    norm_num [BranchInService]

theorem exEcon_dc : DcInputs 100 exEcon := exEcon_plain.inputs

theorem exE_ang : AngInputs exE exEcon := by
  have hpi := Real.pi_pos
  have hpi' := Real.pi_le_four
  unfold AngInputs
  simp only [exEcon, List.mem_cons, List.not_mem_nil, or_false, forall_eq_or_imp, forall_eq, exE]
  refine ⟨fun _ => ⟨?_, ?_, ?_⟩, fun _ => ?_, fun _ => ?_⟩
  · simp only [List.getD_cons_zero, abs_lt]
    constructor <;> linarith
  · simp only [List.getD_cons_succ, List.getD_cons_zero, abs_lt]
    constructor <;> linarith
  · intro _ _; norm_num
  · norm_num
  · norm_num

theorem exCon (n : ℕ) : Connected exEcon n ↔ n = 9 ∨ n = 2 := by
  simp only [Connected, exEcon, exTables, List.mem_cons, List.not_mem_nil, or_false]
  constructor
  · rintro ⟨b, rfl | rfl | rfl, rfl, h⟩ <;> simp at h ⊢
  · rintro (rfl | rfl)
    · exact ⟨_, Or.inl rfl, rfl, by decide⟩
    · exact ⟨_, Or.inr (Or.inr rfl), rfl, by decide⟩

theorem exConAlt (n : ℕ) : Connected exAlt n ↔ n = 9 ∨ n = 2 := by
  simp only [Connected, exAlt, List.mem_cons, List.not_mem_nil, or_false]
  constructor
  · rintro ⟨b, rfl | rfl | rfl, rfl, h⟩ <;> simp at h ⊢
  · rintro (rfl | rfl)
    · exact ⟨_, Or.inl rfl, rfl, by decide⟩
    · exact ⟨_, Or.inr (Or.inr rfl), rfl, by decide⟩

theorem exEcon_on (i : ℕ) (hi : i ∈ onGens exEcon) : i = 0 ∨ i = 2 := by
  simp only [onGens, Finset.mem_filter, Finset.mem_range] at hi
  obtain ⟨h1, g, h2, h3⟩ := hi
  have h1' : i < 4 := h1
  unfold GenInService at h3
  rw [exCon] at h3
  interval_cases i <;> simp [exEcon, exTables] at h2 <;> subst h2 <;> simp at h3 ⊢

theorem exEcon_costs : EconCosts exEcon where
  table := rfl
  ok := by
    intro i hi
    rcases exEcon_on i hi with rfl | rfl
    · exact exGc_ok 0
    · refine Or.inr ⟨⟨rfl, by simp [costAt, exEcon], by simp [costAt, exEcon]⟩, Or.inr ⟨rfl, ?_⟩⟩
      norm_num [costAt, exEcon]
  big := by
    intro i hi hm k hk
    rcases exEcon_on i hi with rfl | rfl
    · have hk' : k + 1 < 3 := hk
      have hk2 : k < 2 := by omega
      interval_cases k <;> norm_num [costAt, exEcon, Cost.slope, Cost.bp]
    · exact absurd hm (by simp [costAt, exEcon])

theorem exAlt_feasible : DcFeasible 100 exE exEcon exAlt exθ where
  bus := by simp [exAlt, exEcon, exTables, busInput]
  gen := by simp [exAlt, exEcon, exTables, genInput]
  branch := by simp [exAlt, exEcon, exTables, branchInput]
  angles := by
    have := Real.pi_pos
    simp only [exAlt, List.mem_cons, List.not_mem_nil, or_false, forall_eq_or_imp, forall_eq, exθ]
    refine ⟨by simp, by simp, ?_⟩
    simp only [show ¬ (2 : ℕ) = 9 by decide, if_false, if_true]
    field_simp
  flows := by
    simp only [BranchInService, exConAlt]
    simp only [exAlt, List.mem_cons, List.not_mem_nil, or_false, forall_eq_or_imp, forall_eq]
    refine ⟨fun _ => ?_, by simp, by simp⟩
    norm_num [dcFlow, asBranch, exθ]
  balance := by
    simp only [exAlt, List.mem_cons, List.not_mem_nil, or_false, forall_eq_or_imp, forall_eq]
    refine ⟨fun _ => ?_, fun h => absurd rfl h, fun _ => ?_⟩ <;> norm_num [dcBalance, genAt, fromAt, toAt, List.filter_cons]
  limits := by
    simp only [GenInService, exConAlt]
    simp only [exAlt, List.mem_cons, List.not_mem_nil, or_false, forall_eq_or_imp, forall_eq]
    norm_num
  rating := by
    simp only [BranchInService, exConAlt]
    simp only [exAlt, List.mem_cons, List.not_mem_nil, or_false, forall_eq_or_imp, forall_eq]
    refine ⟨fun _ _ _ => ?_, by simp, by simp⟩
    rw [abs_of_pos] <;> norm_num
  ref := by
    intro i b b0 h1 h2 h3
    match i with
    | 0 =>
      simp only [exAlt, List.getElem?_cons_zero, Option.some.injEq] at h1
      simp only [exEcon, exTables, List.getElem?_cons_zero, Option.some.injEq] at h2
      rw [← h1, ← h2]
    | 1 =>
      simp only [exAlt, List.getElem?_cons_succ, List.getElem?_cons_zero, Option.some.injEq] at h1
      rw [← h1] at h3
      simp at h3
    | 2 =>
      simp only [exAlt, List.getElem?_cons_succ, List.getElem?_cons_zero, Option.some.injEq] at h1
      rw [← h1] at h3
      simp at h3
    | n + 3 => simp [exAlt] at h1
  angle := by
    intro _
    have hpi := Real.two_le_pi
    simp only [BranchInService, exCon]
    simp only [exEcon, List.mem_cons, List.not_mem_nil, or_false, forall_eq_or_imp, forall_eq]
    refine ⟨fun _ _ => ⟨fun _ => ?_, fun _ => ?_⟩, by simp, by simp⟩
    · norm_num [exE, exθ]
      linarith
    · norm_num [exE, exθ]
      linarith
  genOff := by
    simp only [GenInService, exConAlt]
    simp only [exAlt, List.mem_cons, List.not_mem_nil, or_false, forall_eq_or_imp, forall_eq]
    norm_num
  brOff := by
    simp only [BranchInService, exConAlt]
    simp only [exAlt, List.mem_cons, List.not_mem_nil, or_false, forall_eq_or_imp, forall_eq]
    norm_num

/-- The hypotheses of C96 hold on the example: a successful run, and another dispatch within all limits; one of the two generators in service has a piecewise linear
cost; the other dispatch costs 873.1 $/h. -/
example : ∃ o r, IsArgsort Index.stableArgsort ∧ (0 : ℝ) < 100 ∧ WF exEcon ∧ EconCosts exEcon ∧ (∀ l ∈ exEcon.branch, l.status = 0 ∨ l.status = 1) ∧
    0 < o.costMult ∧ 0 ≤ o.feastol ∧ 0 ≤ o.comptol ∧
    (∀ c' d, Index.ext2int Index.stableArgsort exEcon = some c' → readCase 100 c' = some d → Good (dcOps d ++ (econSetup 100 exE).extra d c')) ∧
    opfDcEcon Index.stableArgsort 100 exE o (fun _ _ _ _ => none) exEcon = some r ∧ r.success = true ∧ DcFeasible 100 exE exEcon exAlt exθ := by
  obtain ⟨o, r, h1, h2, -, h3, h4, h5⟩ := (C96_completes Index.stableArgsort_isArgsort exEcon_wf exEcon_dc exE exE_ang).2 (fun _ _ _ _ => none)
  refine ⟨o, r, Index.stableArgsort_isArgsort, by norm_num, exEcon_wf, exEcon_costs, ?_, h1, h2.le, h3.le,
    econ_wellposed Index.stableArgsort_isArgsort exEcon_wf exEcon_dc exE exE_ang, h4, h5, exAlt_feasible⟩
  simp [exEcon]

end

end Verif.Opf
