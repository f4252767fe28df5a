import Verif.DType.CostProps

/-!
# C114: a case whose costs are lost in a cost table of whole numbers
-/

namespace Verif.DType

open Verif.Opf Verif.Cost Verif.Pips Verif.Index Verif.NumPy

noncomputable section

/-- The tables of C96 with one-segment costs: 0 to 100 $/h (0.5 $/MWh) and 0 to 180 $/h (0.9 $/MWh) over 0 to 200 MW; every entry of the cost table is whole. -/
def exSeg : Index.Case Tables :=
  { exEcon with gencost := some [⟨1, 2, [0, 0, 200, 100]⟩, ⟨1, 2, [0, 0, 200, 100]⟩, ⟨1, 2, [0, 0, 200, 180]⟩, ⟨1, 2, [0, 0, 200, 180]⟩] }

theorem exSeg_wf : WF exSeg where
  busNodup := exEcon_wf.busNodup
  typValid := exEcon_wf.typValid
  someOn := exEcon_wf.someOn
  genRef := exEcon_wf.genRef
  fRef := exEcon_wf.fRef
  tRef := exEcon_wf.tRef
  areaRef := exEcon_wf.areaRef
  costRows := by simp [exSeg, exEcon, exTables]
  aCols := exEcon_wf.aCols
  nCols := exEcon_wf.nCols
  notInternal := exEcon_wf.notInternal

theorem exSeg_dc : DcInputs 100 exSeg := ⟨exEcon_dc.pos, exEcon_dc.bus, exEcon_dc.gen, exEcon_dc.branch⟩

theorem exSeg_ang : AngInputs exE exSeg := exE_ang

theorem exSeg_on {i : ℕ} (hi : i ∈ onGens exSeg) : i = 0 ∨ i = 2 := exEcon_on i hi

theorem exSeg_row {i : ℕ} (hi : i = 0 ∨ i = 2) : ∃ y : ℝ, 100 ≤ y ∧ y < 200 ∧ costAt exSeg i = ⟨1, 2, [0, 0, 200, y]⟩ := by
  rcases hi with rfl | rfl
  · exact ⟨100, by norm_num, by norm_num, rfl⟩
  · exact ⟨180, by norm_num, by norm_num, rfl⟩

theorem seg_ok (y : ℝ) : PwlRow (⟨1, 2, [0, 0, 200, y]⟩ : CostRow ℝ) where
  model := rfl
  two := le_refl 2
  data := by simp
  incr := by
    intro k hk
    have : k = 0 := by simp only at hk; omega
    subst this
    norm_num [bp]

theorem exSeg_costs : EconCosts exSeg where
  table := rfl
  ok := by
    intro i hi
    obtain ⟨y, -, -, hy⟩ := exSeg_row (exSeg_on hi)
    rw [hy]
    refine Or.inl ⟨seg_ok y, ?_⟩
    intro k hk
    simp only at hk
    omega
  big := by
    intro i hi _ k hk
    obtain ⟨y, h1, h2, hy⟩ := exSeg_row (exSeg_on hi)
    rw [hy] at hk ⊢
    have : k = 0 := by simp only at hk; omega
    subst this
    norm_num [Cost.slope, Cost.bp]

theorem exSeg_whole : WholeCosts exSeg := by
  intro gc hgc r hr x hx
  have : gc = [⟨1, 2, [0, 0, 200, 100]⟩, ⟨1, 2, [0, 0, 200, 100]⟩, ⟨1, 2, [0, 0, 200, 180]⟩, ⟨1, 2, [0, 0, 200, 180]⟩] := (Option.some.inj hgc).symm
  subst this
  simp only [List.mem_cons, List.not_mem_nil, or_false] at hr
  rcases hr with rfl | rfl | rfl | rfl <;> simp only [List.mem_cons, List.not_mem_nil, or_false] at hx <;> rcases hx with rfl | rfl | rfl | rfl <;>
    first
    | (refine ⟨0, ?_⟩; norm_num; done)
    | (refine ⟨200, ?_⟩; norm_num; done)
    | (refine ⟨100, ?_⟩; norm_num; done)
    | (refine ⟨180, ?_⟩; norm_num)

theorem exSeg_feasible : DcFeasible 100 exE exSeg exAlt exθ :=
  ⟨exAlt_feasible.bus, exAlt_feasible.gen, exAlt_feasible.branch, exAlt_feasible.angles, exAlt_feasible.flows, exAlt_feasible.balance, exAlt_feasible.limits,
    exAlt_feasible.rating, exAlt_feasible.ref, exAlt_feasible.angle, exAlt_feasible.genOff, exAlt_feasible.brOff⟩

theorem seg_cost (y P : ℝ) : rowVal (⟨1, 2, [0, 0, 200, y]⟩ : CostRow ℝ) P = y / 200 * P := by
  rw [rowVal_seg rfl rfl (seg_ok y)]
  simp [segSlope, segIntercept]

theorem seg_free {y : ℝ} (h1 : 0 ≤ y) (h2 : y < 200) (P : ℝ) : rowVal (storeRow .int (⟨1, 2, [0, 0, 200, y]⟩ : CostRow ℝ)) P = 0 := by
  rw [rowVal_int rfl rfl (seg_ok y)]
  have e1 : trunc (y / 200) = 0 := by
    unfold trunc
    rw [if_pos (by positivity)]
    have : ⌊y / 200⌋ = 0 := by
      rw [Int.floor_eq_zero_iff]
      exact ⟨by positivity, by rw [div_lt_one (by norm_num)]; exact h2⟩
    rw [this]; simp
  have e2 : trunc 0 = 0 := by simp [trunc]
  simp [segSlope, segIntercept, e1, e2]

/-- Every dispatch within the limits costs at least 10 MW at 0.5 $/MWh from each of the generators in service. -/
theorem exSeg_dear {t : Index.Case Tables} {θ : ℕ → ℝ} (F : DcFeasible 100 exE exSeg t θ) : 5 ≤ dispatchCost exSeg t := by
  have pos : ∀ i ∈ onGens exSeg, 5 ≤ genCost exSeg i (pgAt t i) := by
    intro i hi
    obtain ⟨y, h1, -, hy⟩ := exSeg_row (exSeg_on hi)
    have hi' := hi
    simp only [onGens, Finset.mem_filter] at hi'
    obtain ⟨-, g0, e0, hst, b0, hb0, hn, ht⟩ := hi'
    have hmin : g0.data.PMIN = 10 := by
      rcases exSeg_on hi with rfl | rfl <;> simp [exSeg, exEcon, exTables] at e0 <;> rw [← e0]
    have hg := congrArg (fun l => l[i]?) F.gen
    simp only [List.getElem?_map, e0, Option.map_some] at hg
    obtain ⟨g, eg, hgi⟩ := Option.map_eq_some_iff.1 hg
    have hb : busInput b0 ∈ t.bus.map busInput := by rw [F.bus]; exact List.mem_map_of_mem hb0
    obtain ⟨b, hbt, hbi⟩ := List.mem_map.1 hb
    have a1 : g.bus = g0.bus := congrArg (·.bus) hgi
    have a2 : g.status = g0.status := congrArg (·.status) hgi
    have a3 : g.data.PMIN = g0.data.PMIN := congrArg (·.data.PMIN) hgi
    have a4 : b.num = b0.num := congrArg (·.num) hbi
    have a5 : b.typ = b0.typ := congrArg (·.typ) hbi
    have hl := F.limits g (List.mem_of_getElem? eg) ⟨by rw [a2]; exact hst, b, hbt, by rw [a4, a1]; exact hn, by rw [a5]; exact ht⟩
    have hp : pgAt t i = g.data.PG := by simp [pgAt, eg]
    unfold genCost
    rw [hy, seg_cost, hp]
    have : 10 ≤ g.data.PG := by rw [← hmin, ← a3]; exact hl.1
    nlinarith
  have h0 : 0 ∈ onGens exSeg := by
    simp only [onGens, Finset.mem_filter]
    exact ⟨by simp [exSeg, exEcon, exTables], _, rfl, by simp, (exCon 2).2 (Or.inr rfl)⟩
  unfold dispatchCost
  calc (5 : ℝ) ≤ genCost exSeg 0 (pgAt t 0) := pos 0 h0
    _ ≤ _ := Finset.single_le_sum (f := fun i => genCost exSeg i (pgAt t i)) (fun i hi => by linarith [pos i hi]) h0

/-- **C114 (the reported cost and the merit order are lost).**  A case with a cost table of whole numbers on which C96 applies to the same table of floats: with the
table of whole numbers every successful run, whatever the tolerances and the linear solver, reports the cost 0, and there is one; a dispatch within the limits exists,
and every such dispatch costs at least 5 $/h. -/
theorem C114_negation : ∃ (base : ℝ) (E : Econ) (c : Index.Case Tables), WF c ∧ DcInputs base c ∧ AngInputs E c ∧ EconCosts c ∧ WholeCosts c ∧
    (∀ (o : Opt) (solve : AnySolver) (r : Ret), 0 < o.costMult → 0 ≤ o.feastol → 0 ≤ o.comptol →
      opfDcEconT .int stableArgsort base E o solve c = some r → r.success = true → r.f = 0) ∧
    (∃ (o : Opt) (solve : AnySolver) (r : Ret), 0 < o.costMult ∧ 0 ≤ o.feastol ∧ 0 ≤ o.comptol ∧
      opfDcEconT .int stableArgsort base E o solve c = some r ∧ r.success = true) ∧
    (∃ t θ, DcFeasible base E c t θ) ∧ ∀ t θ, DcFeasible base E c t θ → 5 ≤ dispatchCost c t := by
  refine ⟨100, exE, exSeg, exSeg_wf, exSeg_dc, exSeg_ang, exSeg_costs, exSeg_whole, ?_, ?_, ⟨exAlt, exθ, exSeg_feasible⟩, fun t θ F => exSeg_dear F⟩
  · intro o solve r hc hf hk hrun hok
    have hin' : DcInputs 100 (mapCost (storeRow .int) exSeg) := ⟨exSeg_dc.pos, exSeg_dc.bus, exSeg_dc.gen, exSeg_dc.branch⟩
    obtain ⟨y, -, h2, -⟩ := C96_least_cost stableArgsort_isArgsort exSeg_dc.pos (wf_map (storeRow .int) exSeg_wf) (econCosts_map exSeg_costs) (E := exE)
      (by simp [mapCost, exSeg, exEcon]) hc hf hk (econ_wellposed stableArgsort_isArgsort (wf_map _ exSeg_wf) hin' exE exSeg_ang) (econT_run hrun) hok
    rw [pwlGens_map exSeg_costs] at h2
    have he : pwlGens exSeg = ∅ := by
      refine Finset.filter_eq_empty_iff.2 fun i hi => ?_
      obtain ⟨y, -, -, hy⟩ := exSeg_row (exSeg_on hi)
      rw [hy]
      simp
    rw [he, Finset.sum_empty, add_zero, Finset.sdiff_empty] at h2
    change r.f = _ at h2
    rw [h2]
    refine Finset.sum_eq_zero fun i hi => ?_
    obtain ⟨y, h1, h2, hy⟩ := exSeg_row (exSeg_on hi)
    unfold genCost
    rw [costAt_map, hy]
    exact seg_free (by linarith) h2 _
  · obtain ⟨o, r, h1, h2, -, h4, h5, h6⟩ := (C114_completes stableArgsort_isArgsort exSeg_wf exSeg_dc exSeg_ang .int).2 (fun _ _ _ _ => none)
    exact ⟨o, fun _ _ _ _ => none, r, h1, h2.le, h4.le, h5, h6⟩

/-- Non-vacuity of `C114_partial`: its hypotheses hold on `exSeg`. -/
example : ∃ o r, WF exSeg ∧ DcInputs 100 exSeg ∧ AngInputs exE exSeg ∧ EconCosts exSeg ∧ (∀ l ∈ exSeg.branch, l.status = 0 ∨ l.status = 1) ∧ 0 < o.costMult ∧
    0 ≤ o.feastol ∧ 0 ≤ o.comptol ∧ opfDcEconT .int stableArgsort 100 exE o (fun _ _ _ _ => none) exSeg = some r ∧ r.success = true := by
  obtain ⟨o, r, h1, h2, -, h4, h5, h6⟩ := (C114_completes stableArgsort_isArgsort exSeg_wf exSeg_dc exSeg_ang .int).2 (fun _ _ _ _ => none)
  exact ⟨o, r, exSeg_wf, exSeg_dc, exSeg_ang, exSeg_costs, by simp [exSeg, exEcon], h1, h2.le, h4.le, h5, h6⟩

/-- Non-vacuity of `C114_whole`: whole slopes and intercepts. -/
example : WholeLines { exEcon with gencost := some [⟨1, 2, [0, 0, 100, 1200]⟩, ⟨1, 3, [0, 0, 50, 500, 200, 3500]⟩, ⟨1, 2, [10, 5, 20, 35]⟩, ⟨2, 2, [7, 0]⟩] } := by
  intro gc hgc r hr h1 h2
  simp only [Option.some.injEq] at hgc
  subst hgc
  simp only [List.mem_cons, List.not_mem_nil, or_false] at hr
  rcases hr with rfl | rfl | rfl | rfl
  · exact ⟨⟨12, by norm_num [segSlope]⟩, ⟨0, by norm_num [segIntercept, segSlope]⟩⟩
  · simp at h2
  · exact ⟨⟨3, by norm_num [segSlope]⟩, ⟨-25, by norm_num [segIntercept, segSlope]⟩⟩
  · simp at h1

end

end Verif.DType
