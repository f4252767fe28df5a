import Verif.DType.CostLemmas
import Verif.DType.CostSpec
import Verif.DType.PfLemmas

/-!
# C114: the DC optimal power flow with a cost table of whole numbers
-/

namespace Verif.DType

open Verif.Opf Verif.Cost Verif.Pips Verif.Index Verif.NumPy

/-! ### The stored rows -/

theorem storeRow_float : storeRow .float = pwl1Row := by
  funext r
  unfold storeRow pwl1Row
  split_ifs
  · rcases r.data with _ | ⟨_, _ | ⟨_, _ | ⟨_, _ | ⟨_, _⟩⟩⟩⟩ <;> rfl
  · rfl

theorem pwl1_storeRow (e : Elem) (r : CostRow ℝ) : pwl1Row (storeRow e r) = storeRow e r := by
  unfold storeRow
  split_ifs with h
  · obtain ⟨m, n, dat⟩ := r
    obtain ⟨rfl, rfl⟩ := h
    match dat with
    | x0 :: y0 :: x1 :: y1 :: rest => simp [pwl1Row]
    | [] => simp [pwl1Row]
    | [_] => simp [pwl1Row]
    | [_, _] => simp [pwl1Row]
    | [_, _, _] => simp [pwl1Row]
  · simp [pwl1Row, h]

theorem storeRow_default (e : Elem) : storeRow e ⟨0, 0, []⟩ = ⟨0, 0, []⟩ := by simp [storeRow]

theorem costAt_map (e : Elem) (c : Index.Case Tables) (p : ℕ) : costAt (mapCost (storeRow e) c) p = storeRow e (costAt c p) := by
  unfold costAt mapCost
  cases h : c.gencost with
  | none => simp [storeRow_default]
  | some gc =>
    simp only [Option.map_some, Option.getD_some, List.getD_eq_getElem?_getD, List.getElem?_map]
    cases gc[p]? with
    | none => simp [storeRow_default]
    | some r => simp

theorem storeRow_other (e : Elem) {r : CostRow ℝ} (h : ¬ (r.model = 1 ∧ r.ncost = 2)) : storeRow e r = r := by
  unfold storeRow
  rw [if_neg h]

theorem storeRow_seg (e : Elem) {r : CostRow ℝ} (h1 : r.model = 1) (h2 : r.ncost = 2) (h4 : 4 ≤ r.data.length) :
    ∃ rest, storeRow e r = ⟨2, 2, e.put (segSlope r) :: e.put (segIntercept r) :: rest⟩ := by
  obtain ⟨m, n, dat⟩ := r
  simp only at h1 h2 h4
  subst h1; subst h2
  match dat, h4 with
  | x0 :: y0 :: x1 :: y1 :: rest, _ => exact ⟨x1 :: y1 :: rest, by simp [storeRow, segSlope, segIntercept]⟩

theorem line_val (a b P : ℝ) (rest : List ℝ) : rowVal (⟨2, 2, a :: b :: rest⟩ : CostRow ℝ) P = a * P + b := by
  simp [rowVal, rowPoly, Finset.sum_range_succ]

theorem rowVal_seg {r : CostRow ℝ} (h1 : r.model = 1) (h2 : r.ncost = 2) (h : PwlRow r) (P : ℝ) :
    rowVal r P = segSlope r * P + segIntercept r := by
  obtain ⟨rest, hr⟩ := storeRow_seg .float h1 h2 (by have := h.data; omega)
  rw [← pwl1_val r (Or.inl h), ← storeRow_float, hr, line_val]
  rfl

theorem rowVal_int {r : CostRow ℝ} (h1 : r.model = 1) (h2 : r.ncost = 2) (h : PwlRow r) (P : ℝ) :
    rowVal (storeRow .int r) P = trunc (segSlope r) * P + trunc (segIntercept r) := by
  obtain ⟨rest, hr⟩ := storeRow_seg .int h1 h2 (by have := h.data; omega)
  rw [hr, line_val]
  rfl

theorem econSetup_store (e : Elem) (c' : Index.Case Tables) (p : ℕ) :
    pwl1Row (costAt (mapCost (storeRow e) c') p) = storeRow e (costAt c' p) := by
  rw [costAt_map, pwl1_storeRow]

/-- **C114 (float tables).**  With a cost table of floats the replacement done in the table is invisible: the run is the one of C96, whose starting point is computed
from the replaced rows. -/
theorem C114_float (srt : List ℕ → List ℕ) (base : ℝ) (E : Econ) (o : Opt) (solve : AnySolver) (c : Index.Case Tables) :
    opfDcEconT .float srt base E o solve c = opfDcEcon srt base { E with x0 := fun c m => E.x0 (mapCost pwl1Row c) m } o solve c := by
  unfold opfDcEconT opfDcEcon
  congr 1
  have hp : ∀ (c : Index.Case Tables) (p : ℕ), pwl1Row (costAt (mapCost pwl1Row c) p) = pwl1Row (costAt c p) := by
    intro c p
    have := econSetup_store .float c p
    rwa [storeRow_float] at this
  rw [storeRow_float]
  unfold readsAfter econSetup
  have e : ∀ c : Index.Case Tables, (fun p : Fin c.gen.length => pwl1Row (costAt (mapCost pwl1Row c) p)) = fun p : Fin c.gen.length => pwl1Row (costAt c p) :=
    fun c => funext fun p => hp c p
  simp only [hp, DcSetup.mk.injEq]
  refine ⟨?_, ?_, ?_, ?_, trivial, rfl⟩
  · trivial
  · funext c m
    refine dite_congr rfl (fun h => ?_) fun _ => rfl
    exact congrArg (fun gc => OpfCost.HH (dcData base gc (noUser m.var.total) c.bus.length (c.bus.length + c.gen.length) h)) (e c)
  · funext c m
    refine dite_congr rfl (fun h => ?_) fun _ => rfl
    exact congrArg (fun gc => OpfCost.CC (dcData base gc (noUser m.var.total) c.bus.length (c.bus.length + c.gen.length) h)) (e c)
  · funext c m
    refine dite_congr rfl (fun h => ?_) fun _ => rfl
    exact congrArg (fun gc => OpfCost.C0 (dcData base gc (noUser m.var.total) c.bus.length (c.bus.length + c.gen.length) h)) (e c)

theorem storeRow_whole {r : CostRow ℝ} (h : r.model = 1 → r.ncost = 2 → Whole (segSlope r) ∧ Whole (segIntercept r)) : storeRow .int r = storeRow .float r := by
  by_cases hc : r.model = 1 ∧ r.ncost = 2
  · obtain ⟨h1, h2⟩ := h hc.1 hc.2
    obtain ⟨m, n, dat⟩ := r
    simp only at hc
    obtain ⟨rfl, rfl⟩ := hc
    match dat with
    | x0 :: y0 :: x1 :: y1 :: rest =>
      simp only [segSlope, segIntercept, List.getD_cons_zero, List.getD_cons_succ] at h1 h2
      simp only [storeRow, Elem.put, trunc_of_whole h1, trunc_of_whole h2, and_self, if_true]
    | [] => simp [storeRow]
    | [_] => simp [storeRow]
    | [_, _] => simp [storeRow]
    | [_, _, _] => simp [storeRow]
  · rw [storeRow_other _ hc, storeRow_other _ hc]

/-- **C114 (whole lines).**  When slopes and intercepts of one-segment costs are whole numbers, the run with a cost table of whole numbers is the run with the same
table of floats. -/
theorem C114_whole (srt : List ℕ → List ℕ) (base : ℝ) (E : Econ) (o : Opt) (solve : AnySolver) {c : Index.Case Tables} (h : WF c) (hw : WholeLines c) :
    opfDcEconT .int srt base E o solve c = opfDcEconT .float srt base E o solve c := by
  exact opfDc_congr base _ o solve h.notInternal fun gc hgc r hr => storeRow_whole (hw gc hgc r hr)

/-! ### Least cost up to the lost fractions -/

theorem wf_map (f : CostRow ℝ → CostRow ℝ) {c : Index.Case Tables} (h : WF c) : WF (mapCost f c) where
  busNodup := h.busNodup
  typValid := h.typValid
  someOn := h.someOn
  genRef := h.genRef
  fRef := h.fRef
  tRef := h.tRef
  areaRef := h.areaRef
  costRows := by
    intro gc hgc
    obtain ⟨g0, h0, rfl⟩ := Option.map_eq_some_iff.1 hgc
    simpa [mapCost] using h.costRows g0 h0
  aCols := h.aCols
  nCols := h.nCols
  notInternal := by
    intro o ho
    obtain ⟨o0, h0, rfl⟩ := Option.map_eq_some_iff.1 ho
    exact h.notInternal o0 h0

theorem econCosts_map {c : Index.Case Tables} (h : EconCosts c) : EconCosts (mapCost (storeRow .int) c) where
  table := by
    have := h.table
    simpa [mapCost] using this
  ok := by
    intro i hi
    rw [costAt_map]
    by_cases hc : (costAt c i).model = 1 ∧ (costAt c i).ncost = 2
    · rcases h.ok i hi with ho | ho
      · obtain ⟨rest, hr⟩ := storeRow_seg .int hc.1 hc.2 (by have := ho.1.data; omega)
        rw [hr]
        exact Or.inr ⟨⟨rfl, by simp, by simp⟩, Or.inl rfl⟩
      · have := ho.1.model; omega
    · rw [storeRow_other _ hc]; exact h.ok i hi
  big := by
    intro i hi
    rw [costAt_map]
    by_cases hc : (costAt c i).model = 1 ∧ (costAt c i).ncost = 2
    · rcases h.ok i hi with ho | ho
      · obtain ⟨rest, hr⟩ := storeRow_seg .int hc.1 hc.2 (by have := ho.1.data; omega)
        rw [hr]
        intro h1; cases h1
      · have := ho.1.model; omega
    · rw [storeRow_other _ hc]; exact h.big i hi

theorem store_model {r : CostRow ℝ} (h : CostOK r) : ((storeRow .int r).model = 1 ∧ (storeRow .int r).ncost ≠ 2) ↔ (r.model = 1 ∧ r.ncost ≠ 2) := by
  by_cases hc : r.model = 1 ∧ r.ncost = 2
  · rcases h with ho | ho
    · obtain ⟨rest, hr⟩ := storeRow_seg .int hc.1 hc.2 (by have := ho.1.data; omega)
      rw [hr]
      simp [hc.2]
    · have := ho.1.model; omega
  · rw [storeRow_other _ hc]

theorem pwlGens_map {c : Index.Case Tables} (h : EconCosts c) : pwlGens (mapCost (storeRow .int) c) = pwlGens c := by
  unfold pwlGens
  refine Finset.filter_congr fun i hi => ?_
  rw [costAt_map]
  exact store_model (h.ok i hi)

theorem genCost_other {c : Index.Case Tables} {i : ℕ} (h : i ∉ segGens c) (hi : i ∈ onGens c) (P : ℝ) : genCost (mapCost (storeRow .int) c) i P = genCost c i P := by
  unfold genCost
  rw [costAt_map, storeRow_other]
  intro hc
  exact h (Finset.mem_filter.2 ⟨hi, hc⟩)

theorem pwl_notSeg {c : Index.Case Tables} {i : ℕ} (h : i ∈ pwlGens c) : i ∉ segGens c := fun hs => (Finset.mem_filter.1 h).2.2 (Finset.mem_filter.1 hs).2.2

theorem genCost_near {c : Index.Case Tables} (h : EconCosts c) {i : ℕ} (hi : i ∈ segGens c) (P : ℝ) :
    |genCost (mapCost (storeRow .int) c) i P - genCost c i P| ≤ |P| + 1 := by
  obtain ⟨h0, h1, h2⟩ := Finset.mem_filter.1 hi
  have hp : PwlRow (costAt c i) := by
    rcases h.ok i h0 with ho | ho
    · exact ho.1
    · have := ho.1.model; omega
  unfold genCost
  rw [costAt_map, rowVal_int h1 h2 hp, rowVal_seg h1 h2 hp]
  have a1 := trunc_near (segSlope (costAt c i))
  have a2 := trunc_near (segIntercept (costAt c i))
  calc |trunc (segSlope (costAt c i)) * P + trunc (segIntercept (costAt c i)) - (segSlope (costAt c i) * P + segIntercept (costAt c i))|
      = |-((segSlope (costAt c i) - trunc (segSlope (costAt c i))) * P) + -(segIntercept (costAt c i) - trunc (segIntercept (costAt c i)))| := by ring_nf
    _ ≤ |(segSlope (costAt c i) - trunc (segSlope (costAt c i))) * P| + |segIntercept (costAt c i) - trunc (segIntercept (costAt c i))| := by
      refine (abs_add_le _ _).trans ?_
      rw [abs_neg, abs_neg]
    _ ≤ 1 * |P| + 1 := by
      rw [abs_mul]
      exact add_le_add (mul_le_mul_of_nonneg_right a1.le (abs_nonneg _)) a2.le
    _ = |P| + 1 := by ring

theorem dispatch_near {c : Index.Case Tables} (h : EconCosts c) (t : Index.Case Tables) :
    |dispatchCost (mapCost (storeRow .int) c) t - dispatchCost c t| ≤ costLoss c t := by
  have e : dispatchCost (mapCost (storeRow .int) c) t - dispatchCost c t =
      ∑ i ∈ segGens c, (genCost (mapCost (storeRow .int) c) i (pgAt t i) - genCost c i (pgAt t i)) := by
    change ∑ i ∈ onGens c, genCost (mapCost (storeRow .int) c) i (pgAt t i) - ∑ i ∈ onGens c, genCost c i (pgAt t i) = _
    rw [← Finset.sum_sub_distrib]
    symm
    refine Finset.sum_subset (Finset.filter_subset _ _) fun i hi hn => ?_
    rw [genCost_other hn hi, sub_self]
  rw [e]
  exact (Finset.abs_sum_le_sum_abs _ _).trans (Finset.sum_le_sum fun i hi => genCost_near h hi _)

theorem feasible_map {base : ℝ} {E : Econ} {c t : Index.Case Tables} {θ : ℕ → ℝ} (f : CostRow ℝ → CostRow ℝ) (F : DcFeasible base E c t θ) :
    DcFeasible base E (mapCost f c) t θ :=
  ⟨F.bus, F.gen, F.branch, F.angles, F.flows, F.balance, F.limits, F.rating, F.ref, F.angle, F.genOff, F.brOff⟩

theorem econT_run {e : Elem} {srt : List ℕ → List ℕ} {base : ℝ} {E : Econ} {o : Opt} {solve : AnySolver} {c : Index.Case Tables} {r : Ret}
    (hrun : opfDcEconT e srt base E o solve c = some r) : opfDcEcon srt base E o solve (mapCost (storeRow e) c) = some (mapRet (storeRow e) r) := by
  unfold opfDcEconT at hrun
  unfold opfDcEcon
  rw [opfDc_map, hrun]
  rfl

section
variable {srt : List ℕ → List ℕ} (hs : IsArgsort srt) {base : ℝ} {c : Index.Case Tables} (h : WF c) (hin : DcInputs base c) {E : Econ} (hang : AngInputs E c)

include hs h hin hang

/-- **C114 (completes).**  Whatever the element type of the cost table, the run returns; with tolerances wide enough for the starting point it succeeds. -/
theorem C114_completes (e : Elem) : (∀ (o : Opt) (solve : AnySolver), ∃ r, opfDcEconT e srt base E o solve c = some r) ∧
    ∀ solve : AnySolver, ∃ o r, 0 < o.costMult ∧ 0 < o.feastol ∧ 0 < o.gradtol ∧ 0 < o.comptol ∧ opfDcEconT e srt base E o solve c = some r ∧ r.success = true := by
  have hin' : DcInputs base (mapCost (storeRow e) c) := ⟨hin.pos, hin.bus, hin.gen, hin.branch⟩
  have hang' : AngInputs E (mapCost (storeRow e) c) := hang
  have back : ∀ {o : Opt} {solve : AnySolver} {r : Ret}, opfDcEcon srt base E o solve (mapCost (storeRow e) c) = some r →
      ∃ r', opfDcEconT e srt base E o solve c = some r' ∧ mapRet (storeRow e) r' = r := by
    intro o solve r hr
    unfold opfDcEcon at hr
    rw [opfDc_map] at hr
    exact Option.map_eq_some_iff.1 hr
  obtain ⟨h1, h2⟩ := C96_completes hs (wf_map (storeRow e) h) hin' E hang'
  constructor
  · intro o solve
    obtain ⟨r, hr⟩ := h1 o solve
    obtain ⟨r', hr', -⟩ := back hr
    exact ⟨r', hr'⟩
  · intro solve
    obtain ⟨o, r, a1, a2, a3, a4, hr, hok⟩ := h2 solve
    obtain ⟨r', hr', rfl⟩ := back hr
    exact ⟨o, r', a1, a2, a3, a4, hr', hok⟩

variable (hcost : EconCosts c) (hst : ∀ l ∈ c.branch, l.status = 0 ∨ l.status = 1) {o : Opt} {solve : AnySolver} (hc : 0 < o.costMult) (hft : 0 ≤ o.feastol) (hct : 0 ≤ o.comptol)
  {r : Ret} (hrun : opfDcEconT .int srt base E o solve c = some r) (hok : r.success = true)

include hcost hst hc hft hct hrun hok

/-- **C114 (least cost up to the lost fractions; the rest of C96 fails, `C114_negation`).**  After a successful run with a cost table of whole numbers the cost of the
returned dispatch and the least cost are bracketed as in C96 except for `costLoss`, one $/MWh and one $/h for every generator with a one-segment cost.  Missing for
C96: the bounds without `costLoss`. -/
theorem C114_partial : ∃ y : ℕ → ℝ,
    (∀ i ∈ pwlGens c, genCost c i (pgAt r.tables i) ≤ y i + r.tol) ∧
    dispatchCost c r.tables ≤ r.f + (pwlGens c).card * r.tol + costLoss c r.tables ∧
    ∀ t θ, DcFeasible base E c t θ → ∀ M : ℝ, 0 ≤ M → (∀ i ∈ onBuses c, |vaAt r.tables i| ≤ M) → (∀ i ∈ onGens c, |pgAt r.tables i / base| ≤ M) →
      (∀ i ∈ pwlGens c, |y i| ≤ M) →
      r.f ≤ dispatchCost c t + costLoss c t + gap o r.size M r.dual r.tol (Opf.dist base c r.tables t y) := by
  have hin' : DcInputs base (mapCost (storeRow .int) c) := ⟨hin.pos, hin.bus, hin.gen, hin.branch⟩
  have hang' : AngInputs E (mapCost (storeRow .int) c) := hang
  obtain ⟨y, h1, -, h3, h4⟩ := C96_least_cost hs hin.pos (wf_map (storeRow .int) h) (econCosts_map hcost) (E := E) hst hc hft hct
    (econ_wellposed hs (wf_map _ h) hin' E hang') (econT_run hrun) hok
  rw [pwlGens_map hcost] at h1 h3
  refine ⟨y, ?_, ?_, ?_⟩
  · intro i hi
    have := h1 i hi
    rw [genCost_other (pwl_notSeg hi) (Finset.mem_filter.1 hi).1] at this
    exact this
  · have := (abs_le.1 (dispatch_near hcost r.tables)).1
    change dispatchCost (mapCost (storeRow .int) c) r.tables ≤ r.f + _ at h3
    change _ ≤ r.f + (pwlGens c).card * (mapRet (storeRow .int) r).tol + _
    linarith
  · intro t θ F M hM a1 a2 a3
    have h5 := h4 t θ (feasible_map _ F) M hM a1 a2 (by rw [pwlGens_map hcost]; exact a3)
    have hd : Opf.dist base (mapCost (storeRow .int) c) (mapRet (storeRow .int) r).tables t y = Opf.dist base c r.tables t y := by
      unfold Opf.dist
      rw [pwlGens_map hcost]
      congr 1
      refine Finset.sum_congr rfl fun i hi => ?_
      rw [genCost_other (pwl_notSeg hi) (Finset.mem_filter.1 hi).1]
    rw [hd] at h5
    have := (abs_le.1 (dispatch_near hcost t)).2
    change r.f ≤ _ + gap o r.size M r.dual r.tol _ at h5
    linarith

end

end Verif.DType
