import Verif.Opf.IfProps

/-!
# C112: what interface flow limits do not do

Every dispatch within its limits and the interface limits *as they are applied* is accepted, at any tolerance; hence limits of an interface through the first branch in service, or in
another order than that of the interface numbers, do not hold.
-/

namespace Verif.Opf

open Verif.Index (BusRow GenRow BranchRow IsArgsort WF GenInService BranchInService Connected posOf orderOf)
open Verif.OpfModel Verif.Pips Verif.Network Verif.Cost Verif.OpfCost
open Verif.Iflims (MapRow LimRow Row ifidx)

noncomputable section

/-- **C112 (nothing else is required).**  A dispatch within all its limits and the interface limits as they are applied is returned as a success from a suitable starting point, at any
tolerance. -/
theorem C112_accepts {srt : List ℕ → List ℕ} (hs : IsArgsort srt) {base : ℝ} {c : Index.Case Tables} (h : WF c) (hin : DcInputs base c) (E : Econ) (hang : AngInputs E c)
    {ifmap : List MapRow} (hrows : MapRows c ifmap) {lims : List LimRow} (hne : lims ≠ []) (hsane : IfSane base c ifmap lims)
    (hst : ∀ l ∈ c.branch, l.status = 0 ∨ l.status = 1) (hcost : EconCosts c) (solve : AnySolver) {t : Index.Case Tables} {θ : ℕ → ℝ} (F : DcFeasible base E c t θ)
    (hF : IfApplied c ifmap lims t 0) (δ : ℝ) (hδ : 1 / 2 ^ 52 < δ) :
    ∃ x0 o r out, 0 < o.costMult ∧ 0 < o.feastol ∧ 0 < o.gradtol ∧ 0 < o.comptol ∧ opfDcIflims srt base { E with x0 := x0 } ifmap lims o solve c = some (r, out) ∧
      r.success = true ∧ r.tol = δ ∧ (∀ i ∈ onBuses c, vaAt r.tables i = vaAt t i) ∧ (∀ i ∈ onGens c, pgAt r.tables i = pgAt t i) ∧
      ∀ i < c.branch.length, pfAt r.tables i = pfAt t i := by
  have hb := hin.pos
  have hW : ∀ c' (d : Case c'.bus.length c'.gen.length c'.branch.length) (u : Upd c'.bus.length c'.gen.length c'.branch.length) (R : Index.Case Tables) bp gp lp,
      Index.ext2int srt c = some c' → readCase base c' = some d → Bridge c R opfOff d u bp gp lp →
      (∀ k : Fin c'.branch.length, (posOf srt c .branch)[(k : ℕ)]? = some (lp k)) →
      Holds (varBlocks (dcOps d ++ (angOps E c'.bus.length c' ++ (pwlOps d.base (gcOf c') ++ ifOps ifmap lims d c')))) (ifOps ifmap lims d c') (pointOf d bp gp t) := by
    intro c' d u R bp gp lp he hd B hlp
    obtain ⟨saved, im, rows, h1, h2, h3, -⟩ := if_form hs h hrows lims hst he B hlp
    have hW : ifOps ifmap lims d c' = [.addLin "iflims" (ifBlk rows).A (ifBlk rows).l (ifBlk rows).u (ifBlk rows).vs] := by
      unfold ifOps; rw [h1]
    rw [hW]
    have hbase := readCase_base hd
    have F' := F
    rw [← hbase] at F'
    have hfl := feasible_flows B F'
    refine ⟨fun b hb => by simp [varVals] at hb, fun b hb' i hi => ?_⟩
    have : b = ("iflims", ifBlk rows) := by simpa [linBlks] using hb'
    subst this
    have hi' : i < (ifidx lims).length := by rw [← h2]; exact hi
    obtain ⟨l, row, e1, e2, e3, e4, e5⟩ := h3 i _ (List.getElem?_eq_getElem hi')
    obtain ⟨b1, b2, -⟩ := ifBlk_row e2
    have hv := e5 t _ hfl
    obtain ⟨f1, f2⟩ := hF i _ l (List.getElem?_eq_getElem hi') e1
    simp only [b1, b2, rowAt (E := E) (d := d) _ e2, pointOf_va]
    rw [← hv, hbase] at f1 f2
    rw [e3, e4, hbase]
    constructor
    · refine EReal.coe_le_coe_iff.2 ?_
      rw [sub_zero, mul_comm] at f1
      have := (div_le_iff₀ hb).2 f1
      linarith
    · refine EReal.coe_le_coe_iff.2 ?_
      rw [add_zero, mul_comm] at f2
      have := (le_div_iff₀ hb).2 f2
      linarith
  obtain ⟨x0, o, r, o1, o2, o3, o4, hr, hok, htol, v1, v2⟩ := add_accepts hs h E (if_good hs h hin E hang hrows hst hsane) (if_runs hs h E hrows hst) hb hcost hst
    (ifOps_novars ifmap lims) solve F hW δ hδ
  obtain ⟨r', out, hr'⟩ := ((C112_completes hs h hin { E with x0 := x0 } hang hrows hsane hst).1 hne).1 o solve
  have := (if_tables hr').symm.trans hr
  cases this
  refine ⟨x0, o, r, out, o1, o2, o3, o4, hr', hok, htol, v1, v2, ?_⟩
  obtain ⟨c', d, m, s, p, bp, gp, lp, rows, X⟩ := if_run hs h { E with x0 := x0 } hrows hst hcost.table (if_good hs h hin { E with x0 := x0 } hang hrows hst hsane) hr'
  have F' := F
  rw [← X.add.base] at F'
  have f1 := feasible_flows X.add.bridge F'
  have f2 := run_flows X.add.bridge
  intro i hi
  by_cases hon : BranchInService c c.branch[i]
  · obtain ⟨k, rfl⟩ := X.add.bridge.brOn i _ (List.getElem?_eq_getElem hi) hon
    rw [f1.on, f2.on, (C77_flows d _ m X.add.run X.add.good _ _ _ o solve _ s X.add.sol (X.stat hst) k).1]
    congr 2
    funext j
    rw [← X.add.va]
    refine v1 _ ?_
    obtain ⟨b, hb1, hb2, -⟩ := X.add.bridge.bus j
    simp only [onBuses, Finset.mem_filter, Finset.mem_range]
    exact ⟨(List.getElem?_eq_some_iff.1 hb1).1, b, hb1, hb2⟩
  · rw [f1.off i _ (List.getElem?_eq_getElem hi) hon, f2.off i _ (List.getElem?_eq_getElem hi) hon]

/-! ### A case with two parallel branches -/

/-- The case of C96 with the third branch in service, parallel to the first, in the opposite direction. -/
def exIf : Index.Case Tables :=
  { exEcon with
    branch := [⟨9, 2, 1, ⟨0.01, 0.1, 0.02, 60, 0, 0, 0, 0, 0, 0, 0, 0, 0, 0, [-30, 30]⟩⟩, ⟨9, 7, 1, ⟨0.01, 0.1, 0.02, 60, 0, 0, 8, 0, 0, 0, 0, 0, 0, 0, []⟩⟩,
      ⟨2, 9, 1, ⟨0.01, 0.1, 0.02, 60, 0, 0, 0, 9, 0, 0, 0, 0, 0, 0, []⟩⟩] }

/-- A dispatch: 50 MW at bus 2, 41 MW from bus 9, half of it over each branch. -/
def exIfAlt : Index.Case Tables :=
  { exIf with
    bus := [⟨9, 3, ⟨0, 0, 0, 0, 1, 5, 1.1, 0.9, 0, 0, 0, 0, []⟩⟩, ⟨7, 4, ⟨10, 5, 0, 0, 1, 0, 1.1, 0.9, 0, 0, 0, 0, []⟩⟩,
      ⟨2, 1, ⟨90, 30, 1, 2, 1, 5 - 0.0205 * (180 / Real.pi), 1.1, 0.9, 0, 0, 0, 0, [345]⟩⟩]
    gen := [⟨2, 1, ⟨50, 0, 50, -50, 1, 100, 10, 0, 0, 0, 0, []⟩⟩, ⟨7, 1, ⟨0, 1, 50, -50, 1, 100, 10, 0, 0, 0, 0, []⟩⟩,
      ⟨9, 1, ⟨41, 0, 50, -50, 1, 200, 10, 0, 0, 0, 0, []⟩⟩, ⟨9, 0, ⟨0, 3, 50, -50, 1, 100, 10, 4, 0, 0, 0, []⟩⟩]
    branch := [⟨9, 2, 1, ⟨0.01, 0.1, 0.02, 60, 0, 0, 20.5, 0, -20.5, 0, 0, 0, 0, 0, [-30, 30]⟩⟩, ⟨9, 7, 1, ⟨0.01, 0.1, 0.02, 60, 0, 0, 0, 0, 0, 0, 0, 0, 0, 0, []⟩⟩,
      ⟨2, 9, 1, ⟨0.01, 0.1, 0.02, 60, 0, 0, -20.5, 9, 20.5, 0, 0, 0, 0, 0, []⟩⟩] }

def exIfθ (n : ℕ) : ℝ := if n = 9 then 5 * (Real.pi / 180) else if n = 2 then 5 * (Real.pi / 180) - 0.0205 else 0

theorem exIf_wf : WF exIf where
  busNodup := by simp [exIf, exEcon, exTables]
  typValid := by simp [exIf, exEcon, exTables]
  someOn := ⟨_, List.mem_cons_self, by decide⟩
  genRef := by simp [exIf, exEcon, exTables, Index.HasBus]
  fRef := by simp [exIf, exEcon, exTables, Index.HasBus]
  tRef := by simp [exIf, exEcon, exTables, Index.HasBus]
  areaRef := by simp [exIf, exEcon, exTables]
  costRows := by simp [exIf, exEcon, exTables]
  aCols := by simp [exIf, exEcon, exTables]
  nCols := by simp [exIf, exEcon, exTables]
  notInternal := by simp [exIf, exEcon, exTables]

theorem exIf_plain : DcPlain 100 exIf where
  pos := exTables_plain.pos
  bus := exTables_plain.bus
  gen := exTables_plain.gen
  branch := by
    simp only [exIf, List.mem_cons, List.not_mem_nil, or_false, forall_eq_or_imp, forall_eq]
    norm_num [BranchInService]
  shift := by
    simp only [exIf, List.mem_cons, List.not_mem_nil, or_false, forall_eq_or_imp, forall_eq]
    norm_num [BranchInService]

theorem exIf_dc : DcInputs 100 exIf := exIf_plain.inputs

theorem exIf_ang : AngInputs exE exIf := by
  have hpi := Real.pi_pos
  have hpi' := Real.pi_le_four
  unfold AngInputs
  simp only [exIf, List.mem_cons, List.not_mem_nil, or_false, forall_eq_or_imp, forall_eq, exE]
  refine ⟨fun _ => ⟨?_, ?_, ?_⟩, fun _ => ?_, fun _ => ?_⟩
  · simp only [List.getD_cons_zero, abs_lt]
    constructor <;> linarith
  · simp only [List.getD_cons_succ, List.getD_cons_zero, abs_lt]
    constructor <;> linarith
  · intro _ _; norm_num
  · norm_num
  · norm_num

theorem exIf_costs : EconCosts exIf := ⟨exEcon_costs.table, exEcon_costs.ok, exEcon_costs.big⟩

theorem exIf_stat : ∀ l ∈ exIf.branch, l.status = 0 ∨ l.status = 1 := by simp [exIf]

theorem exIfCon (n : ℕ) : Connected exIf n ↔ n = 9 ∨ n = 2 := exCon n

theorem exIfConAlt (n : ℕ) : Connected exIfAlt n ↔ n = 9 ∨ n = 2 := by
  simp only [Connected, exIfAlt, List.mem_cons, List.not_mem_nil, or_false]
  constructor
  · rintro ⟨b, rfl | rfl | rfl, rfl, ht⟩ <;> simp at ht ⊢
  · rintro (rfl | rfl)
    · exact ⟨_, Or.inl rfl, rfl, by decide⟩
    · exact ⟨_, Or.inr (Or.inr rfl), rfl, by simp⟩

theorem exIfAlt_feasible : DcFeasible 100 exE exIf exIfAlt exIfθ where
  bus := by simp [exIfAlt, exIf, exEcon, exTables, busInput]
  gen := by simp [exIfAlt, exIf, exEcon, exTables, genInput]
  branch := by simp [exIfAlt, exIf, branchInput]
  angles := by
    have := Real.pi_pos
    simp only [exIfAlt, List.mem_cons, List.not_mem_nil, or_false, forall_eq_or_imp, forall_eq, exIfθ]
    refine ⟨by simp, by simp, ?_⟩
    simp only [show ¬ (2 : ℕ) = 9 by decide, if_false, if_true]
    field_simp
  flows := by
    simp only [BranchInService, exIfConAlt]
    simp only [exIfAlt, List.mem_cons, List.not_mem_nil, or_false, forall_eq_or_imp, forall_eq]
    refine ⟨fun _ => ?_, by simp, fun _ => ?_⟩ <;> norm_num [dcFlow, asBranch, exIfθ]
  balance := by
    simp only [exIfAlt, List.mem_cons, List.not_mem_nil, or_false, forall_eq_or_imp, forall_eq]
    refine ⟨fun _ => ?_, fun h => absurd rfl h, fun _ => ?_⟩ <;> norm_num [dcBalance, genAt, fromAt, toAt, List.filter_cons]
  limits := by
    simp only [GenInService, exIfConAlt]
    simp only [exIfAlt, List.mem_cons, List.not_mem_nil, or_false, forall_eq_or_imp, forall_eq]
    norm_num
  rating := by
    simp only [BranchInService, exIfConAlt]
    simp only [exIfAlt, List.mem_cons, List.not_mem_nil, or_false, forall_eq_or_imp, forall_eq]
    refine ⟨fun _ _ _ => ?_, by simp, fun _ _ _ => ?_⟩ <;> rw [abs_le] <;> norm_num
  ref := by
    intro i b b0 h1 h2 h3
    match i with
    | 0 =>
      simp only [exIfAlt, List.getElem?_cons_zero, Option.some.injEq] at h1
      simp only [exIf, exEcon, exTables, List.getElem?_cons_zero, Option.some.injEq] at h2
      rw [← h1, ← h2]
    | 1 =>
      simp only [exIfAlt, List.getElem?_cons_succ, List.getElem?_cons_zero, Option.some.injEq] at h1
      rw [← h1] at h3
      simp at h3
    | 2 =>
      simp only [exIfAlt, List.getElem?_cons_succ, List.getElem?_cons_zero, Option.some.injEq] at h1
      rw [← h1] at h3
      simp at h3
    | n + 3 => simp [exIfAlt] at h1
  angle := by
    intro _
    have hpi := Real.two_le_pi
    simp only [BranchInService, exIfCon]
    simp only [exIf, List.mem_cons, List.not_mem_nil, or_false, forall_eq_or_imp, forall_eq]
    refine ⟨fun _ _ => ⟨fun _ => ?_, fun _ => ?_⟩, by simp, fun _ hl => by simp [Constr.Limited, exE] at hl⟩
    · norm_num [exE, exIfθ]
      linarith
    · norm_num [exE, exIfθ]
      linarith
  genOff := by
    simp only [GenInService, exIfConAlt]
    simp only [exIfAlt, List.mem_cons, List.not_mem_nil, or_false, forall_eq_or_imp, forall_eq]
    norm_num
  brOff := by
    simp only [BranchInService, exIfConAlt]
    simp only [exIfAlt, List.mem_cons, List.not_mem_nil, or_false, forall_eq_or_imp, forall_eq]
    norm_num

theorem exIf_first (i : ℕ) : FirstInService exIf i ↔ i = 0 := by
  have h0 : ∃ l, exIf.branch[0]? = some l ∧ BranchInService exIf l := ⟨_, rfl, by simp [BranchInService, exIfCon]⟩
  constructor
  · rintro ⟨-, h⟩
    by_contra hi
    obtain ⟨l, h1, h2⟩ := h0
    exact h 0 l (by omega) h1 h2
  · rintro rfl
    exact ⟨h0, by simp⟩

theorem exIf_shift (ifmap : List MapRow) (id : ℤ) : ifShift exIf ifmap id = 0 := by
  unfold ifShift
  have : ∀ r, shiftTerm exIf r = 0 := by
    intro r
    rw [shiftTerm_eq]
    have hz : ∀ l ∈ exIf.branch, dcFlow (asBranch l) (fun _ => 0) = 0 := by
      intro l hl
      simp only [exIf, List.mem_cons, List.not_mem_nil, or_false] at hl
      rcases hl with rfl | rfl | rfl <;> simp [dcFlow, asBranch]
    have : ∀ i, shAt exIf i = 0 := by
      intro i
      unfold shAt
      cases hc : exIf.branch[i]? with
      | none => rfl
      | some l =>
        dsimp only
        rw [hz l (List.mem_of_getElem? hc), ite_self]
    simp [sg, this]
  rw [show shiftTerm exIf = fun _ => 0 from funext this]
  simp

theorem ifFlow_congr {ifmap : List MapRow} {c t t' : Index.Case Tables} (hrows : MapRows c ifmap) (h : ∀ i < c.branch.length, pfAt t' i = pfAt t i) (id : ℤ) :
    ifFlow t' ifmap id = ifFlow t ifmap id := by
  unfold ifFlow
  congr 1
  refine List.map_congr_left fun w hw => ?_
  rw [ifTerm_eq, ifTerm_eq, h _ (hrows w (List.mem_filter.1 hw).1)]

/-- **C112 (the first branch in service does not count).**  An interface made of the first branch in service: whatever its limit — a tenth of a megawatt, for instance — and the solver, there are
options and a starting point with which the run, at any tolerance above `2^-52`, is a success with 20.5 MW on it, and its reported flow is zero. -/
theorem C112_first_ignored (L : ℝ) (h0 : 0 ≤ L) (h1 : L < 10 ^ 10) (solve : AnySolver) (δ : ℝ) (hδ : 1 / 2 ^ 52 < δ) :
    MapRows exIf [(1, 0)] ∧ ∃ x0 o r out, 0 < o.costMult ∧ 0 < o.feastol ∧ 0 < o.gradtol ∧ 0 < o.comptol ∧
      opfDcIflims Index.stableArgsort 100 { exE with x0 := x0 } [(1, 0)] [(1, -L, L)] o solve exIf = some (r, out) ∧ r.success = true ∧ r.tol = δ ∧
      ifFlow r.tables [(1, 0)] 1 = 20.5 ∧ out.P = [0] := by
  have hrows : MapRows exIf [(1, 0)] := by simp [MapRows, exIf]
  have hcnt : counted exIf [(1, 0)] = [] := by simp [counted, exIf_first]
  have hidx : ifidx [((1 : ℤ), -L, L)] = [1] := Iflims.ifidx_sorted _ (by simp)
  have hsane : IfSane 100 exIf [(1, 0)] [(1, -L, L)] := by
    intro k id l hk hl
    rw [exIf_shift, sub_zero, sub_zero]
    match k with
    | 0 =>
      simp only [List.getElem?_cons_zero, Option.some.injEq] at hl
      subst hl
      refine ⟨by simp only; linarith, ?_, ?_⟩ <;> rw [abs_lt] <;> constructor <;> simp only <;> linarith
    | n + 1 => simp at hl
  have hF : IfApplied exIf [(1, 0)] [(1, -L, L)] exIfAlt 0 := by
    intro k id l hk hl
    match k with
    | 0 =>
      simp only [List.getElem?_cons_zero, Option.some.injEq] at hl
      subst hl
      rw [hcnt]
      simp only [ifFlow, List.filter_nil, List.map_nil, List.sum_nil]
      constructor <;> linarith
    | n + 1 => simp at hl
  refine ⟨hrows, ?_⟩
  obtain ⟨x0, o, r, out, o1, o2, o3, o4, hr, hok, htol, -, -, hpf⟩ := C112_accepts Index.stableArgsort_isArgsort exIf_wf exIf_dc exE exIf_ang hrows (by simp) hsane exIf_stat
    exIf_costs solve exIfAlt_feasible hF δ hδ
  refine ⟨x0, o, r, out, o1, o2, o3, o4, hr, hok, htol, ?_, ?_⟩
  · rw [ifFlow_congr hrows hpf]
    simp [ifFlow, ifTerm, exIfAlt]
  · have := (C112_applied Index.stableArgsort_isArgsort exIf_wf exIf_dc { exE with x0 := x0 } hrows hsane exIf_stat exIf_costs
      (if_good Index.stableArgsort_isArgsort exIf_wf exIf_dc { exE with x0 := x0 } exIf_ang hrows exIf_stat hsane) hr).1
    rw [this, hcnt, hidx]
    simp [ifFlow]

/-- **C112 (limits belong to rows).**  Interface 1, the third branch, limited to `L`; interface 2 without branches, limited to 100 MW; listed in this order of limits: 2, 1.  There are options and a
starting point with which the run, at any tolerance above `2^-52`, is a success with 20.5 MW on interface 1. -/
theorem C112_order_ignored (L : ℝ) (h0 : 0 ≤ L) (h1 : L < 10 ^ 10) (solve : AnySolver) (δ : ℝ) (hδ : 1 / 2 ^ 52 < δ) :
    MapRows exIf [(1, 2)] ∧ (∀ w ∈ ([(1, 2)] : List MapRow), ¬ FirstInService exIf w.2.natAbs) ∧ ∃ x0 o r out, 0 < o.costMult ∧ 0 < o.feastol ∧ 0 < o.gradtol ∧ 0 < o.comptol ∧
      opfDcIflims Index.stableArgsort 100 { exE with x0 := x0 } [(1, 2)] [(2, -100, 100), (1, -L, L)] o solve exIf = some (r, out) ∧ r.success = true ∧ r.tol = δ ∧
      ifFlow r.tables [(1, 2)] 1 = -20.5 := by
  have hrows : MapRows exIf [(1, 2)] := by simp [MapRows, exIf]
  have hcnt : counted exIf [(1, 2)] = [(1, 2)] := by simp [counted, exIf_first]
  have hidx : ifidx [((2 : ℤ), (-100 : ℝ), (100 : ℝ)), (1, -L, L)] = [1, 2] := by
    unfold ifidx
    simp only [List.map_cons, List.map_nil]
    decide
  have hsane : IfSane 100 exIf [(1, 2)] [(2, -100, 100), (1, -L, L)] := by
    intro k id l hk hl
    rw [exIf_shift, sub_zero, sub_zero]
    match k with
    | 0 =>
      simp only [List.getElem?_cons_zero, Option.some.injEq] at hl
      subst hl
      refine ⟨by norm_num, ?_, ?_⟩ <;> rw [abs_lt] <;> norm_num
    | 1 =>
      simp only [List.getElem?_cons_zero, List.getElem?_cons_succ, Option.some.injEq] at hl
      subst hl
      refine ⟨by simp only; linarith, ?_, ?_⟩ <;> rw [abs_lt] <;> constructor <;> simp only <;> linarith
    | n + 2 => simp at hl
  have hF : IfApplied exIf [(1, 2)] [(2, -100, 100), (1, -L, L)] exIfAlt 0 := by
    intro k id l hk hl
    rw [hcnt]
    rw [hidx] at hk
    match k with
    | 0 =>
      simp only [List.getElem?_cons_zero, Option.some.injEq] at hl hk
      subst hl hk
      norm_num [ifFlow, ifTerm, exIfAlt]
    | 1 =>
      simp only [List.getElem?_cons_zero, List.getElem?_cons_succ, Option.some.injEq] at hl hk
      subst hl hk
      simp [ifFlow]
      exact h0
    | n + 2 => simp at hl
  refine ⟨hrows, by simp [exIf_first], ?_⟩
  obtain ⟨x0, o, r, out, o1, o2, o3, o4, hr, hok, htol, -, -, hpf⟩ := C112_accepts Index.stableArgsort_isArgsort exIf_wf exIf_dc exE exIf_ang hrows (by simp) hsane exIf_stat
    exIf_costs solve exIfAlt_feasible hF δ hδ
  refine ⟨x0, o, r, out, o1, o2, o3, o4, hr, hok, htol, ?_⟩
  rw [ifFlow_congr hrows hpf]
  simp [ifFlow, ifTerm, exIfAlt]

/-- The hypotheses of `C112_partial` hold on the example: the third branch, limited to 30 MW, with a dispatch within all limits. -/
example : ∃ o r out, IsArgsort Index.stableArgsort ∧ WF exIf ∧ DcInputs 100 exIf ∧ AngInputs exE exIf ∧ IfInputs 100 exIf [(1, -2)] [(1, -30, 30)] ∧
    (∀ w ∈ ([(1, -2)] : List MapRow), ¬ FirstInService exIf w.2.natAbs) ∧ (∀ l ∈ exIf.branch, l.status = 0 ∨ l.status = 1) ∧ EconCosts exIf ∧ 0 < o.costMult ∧ 0 ≤ o.feastol ∧
    0 ≤ o.comptol ∧ opfDcIflims Index.stableArgsort 100 exE [(1, -2)] [(1, -30, 30)] o (fun _ _ _ _ => none) exIf = some (r, out) ∧ r.success = true ∧
    DcFeasible 100 exE exIf exIfAlt exIfθ ∧ IfFeasible [(1, -2)] [(1, -30, 30)] exIfAlt := by
  have hi : IfInputs 100 exIf [(1, -2)] [(1, -30, 30)] := by
    refine ⟨by simp [MapRows, exIf], by simp, by simp, by norm_num, ?_, ?_⟩ <;> · simp only [exIf_shift]; norm_num [abs_lt]
  obtain ⟨o, r, out, h1, h2, -, h3, h4, h5⟩ := ((C112_completes Index.stableArgsort_isArgsort exIf_wf exIf_dc exE exIf_ang hi.rows hi.sane exIf_stat).1 hi.some_).2 (fun _ _ _ _ => none)
  refine ⟨o, r, out, Index.stableArgsort_isArgsort, exIf_wf, exIf_dc, exIf_ang, hi, by simp [exIf_first], exIf_stat, exIf_costs, h1, h2.le, h3.le, h4, h5, exIfAlt_feasible, ?_⟩
  norm_num [IfFeasible, ifFlow, ifTerm, exIfAlt]

end

end Verif.Opf
