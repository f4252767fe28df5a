import Verif.Opf.IfRuns

/-!
# C112: interface flow limits in a DC optimal power flow, from tables to tables
-/

namespace Verif.Opf

open Verif.Index (BusRow GenRow BranchRow IsArgsort WF GenInService BranchInService Connected posOf orderOf)
open Verif.OpfModel Verif.Pips Verif.Network Verif.Cost Verif.OpfCost
open Verif.Iflims (MapRow LimRow Row ifidx)

noncomputable section

section
variable {srt : List ℕ → List ℕ} {base : ℝ} {c : Index.Case Tables} {E : Econ} {ifmap : List MapRow} {lims : List LimRow} {o : Opt} {solve : AnySolver} {r : Ret} {out : IfOut}
  {c' : Index.Case Tables} {d : Case c'.bus.length c'.gen.length c'.branch.length} {m : Model} {s : DcRes c'.bus.length c'.gen.length c'.branch.length}
  {p : PostMu c'.gen.length c'.branch.length} {bp : Fin c'.bus.length → ℕ} {gp : Fin c'.gen.length → ℕ} {lp : Fin c'.branch.length → ℕ} {rows : List (Row (Fin c'.bus.length))}
  (X : IfRun srt base E ifmap lims o solve c r out c' d m s p bp gp lp rows)

include X

theorem IfRun.stat (hst : ∀ l ∈ c.branch, l.status = 0 ∨ l.status = 1) (k : Fin c'.branch.length) : (d.branch k).stat = 0 ∨ (d.branch k).stat = 1 := by
  obtain ⟨l0, h1, -, -, -, -, -, -, -, -, -, h2, -⟩ := X.add.bridge.branch k
  rw [h2]
  rcases hst l0 (List.mem_of_getElem? h1) with h3 | h3 <;> simp [h3]

omit X in
/-- The value of a row of the constraint at a point of the solver. -/
theorem rowAt (x : ℕ → ℝ) {k : ℕ} {row : Row (Fin c'.bus.length)} (hk : rows[k]? = some row) :
    rowDot (ifBlk rows).A k (subvec (varBlocks (dcOps d ++ (angOps E c'.bus.length c' ++ (pwlOps d.base (gcOf c') ++
      [.addLin "iflims" (ifBlk rows).A (ifBlk rows).l (ifBlk rows).u (ifBlk rows).vs])))) x
      (eff (varBlocks (dcOps d ++ (angOps E c'.bus.length c' ++ (pwlOps d.base (gcOf c') ++
        [.addLin "iflims" (ifBlk rows).A (ifBlk rows).l (ifBlk rows).u (ifBlk rows).vs])))) (ifBlk rows).vs)) = ∑ j : Fin c'.bus.length, row.A j * x j := by
  rw [(ifBlk_row hk).2.2]
  refine Finset.sum_congr rfl fun j _ => ?_
  congr 1
  exact subvec_Va d _ x j

/-- At the solution the value of a row is the flow of the interface in the returned tables. -/
theorem IfRun.value (hb : 0 < base) (hst : ∀ l ∈ c.branch, l.status = 0 ∨ l.status = 1) (hok : s.success = true) {id : ℤ} {row : Row (Fin c'.bus.length)}
    (hv : ∀ (t : Index.Case Tables) (θ : Fin c'.bus.length → ℝ), Flows c t lp (fun k => d.base * dcFlow (d.branch k) θ) →
        d.base * (∑ j, row.A j * θ j + ifShift c (counted c ifmap) id) = ifFlow t (counted c ifmap) id) :
    base * (∑ j : Fin c'.bus.length, row.A j * s.x j + ifShift c (counted c ifmap) id) = ifFlow r.tables (counted c ifmap) id := by
  have hF : Flows c r.tables lp (fun k => d.base * dcFlow (d.branch k) fun j => s.x j) := by
    have e : s.PF = fun k => d.base * dcFlow (d.branch k) fun j : Fin c'.bus.length => s.x j := by
      funext k
      rw [(C77_flows d _ m X.add.run X.add.good _ _ _ o solve _ s X.add.sol (X.stat hst) k).1]
      congr 2
      funext j
      rw [(X.add.point hb hok).1 j, X.add.va]
    rw [← e]
    exact run_flows X.add.bridge
  have := hv r.tables (fun j => s.x j) hF
  rw [X.add.base] at this
  exact this

end

/-- The interfaces are within the limits the code pairs them with, up to `ε` (MW). -/
def IfApplied (c : Index.Case Tables) (ifmap : List MapRow) (lims : List LimRow) (t : Index.Case Tables) (ε : ℝ) : Prop :=
  ∀ (k : ℕ) id l, (ifidx lims)[k]? = some id → lims[k]? = some l → l.2.1 - ε ≤ ifFlow t (counted c ifmap) id ∧ ifFlow t (counted c ifmap) id ≤ l.2.2 + ε

section
variable {srt : List ℕ → List ℕ} (hs : IsArgsort srt) {base : ℝ} {c : Index.Case Tables} (h : WF c) (hin : DcInputs base c) (E : Econ) (hang : AngInputs E c)
  {ifmap : List MapRow} (hrows : MapRows c ifmap) {lims : List LimRow} (hsane : IfSane base c ifmap lims) (hst : ∀ l ∈ c.branch, l.status = 0 ∨ l.status = 1)
  (hcost : EconCosts c)

include hs h hin hang hrows hst hsane in
/-- **C112 (runs complete).**  With existing branches in the map and limits to hand to the solver every call returns — with flows, multipliers —, and with suitable options successfully;
with the empty table of limits every call raises. -/
theorem C112_completes : (lims ≠ [] → (∀ (o : Opt) (solve : AnySolver), ∃ r out, opfDcIflims srt base E ifmap lims o solve c = some (r, out)) ∧
      ∀ solve : AnySolver, ∃ o r out, 0 < o.costMult ∧ 0 < o.feastol ∧ 0 < o.gradtol ∧ 0 < o.comptol ∧ opfDcIflims srt base E ifmap lims o solve c = some (r, out) ∧
        r.success = true) ∧
    (lims = [] → ∀ (o : Opt) (solve : AnySolver), opfDcIflims srt base E ifmap lims o solve c = none) := by
  have hgood := if_good hs h hin E hang hrows hst hsane
  have hruns := if_runs (base := base) hs h E (lims := lims) hrows hst
  have key : ∀ {o : Opt} {solve : AnySolver} {r : Ret}, lims ≠ [] → opfDc srt base (ifSetup base E ifmap lims) o solve c = some r →
      ∃ out, opfDcIflims srt base E ifmap lims o solve c = some (r, out) := by
    intro o solve r hne hrun
    unfold opfDc at hrun
    simp only [Option.bind_eq_bind, Option.bind_eq_some_iff] at hrun
    obtain ⟨c', hc', d, hd, m, hm, s, hs', r1, hr, e⟩ := hrun
    injection e with e
    subst e
    obtain ⟨bp, gp, lp, B, -, -, -, -, -, -, -, hlp⟩ := bridge_at hs h hc' hd _ hr opfOff
    obtain ⟨saved, im, rows, h1, h2, -, h4⟩ := if_form hs h hrows lims hst hc' B hlp
    have hn : ¬ (ifidx lims).length = 0 := by
      obtain ⟨l, hl⟩ := List.exists_mem_of_ne_nil _ hne
      have : l.1 ∈ ifidx lims := by
        unfold Iflims.ifidx
        rw [List.mem_insertionSort, List.mem_dedup]
        exact List.mem_map.2 ⟨l, hl, rfl⟩
      intro h0
      rw [List.length_eq_zero_iff.1 h0] at this
      simp at this
    have hm' := hm
    have g := hgood c' d hc' hd
    have e : (ifSetup base E ifmap lims).extra d c' = angOps E c'.bus.length c' ++ (pwlOps d.base (gcOf c') ++ [.addLin "iflims" (ifBlk rows).A (ifBlk rows).l (ifBlk rows).u (ifBlk rows).vs]) := by
      show angOps E _ c' ++ (pwlOps d.base _ ++ ifOps ifmap lims d c') = _
      unfold ifOps
      rw [h1]
    rw [e] at hm' g
    have hj := if_i1 hm' g
    unfold opfDcIflims
    simp only [hc', hd, h1, hm, Option.bind_eq_bind, Option.bind_some]
    have hs2 : dcopfSolver d m ((ifSetup base E ifmap lims).H c' m) ((ifSetup base E ifmap lims).C c' m) ((ifSetup base E ifmap lims).C0 c' m) o solve (E.x0 c' m) = some s := hs'
    have ht2 : Index.int2ext (write c' (dcUpd s (angPost E c' m s))) = some r1 := hr
    rw [hs2, Option.bind_some]
    simp only [ifResults, if_neg hn, h4 _ _ (run_flows B), hj, Option.bind_eq_bind, Option.bind_some, ht2]
    exact ⟨_, rfl⟩
  constructor
  · intro hne
    obtain ⟨a1, a2⟩ := add_completes hs h E hgood hruns
    constructor
    · intro o solve
      obtain ⟨r, hr⟩ := a1 o solve
      obtain ⟨out, ho⟩ := key hne hr
      exact ⟨r, out, ho⟩
    · intro solve
      obtain ⟨o, r, b1, b2, b3, b4, hr, hok⟩ := a2 solve
      obtain ⟨out, ho⟩ := key hne hr
      exact ⟨o, r, out, b1, b2, b3, b4, ho, hok⟩
  · rintro rfl o solve
    unfold opfDcIflims
    have : ∀ (nb ng nl : ℕ) sv im m (s : DcRes nb ng nl), ifResults [] sv im m s = none := fun nb ng nl sv im m s => by
      unfold ifResults
      rw [if_pos (by simp [Iflims.ifidx])]
    simp only [this, Option.bind_eq_bind, Option.bind_none, Option.bind_fun_none]

variable (hgood : ∀ c' d, Index.ext2int srt c = some c' → readCase base c' = some d → Good (dcOps d ++ (ifSetup base E ifmap lims).extra d c'))
  {o : Opt} {solve : AnySolver} {r : Ret} {out : IfOut} (hrun : opfDcIflims srt base E ifmap lims o solve c = some (r, out))

include hs h hin hrows hsane hst hcost hgood hrun

/-- **C112 (what is applied).**  Whatever the map and the order of the limits: the reported flows are those of the interfaces in the returned tables, leaving out the map rows that
refer to the first branch in service; there is one multiplier per interface and side.  On success the interfaces are within their limits up to the tolerance — the `k`-th interface in
increasing order within row `k` of the limits. -/
theorem C112_applied : out.P = (ifidx lims).map (ifFlow r.tables (counted c ifmap)) ∧ out.mu_l.length = (ifidx lims).length ∧ out.mu_u.length = (ifidx lims).length ∧
    (r.success = true → IfApplied c ifmap lims r.tables (base * r.tol)) := by
  obtain ⟨c', d, m, s, p, bp, gp, lp, rows, X⟩ := if_run hs h E hrows hst hcost.table hgood hrun
  have hb := hin.pos
  refine ⟨X.P, by rw [X.mu_l]; simp [X.len], by rw [X.mu_u]; simp [X.len], fun hok k id l hk hl => ?_⟩
  have hok' : s.success = true := by rw [← X.add.success]; exact hok
  obtain ⟨l', row, e1, e2, e3, e4, e5⟩ := X.row k id hk
  rw [hl] at e1; cases e1
  obtain ⟨b1, b2, -⟩ := ifBlk_row e2
  obtain ⟨-, s2, s3⟩ := hsane k id l hk hl
  have hw := (C77_extra d _ m X.add.run X.add.good _ _ _ o solve _ s X.add.sol hok').2.1 ("iflims", ifBlk rows) (by simp [linBlks]) k (List.getElem?_eq_some_iff.1 e2).1
  simp only [b1, b2, rowAt (E := E) (d := d) s.x e2] at hw
  have hval := X.value hb hst hok' e5
  rw [e3, e4, X.add.base] at hw
  have h1 := within_upper hw (abs_lt.1 s3).2
  have h2 := within_lower hw (abs_lt.1 s2).1
  rw [← X.add.tol] at h1 h2
  rw [← hval]
  have e6 : l.2.1 = base * (l.2.1 / base) := by field_simp
  have e7 : l.2.2 = base * (l.2.2 / base) := by field_simp
  constructor
  · rw [e6, ← mul_sub]
    exact mul_le_mul_of_nonneg_left (by linarith) hb.le
  · rw [e7, ← mul_add]
    exact mul_le_mul_of_nonneg_left (by linarith) hb.le

variable (hc : 0 < o.costMult) (hft : 0 ≤ o.feastol) (hct : 0 ≤ o.comptol) (hok : r.success = true)

include hc hft hct hok

omit hsane in
/-- **C112 (multipliers and least cost of what is applied).**  The multipliers are not negative; a multiplier times the distance of the interface flow (per unit) from its limit is at most
`compGap`, which vanishes with the tolerances.  The reported objective is the cost of the generators with polynomial costs at their returned outputs plus the helper values `y` of the others (at
least their costs, up to the tolerance), and at most the cost of any other dispatch within all its limits, the interface limits as they are applied included, up to `gap`. -/
theorem C112_economics : ∃ y : ℕ → ℝ,
    (∀ i ∈ pwlGens c, genCost c i (pgAt r.tables i) ≤ y i + r.tol) ∧
    r.f = ∑ i ∈ onGens c \ pwlGens c, genCost c i (pgAt r.tables i) + ∑ i ∈ pwlGens c, y i ∧
    ∀ M : ℝ, 0 ≤ M → (∀ i ∈ onBuses c, |vaAt r.tables i| ≤ M) → (∀ i ∈ onGens c, |pgAt r.tables i / base| ≤ M) → (∀ i ∈ pwlGens c, |y i| ≤ M) →
      (∀ (k : ℕ) id l, (ifidx lims)[k]? = some id → lims[k]? = some l →
        0 ≤ out.mu_l.getD k 0 ∧ 0 ≤ out.mu_u.getD k 0 ∧
        out.mu_u.getD k 0 * ((l.2.2 - ifFlow r.tables (counted c ifmap) id) / base) ≤ compGap o M r.dual r.tol ∧
        out.mu_l.getD k 0 * ((ifFlow r.tables (counted c ifmap) id - l.2.1) / base) ≤ compGap o M r.dual r.tol) ∧
      ∀ t θ, DcFeasible base E c t θ → IfApplied c ifmap lims t 0 → r.f ≤ dispatchCost c t + gap o r.size M r.dual r.tol (dist base c r.tables t y) := by
  obtain ⟨c', d, m, s, p, bp, gp, lp, rows, X⟩ := if_run hs h E hrows hst hcost.table hgood hrun
  have hb := hin.pos
  have hok' : s.success = true := by rw [← X.add.success]; exact hok
  obtain ⟨y1, y2⟩ := X.add.helpers hb hcost hc hok'
  refine ⟨helper s gp, y1, y2, fun M hM hva hpg hy => ⟨?_, ?_⟩⟩
  · intro k id l hk hl
    obtain ⟨l', row, e1, e2, e3, e4, e5⟩ := X.row k id hk
    rw [hl] at e1; cases e1
    have hkl := (List.getElem?_eq_some_iff.1 e2).1
    obtain ⟨b1, b2, -⟩ := ifBlk_row e2
    have sg := extra_signs X.add.run X.add.good X.add.sol hc
    obtain ⟨cu, cl⟩ := C84_dc_extra d _ m X.add.run X.add.good _ _ _ o solve _ s X.add.sol hc hft hok' ("iflims", ifBlk rows) (by simp [linBlks]) k hkl
    have cu := cu _ b2
    have cl := cl _ b1
    simp only [rowAt (E := E) (d := d) s.x e2] at cu cl
    have hval := X.value hb hst hok' e5
    have hnorm := X.add.norm_le hb hcost hok' hM hva hpg hy
    have hgap : compGap o ‖fun i : Fin m.var.total => s.x i‖ s.dual s.tol ≤ compGap o M r.dual r.tol := by
      rw [X.add.dual, X.add.tol]
      unfold compGap
      have := mul_le_mul_of_nonneg_left hnorm hct
      refine div_le_div_of_nonneg_right ?_ hc.le
      linarith
    have gl : out.mu_l.getD k 0 = s.mu_l (start (linBlocks (dcOps d ++ (angOps E c'.bus.length c' ++ (pwlOps d.base (gcOf c') ++
        [.addLin "iflims" (ifBlk rows).A (ifBlk rows).l (ifBlk rows).u (ifBlk rows).vs])))) "iflims" + k) := by
      rw [X.mu_l, List.getD_eq_getElem?_getD]; simp [hkl]
    have gu : out.mu_u.getD k 0 = s.mu_u (start (linBlocks (dcOps d ++ (angOps E c'.bus.length c' ++ (pwlOps d.base (gcOf c') ++
        [.addLin "iflims" (ifBlk rows).A (ifBlk rows).l (ifBlk rows).u (ifBlk rows).vs])))) "iflims" + k) := by
      rw [X.mu_u, List.getD_eq_getElem?_getD]; simp [hkl]
    rw [gl, gu]
    refine ⟨(sg _).2.2.1, (sg _).2.2.2, ?_, ?_⟩
    · refine le_trans (le_of_eq ?_) (cu.trans hgap)
      congr 1
      rw [← hval, e4, X.add.base]
      field_simp
      ring
    · refine le_trans (le_of_eq ?_) (cl.trans hgap)
      congr 1
      rw [← hval, e3, X.add.base]
      field_simp
      ring
  · intro t θ F hIf
    refine X.add.least_cost hb h hcost hst hc hft hct hok' F ?_ hM hva hpg hy
    have F' := F
    rw [← X.add.base] at F'
    have hfl := feasible_flows X.add.bridge F'
    refine ⟨fun b hb => by simp [varVals] at hb, fun b hb' i hi => ?_⟩
    have : b = ("iflims", ifBlk rows) := by simpa [linBlks] using hb'
    subst this
    have hi' : i < (ifidx lims).length := by rw [← X.len]; exact hi
    obtain ⟨l, row, e1, e2, e3, e4, e5⟩ := X.row i _ (List.getElem?_eq_getElem hi')
    obtain ⟨b1, b2, -⟩ := ifBlk_row e2
    have hv := e5 t _ hfl
    obtain ⟨f1, f2⟩ := hIf i _ l (List.getElem?_eq_getElem hi') e1
    simp only [b1, b2, rowAt (E := E) (d := d) _ e2, pointOf_va]
    rw [← hv, X.add.base] at f1 f2
    rw [e3, e4, X.add.base]
    constructor
    · refine EReal.coe_le_coe_iff.2 ?_
      rw [sub_zero, mul_comm] at f1
      have := (div_le_iff₀ hb).2 f1
      linarith
    · refine EReal.coe_le_coe_iff.2 ?_
      rw [add_zero, mul_comm] at f2
      have := (le_div_iff₀ hb).2 f2
      linarith

omit hs h hin hsane hst hcost hgood hrun hc hft hct hok hrows in
/-- A map without rows that refer to the first branch in service. -/
theorem counted_self (hfirst : ∀ w ∈ ifmap, ¬ FirstInService c w.2.natAbs) : counted c ifmap = ifmap := by
  classical
  unfold counted
  refine List.filter_eq_self.2 fun w hw => ?_
  exact decide_eq_true (hfirst w hw)

end

section
variable {srt : List ℕ → List ℕ} (hs : IsArgsort srt) {base : ℝ} {c : Index.Case Tables} (h : WF c) (hin : DcInputs base c) (E : Econ) (hang : AngInputs E c)
  {ifmap : List MapRow} {lims : List LimRow} (hi : IfInputs base c ifmap lims) (hfirst : ∀ w ∈ ifmap, ¬ FirstInService c w.2.natAbs)
  (hst : ∀ l ∈ c.branch, l.status = 0 ∨ l.status = 1) (hcost : EconCosts c) {o : Opt} {solve : AnySolver} {r : Ret} {out : IfOut}
  (hrun : opfDcIflims srt base E ifmap lims o solve c = some (r, out))

include hs h hin hang hi hfirst hst hcost hrun

/-- **C112 (partial).**  If the limits are listed in increasing order of the interfaces and no row of the map refers to the first branch in service: the reported flows are those of the
interfaces in the returned tables, one per row of the limits.  On success every interface is within its limits up to the tolerance; the multipliers are not negative and vanish, up to
`compGap`, unless the interface is at its limit; and no dispatch within all its limits and the interface limits costs less, up to `gap`.  Missing: a map that refers to the first branch in
service (`C112_first_ignored`), limits in another order (`C112_order_ignored`), the map of the results (`C55_map_not_restored`). -/
theorem C112_partial : out.P = lims.map (fun l => ifFlow r.tables ifmap l.1) ∧
    (r.success = true → ∀ l ∈ lims, l.2.1 - base * r.tol ≤ ifFlow r.tables ifmap l.1 ∧ ifFlow r.tables ifmap l.1 ≤ l.2.2 + base * r.tol) ∧
    (r.success = true → 0 < o.costMult → 0 ≤ o.feastol → 0 ≤ o.comptol → ∃ y : ℕ → ℝ,
      (∀ i ∈ pwlGens c, genCost c i (pgAt r.tables i) ≤ y i + r.tol) ∧
      r.f = ∑ i ∈ onGens c \ pwlGens c, genCost c i (pgAt r.tables i) + ∑ i ∈ pwlGens c, y i ∧
      ∀ M : ℝ, 0 ≤ M → (∀ i ∈ onBuses c, |vaAt r.tables i| ≤ M) → (∀ i ∈ onGens c, |pgAt r.tables i / base| ≤ M) → (∀ i ∈ pwlGens c, |y i| ≤ M) →
        (∀ (k : ℕ) l, lims[k]? = some l → 0 ≤ out.mu_l.getD k 0 ∧ 0 ≤ out.mu_u.getD k 0 ∧
          out.mu_u.getD k 0 * ((l.2.2 - ifFlow r.tables ifmap l.1) / base) ≤ compGap o M r.dual r.tol ∧
          out.mu_l.getD k 0 * ((ifFlow r.tables ifmap l.1 - l.2.1) / base) ≤ compGap o M r.dual r.tol) ∧
        ∀ t θ, DcFeasible base E c t θ → IfFeasible ifmap lims t → r.f ≤ dispatchCost c t + gap o r.size M r.dual r.tol (dist base c r.tables t y)) := by
  have hgood := if_good hs h hin E hang hi.rows hst hi.sane
  obtain ⟨a1, a2, a3, a4⟩ := C112_applied hs h hin E hi.rows hi.sane hst hcost hgood hrun
  rw [counted_self hfirst] at a1
  have hix := Iflims.ifidx_sorted lims hi.sorted
  have hid : ∀ (k : ℕ) l, lims[k]? = some l → (ifidx lims)[k]? = some l.1 := fun k l hl => by rw [hix, List.getElem?_map, hl]; rfl
  refine ⟨?_, ?_, ?_⟩
  · rw [a1, hix, List.map_map]
    rfl
  · intro hok l hl
    obtain ⟨k, hk⟩ := List.getElem?_of_mem hl
    have := a4 hok k l.1 l (hid k l hk) hk
    rw [counted_self hfirst] at this
    exact this
  · intro hok hc hft hct
    obtain ⟨y, y1, y2, y3⟩ := C112_economics hs h hin E hi.rows hst hcost hgood hrun hc hft hct hok
    refine ⟨y, y1, y2, fun M hM hva hpg hy => ?_⟩
    obtain ⟨z1, z2⟩ := y3 M hM hva hpg hy
    rw [counted_self hfirst] at z1
    refine ⟨fun k l hl => z1 k l.1 l (hid k l hl) hl, fun t θ F hF => z2 t θ F ?_⟩
    intro k id l hk hl
    rw [hid k l hl] at hk
    cases hk
    rw [counted_self hfirst, sub_zero, add_zero]
    exact hF l (List.mem_of_getElem? hl)

end

end

end Verif.Opf
