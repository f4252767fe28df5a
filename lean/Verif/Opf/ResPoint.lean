import Verif.Opf.ResLemmas
import Verif.Opf.EquilProps

/-! # The reported point of a DC optimal power flow with reserves, in terms of the caller's tables -/

namespace Verif.Opf

open Verif.Index (BusRow GenRow BranchRow IsArgsort WF GenInService BranchInService Connected posOf orderOf)
open Verif.OpfModel Verif.Pips Verif.Network Verif.Cost Verif.OpfCost
open Verif.Reserves (Provides providers zoneReserves)

noncomputable section

theorem resLimit_ramp (ramp10 : List ℝ → ℝ) (ng : ℕ) (r : Reserves.Res) (i : ℕ) (rest : List ℝ) (pmax : ℝ) (h : ramp10 rest ≠ 0) :
    resLimit ramp10 ng r i rest pmax ≤ ((ramp10 rest : ℝ) : EReal) := by
  have h1 : Reserves.rampLimit ⟨ramp10 rest, pmax⟩ = ((ramp10 rest : ℝ) : EReal) := by
    unfold Reserves.rampLimit
    simp [h]
  unfold resLimit
  cases r.qty with
  | none => simp only [h1]; exact le_refl _
  | some q =>
    simp only [h1, Reserves.qtyLimit]
    split_ifs with h2
    · exact (of_decide_eq_true h2).le
    · exact le_refl _

theorem resLimit_qty (ramp10 : List ℝ → ℝ) (ng : ℕ) (r : Reserves.Res) (i : ℕ) (rest : List ℝ) (pmax : ℝ) {q : List ℝ} (h : r.qty = some q) :
    resLimit ramp10 ng r i rest pmax ≤ ((resDatum ng r q i : ℝ) : EReal) := by
  unfold resLimit
  rw [h]
  simp only [Reserves.qtyLimit]
  split_ifs with h2
  · exact le_refl _
  · exact not_lt.1 fun h3 => h2 (@decide_eq_true _ (Classical.dec _) h3)

theorem within_upper' {l h : EReal} {u v t : ℝ} (hw : Within l h v t) (hle : h ≤ (u : EReal)) (hu : u < 10 ^ 10) : v < u + t := by
  have h1 := hw.1 (lt_of_le_of_lt hle (EReal.coe_lt_coe_iff.2 hu))
  have h2 : h + (t : EReal) ≤ (u : EReal) + (t : EReal) := add_le_add_left hle _
  have := lt_of_lt_of_le h1 h2
  rw [← EReal.coe_add, EReal.coe_lt_coe_iff] at this
  exact this

theorem div_le_coe {h : EReal} {u b : ℝ} (hb : 0 < b) (hle : h ≤ (u : EReal)) : h / (b : EReal) ≤ ((u / b : ℝ) : EReal) := by
  rw [EReal.coe_div]
  exact EReal.div_le_div_right_of_nonneg (EReal.coe_nonneg.2 hb.le) hle

section
variable {srt : List ℕ → List ℕ} {bs : ℝ} {E : Econ} {ramp10 : List ℝ → ℝ} {o : Opt} {solve : AnySolver} {c : Index.Case Tables} {r : Reserves.Res}
    {ret : Ret} {out : ResOut} {c' : Index.Case Tables} {d : Case c'.bus.length c'.gen.length c'.branch.length} {m : Model}
    {s : DcRes c'.bus.length c'.gen.length c'.branch.length} {P : Params} {p : PostMu c'.gen.length c'.branch.length} {bp : Fin c'.bus.length → ℕ}
    {gp : Fin c'.gen.length → ℕ} {lp : Fin c'.branch.length → ℕ} {W : RData c'.gen.length (igOf srt c r).length r.zones.length}
    (X : ResRun srt bs E ramp10 o solve c r ret out c' d m s P p bp gp lp W)

include X

theorem ResRun.total : m.var.total = iROf c' + (igOf srt c r).length :=
  res_total d (fun k : Fin c'.gen.length => costAt c' k) _ (angOps_varBlocks E c') W m X.run X.good

theorem ResRun.lin : (∀ b ∈ linBlks (angOps E c'.bus.length c'), b.2.vs = ["Va"]) ∧ ∀ b ∈ linBlks (angOps E c'.bus.length c'), b.2.A.cols = c'.bus.length := by
  obtain ⟨B, hB, hvs, hcols, -⟩ := ang_block E c'.bus.length c' X.valid
  rw [hB]
  simp only [linBlks, List.filterMap_cons, List.filterMap_nil, List.mem_singleton, forall_eq]
  exact ⟨hvs, hcols⟩

theorem ResRun.jp_inj (hs : IsArgsort srt) : Function.Injective W.jp := by
  intro a b e
  have h1 := X.row a
  rw [e, X.row b] at h1
  exact resRow_inj hs c r h1.symm

/-- The reported point. -/
theorem ResRun.point (hb : 0 < bs) (hok : s.success = true) : (∀ k : Fin c'.bus.length, s.x k = vaAt ret.tables (bp k)) ∧
    (∀ k : Fin c'.gen.length, s.x (c'.bus.length + k) = pgAt ret.tables (gp k) / bs) ∧
    (∀ k : Fin (igOf srt c r).length, s.x (iROf c' + k) = out.R.getD (resRow srt c r k) 0 / bs) := by
  obtain ⟨-, -, hVA, hPG⟩ := C77_extra d _ m X.run X.good _ _ _ o solve _ s X.sol hok
  have hpi := Real.pi_pos
  refine ⟨?_, ?_, ?_⟩
  · intro k
    rw [X.va, hVA, (dc_starts d _).1, zero_add]
    field_simp
  · intro k
    rw [X.pg, hPG, (dc_starts d _).2.1, X.base]
    field_simp
  · intro k
    rw [List.getD_eq_getElem?_getD, X.R.on, Option.getD_some]
    field_simp

omit X in
theorem res_sum (hs : IsArgsort srt) (F : ℕ → ℝ) : ∑ i ∈ resGens c r, F i = ∑ k, F (resRow srt c r k) := by
  rw [resGens_eq hs, Finset.sum_image fun a _ b _ e => resRow_inj hs c r e]

omit X in
theorem resGens_lt {i : ℕ} (hi : i ∈ resGens c r) : i < c.gen.length := by
  simp only [resGens, Finset.mem_filter, onGens, Finset.mem_range] at hi
  exact hi.1.1

omit X in
/-- The requirement of a zone only counts the generators that provide reserves. -/
theorem zone_sum (hs : IsArgsort srt) (row : List ℝ) (R : ℕ → ℝ) (hR : ∀ i < c.gen.length, i ∉ resGens c r → R i = 0) :
    zoneReserves c.gen.length row R = ∑ k, row.getD (resRow srt c r k) 0 * R (resRow srt c r k) := by
  rw [← res_sum hs fun i => row.getD i 0 * R i]
  unfold zoneReserves
  refine (Finset.sum_subset (fun i hi => Finset.mem_range.2 (resGens_lt hi)) fun i hi hn => ?_).symm
  rw [hR i (Finset.mem_range.1 hi) hn, mul_zero]

/-- The row of a providing generator. -/
theorem ResRun.gen (k : Fin (igOf srt c r).length) : ∃ g, c.gen[resRow srt c r k]? = some g := by
  have := (X.R.on k)
  have h1 := (List.getElem?_eq_some_iff.1 this).1
  rw [X.R.len] at h1
  exact ⟨_, List.getElem?_eq_getElem h1⟩

theorem ResRun.norm_le (hs : IsArgsort srt) (hb : 0 < bs) (hc : EconCosts c) (hok : s.success = true) {M : ℝ} (hM : 0 ≤ M) (hva : ∀ i ∈ onBuses c, |vaAt ret.tables i| ≤ M)
    (hpg : ∀ i ∈ onGens c, |pgAt ret.tables i / bs| ≤ M) (hy : ∀ i ∈ pwlGens c, |helper s gp i| ≤ M) (hR : ∀ i ∈ resGens c r, |out.R.getD i 0 / bs| ≤ M) :
    ‖fun i : Fin m.var.total => s.x i‖ ≤ M := by
  obtain ⟨v1, v2, v3⟩ := X.point hb hok
  rw [pi_norm_le_iff_of_nonneg hM]
  rintro ⟨i, hi⟩
  rw [Real.norm_eq_abs]
  simp only
  rw [X.total] at hi
  have hir : iROf c' = c'.bus.length + c'.gen.length + nyOf (gcOf c') := rfl
  by_cases i1 : i < c'.bus.length
  · have := v1 ⟨i, i1⟩
    simp only at this
    rw [this]
    refine hva _ ?_
    obtain ⟨b, hb1, hb2, -⟩ := X.bridge.bus ⟨i, i1⟩
    simp only [onBuses, Finset.mem_filter, Finset.mem_range]
    exact ⟨(List.getElem?_eq_some_iff.1 hb1).1, b, hb1, hb2⟩
  · by_cases i2 : i < c'.bus.length + c'.gen.length
    · have := v2 ⟨i - c'.bus.length, by omega⟩
      simp only [show c'.bus.length + (i - c'.bus.length) = i by omega] at this
      rw [this]
      exact hpg _ (by rw [X.bridge.onGens_eq]; simp)
    · by_cases i3 : i < iROf c'
      · have hj : i - c'.bus.length - c'.gen.length < nyOf (gcOf c') := by omega
        have e1 := pwlPos_get (gcOf c') ⟨_, hj⟩
        have e2 := (ipwl_mem (gcOf c') _).1 (List.get_mem _ ⟨_, hj⟩)
        have e3 := (X.helper_at ((ipwl (gcOf c')).get ⟨_, hj⟩)).trans (congrArg (fun n => s.x (c'.bus.length + c'.gen.length + n)) e1)
        simp only [show c'.bus.length + c'.gen.length + (i - c'.bus.length - c'.gen.length) = i by omega] at e3
        rw [← e3]
        exact hy _ ((X.mem_pwlGens hc _).2 e2)
      · have := v3 ⟨i - iROf c', by omega⟩
        simp only [show iROf c' + (i - iROf c') = i by omega] at this
        rw [this]
        exact hR _ (by rw [resGens_eq hs]; simp)

/-- The user cost is the cost of the reserves. -/
theorem ResRun.user (x : ℕ → ℝ) : (userOf P m.var.total).value (fun i => x i) = ∑ k : Fin (igOf srt c r).length, W.cw k * x (iROf c' + k) :=
  RParams.value W X.par (by rw [X.total]) x

/-- The values of the helper variables and the objective. -/
theorem ResRun.helpers (hb : 0 < bs) (hcost : EconCosts c) (hc : 0 < o.costMult) (hok : s.success = true) :
    (∀ i ∈ pwlGens c, genCost c i (pgAt ret.tables i) ≤ helper s gp i + ret.tol) ∧
    ret.f = ∑ i ∈ onGens c \ pwlGens c, genCost c i (pgAt ret.tables i) + ∑ i ∈ pwlGens c, helper s gp i + out.totalcost := by
  have hbd : 0 < d.base := by rw [X.base]; exact hb
  have hgc : ∀ k : Fin c'.gen.length, CostOK (costAt c' k) := X.costOK hcost
  have hlin := angOps_varBlocks (nb := c'.bus.length) E c'
  obtain ⟨hPG, hH, hobj⟩ := C83_helpers d (fun k : Fin c'.gen.length => costAt c' k) hgc hbd _ W.ops hlin m X.run X.good (userOf P m.var.total) (RParams.convex W X.par) o solve _ hc _
    rfl s X.sol hok
  have hH := hH (X.big hb hcost)
  constructor
  · intro i hi
    obtain ⟨k, rfl, hk⟩ := X.of_mem_pwlGens hcost hi
    rw [X.val hcost, X.pg, X.helper_at, X.tol]
    have := hH k hk
    simpa [rowVal, hk] using this
  · have hsub : pwlGens c ⊆ onGens c := Finset.filter_subset _ _
    have e1 := Finset.sum_sdiff (f := fun i => genCost c i (pgAt ret.tables i)) hsub
    rw [X.pwlGens_sum hcost, X.bridge.onGens_sum] at e1
    simp only [X.val hcost, X.pg] at e1
    rw [cost_split (fun k : Fin c'.gen.length => pwl1Row (costAt c' k)) (fun k => costOK_pwl1 (hgc k)) s.PG] at e1
    have e2 : ∑ k ∈ Finset.univ.filter (fun k : Fin c'.gen.length => (pwl1Row (costAt c' k)).model = 1), rowVal (pwl1Row (costAt c' k)) (s.PG k) =
        ∑ k ∈ Finset.univ.filter (fun k : Fin c'.gen.length => (pwl1Row (costAt c' k)).model = 1), pwlCost (pwl1Row (costAt c' k)) (s.PG k) :=
      Finset.sum_congr rfl fun k hk => by simp [rowVal, (Finset.mem_filter.1 hk).2]
    rw [e2] at e1
    rw [X.user, RParams.offset W X.par, sub_zero] at hobj
    rw [X.f, hobj, X.pwlGens_sum hcost, X.totalcost]
    simp only [X.helper_at]
    linarith

end

end

end Verif.Opf
