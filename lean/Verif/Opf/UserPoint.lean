import Verif.Opf.UserLemmas
import Verif.Opf.ResProps

/-! # The reported point of a DC optimal power flow with user data, in terms of the caller's tables -/

namespace Verif.Opf

open Verif.Index (BusRow GenRow BranchRow IsArgsort WF GenInService BranchInService Connected posOf orderOf)
open Verif.OpfModel Verif.Pips Verif.Network Verif.Cost Verif.OpfCost

noncomputable section

section
variable {srt : List ℕ → List ℕ} {bs : ℝ} {E : Econ} {U : UserIn} {o : Opt} {solve : AnySolver} {c : Index.Case Tables}
    {ret : Ret} {out : UserOut} {c' : Index.Case Tables} {d : Case c'.bus.length c'.gen.length c'.branch.length} {m : Model}
    {s : DcRes c'.bus.length c'.gen.length c'.branch.length} {P : Params} {p : PostMu c'.gen.length c'.branch.length} {bp : Fin c'.bus.length → ℕ}
    {gp : Fin c'.gen.length → ℕ} {lp : Fin c'.branch.length → ℕ}
    (X : UserRun srt bs E U o solve c ret out c' d m s P p bp gp lp)

include X

theorem UserRun.total : m.var.total = iROf c' + (uW c c' U).nz :=
  user_total _ d (gcOf c') _ (angOps_varBlocks E c') m X.run X.good

theorem UserRun.nz : (uW c c' U).nz = nUser (posOf srt c .bus).length (posOf srt c .gen).length (colsOf c.A) := by
  rw [← X.blen, ← X.glen]
  exact nUser_eq c U _ _

theorem UserRun.zlen : out.z.length = (uW c c' U).nz := by rw [X.z]; simp

theorem UserRun.z_at {k : ℕ} (hk : k < (uW c c' U).nz) : out.z.getD k 0 = s.x (iROf c' + k) := by
  rw [List.getD_eq_getElem?_getD, X.z]
  simp [hk]

/-- The reported point. -/
theorem UserRun.point (hb : 0 < bs) (hok : s.success = true) : (∀ k : Fin c'.bus.length, s.x k = vaAt ret.tables (bp k)) ∧
    (∀ k : Fin c'.gen.length, s.x (c'.bus.length + k) = pgAt ret.tables (gp k) / bs) := by
  obtain ⟨-, -, hVA, hPG⟩ := C77_extra d _ m X.run X.good _ _ _ o solve _ s X.sol hok
  have hpi := Real.pi_pos
  refine ⟨?_, ?_⟩
  · intro k
    rw [X.va, hVA, (dc_starts d _).1, zero_add]
    field_simp
  · intro k
    rw [X.pg, hPG, (dc_starts d _).2.1, X.base]
    field_simp

/-- What a column of a user matrix is multiplied with. -/
theorem UserRun.ux_eq {t : Index.Case Tables} {z : List ℝ} {x : ℕ → ℝ} (x1 : ∀ k : Fin c'.bus.length, x k = vaAt t (bp k))
    (x2 : ∀ k : Fin c'.gen.length, x (c'.bus.length + k) = pgAt t (gp k) / bs) (x3 : ∀ k < (uW c c' U).nz, x (iROf c' + k) = z.getD k 0) :
    ∀ j < c'.bus.length + c'.gen.length + (uW c c' U).nz,
      ux c'.bus.length c'.gen.length (nyOf (gcOf c')) x j = dcValue bs t (posOf srt c .bus) (posOf srt c .gen) z j := by
  intro j hj
  unfold ux dcValue
  rw [← X.blen, ← X.glen]
  split_ifs with h1 h2 h2
  · rw [List.getD_eq_getElem?_getD, X.bpos ⟨j, h2⟩, Option.getD_some]
    exact x1 ⟨j, h2⟩
  · have h3 : j - c'.bus.length < c'.gen.length := by omega
    rw [List.getD_eq_getElem?_getD, X.gpos ⟨j - c'.bus.length, h3⟩, Option.getD_some]
    have := x2 ⟨j - c'.bus.length, h3⟩
    simp only [show c'.bus.length + (j - c'.bus.length) = j by omega] at this
    exact this
  · omega
  · have := x3 (j - c'.bus.length - c'.gen.length) (by omega)
    rw [← this]
    congr 1
    simp only [iROf]
    omega

/-- The value of a row of a user matrix. -/
theorem UserRun.row_value {t : Index.Case Tables} {z : List ℝ} {x : ℕ → ℝ} (x1 : ∀ k : Fin c'.bus.length, x k = vaAt t (bp k))
    (x2 : ∀ k : Fin c'.gen.length, x (c'.bus.length + k) = pgAt t (gp k) / bs) (x3 : ∀ k < (uW c c' U).nz, x (iROf c' + k) = z.getD k 0)
    (cols : List (List ℝ)) (hc : (dcCols c'.bus.length c'.gen.length cols).length = c'.bus.length + c'.gen.length + (uW c c' U).nz) (i : ℕ) :
    ∑ j ∈ Finset.range (c'.bus.length + c'.gen.length + (uW c c' U).nz), ((dcCols c'.bus.length c'.gen.length cols).getD j []).getD i 0 *
        ux c'.bus.length c'.gen.length (nyOf (gcOf c')) x j =
      rowValue bs t (posOf srt c .bus) (posOf srt c .gen) z cols i := by
  have e : ∑ j ∈ Finset.range (c'.bus.length + c'.gen.length + (uW c c' U).nz), ((dcCols c'.bus.length c'.gen.length cols).getD j []).getD i 0 *
        ux c'.bus.length c'.gen.length (nyOf (gcOf c')) x j = ∑ j ∈ Finset.range (c'.bus.length + c'.gen.length + (uW c c' U).nz),
        ((dcCols c'.bus.length c'.gen.length cols).getD j []).getD i 0 * dcValue bs t (posOf srt c .bus) (posOf srt c .gen) z j :=
    Finset.sum_congr rfl fun j hj => by rw [X.ux_eq x1 x2 x3 j (Finset.mem_range.1 hj)]
  rw [e, ← hc, dcCols_sum]
  unfold rowValue colValue
  simp only [← X.blen, ← X.glen]

/-- The user cost. -/
theorem UserRun.cost_value {t : Index.Case Tables} {z : List ℝ} {x : ℕ → ℝ} (x1 : ∀ k : Fin c'.bus.length, x k = vaAt t (bp k))
    (x2 : ∀ k : Fin c'.gen.length, x (c'.bus.length + k) = pgAt t (gp k) / bs) (x3 : ∀ k < (uW c c' U).nz, x (iROf c' + k) = z.getD k 0) :
    (uW c c' U).cost c'.bus.length c'.gen.length (nyOf (gcOf c')) x = userCost bs c U (posOf srt c .bus) (posOf srt c .gen) t z := by
  have hw : ∀ a ∈ Finset.range (rowsOf (colsOf c.N)), (uW c c' U).w c'.bus.length c'.gen.length (nyOf (gcOf c')) x a =
      rowValue bs t (posOf srt c .bus) (posOf srt c .gen) z (colsOf c.N) a := by
    intro a ha
    have hr : rowsOf (colsOf c.N) ≠ 0 := by
      rw [Finset.mem_range] at ha; omega
    exact X.row_value x1 x2 x3 (colsOf c.N) (X.fits.N hr) a
  unfold UData.cost userCost
  have hn : (uW c c' U).N.rows = rowsOf (colsOf c.N) := rfl
  rw [hn]
  simp only
  congr 1
  · congr 1
    exact Finset.sum_congr rfl fun a ha => Finset.sum_congr rfl fun b hb => by rw [hw a ha, hw b hb]; rfl
  · exact Finset.sum_congr rfl fun a ha => by rw [hw a ha]; rfl

theorem UserRun.lo (i : ℕ) : LinBlk.lo (uW c c' U).blk i = lowAt U.l i ∧ LinBlk.hi (uW c c' U).blk i = uppAt U.u i := ⟨rfl, rfl⟩

omit X in
theorem orDefault_low (n : ℕ) (l : List EReal) {k : ℕ} (hk : k < n) : (orDefault n ⊥ (some l)).getD k ⊥ = lowAt l k ∧ (orDefault n ⊤ (some l)).getD k ⊤ = uppAt l k := by
  unfold lowAt uppAt
  cases l with
  | nil => simp [orDefault]
  | cons a l => simp [orDefault]

theorem UserRun.zlo {k : ℕ} (hk : k < (uW c c' U).nz) : VarVals.lo (uW c c' U).vars k = lowAt U.zl k ∧ VarVals.hi (uW c c' U).vars k = uppAt U.zu k :=
  ⟨(orDefault_low (uW c c' U).nz U.zl hk).1, (orDefault_low (uW c c' U).nz U.zu hk).2⟩

omit X in
theorem user_mem_z (hz : (uW c c' U).nz ≠ 0) : ("z", (uW c c' U).vars) ∈ varVals (angOps E c'.bus.length c' ++ (pwlOps d.base (gcOf c') ++ (uW c c' U).ops)) := by
  rw [varVals_append, varVals_append, UData.varVals_eq, if_neg hz]
  simp

omit X in
theorem user_mem_usr (hr : (uW c c' U).A.rows ≠ 0) : ("usr", (uW c c' U).blk) ∈ linBlks (angOps E c'.bus.length c' ++ (pwlOps d.base (gcOf c') ++ (uW c c' U).ops)) := by
  rw [linBlks_append, linBlks_append, UData.linBlks_eq, if_neg hr]
  simp

theorem UserRun.norm_le (hb : 0 < bs) (hc : EconCosts c) (hok : s.success = true) {M : ℝ} (hM : 0 ≤ M) (hva : ∀ i ∈ onBuses c, |vaAt ret.tables i| ≤ M)
    (hpg : ∀ i ∈ onGens c, |pgAt ret.tables i / bs| ≤ M) (hy : ∀ i ∈ pwlGens c, |helper s gp i| ≤ M) (hz : ∀ v ∈ out.z, |v| ≤ M) :
    ‖fun i : Fin m.var.total => s.x i‖ ≤ M := by
  obtain ⟨v1, v2⟩ := X.point hb hok
  rw [pi_norm_le_iff_of_nonneg hM]
  rintro ⟨i, hi⟩
  rw [Real.norm_eq_abs]
  simp only
  rw [X.total] at hi
  have hir : iROf c' = c'.bus.length + c'.gen.length + nyOf (gcOf c') := rfl
  by_cases i1 : i < c'.bus.length
  · have := v1 ⟨i, i1⟩
    simp only at this
    rw [this]
    refine hva _ ?_
    obtain ⟨b, hb1, hb2, -⟩ := X.bridge.bus ⟨i, i1⟩
    simp only [onBuses, Finset.mem_filter, Finset.mem_range]
    exact ⟨(List.getElem?_eq_some_iff.1 hb1).1, b, hb1, hb2⟩
  · by_cases i2 : i < c'.bus.length + c'.gen.length
    · have := v2 ⟨i - c'.bus.length, by omega⟩
      simp only [show c'.bus.length + (i - c'.bus.length) = i by omega] at this
      rw [this]
      exact hpg _ (by rw [X.bridge.onGens_eq]; simp)
    · by_cases i3 : i < iROf c'
      · have hj : i - c'.bus.length - c'.gen.length < nyOf (gcOf c') := by omega
        have e1 := pwlPos_get (gcOf c') ⟨_, hj⟩
        have e2 := (ipwl_mem (gcOf c') _).1 (List.get_mem _ ⟨_, hj⟩)
        have e3 := (X.helper_at ((ipwl (gcOf c')).get ⟨_, hj⟩)).trans (congrArg (fun n => s.x (c'.bus.length + c'.gen.length + n)) e1)
        simp only [show c'.bus.length + c'.gen.length + (i - c'.bus.length - c'.gen.length) = i by omega] at e3
        rw [← e3]
        exact hy _ ((X.mem_pwlGens hc _).2 e2)
      · refine hz _ ?_
        rw [X.z, List.mem_map]
        exact ⟨i - iROf c', by rw [List.mem_range]; omega, by rw [show iROf c' + (i - iROf c') = i by omega]⟩

/-- The values of the helper variables and the objective. -/
theorem UserRun.helpers (hb : 0 < bs) (hcost : EconCosts c) (hcv : (uW c c' U).Convex) (hc : 0 < o.costMult) (hok : s.success = true) :
    (∀ i ∈ pwlGens c, genCost c i (pgAt ret.tables i) ≤ helper s gp i + ret.tol) ∧
    ret.f = ∑ i ∈ onGens c \ pwlGens c, genCost c i (pgAt ret.tables i) + ∑ i ∈ pwlGens c, helper s gp i + out.cost := by
  have hbd : 0 < d.base := by rw [X.base]; exact hb
  have hgc : ∀ k : Fin c'.gen.length, CostOK (costAt c' k) := X.costOK hcost
  have hlin := angOps_varBlocks (nb := c'.bus.length) E c'
  obtain ⟨hPG, hH, hobj⟩ := C83_helpers d (fun k : Fin c'.gen.length => costAt c' k) hgc hbd _ (uW c c' U).ops hlin m X.run X.good (userOf P m.var.total)
    (UParams.convex _ X.par hcv) o solve _ hc _ rfl s X.sol hok
  have hH := hH (X.big hb hcost)
  constructor
  · intro i hi
    obtain ⟨k, rfl, hk⟩ := X.of_mem_pwlGens hcost hi
    rw [X.val hcost, X.pg, X.helper_at, X.tol]
    have := hH k hk
    simpa [rowVal, hk] using this
  · have hsub : pwlGens c ⊆ onGens c := Finset.filter_subset _ _
    have e1 := Finset.sum_sdiff (f := fun i => genCost c i (pgAt ret.tables i)) hsub
    rw [X.pwlGens_sum hcost, X.bridge.onGens_sum] at e1
    simp only [X.val hcost, X.pg] at e1
    rw [cost_split (fun k : Fin c'.gen.length => pwl1Row (costAt c' k)) (fun k => costOK_pwl1 (hgc k)) s.PG] at e1
    have e2 : ∑ k ∈ Finset.univ.filter (fun k : Fin c'.gen.length => (pwl1Row (costAt c' k)).model = 1), rowVal (pwl1Row (costAt c' k)) (s.PG k) =
        ∑ k ∈ Finset.univ.filter (fun k : Fin c'.gen.length => (pwl1Row (costAt c' k)).model = 1), pwlCost (pwl1Row (costAt c' k)) (s.PG k) :=
      Finset.sum_congr rfl fun k hk => by simp [rowVal, (Finset.mem_filter.1 hk).2]
    rw [e2] at e1
    rw [UParams.value _ X.par, UParams.offset _ X.par, sub_zero] at hobj
    rw [X.f, hobj, X.pwlGens_sum hcost, X.ucost]
    simp only [X.helper_at]
    linarith

end

end

end Verif.Opf
