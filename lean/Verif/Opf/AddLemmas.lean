import Verif.Opf.AddModel
import Verif.Opf.AcceptProps

/-! # Runs of a DC optimal power flow with further linear constraints -/

namespace Verif.Opf

open Verif.Index (BusRow GenRow BranchRow IsArgsort WF GenInService BranchInService Connected posOf orderOf)
open Verif.OpfModel Verif.Pips Verif.Network Verif.Cost Verif.OpfCost

noncomputable section

/-- What a run with the further calls `W` amounts to in internal numbering. -/
structure AddRun (srt : List ℕ → List ℕ) (bs : ℝ) (E : Econ) (W : List Op) (o : Opt) (solve : AnySolver) (c : Index.Case Tables) (r : Ret) (c' : Index.Case Tables)
    (d : Case c'.bus.length c'.gen.length c'.branch.length) (m : Model) (s : DcRes c'.bus.length c'.gen.length c'.branch.length)
    (p : PostMu c'.gen.length c'.branch.length) (bp : Fin c'.bus.length → ℕ) (gp : Fin c'.gen.length → ℕ) (lp : Fin c'.branch.length → ℕ) : Prop
    extends DcRun bs E c r c' d s p bp gp lp where
  run : OpfModel.run (dcOps d ++ (angOps E c'.bus.length c' ++ (pwlOps d.base (gcOf c') ++ W))) = some m
  good : Good (dcOps d ++ (angOps E c'.bus.length c' ++ (pwlOps d.base (gcOf c') ++ W)))
  novars : varBlocks W = []
  sol : dcopfSolver d m (HH (dcData d.base (gcOf c') (noUser m.var.total) c'.bus.length (c'.bus.length + c'.gen.length) (dc_width run good)))
    (CC (dcData d.base (gcOf c') (noUser m.var.total) c'.bus.length (c'.bus.length + c'.gen.length) (dc_width run good)))
    (C0 (dcData d.base (gcOf c') (noUser m.var.total) c'.bus.length (c'.bus.length + c'.gen.length) (dc_width run good)))
    o solve (E.x0 c' m) = some s
  size : r.size = m.var.total + m.lin.total
  post : p = angPost E c' m s
  ext : Index.ext2int srt c = some c'
  read : readCase bs c' = some d
  bpos : ∀ k : Fin c'.bus.length, (posOf srt c .bus)[(k : ℕ)]? = some (bp k)
  gpos : ∀ k : Fin c'.gen.length, (posOf srt c .gen)[(k : ℕ)]? = some (gp k)
  lpos : ∀ k : Fin c'.branch.length, (posOf srt c .branch)[(k : ℕ)]? = some (lp k)

theorem add_run {srt : List ℕ → List ℕ} (hs : IsArgsort srt) {base : ℝ} {E : Econ} {f : ∀ {nb ng nl : ℕ}, Case nb ng nl → Index.Case Tables → List Op} {o : Opt}
    {solve : AnySolver} {c : Index.Case Tables} (h : WF c) (hgc : c.gencost.isSome)
    (hgood : ∀ c' d, Index.ext2int srt c = some c' → readCase base c' = some d → Good (dcOps d ++ (addSetup base E f).extra d c'))
    (hnv : ∀ (nb ng nl : ℕ) (d : Case nb ng nl) c', varBlocks (f d c') = [])
    {r : Ret} (hrun : opfDc srt base (addSetup base E f) o solve c = some r) :
    ∃ c' d m s p bp gp lp, AddRun srt base E (f d c') o solve c r c' d m s p bp gp lp := by
  unfold opfDc at hrun
  simp only [Option.bind_eq_bind, Option.bind_eq_some_iff] at hrun
  obtain ⟨c', hc', d, hd, m, hm, s, hs', r1, hr, e⟩ := hrun
  injection e with e
  subst e
  obtain ⟨bp, gp, lp, B, -, -, -, hbr, hco, hbp, hgp, hlp⟩ := bridge_at hs h hc' hd _ hr opfOff
  have hbase := readCase_base hd
  have hval := readCase_valid hd E
  have g := hgood c' d hc' hd
  subst hbase
  have hw := dc_width hm g
  refine ⟨c', d, m, s, _, bp, gp, lp, ⟨B, rfl, hval, rfl, rfl, rfl, rfl, ?_, hbr⟩, hm, g, hnv _ _ _ _ _, ?_, rfl, rfl, hc', hd, hbp, hgp, hlp⟩
  rotate_left
  · simp only [addSetup, econSetup, dif_pos hw] at hs'
    exact hs'
  · obtain ⟨gc, hgc⟩ := Option.isSome_iff_exists.1 hgc
    obtain ⟨gc', h1, h2⟩ := hco gc hgc
    intro k
    simp only [costAt, hgc, h1, Option.getD_some, List.getD_eq_getElem?_getD, h2]

section
variable {srt : List ℕ → List ℕ} {base : ℝ} {E : Econ} {W : List Op} {o : Opt} {solve : AnySolver} {c : Index.Case Tables} {r : Ret} {c' : Index.Case Tables}
    {d : Case c'.bus.length c'.gen.length c'.branch.length} {m : Model} {s : DcRes c'.bus.length c'.gen.length c'.branch.length}
    {p : PostMu c'.gen.length c'.branch.length} {bp : Fin c'.bus.length → ℕ} {gp : Fin c'.gen.length → ℕ} {lp : Fin c'.branch.length → ℕ}
    (R : AddRun srt base E W o solve c r c' d m s p bp gp lp)

include R

theorem AddRun.total : m.var.total = c'.bus.length + c'.gen.length + nyOf (gcOf c') := by
  obtain ⟨-, -, ht, -⟩ := linearOf_spec R.run R.good
  rw [ht, dcy_varBlocks d _ _ W (angOps_varBlocks E c'), total_cons, total_cons, R.novars]
  split_ifs with h
  · rw [h]; rfl
  · rw [List.singleton_append, total_cons]
    show _ + (_ + (_ + 0)) = _
    omega

theorem AddRun.point (hb : 0 < base) (hok : s.success = true) : (∀ k : Fin c'.bus.length, s.x k = vaAt r.tables (bp k)) ∧
    (∀ k : Fin c'.gen.length, s.x (c'.bus.length + k) = pgAt r.tables (gp k) / base) := by
  obtain ⟨-, -, hVA, hPG⟩ := C77_extra d _ m R.run R.good _ _ _ o solve _ s R.sol hok
  have hpi := Real.pi_pos
  constructor
  · intro k
    rw [R.va, hVA, (dc_starts d _).1, zero_add]
    field_simp
  · intro k
    rw [R.pg, hPG, (dc_starts d _).2.1, R.base]
    field_simp

theorem AddRun.norm_le (hb : 0 < base) (hc : EconCosts c) (hok : s.success = true) {M : ℝ} (hM : 0 ≤ M) (hva : ∀ i ∈ onBuses c, |vaAt r.tables i| ≤ M)
    (hpg : ∀ i ∈ onGens c, |pgAt r.tables i / base| ≤ M) (hy : ∀ i ∈ pwlGens c, |helper s gp i| ≤ M) : ‖fun i : Fin m.var.total => s.x i‖ ≤ M := by
  obtain ⟨v1, v2⟩ := R.point hb hok
  rw [pi_norm_le_iff_of_nonneg hM]
  rintro ⟨i, hi⟩
  rw [Real.norm_eq_abs]
  simp only
  rw [R.total] at hi
  by_cases i1 : i < c'.bus.length
  · have := v1 ⟨i, i1⟩
    simp only at this
    rw [this]
    refine hva _ ?_
    obtain ⟨b, hb1, hb2, -⟩ := R.bridge.bus ⟨i, i1⟩
    simp only [onBuses, Finset.mem_filter, Finset.mem_range]
    exact ⟨(List.getElem?_eq_some_iff.1 hb1).1, b, hb1, hb2⟩
  · by_cases i2 : i < c'.bus.length + c'.gen.length
    · have := v2 ⟨i - c'.bus.length, by omega⟩
      simp only [show c'.bus.length + (i - c'.bus.length) = i by omega] at this
      rw [this]
      exact hpg _ (by rw [R.bridge.onGens_eq]; simp)
    · have hj : i - c'.bus.length - c'.gen.length < nyOf (gcOf c') := by omega
      have e1 := pwlPos_get (gcOf c') ⟨_, hj⟩
      have e2 := (ipwl_mem (gcOf c') _).1 (List.get_mem _ ⟨_, hj⟩)
      have e3 := (R.helper_at ((ipwl (gcOf c')).get ⟨_, hj⟩)).trans (congrArg (fun n => s.x (c'.bus.length + c'.gen.length + n)) e1)
      simp only [show c'.bus.length + c'.gen.length + (i - c'.bus.length - c'.gen.length) = i by omega] at e3
      rw [← e3]
      exact hy _ ((R.mem_pwlGens hc _).2 e2)

/-- The values of the helper variables and the objective. -/
theorem AddRun.helpers (hb : 0 < base) (hcost : EconCosts c) (hc : 0 < o.costMult) (hok : s.success = true) :
    (∀ i ∈ pwlGens c, genCost c i (pgAt r.tables i) ≤ helper s gp i + r.tol) ∧
    r.f = ∑ i ∈ onGens c \ pwlGens c, genCost c i (pgAt r.tables i) + ∑ i ∈ pwlGens c, helper s gp i := by
  have hbd : 0 < d.base := by rw [R.base]; exact hb
  have hgc : ∀ k : Fin c'.gen.length, CostOK (costAt c' k) := R.costOK hcost
  have hlin := angOps_varBlocks (nb := c'.bus.length) E c'
  obtain ⟨hPG, hH, hobj⟩ := C83_helpers d (fun k : Fin c'.gen.length => costAt c' k) hgc hbd _ W hlin m R.run R.good (noUser _) (noUser_convex _) o solve _ hc _ rfl s
    R.sol hok
  have hH := hH (R.big hb hcost)
  constructor
  · intro i hi
    obtain ⟨k, rfl, hk⟩ := R.of_mem_pwlGens hcost hi
    rw [R.val hcost, R.pg, R.helper_at, R.tol]
    have := hH k hk
    simpa [rowVal, hk] using this
  · have hsub : pwlGens c ⊆ onGens c := Finset.filter_subset _ _
    have e1 := Finset.sum_sdiff (f := fun i => genCost c i (pgAt r.tables i)) hsub
    rw [R.pwlGens_sum hcost, R.bridge.onGens_sum] at e1
    simp only [R.val hcost, R.pg] at e1
    rw [cost_split (fun k : Fin c'.gen.length => pwl1Row (costAt c' k)) (fun k => costOK_pwl1 (hgc k)) s.PG] at e1
    have e2 : ∑ k ∈ Finset.univ.filter (fun k : Fin c'.gen.length => (pwl1Row (costAt c' k)).model = 1), rowVal (pwl1Row (costAt c' k)) (s.PG k) =
        ∑ k ∈ Finset.univ.filter (fun k : Fin c'.gen.length => (pwl1Row (costAt c' k)).model = 1), pwlCost (pwl1Row (costAt c' k)) (s.PG k) :=
      Finset.sum_congr rfl fun k hk => by simp [rowVal, (Finset.mem_filter.1 hk).2]
    rw [e2] at e1
    rw [noUser_value, noUser_offset, sub_zero, add_zero] at hobj
    rw [R.f, hobj, R.pwlGens_sum hcost]
    simp only [R.helper_at]
    linarith

/-- The point of the formulation that shows the dispatch in tables `t`. -/
def pointOf (d : Case c'.bus.length c'.gen.length c'.branch.length) (bp : Fin c'.bus.length → ℕ) (gp : Fin c'.gen.length → ℕ) (t : Index.Case Tables) : ℕ → ℝ :=
  stack d (gcOf c') (fun k => vaAt t (bp k)) (fun k => pgAt t (gp k)) (fun _ => 0)

omit R in
theorem pointOf_va (t : Index.Case Tables) (k : Fin c'.bus.length) : pointOf d bp gp t k = vaAt t (bp k) := by simp [pointOf, stack]

omit R in
theorem pointOf_pg (t : Index.Case Tables) (k : Fin c'.gen.length) : pointOf d bp gp t (c'.bus.length + k) = pgAt t (gp k) / d.base := by simp [pointOf, stack]

theorem AddRun.least_cost (hb : 0 < base) (h : WF c) (hcost : EconCosts c) (hst : ∀ l ∈ c.branch, l.status = 0 ∨ l.status = 1) (hc : 0 < o.costMult) (hft : 0 ≤ o.feastol)
    (hct : 0 ≤ o.comptol) (hok : s.success = true) {t : Index.Case Tables} {θ : ℕ → ℝ} (F : DcFeasible base E c t θ)
    (hW : Holds (varBlocks (dcOps d ++ (angOps E c'.bus.length c' ++ (pwlOps d.base (gcOf c') ++ W)))) W (pointOf d bp gp t))
    {M : ℝ} (hM : 0 ≤ M) (hva : ∀ i ∈ onBuses c, |vaAt r.tables i| ≤ M) (hpg : ∀ i ∈ onGens c, |pgAt r.tables i / base| ≤ M) (hy : ∀ i ∈ pwlGens c, |helper s gp i| ≤ M) :
    r.f ≤ dispatchCost c t + gap o r.size M r.dual r.tol (dist base c r.tables t (helper s gp)) := by
  have hbd : 0 < d.base := by rw [R.base]; exact hb
  have hgc : ∀ k : Fin c'.gen.length, CostOK (costAt c' k) := R.costOK hcost
  have hlin := angOps_varBlocks (nb := c'.bus.length) E c'
  have hval := R.val hcost
  have psum := R.pwlGens_sum hcost
  rw [← R.base] at F
  have ha := feasible_alt R.bridge h F
  have hstat : ∀ k, (d.branch k).stat = 0 ∨ (d.branch k).stat = 1 := by
    intro k
    obtain ⟨l0, h1, -, -, -, -, -, -, -, -, -, h2, -⟩ := R.bridge.branch k
    rw [h2]
    rcases hst l0 (List.mem_of_getElem? h1) with h3 | h3 <;> simp [h3]
  set x := pointOf d bp gp t with hx
  have x1 : ∀ k : Fin c'.bus.length, x k = vaAt t (bp k) := pointOf_va t
  have x2 : ∀ k : Fin c'.gen.length, x (c'.bus.length + k) = pgAt t (gp k) / d.base := pointOf_pg t
  have x3 : ∀ j : Fin (nyOf (gcOf c')), x (c'.bus.length + c'.gen.length + j) =
      rowVal (pwl1Row (costAt c' ((ipwl (gcOf c')).get j))) (pgAt t (gp ((ipwl (gcOf c')).get j))) := by
    intro j
    have n1 : ¬ (c'.bus.length + c'.gen.length + j < c'.bus.length) := by omega
    have n2 : ¬ (c'.bus.length + c'.gen.length + j - c'.bus.length < c'.gen.length) := by omega
    have e : c'.bus.length + c'.gen.length + j - c'.bus.length - c'.gen.length = j := by omega
    simp only [hx, pointOf, stack, dif_neg n1, dif_neg n2, e, dif_pos j.isLt]
    rfl
  have hang := R.ang_alt F (angOps E c'.bus.length c' ++ (pwlOps d.base (gcOf c') ++ W)) x x1
  obtain ⟨T, hT, hle⟩ := C83_least_cost d (fun k : Fin c'.gen.length => costAt c' k) hgc hbd _ W hlin m R.run R.good (noUser _) (noUser_convex _) o solve _ hc hft
    _ rfl s R.sol hok hstat (fun k => vaAt t (bp k)) (fun k => pgAt t (gp k)) (fun _ => 0) ha (hang.append hW)
  obtain ⟨T', hT', hsum⟩ := totcost_sum (fun k : Fin c'.gen.length => costAt c' k) hgc (fun k => pgAt t (gp k))
  rw [hT] at hT'; cases hT'
  rw [noUser_value, noUser_offset, sub_zero, add_zero, hsum] at hle
  have eC : dispatchCost c t = ∑ k : Fin c'.gen.length, rowVal (pwl1Row (costAt c' k)) (pgAt t (gp k)) := by
    unfold dispatchCost
    rw [R.bridge.onGens_sum]
    exact Finset.sum_congr rfl fun k _ => hval k _
  rw [← eC] at hle
  change s.f ≤ _ + gap o _ _ _ _ (∑ i : Fin m.var.total, |x i - s.x i|) at hle
  obtain ⟨v1, v2⟩ := R.point hb hok
  have hdist : ∑ i : Fin m.var.total, |x i - s.x i| = dist base c r.tables t (helper s gp) := by
    rw [Finset.sum_fin_eq_sum_range]
    have e0 : ∀ i ∈ Finset.range m.var.total, (if h : i < m.var.total then |x ((⟨i, h⟩ : Fin m.var.total) : ℕ) - s.x ((⟨i, h⟩ : Fin m.var.total) : ℕ)| else 0) =
        |x i - s.x i| := fun i hi => by rw [dif_pos (Finset.mem_range.1 hi)]
    rw [Finset.sum_congr rfl e0, R.total, Finset.sum_range_add, Finset.sum_range_add, Finset.sum_range, Finset.sum_range, Finset.sum_range]
    unfold dist
    rw [R.bridge.onBuses_sum, R.bridge.onGens_sum, psum]
    congr 1
    · congr 1
      · exact Finset.sum_congr rfl fun k _ => by rw [x1, v1]
      · refine Finset.sum_congr rfl fun k _ => ?_
        rw [x2, v2, R.base, ← sub_div, abs_div, abs_of_pos hb]
    · simp only [x3]
      rw [sum_pwl (gcOf c') (fun k j => |rowVal (pwl1Row (costAt c' k)) (pgAt t (gp k)) - s.x (c'.bus.length + c'.gen.length + j)|)]
      exact Finset.sum_congr rfl fun k _ => by rw [R.helper_at, hval]
  have hnorm := R.norm_le hb hcost hok hM hva hpg hy
  have hgap : gap o (m.var.total + m.lin.total) ‖fun i : Fin m.var.total => s.x i‖ s.dual s.tol (∑ i : Fin m.var.total, |x i - s.x i|) ≤
      gap o r.size M r.dual r.tol (dist base c r.tables t (helper s gp)) := by
    rw [hdist, R.size, R.dual, R.tol]
    unfold gap
    have := mul_le_mul_of_nonneg_left hnorm hct
    refine div_le_div_of_nonneg_right ?_ hc.le
    linarith
  rw [R.f]
  exact hle.trans (by linarith)

end

/-! ### One more block of constraints -/

section
variable {nb ng nl : ℕ} {d : Case nb ng nl} (E : Econ) (c' : Index.Case Tables) (gc : Fin ng → CostRow ℝ) (nm : String) (B : LinBlk)

/-- Internal: the formulation with one more block is well posed if that without is. -/
theorem block_good (g : Good (dcOps d ++ (angOps E nb c' ++ (pwlOps d.base gc ++ [])))) (hnm : nm ∉ ["Pmis", "Pf", "Pt", "ang", "ycon"])
    (hfit : LinFits (varBlocks (dcOps d ++ (angOps E nb c' ++ (pwlOps d.base gc ++ [])))) B) (hsane : ∀ i < B.A.rows, Sane (LinBlk.lo B i) (LinBlk.hi B i)) :
    Good (dcOps d ++ (angOps E nb c' ++ (pwlOps d.base gc ++ [.addLin nm B.A B.l B.u B.vs]))) := by
  have hvb : varBlocks (dcOps d ++ (angOps E nb c' ++ (pwlOps d.base gc ++ [.addLin nm B.A B.l B.u B.vs]))) =
      varBlocks (dcOps d ++ (angOps E nb c' ++ (pwlOps d.base gc ++ []))) := by simp [varBlocks]
  have hvv : varVals (dcOps d ++ (angOps E nb c' ++ (pwlOps d.base gc ++ [.addLin nm B.A B.l B.u B.vs]))) =
      varVals (dcOps d ++ (angOps E nb c' ++ (pwlOps d.base gc ++ []))) := by simp [varVals]
  have hlb : linBlks (dcOps d ++ (angOps E nb c' ++ (pwlOps d.base gc ++ [.addLin nm B.A B.l B.u B.vs]))) =
      linBlks (dcOps d ++ (angOps E nb c' ++ (pwlOps d.base gc ++ []))) ++ [(nm, B)] := by simp [linBlks]
  have hsub : ∀ n ∈ names (linBlks (dcOps d ++ (angOps E nb c' ++ (pwlOps d.base gc ++ [])))), n ∈ ["Pmis", "Pf", "Pt", "ang", "ycon"] := by
    intro n hn
    have e : ∀ a b : List Op, linBlks (a ++ b) = linBlks a ++ linBlks b := fun a b => by simp [linBlks]
    have e1 : linBlks (dcOps d) = [("Pmis", ⟨hcat (Bbus d.branch) d.negCg, vec d.bmis, vec d.bmis, ["Va", "Pg"]⟩),
      ("Pf", ⟨matOf d.BfIl, List.replicate d.il.length ⊥, vec d.upf, ["Va"]⟩),
      ("Pt", ⟨matOf (-d.BfIl), List.replicate d.il.length ⊥, vec d.upt, ["Va"]⟩)] := rfl
    have e2 : ∀ b ∈ linBlks (angOps E nb c'), b.1 = "ang" := by
      intro b hb
      unfold angOps at hb
      split at hb <;> simp [linBlks] at hb
      rw [hb]
    have e3 : ∀ b ∈ linBlks (pwlOps d.base gc), b.1 = "ycon" := by
      intro b hb
      by_cases hy : nyOf gc = 0
      · rw [show pwlOps d.base gc = [] by unfold pwlOps; rw [if_pos hy]] at hb
        simp [linBlks] at hb
      · rw [pwlOps_linBlks _ _ hy] at hb
        simp at hb
        rw [hb]
    obtain ⟨b, hb, rfl⟩ := List.mem_map.1 hn
    rw [List.append_nil, e, e, e1] at hb
    rcases List.mem_append.1 hb with hb | hb
    · simp only [List.mem_cons, List.not_mem_nil, or_false] at hb
      rcases hb with rfl | rfl | rfl <;> simp
    · rcases List.mem_append.1 hb with hb | hb
      · simp [e2 b hb]
      · simp [e3 b hb]
  refine ⟨by rw [hvb]; exact g.varNames, ?_, by rw [hvv]; exact g.varFits, ?_, by rw [hvv]; exact g.varSane, ?_⟩
  · rw [hlb]
    have e : names (linBlks (dcOps d ++ (angOps E nb c' ++ (pwlOps d.base gc ++ []))) ++ [(nm, B)]) =
        names (linBlks (dcOps d ++ (angOps E nb c' ++ (pwlOps d.base gc ++ [])))) ++ [nm] := by simp [names]
    rw [e, List.nodup_append]
    refine ⟨g.linNames, by simp, fun a ha b hb => ?_⟩
    rw [List.mem_singleton] at hb
    rintro rfl
    exact hnm (hb ▸ hsub a ha)
  · intro b hb
    rw [hvb]
    rw [hlb] at hb
    rcases List.mem_append.1 hb with hb | hb
    · exact g.linFits b hb
    · rw [List.mem_singleton] at hb
      subst hb
      exact hfit
  · intro b hb
    rw [hlb] at hb
    rcases List.mem_append.1 hb with hb | hb
    · exact g.linSane b hb
    · rw [List.mem_singleton] at hb
      subst hb
      exact hsane

/-- Internal: the calls do not raise. -/
theorem block_runs (hv : ∀ b ∈ angRows E c', b.f < nb ∧ b.t < nb) (hvs : B.vs = ["Va"] ∨ B.vs = ["Pg"]) :
    ∃ m, OpfModel.run (dcOps d ++ (angOps E nb c' ++ (pwlOps d.base gc ++ [.addLin nm B.A B.l B.u B.vs]))) = some m := by
  obtain ⟨B', hB, hvs', -⟩ := ang_block E nb c' hv
  rw [hB, hvs']
  rcases hvs with hvs | hvs <;> rw [hvs] <;> by_cases hy : nyOf gc = 0
  all_goals
    unfold pwlOps
    simp only [hy, if_true, if_false]
    simp only [OpfModel.run, dcOps, List.cons_append, List.nil_append, List.foldlM_cons, List.foldlM_nil, step, Model.addLin, storeVs, Model.resolve, Model.addVars,
      Idx.add, Model.init, Idx.empty]
    simp [Model.width, Dict.set, ayMat]

end

/-! ### Runs exist -/

section
variable {srt : List ℕ → List ℕ} (hs : IsArgsort srt) {base : ℝ} {c : Index.Case Tables} (h : WF c) (E : Econ)
  {f : ∀ {nb ng nl : ℕ}, Case nb ng nl → Index.Case Tables → List Op}
  (hgood : ∀ c' d, Index.ext2int srt c = some c' → readCase base c' = some d → Good (dcOps d ++ (addSetup base E f).extra d c'))
  (hruns : ∀ c' d, Index.ext2int srt c = some c' → readCase base c' = some d → ∃ m, OpfModel.run (dcOps d ++ (addSetup base E f).extra d c') = some m)

include hs h hgood hruns

theorem add_completes : (∀ (o : Opt) (solve : AnySolver), ∃ r, opfDc srt base (addSetup base E f) o solve c = some r) ∧
    ∀ solve : AnySolver, ∃ o r, 0 < o.costMult ∧ 0 < o.feastol ∧ 0 < o.gradtol ∧ 0 < o.comptol ∧ opfDc srt base (addSetup base E f) o solve c = some r ∧ r.success = true := by
  obtain ⟨c', d, he, hd, hw⟩ := bridge_exists hs base h
  have g := hgood c' d he hd
  obtain ⟨m, hm'⟩ := hruns c' d he hd
  obtain ⟨q, hq, -, -, -, -, hok⟩ := linearOf_spec hm' g
  obtain ⟨i1, i2, i3, i4, i5⟩ := dc_idx hm' g
  have sol : ∀ (o : Opt) (solve : AnySolver), ∃ s, dcopfSolver d m ((addSetup base E f).H c' m) ((addSetup base E f).C c' m) ((addSetup base E f).C0 c' m) o solve
      ((addSetup base E f).x0 c' m) = some s := by
    intro o solve
    obtain ⟨r, hr⟩ := C76_returns (qp ((addSetup base E f).H c' m) ((addSetup base E f).C c' m)) q o (solve _ _) ((addSetup base E f).x0 c' m) hok
    unfold dcopfSolver
    simp only [hq, hr, i1, i2, i3, i4, i5, Option.bind_eq_bind, Option.bind_some]
    exact ⟨_, rfl⟩
  constructor
  · intro o solve
    obtain ⟨s, hs'⟩ := sol o solve
    obtain ⟨r, hr⟩ := hw (dcUpd s ((addSetup base E f).post c' m s))
    unfold opfDc
    simp only [he, hd, hm', hs', hr, Option.bind_eq_bind, Option.bind_some]
    exact ⟨_, rfl⟩
  · intro solve
    obtain ⟨o, h1, h3, h4, h5, h2⟩ := exists_success_nonneg (problem (qp ((addSetup base E f).H c' m) ((addSetup base E f).C c' m)) q) ((addSetup base E f).x0 c' m)
    obtain ⟨s, hs'⟩ := sol o solve
    obtain ⟨r, hr⟩ := hw (dcUpd s ((addSetup base E f).post c' m s))
    obtain ⟨q', r', hq', hr', e1, -⟩ := dc_ofSolver hm' g hs'
    rw [hq] at hq'; cases hq'
    refine ⟨o, ⟨s.success, s.f, s.tol, s.dual, m.var.total + m.lin.total, zeroOff opfOff r⟩, h1, h3, h4, h5, ?_, ?_⟩
    · unfold opfDc
      simp only [he, hd, hm', hs', hr, Option.bind_eq_bind, Option.bind_some]
    · show s.success = true
      rw [e1, (ofFull hr').2.1]; exact h2 _

/-- A dispatch within all limits that meets the further constraints is returned from a suitable starting point. -/
theorem add_accepts (hb : 0 < base) (hcost : EconCosts c) (hst : ∀ l ∈ c.branch, l.status = 0 ∨ l.status = 1)
    (hnv : ∀ (nb ng nl : ℕ) (d : Case nb ng nl) c', varBlocks (f d c') = []) (solve : AnySolver) {t : Index.Case Tables} {θ : ℕ → ℝ} (F : DcFeasible base E c t θ)
    (hW : ∀ c' (d : Case c'.bus.length c'.gen.length c'.branch.length) (u : Upd c'.bus.length c'.gen.length c'.branch.length) (R : Index.Case Tables) bp gp lp,
      Index.ext2int srt c = some c' → readCase base c' = some d → Bridge c R opfOff d u bp gp lp →
      (∀ k : Fin c'.branch.length, (posOf srt c .branch)[(k : ℕ)]? = some (lp k)) →
      Holds (varBlocks (dcOps d ++ (angOps E c'.bus.length c' ++ (pwlOps d.base (gcOf c') ++ f d c')))) (f d c') (pointOf d bp gp t))
    (δ : ℝ) (hδ : 1 / 2 ^ 52 < δ) :
    ∃ x0 o r, 0 < o.costMult ∧ 0 < o.feastol ∧ 0 < o.gradtol ∧ 0 < o.comptol ∧ opfDc srt base (addSetup base { E with x0 := x0 } f) o solve c = some r ∧ r.success = true ∧
      r.tol = δ ∧ (∀ i ∈ onBuses c, vaAt r.tables i = vaAt t i) ∧ ∀ i ∈ onGens c, pgAt r.tables i = pgAt t i := by
  obtain ⟨r0, hr0⟩ := (add_completes hs h E hgood hruns).1 ⟨0, 0, 0, 0, 0, 0, false, 1⟩ solve
  obtain ⟨c', d, m, s0, p, bp, gp, lp, R⟩ := add_run hs h hcost.table hgood hnv hr0
  have hbd : 0 < d.base := by rw [R.base]; exact hb
  have hgc : ∀ k : Fin c'.gen.length, CostOK (costAt c' k) := R.costOK hcost
  have hlin := angOps_varBlocks (nb := c'.bus.length) E c'
  have F' := F
  rw [← R.base] at F'
  have ha := feasible_alt R.bridge h F'
  have hstat : ∀ k, (d.branch k).stat = 0 ∨ (d.branch k).stat = 1 := by
    intro k
    obtain ⟨l0, h1, -, -, -, -, -, -, -, -, -, h2, -⟩ := R.bridge.branch k
    rw [h2]
    rcases hst l0 (List.mem_of_getElem? h1) with h3 | h3 <;> simp [h3]
  set x := pointOf d bp gp t with hx
  have x1 : ∀ k : Fin c'.bus.length, x k = vaAt t (bp k) := pointOf_va t
  have x2 : ∀ k : Fin c'.gen.length, x (c'.bus.length + k) = pgAt t (gp k) / d.base := pointOf_pg t
  have hA := R.toDcRun.ang_alt F' (angOps E c'.bus.length c' ++ (pwlOps d.base (gcOf c') ++ f d c')) x x1
  have hall := stack_holds d (fun k : Fin c'.gen.length => costAt c' k) hgc hbd _ (f d c') hlin hstat (fun k => vaAt t (bp k)) (fun k => pgAt t (gp k)) (fun _ => 0) ha
    (hA.append (hW c' d _ _ bp gp lp R.ext R.read R.bridge R.lpos))
  obtain ⟨o, o1, o2, o3, o4, hsol⟩ := dc_accepts R.run R.good (HH (dcData d.base (gcOf c') (noUser m.var.total) c'.bus.length (c'.bus.length + c'.gen.length) (dc_width R.run R.good)))
    (CC (dcData d.base (gcOf c') (noUser m.var.total) c'.bus.length (c'.bus.length + c'.gen.length) (dc_width R.run R.good)))
    (C0 (dcData d.base (gcOf c') (noUser m.var.total) c'.bus.length (c'.bus.length + c'.gen.length) (dc_width R.run R.good))) x hall δ hδ
  obtain ⟨s, hs', hok, htol, hxs⟩ := hsol solve
  obtain ⟨c1, d1, he1, hd1, hw⟩ := bridge_exists hs base h
  have := R.ext
  rw [he1] at this; cases this
  have := R.read
  rw [hd1] at this; cases this
  obtain ⟨r, hr⟩ := hw (dcUpd s (angPost E c' m s))
  let X0 : ∀ (_ : Index.Case Tables) (m : Model), Fin m.var.total → ℝ := fun _ _ i => x i
  have hrun : opfDc srt base (addSetup base { E with x0 := X0 } f) o solve c = some ⟨s.success, s.f, s.tol, s.dual, m.var.total + m.lin.total, zeroOff opfOff r⟩ := by
    have hm2 : OpfModel.run (dcOps d ++ (addSetup base { E with x0 := X0 } f).extra d c') = some m := R.run
    have hs2 : dcopfSolver d m ((addSetup base { E with x0 := X0 } f).H c' m) ((addSetup base { E with x0 := X0 } f).C c' m) ((addSetup base { E with x0 := X0 } f).C0 c' m) o solve
        ((addSetup base { E with x0 := X0 } f).x0 c' m) = some s := by
      have hw := dc_width R.run R.good
      rw [← R.base]
      simp only [addSetup, econSetup, dif_pos hw]
      exact hs'
    have ht2 : Index.int2ext (write c' (dcUpd s ((addSetup base { E with x0 := X0 } f).post c' m s))) = some r := hr
    unfold opfDc
    simp only [he1, hd1, hm2, hs2, ht2, Option.bind_eq_bind, Option.bind_some]
  refine ⟨X0, o, _, o1, o2, o3, o4, hrun, hok, htol, ?_⟩
  have hgood' : ∀ c' d, Index.ext2int srt c = some c' → readCase base c' = some d → Good (dcOps d ++ (addSetup base { E with x0 := X0 } f).extra d c') := hgood
  obtain ⟨c2, d2, m2, s2, p2, bp2, gp2, lp2, R2⟩ := add_run hs h hcost.table hgood' hnv hrun
  have := R2.ext
  rw [he1] at this; cases this
  have := R2.read
  rw [hd1] at this; cases this
  have hm : some m = some m2 := R.run.symm.trans R2.run
  cases hm
  have hs3 : some s = some s2 := hs'.symm.trans R2.sol
  cases hs3
  have eb : bp2 = bp := funext fun k => by have := R2.bpos k; rw [R.bpos k] at this; exact (Option.some.inj this).symm
  have eg : gp2 = gp := funext fun k => by have := R2.gpos k; rw [R.gpos k] at this; exact (Option.some.inj this).symm
  subst eb eg
  obtain ⟨v1, v2⟩ := R2.point hb hok
  have htot := R2.total
  constructor
  · intro i hi
    obtain ⟨k, rfl⟩ : ∃ k, bp2 k = i := by
      obtain ⟨-, b, h1, h2⟩ := (@Finset.mem_filter _ _ (Classical.decPred _) _ _).1 hi
      exact R2.bridge.busOn i b h1 h2
    rw [← v1, ← x1, hxs k (by omega)]
  · intro i hi
    obtain ⟨k, rfl⟩ : ∃ k, gp2 k = i := by rw [R2.bridge.onGens_eq] at hi; simpa using hi
    have e := x2 k
    rw [← hxs _ (by omega), v2, R2.base] at e
    exact (div_left_inj' hb.ne').1 e

end

end

end Verif.Opf
