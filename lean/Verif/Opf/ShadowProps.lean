import Verif.Opf.EconProps
import Verif.Opf.CompProps

/-!
# C98: the shadow prices in the returned tables

The multiplier columns of the tables the caller gets from a DC optimal power flow.
-/

namespace Verif.Opf

open Verif.Index (BusRow GenRow BranchRow IsArgsort WF GenInService BranchInService Connected)
open Verif.OpfModel Verif.Pips Verif.Network Verif.Cost Verif.OpfCost

/-! ### The angle multipliers in internal numbering -/

section
variable {srt : List ℕ → List ℕ} {base : ℝ} {E : Econ} {o : Opt} {solve : AnySolver} {c : Index.Case Tables} {r : Ret} {c' : Index.Case Tables}
    {d : Case c'.bus.length c'.gen.length c'.branch.length} {m : Model} {s : DcRes c'.bus.length c'.gen.length c'.branch.length}
    {p : PostMu c'.gen.length c'.branch.length} {bp : Fin c'.bus.length → ℕ} {gp : Fin c'.gen.length → ℕ} {lp : Fin c'.branch.length → ℕ}
    (R : EconRun srt base E o solve c r c' d m s p bp gp lp)

include R

/-- Where the multipliers of the angle limits are. -/
theorem EconRun.ang_i1 : m.lin.i1 "ang" =
    some (start (linBlocks (dcOps d ++ (angOps E c'.bus.length c' ++ (pwlOps d.base (fun k : Fin c'.gen.length => pwl1Row (costAt c' k)) ++ [])))) "ang") := by
  obtain ⟨B, hB, -⟩ := ang_block E c'.bus.length c' R.valid
  have rr := Rep.run R.run
  rw [rr.lin]
  refine ((foldIdx_lookup _ (by rw [linBlocks_names]; exact R.good.linNames)).1 "ang" ?_).1
  rw [dc_linBlocks, hB]
  have : ("ang", B) ∈ linBlks ([Op.addLin "ang" B.A B.l B.u B.vs] ++ (pwlOps d.base (fun k : Fin c'.gen.length => pwl1Row (costAt c' k)) ++ [])) := by simp [linBlks]
  simp only [names, List.map_cons, List.mem_cons, List.mem_map]
  exact Or.inr (Or.inr (Or.inr ⟨_, List.mem_map.2 ⟨_, this, rfl⟩, rfl⟩))

/-- The columns of a branch with an angle limit. -/
theorem EconRun.ang_mu (k : Fin c'.branch.length) (hig : E.ignoreAng = false)
    (hlim : Constr.Limited ⟨c'.branch[k].f, c'.branch[k].t, E.angmin c'.branch[k].data.rest, E.angmax c'.branch[k].data.rest⟩) :
    ∃ (B : LinBlk) (i : ℕ), ("ang", B) ∈ linBlks (angOps E c'.bus.length c' ++ (pwlOps d.base (fun k : Fin c'.gen.length => pwl1Row (costAt c' k)) ++ [])) ∧ i < B.A.rows ∧
      B.vs = ["Va"] ∧ AngRow B i ⟨c'.branch[k].f, c'.branch[k].t, E.angmin c'.branch[k].data.rest, E.angmax c'.branch[k].data.rest⟩ ∧
      ∀ v, p.angmin k v = s.mu_l (start (linBlocks (dcOps d ++ (angOps E c'.bus.length c' ++
          (pwlOps d.base (fun k : Fin c'.gen.length => pwl1Row (costAt c' k)) ++ [])))) "ang" + i) * Real.pi / 180 ∧
        p.angmax k v = s.mu_u (start (linBlocks (dcOps d ++ (angOps E c'.bus.length c' ++
          (pwlOps d.base (fun k : Fin c'.gen.length => pwl1Row (costAt c' k)) ++ [])))) "ang" + i) * Real.pi / 180 := by
  obtain ⟨B, hB, hvs, -, -, -, -, -, ⟨L, hL, hlen, hnd, hix⟩, hmem⟩ := ang_block E c'.bus.length c' R.valid
  have hk : (angRows E c')[(k : ℕ)]? = some ⟨c'.branch[k].f, c'.branch[k].t, E.angmin c'.branch[k].data.rest, E.angmax c'.branch[k].data.rest⟩ := by
    simp [angRows]
  have hin := (hmem L hL k _ hk).2 ⟨hig, hlim⟩
  have hlt := List.idxOf_lt_length_iff.2 hin
  obtain ⟨b, hb1, hb2⟩ := hix (L.index.idxOf (k : ℕ)) k (by rw [List.getElem?_eq_getElem hlt, List.getElem_idxOf])
  rw [hk] at hb1
  cases hb1
  refine ⟨B, L.index.idxOf (k : ℕ), ?_, by rw [← hlen]; exact hlt, hvs, hb2, fun v => ?_⟩
  · rw [hB]
    simp [linBlks]
  · rw [R.post]
    simp only [angPost, hL, R.ang_i1, if_pos hin, and_self]

/-- The columns of a branch without one. -/
theorem EconRun.ang_keep (k : Fin c'.branch.length)
    (hlim : ¬ (E.ignoreAng = false ∧ Constr.Limited ⟨c'.branch[k].f, c'.branch[k].t, E.angmin c'.branch[k].data.rest, E.angmax c'.branch[k].data.rest⟩)) (v : ℝ) :
    p.angmin k v = v ∧ p.angmax k v = v := by
  obtain ⟨B, hB, hvs, -, -, -, -, -, ⟨L, hL, hlen, hnd, hix⟩, hmem⟩ := ang_block E c'.bus.length c' R.valid
  have hk : (angRows E c')[(k : ℕ)]? = some ⟨c'.branch[k].f, c'.branch[k].t, E.angmin c'.branch[k].data.rest, E.angmax c'.branch[k].data.rest⟩ := by
    simp [angRows]
  have hin : (k : ℕ) ∉ L.index := fun h => hlim ((hmem L hL k _ hk).1 h)
  rw [R.post]
  simp only [angPost, hL, R.ang_i1, if_neg hin, and_self]

/-- A branch in service of the returned table. -/
theorem EconRun.brRow' {l : BranchRow BrD} (hl : l ∈ r.tables.branch) (hon : BranchInService r.tables l) :
    ∃ (k : Fin c'.branch.length) (l0 : BranchRow BrD), c.branch[lp k]? = some l0 ∧ r.tables.branch[lp k]? = some l ∧ l = { l0 with data := (dcUpd s p).branch k l0.data } ∧
      c'.branch[k].data = l0.data ∧ c'.branch[k].f = (d.branch k).f.val ∧ c'.branch[k].t = (d.branch k).t.val ∧
      (∃ b, c.bus[bp (d.branch k).f]? = some b ∧ b.num = l0.f) ∧ (∃ b, c.bus[bp (d.branch k).t]? = some b ∧ b.num = l0.t) ∧ d.rateA k = l0.data.rateA := by
  obtain ⟨k, l0, h0, rfl, hf, ht, -, -, -, -, -, -, hr⟩ := R.bridge.brRow hl hon
  obtain ⟨l1, e0, e1, e2, e3⟩ := R.ends k
  rw [h0] at e0; cases e0
  obtain ⟨l2, e4, -, e5, -⟩ := R.bridge.branch k
  rw [h0] at e4; cases e4
  exact ⟨k, l0, h0, e5, rfl, e1, e2, e3, hf, ht, hr⟩

end

/-! ### The claims -/

section
variable {srt : List ℕ → List ℕ} (hs : IsArgsort srt) {base : ℝ} (hb : 0 < base) {E : Econ} {o : Opt} {solve : AnySolver} {c : Index.Case Tables} (h : WF c)
  (hgc : c.gencost.isSome) (hc : 0 < o.costMult)
  (hgood : ∀ c' d, Index.ext2int srt c = some c' → readCase base c' = some d → Good (dcOps d ++ (econSetup base E).extra d c'))
  {r : Ret} (hrun : opfDcEcon srt base E o solve c = some r)

include hs hb h hgc hc hgood hrun

/-- **C98 (signs).**  Successful or not, the shadow prices of the limits of generators and of flows in the returned tables are never negative; those of branches without
a flow limit are zero. -/
theorem C98_signs_partial :
    (∀ g ∈ r.tables.gen, GenInService r.tables g → 0 ≤ g.data.MU_PMIN ∧ 0 ≤ g.data.MU_PMAX) ∧
    (∀ l ∈ r.tables.branch, BranchInService r.tables l → 0 ≤ l.data.MU_SF ∧ 0 ≤ l.data.MU_ST ∧
      (l.data.rateA = 0 ∨ 10 ^ 10 ≤ l.data.rateA → l.data.MU_SF = 0 ∧ l.data.MU_ST = 0)) := by
  obtain ⟨c', d, m, s, p, bp, gp, lp, R⟩ := econ_run hs h hgc hgood hrun
  have hbd : 0 < d.base := by rw [R.base]; exact hb
  obtain ⟨s1, s2, s3⟩ := C78_signs d _ m R.run R.good hbd _ _ _ o solve _ s R.sol hc
  constructor
  · intro g hg hon
    obtain ⟨k, g0, -, rfl, -⟩ := R.bridge.genRow hg hon
    exact s1 k
  · intro l hl hon
    obtain ⟨k, l0, -, -, rfl, -, -, -, -, -, hr⟩ := R.brRow' hl hon
    refine ⟨(s2 k).1, (s2 k).2, fun h => s3 k ?_⟩
    rw [hr]
    exact h

variable (hft : 0 ≤ o.feastol) (hct : 0 ≤ o.comptol) (hok : r.success = true)

include hft hct hok

/-- **C98 (limits that do not bind have no price).**  On success the shadow price of every limit of a generator, flow or angle difference times the unused margin is at
most `compGap`, which vanishes with the tolerances of the solver; `M` bounds the returned angles, outputs in p.u. and the helper values of piecewise linear costs.
Shadow prices of angle limits (per degree) are never negative, and zero for a limit of zero, which means none. -/
theorem C98_slack_partial (hcost : EconCosts c) (θ : ℕ → ℝ) (hθ : ∀ b ∈ r.tables.bus, θ b.num = b.data.VA) : ∃ y : ℕ → ℝ,
    (∀ i ∈ pwlGens c, genCost c i (pgAt r.tables i) ≤ y i + r.tol) ∧
    r.f = ∑ i ∈ onGens c \ pwlGens c, genCost c i (pgAt r.tables i) + ∑ i ∈ pwlGens c, y i ∧
    ∀ M : ℝ, 0 ≤ M → (∀ i ∈ onBuses c, |vaAt r.tables i| ≤ M) → (∀ i ∈ onGens c, |pgAt r.tables i / base| ≤ M) → (∀ i ∈ pwlGens c, |y i| ≤ M) →
      (∀ g ∈ r.tables.gen, GenInService r.tables g → g.data.MU_PMAX * (g.data.PMAX - g.data.PG) ≤ compGap o M r.dual r.tol ∧
        g.data.MU_PMIN * (g.data.PG - g.data.PMIN) ≤ compGap o M r.dual r.tol) ∧
      (∀ l ∈ r.tables.branch, BranchInService r.tables l → l.data.rateA ≠ 0 ∧ l.data.rateA < 10 ^ 10 →
        l.data.MU_SF * (l.data.rateA - l.data.PF) ≤ compGap o M r.dual r.tol ∧ l.data.MU_ST * (l.data.rateA - l.data.PT) ≤ compGap o M r.dual r.tol) ∧
      (∀ l ∈ r.tables.branch, BranchInService r.tables l → E.ignoreAng = false → Constr.Limited ⟨l.f, l.t, E.angmin l.data.rest, E.angmax l.data.rest⟩ →
        0 ≤ l.data.MU_ANGMIN ∧ 0 ≤ l.data.MU_ANGMAX ∧
        (E.angmin l.data.rest = 0 → l.data.MU_ANGMIN = 0) ∧ (E.angmax l.data.rest = 0 → l.data.MU_ANGMAX = 0) ∧
        (E.angmin l.data.rest ≠ 0 → l.data.MU_ANGMIN * (θ l.f - θ l.t - E.angmin l.data.rest) ≤ compGap o M r.dual r.tol) ∧
        (E.angmax l.data.rest ≠ 0 → l.data.MU_ANGMAX * (E.angmax l.data.rest - (θ l.f - θ l.t)) ≤ compGap o M r.dual r.tol)) := by
  obtain ⟨c', d, m, s, p, bp, gp, lp, R⟩ := econ_run hs h hgc hgood hrun
  have hbd : 0 < d.base := by rw [R.base]; exact hb
  have hok' : s.success = true := by rw [← R.success]; exact hok
  obtain ⟨h1, h2⟩ := R.helpers hb hcost hc hok'
  refine ⟨helper s gp, h1, h2, ?_⟩
  intro M hM hva hpg hy
  have hnorm := R.norm_le hb hcost hok' hM hva hpg hy
  have hgap : compGap o ‖fun i : Fin m.var.total => s.x i‖ s.dual s.tol ≤ compGap o M r.dual r.tol := by
    rw [R.dual, R.tol]
    unfold compGap
    have := mul_le_mul_of_nonneg_left hnorm hct
    refine div_le_div_of_nonneg_right ?_ hc.le
    linarith
  obtain ⟨c1, c2, c3, c4⟩ := C84_dc d _ m R.run R.good hbd _ _ _ o solve _ s R.sol hc hft hok'
  refine ⟨?_, ?_, ?_⟩
  · intro g hg hon
    obtain ⟨k, g0, -, rfl, -, -, e1, e2, -⟩ := R.bridge.genRow hg hon
    have a1 := c1 k
    have a2 := c2 k
    rw [e2] at a1
    rw [e1] at a2
    exact ⟨a1.trans hgap, a2.trans hgap⟩
  · intro l hl hon hr
    obtain ⟨k, l0, -, -, rfl, -, -, -, -, -, e⟩ := R.brRow' hl hon
    have a1 := c3 k
    have a2 := c4 k
    rw [e] at a1 a2
    exact ⟨(a1 hr).trans hgap, (a2 hr).trans hgap⟩
  · intro l hl hon hig hlim
    obtain ⟨k, l0, -, -, rfl, e1, e2, e3, ⟨bf, hbf, hnf⟩, ⟨bt, hbt, hnt⟩, -⟩ := R.brRow' hl hon
    have hlim' : Constr.Limited ⟨c'.branch[k].f, c'.branch[k].t, E.angmin c'.branch[k].data.rest, E.angmax c'.branch[k].data.rest⟩ := by
      rw [e1]
      exact hlim
    obtain ⟨B, i, hmem, hi, hvs, hrow, hmu⟩ := R.ang_mu k hig hlim'
    have hcomp := C84_dc_extra d _ m R.run R.good _ _ _ o solve _ s R.sol hc hft hok' _ hmem i hi
    have hpi := Real.pi_pos
    -- signs and absent limits
    obtain ⟨q, r', hq, hr', -, -, -, -, -, -, -, -, -, -, -, -, -, -, -, el, eu⟩ := dc_ofSolver R.run R.good R.sol
    obtain ⟨q', hq', ht, hA, hv, hl', hqok⟩ := linearOf_spec R.run R.good
    rw [hq] at hq'; cases hq'
    obtain ⟨-, sg⟩ := C76_signs _ q o (solve _ _) _ hqok hc r' hr'
    obtain ⟨-, ab⟩ := C76_absent _ q o (solve _ _) _ hqok r' hr'
    have hmem' := List.mem_cons_of_mem ("Pmis", (⟨hcat (Bbus d.branch) d.negCg, vec d.bmis, vec d.bmis, ["Va", "Pg"]⟩ : LinBlk))
      (List.mem_cons_of_mem ("Pf", (⟨matOf d.BfIl, List.replicate d.il.length ⊥, vec d.upf, ["Va"]⟩ : LinBlk))
        (List.mem_cons_of_mem ("Pt", (⟨matOf (-d.BfIl), List.replicate d.il.length ⊥, vec d.upt, ["Va"]⟩ : LinBlk)) hmem))
    rw [← dc_linBlks] at hmem'
    obtain ⟨-, hlo, hhi⟩ := hl' _ hmem' i hi
    have hlt : start (linBlocks (dcOps d ++ (angOps E c'.bus.length c' ++ (pwlOps d.base (fun k : Fin c'.gen.length => pwl1Row (costAt c' k)) ++ [])))) "ang" + i < q.nA := by
      rw [hA]
      exact start_lt (linBlocks _) (by rw [linBlocks_names]; exact R.good.linNames) ("ang", B.A.rows) (List.mem_map.2 ⟨_, hmem', rfl⟩) i hi
    -- the angle difference
    have ang : ∀ (j : Fin c'.bus.length) b0 n, c.bus[bp j]? = some b0 → b0.num = n → s.x j = θ n * (Real.pi / 180) := by
      rintro j b0 n hj rfl
      obtain ⟨b1, h1, -, h2, -⟩ := R.bridge.bus j
      rw [hj] at h1; cases h1
      have := hθ _ (List.mem_of_getElem? h2)
      rw [(R.point hb hok').1 j]
      simp only [vaAt, h2, Option.map_some, Option.getD_some]
      rw [← this]
    have hdot : rowDot B.A i (subvec (varBlocks (dcOps d ++ (angOps E c'.bus.length c' ++ (pwlOps d.base (fun k : Fin c'.gen.length => pwl1Row (costAt c' k)) ++ [])))) s.x
        (eff (varBlocks (dcOps d ++ (angOps E c'.bus.length c' ++ (pwlOps d.base (fun k : Fin c'.gen.length => pwl1Row (costAt c' k)) ++ [])))) B.vs)) =
        (θ l0.f - θ l0.t) * (Real.pi / 180) := by
      rw [hrow.row, hvs]
      simp only [e2, e3]
      rw [subvec_Va d _ s.x (d.branch k).f, subvec_Va d _ s.x (d.branch k).t, ang _ _ _ hbf hnf, ang _ _ _ hbt hnt]
      ring
    simp only [hdot, hrow.lo, hrow.hi, e1] at hcomp hlo hhi
    have m1 : ({ l0 with data := (dcUpd s p).branch k l0.data } : BranchRow BrD).data.MU_ANGMIN = p.angmin k l0.data.MU_ANGMIN := by simp [dcUpd, hok']
    have m2 : ({ l0 with data := (dcUpd s p).branch k l0.data } : BranchRow BrD).data.MU_ANGMAX = p.angmax k l0.data.MU_ANGMAX := by simp [dcUpd, hok']
    rw [m1, m2, (hmu _).1, (hmu _).2]
    show 0 ≤ _ ∧ 0 ≤ _ ∧ (E.angmin l0.data.rest = 0 → _) ∧ (E.angmax l0.data.rest = 0 → _) ∧ (E.angmin l0.data.rest ≠ 0 → _ * (θ l0.f - θ l0.t - E.angmin l0.data.rest) ≤ _) ∧
      (E.angmax l0.data.rest ≠ 0 → _ * (E.angmax l0.data.rest - (θ l0.f - θ l0.t)) ≤ _)
    refine ⟨?_, ?_, fun h0 => ?_, fun h0 => ?_, fun h0 => ?_, fun h0 => ?_⟩
    · rw [el]
      have := (sg (start (linBlocks (dcOps d ++ (angOps E c'.bus.length c' ++ (pwlOps d.base (fun k : Fin c'.gen.length => pwl1Row (costAt c' k)) ++ [])))) "ang" + i)).2.2.1
      positivity
    · rw [eu]
      have := (sg (start (linBlocks (dcOps d ++ (angOps E c'.bus.length c' ++ (pwlOps d.base (fun k : Fin c'.gen.length => pwl1Row (costAt c' k)) ++ [])))) "ang" + i)).2.2.2
      positivity
    · rw [el, (ab _ hlt).1 (by rw [hlo]; simp [h0]), zero_mul, zero_div]
    · rw [eu, (ab _ hlt).2 (by rw [hhi]; simp [h0]), zero_mul, zero_div]
    · have := hcomp.2 _ (by rw [if_pos (by simpa using h0)])
      refine le_trans (le_of_eq ?_) (this.trans hgap)
      ring
    · have := hcomp.1 _ (by rw [if_pos (by simpa using h0)])
      refine le_trans (le_of_eq ?_) (this.trans hgap)
      ring

omit hb hc hft hct hok in
/-- **C98 (stale).**  The shadow prices of the angle limits of a branch without such limits are whatever the columns held in the input. -/
theorem C98_stale (i : ℕ) (l l0 : BranchRow BrD) (hl : r.tables.branch[i]? = some l) (hl0 : c.branch[i]? = some l0) (hon : BranchInService r.tables l)
    (hlim : ¬ (E.ignoreAng = false ∧ Constr.Limited ⟨l.f, l.t, E.angmin l.data.rest, E.angmax l.data.rest⟩)) :
    l.data.MU_ANGMIN = l0.data.MU_ANGMIN ∧ l.data.MU_ANGMAX = l0.data.MU_ANGMAX := by
  obtain ⟨c', d, m, s, p, bp, gp, lp, R⟩ := econ_run hs h hgc hgood hrun
  obtain ⟨l1, e1, e2, e3, e4, e5, -⟩ := R.bridge.branch_at hl
  obtain ⟨k, rfl, rfl⟩ := e5 ((R.bridge.brIn_iff e2 e3 e4).1 hon)
  rw [hl0] at e1; cases e1
  obtain ⟨l2, f0, f1, -, -⟩ := R.ends k
  rw [hl0] at f0; cases f0
  obtain ⟨k1, k2⟩ := And.intro (fun v => (R.ang_keep k (by rw [f1]; exact hlim) v).1) (fun v => (R.ang_keep k (by rw [f1]; exact hlim) v).2)
  simp only [dcUpd, k1, k2, ite_self, and_self]

end

/-! ### The example and the negation -/

/-- With distinct bus numbers there is a function of the number that gives the angle. -/
theorem angle_function (t : Index.Case Tables) (hnd : ∀ a ∈ t.bus, ∀ b ∈ t.bus, a.num = b.num → a = b) (f : BusRow BusD → ℝ) : ∃ θ : ℕ → ℝ, ∀ b ∈ t.bus, θ b.num = f b := by
  classical
  refine ⟨fun n => if h : ∃ b ∈ t.bus, b.num = n then f h.choose else 0, fun b hb => ?_⟩
  have hex : ∃ b' ∈ t.bus, b'.num = b.num := ⟨b, hb, rfl⟩
  simp only [dif_pos hex]
  rw [hnd _ hex.choose_spec.1 _ hb hex.choose_spec.2]

example : ∃ (o : Opt) (r : Ret) (θ : ℕ → ℝ), (0 : ℝ) < 100 ∧ WF exEcon ∧ EconCosts exEcon ∧ 0 < o.costMult ∧ 0 ≤ o.feastol ∧ 0 ≤ o.comptol ∧
    (∀ c' d, Index.ext2int Index.stableArgsort exEcon = some c' → readCase 100 c' = some d → Good (dcOps d ++ (econSetup 100 exE).extra d c')) ∧
    opfDcEcon Index.stableArgsort 100 exE o (fun _ _ _ _ => none) exEcon = some r ∧ r.success = true ∧ (∀ b ∈ r.tables.bus, θ b.num = b.data.VA) ∧
    ∃ l ∈ exEcon.branch, BranchInService exEcon l ∧ Constr.Limited ⟨l.f, l.t, exE.angmin l.data.rest, exE.angmax l.data.rest⟩ := by
  have hg := econ_wellposed Index.stableArgsort_isArgsort exEcon_wf exEcon_dc exE exE_ang
  obtain ⟨o, r, h1, h2, -, h3, h4, h5⟩ := (C96_completes Index.stableArgsort_isArgsort exEcon_wf exEcon_dc exE exE_ang).2 (fun _ _ _ _ => none)
  obtain ⟨c', d, m, s, p, bp, gp, lp, R⟩ := econ_run Index.stableArgsort_isArgsort exEcon_wf rfl hg h4
  obtain ⟨θ, hθ⟩ := angle_function r.tables (fun a ha b hb hn => by
    obtain ⟨i, hi⟩ := List.getElem?_of_mem ha
    obtain ⟨j, hj⟩ := List.getElem?_of_mem hb
    obtain ⟨a0, h6, h7, -⟩ := R.bridge.bus_at hi
    obtain ⟨b0, h8, h9, -⟩ := R.bridge.bus_at hj
    have := num_inj exEcon_wf h6 h8 (h7.symm.trans (hn.trans h9))
    rw [this, hj] at hi
    exact (Option.some_injective _ hi).symm) fun b => b.data.VA
  refine ⟨o, r, θ, by norm_num, exEcon_wf, exEcon_costs, h1, h2.le, h3.le, hg, h4, h5, hθ, _, List.mem_cons_self, ?_, ?_⟩
  · unfold BranchInService
    rw [exCon, exCon]
    decide
  · norm_num [Constr.Limited, exE]

noncomputable section

/-- The tables of C96 with a value left over in the multiplier columns of the first branch, whose angle is not limited. -/
def exStale : Index.Case Tables :=
  { exEcon with
    branch := [⟨9, 2, 1, ⟨0.01, 0.1, 0.02, 60, 0, 0, 0, 0, 0, 0, 0, 0, 7, 7, []⟩⟩, ⟨9, 7, 1, ⟨0.01, 0.1, 0.02, 60, 0, 0, 8, 0, 0, 0, 0, 0, 0, 0, []⟩⟩,
      ⟨2, 9, 0, ⟨0.01, 0.1, 0.02, 60, 0, 0, 0, 9, 0, 0, 0, 0, 0, 0, []⟩⟩] }

theorem exStale_wf : WF exStale where
  busNodup := by simp [exStale, exEcon, exTables]
  typValid := by simp [exStale, exEcon, exTables]
  someOn := ⟨_, List.mem_cons_self, by decide⟩
  genRef := by simp [exStale, exEcon, exTables, Index.HasBus]
  fRef := by simp [exStale, exEcon, exTables, Index.HasBus]
  tRef := by simp [exStale, exEcon, exTables, Index.HasBus]
  areaRef := by simp [exStale, exEcon, exTables]
  costRows := by simp [exStale, exEcon, exTables]
  aCols := by simp [exStale, exEcon, exTables]
  nCols := by simp [exStale, exEcon, exTables]
  notInternal := by simp [exStale, exEcon, exTables]

theorem exStale_plain : DcPlain 100 exStale where
  pos := exTables_plain.pos
  bus := exTables_plain.bus
  gen := exTables_plain.gen
  branch := by
    simp only [exStale, List.mem_cons, List.not_mem_nil, or_false, forall_eq_or_imp, forall_eq]
    norm_num [BranchInService]
  shift := by
    simp only [exStale, List.mem_cons, List.not_mem_nil, or_false, forall_eq_or_imp, forall_eq]
    norm_num [BranchInService]

theorem exStale_dc : DcInputs 100 exStale := exStale_plain.inputs

theorem exStale_ang : AngInputs exE exStale := by
  unfold AngInputs
  simp only [exStale, List.mem_cons, List.not_mem_nil, or_false, forall_eq_or_imp, forall_eq, exE]
  norm_num

/-- **C98 is false** of the angle columns: there is a case without any angle limit whose successful run returns shadow prices of 7 for the (missing) angle limits of
a branch in service. -/
theorem C98_negation : ∃ o solve r, opfDcEcon Index.stableArgsort 100 exE o solve exStale = some r ∧ r.success = true ∧
    (∀ l ∈ exStale.branch, exE.angmin l.data.rest = 0 ∧ exE.angmax l.data.rest = 0) ∧
    ∃ l ∈ r.tables.branch, BranchInService r.tables l ∧ l.data.MU_ANGMIN = 7 ∧ l.data.MU_ANGMAX = 7 := by
  have hg := econ_wellposed Index.stableArgsort_isArgsort exStale_wf exStale_dc exE exStale_ang
  obtain ⟨o, r, -, -, -, -, h4, h5⟩ := (C96_completes Index.stableArgsort_isArgsort exStale_wf exStale_dc exE exStale_ang).2 (fun _ _ _ _ => none)
  refine ⟨o, fun _ _ _ _ => none, r, h4, h5, ?_, ?_⟩
  · simp [exStale, exE]
  · obtain ⟨c', d, m, s, p, bp, gp, lp, R⟩ := econ_run Index.stableArgsort_isArgsort exStale_wf rfl hg h4
    have hcon : ∀ n, Connected exStale n ↔ Connected exEcon n := fun n => Iff.rfl
    have hon : BranchInService exStale ⟨9, 2, 1, ⟨0.01, 0.1, 0.02, 60, 0, 0, 0, 0, 0, 0, 0, 0, 7, 7, []⟩⟩ := by
      unfold BranchInService
      rw [hcon, hcon, exCon, exCon]
      decide
    have h0 : exStale.branch[0]? = some ⟨9, 2, 1, ⟨0.01, 0.1, 0.02, 60, 0, 0, 0, 0, 0, 0, 0, 0, 7, 7, []⟩⟩ := rfl
    obtain ⟨k, hk⟩ := R.bridge.brOn 0 _ h0 hon
    obtain ⟨l0, e1, e2, e3, -⟩ := R.bridge.branch k
    rw [hk] at e1 e3
    rw [h0] at e1
    cases e1
    obtain ⟨l, hl, h1, h2, h3, h6⟩ : ∃ l, r.tables.branch[0]? = some l ∧ l.f = 9 ∧ l.t = 2 ∧ l.status = 1 ∧ l.data.rest = [] := ⟨_, e3, rfl, rfl, rfl, rfl⟩
    have hon' := (R.bridge.brIn_iff (l' := l) h1 h2 h3).2 hon
    refine ⟨l, List.mem_of_getElem? hl, hon', ?_⟩
    exact C98_stale Index.stableArgsort_isArgsort exStale_wf rfl hg h4 0 _ _ hl h0 hon' (by
      rintro ⟨-, h7⟩
      simp [Constr.Limited, exE, h6] at h7)

end

end Verif.Opf
