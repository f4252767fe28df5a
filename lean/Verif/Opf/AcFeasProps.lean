import Verif.Opf.AcFeasHolds
import Verif.Opf.AcUserRuns

/-!
# C127 and C126: the AC optimal power flow accepts every operating point within all limits

Nothing is required of the returned point but what the limits say: the constraints the code builds cut off no operating point.
-/

namespace Verif.Opf

open Verif.Index (BusRow GenRow BranchRow IsArgsort WF GenInService BranchInService Connected posOf orderOf)
open Verif.OpfModel Verif.Pips Verif.Network Verif.OpfCost

noncomputable section

/-- The vector of variables: angles, magnitudes, outputs, reactive outputs, then `z`. -/
def acStack {nb ng : ℕ} (va vm : Fin nb → ℝ) (pg qg : Fin ng → ℝ) (z : ℕ → ℝ) (i : ℕ) : ℝ :=
  if h : i < nb then va ⟨i, h⟩
  else if h : i - nb < nb then vm ⟨i - nb, h⟩
  else if h : i - nb - nb < ng then pg ⟨i - nb - nb, h⟩
  else if h : i - nb - nb - ng < ng then qg ⟨i - nb - nb - ng, h⟩
  else z (i - nb - nb - ng - ng)

section
variable {nb ng : ℕ} (va vm : Fin nb → ℝ) (pg qg : Fin ng → ℝ) (z : ℕ → ℝ)

theorem acStack_va (k : Fin nb) : acStack va vm pg qg z k = va k := by simp [acStack]
theorem acStack_vm (k : Fin nb) : acStack va vm pg qg z (nb + k) = vm k := by
  simp [acStack]
theorem acStack_pg (k : Fin ng) : acStack va vm pg qg z (2 * nb + k) = pg k := by
  have n1 : ¬ (2 * nb + k < nb) := by omega
  have n2 : ¬ (2 * nb + k - nb < nb) := by omega
  have e : 2 * nb + k - nb - nb = k := by omega
  simp only [acStack, dif_neg n1, dif_neg n2, e, dif_pos k.isLt]
theorem acStack_qg (k : Fin ng) : acStack va vm pg qg z (2 * nb + ng + k) = qg k := by
  have n1 : ¬ (2 * nb + ng + k < nb) := by omega
  have n2 : ¬ (2 * nb + ng + k - nb < nb) := by omega
  have n3 : ¬ (2 * nb + ng + k - nb - nb < ng) := by omega
  have e : 2 * nb + ng + k - nb - nb - ng = k := by omega
  simp only [acStack, dif_neg n1, dif_neg n2, dif_neg n3, e, dif_pos k.isLt]
theorem acStack_z (k : ℕ) : acStack va vm pg qg z (2 * nb + 2 * ng + k) = z k := by
  have n1 : ¬ (2 * nb + 2 * ng + k < nb) := by omega
  have n2 : ¬ (2 * nb + 2 * ng + k - nb < nb) := by omega
  have n3 : ¬ (2 * nb + 2 * ng + k - nb - nb < ng) := by omega
  have n4 : ¬ (2 * nb + 2 * ng + k - nb - nb - ng < ng) := by omega
  have e : 2 * nb + 2 * ng + k - nb - nb - ng - ng = k := by omega
  simp only [acStack, dif_neg n1, dif_neg n2, dif_neg n3, dif_neg n4, e]

end

section
variable {srt : List ℕ → List ℕ} (hs : IsArgsort srt) {base : ℝ} {c : Index.Case Tables} (h : WF c) (hin : AcInputs base c) (K : Curves)
  (hmore : ∀ {nb ng nl : ℕ} (d : Case nb ng nl) c', K.more d c' = []) {lim : Int} (hC : CurveCostFits srt base lim K c) (hmod : AcModel K c)

include hs h hin hmore hC hmod

/-- Internal: acceptance by the solver, with further variables and constraints that hold. -/
theorem feas_accepts {c' : Index.Case Tables} {d} (he : Index.ext2int srt c = some c') (hd : readCase base c' = some d) {post : List Op} {m : Model}
    (hm : OpfModel.run (acOps d ++ (curveExtra K d c' ++ post)) = some m) (g : Good (acOps d ++ (curveExtra K d c' ++ post)))
    (hn : (names (nlnBlocks (acOps d ++ (curveExtra K d c' ++ post)))).Nodup) {t : Index.Case Tables} (F : AcFeasible base lim K c t)
    {bp : Fin c'.bus.length → ℕ} {gp : Fin c'.gen.length → ℕ} (hbp : ∀ k : Fin c'.bus.length, (posOf srt c .bus)[(k : ℕ)]? = some (bp k))
    (hgp : ∀ k : Fin c'.gen.length, (posOf srt c .gen)[(k : ℕ)]? = some (gp k)) (z : ℕ → ℝ) {x : ℕ → ℝ}
    (hxd : x = acStack (fun k => vaAt t (bp k)) (fun k => vmAt t (bp k)) (fun k => pgAt t (gp k) / base) (fun k => qgAt t (gp k) / base) z)
    (hpost : Holds (varBlocks (acOps d ++ (curveExtra K d c' ++ post))) post x) (δ : ℝ) (hδ : 1 / 2 ^ 52 < δ) :
    ∃ o : Opt, 0 < o.costMult ∧ 0 < o.feastol ∧ 0 < o.gradtol ∧ 0 < o.comptol ∧ ∀ solve : AnySolver, ∃ s,
      pipsopfSolver d lim (K.cost c') m o solve (fun i => x i) = some s ∧ s.success = true ∧ s.tol = δ ∧ (∀ i < m.var.total, s.x i = x i) ∧
      (∀ k, s.VA k * (Real.pi / 180) = vaAt t (bp k) ∧ s.VM k = vmAt t (bp k)) ∧ ∀ k, s.PG k = pgAt t (gp k) ∧ s.QG k = qgAt t (gp k) := by
  obtain ⟨hok, hl⟩ := acInputs_ok hs h hin he hd
  obtain ⟨c1, c2, c3⟩ := hC c' d he hd
  have hbase := readCase_base hd
  obtain ⟨c0, d0, he0, hd0, hw⟩ := bridge_exists hs base h
  rw [he] at he0; cases he0
  obtain ⟨r, hr⟩ := hw ⟨fun _ b => b, fun _ g => g, fun _ l => l⟩
  obtain ⟨bp', gp', lp, B, -, -, hge, hbr, -, hbp', hgp', -⟩ := bridge_at hs h he hd _ hr opfOff
  have eb : bp' = bp := funext fun k => by have := hbp' k; rw [hbp k] at this; exact (Option.some.inj this).symm
  have eg : gp' = gp := funext fun k => by have := hgp' k; rw [hgp k] at this; exact (Option.some.inj this).symm
  subst eb eg
  rw [← hbase] at F
  have h1 : ∀ k : Fin c'.bus.length, x k = vaAt t (bp' k) := fun k => by rw [hxd, acStack_va]
  have h2 : ∀ k : Fin c'.bus.length, x (c'.bus.length + k) = vmAt t (bp' k) := fun k => by rw [hxd, acStack_vm]
  have h3 : ∀ k : Fin c'.gen.length, x (2 * c'.bus.length + k) = pgAt t (gp' k) / d.base := fun k => by rw [hxd, acStack_pg, hbase]
  have h4 : ∀ k : Fin c'.gen.length, x (2 * c'.bus.length + c'.gen.length + k) = qgAt t (gp' k) / d.base := fun k => by rw [hxd, acStack_qg, hbase]
  have hcur := F.holds B hmod hok.base (readCase_valid hd K.ang) (fun k => by obtain ⟨g, h1, -, h2, -⟩ := hge k; exact ⟨g, h1, h2⟩) hbr (curveExtra K d c' ++ post) x h1 h3 h4 h
  have hall : Holds (varBlocks (acOps d ++ (curveExtra K d c' ++ post))) (curveExtra K d c' ++ post) x := by
    refine Holds.append ?_ hpost
    have e : curveExtra K d c' = curveOps d.base K c'.gen.length c' ++ angOps K.ang c'.bus.length c' := by
      unfold curveExtra
      rw [hmore, List.append_nil]
    rw [e] at hcur ⊢
    exact hcur
  have P := F.point B h hmod
  obtain ⟨o, o1, o2, o3, o4, hsol⟩ := ac_accepts hok.base P (K.cost c') x h1 h2 h3 h4 hm g hn c1 c2 c3 hl hall δ hδ
  refine ⟨o, o1, o2, o3, o4, fun solve => ?_⟩
  obtain ⟨s, hs', hsu, htol, hxs⟩ := hsol solve
  obtain ⟨-, -, hV, hG⟩ := C79_extra d _ m hm g hn hok.base lim (K.cost c') o solve _ s hs' hsu
  obtain ⟨s1, s2, s3, s4, -⟩ := ac_starts d (curveExtra K d c' ++ post)
  have htot : 2 * c'.bus.length + 2 * c'.gen.length ≤ m.var.total := by
    obtain ⟨q, -, ht, -⟩ := linearOf_spec hm g
    rw [ht, ac_varBlocks]
    simp only [total, List.map_cons, List.sum_cons]
    omega
  have hpi := Real.pi_pos
  refine ⟨s, hs', hsu, htol, hxs, fun k => ⟨?_, ?_⟩, fun k => ⟨?_, ?_⟩⟩
  · rw [(hV k).1, s1, zero_add, hxs _ (by omega), h1]
    field_simp
  · rw [(hV k).2, s2, hxs _ (by omega), h2]
  · rw [(hG k).1, s3, hxs _ (by omega), h3, div_mul_cancel₀ _ hok.base.ne']
  · rw [(hG k).2, s4, hxs _ (by omega), h4, div_mul_cancel₀ _ hok.base.ne']

variable (hang : AngInputs K.ang c) (hboth : SomeUpper K c ↔ SomeLower K c)

include hang hboth

/-- **C127 (accepts).**  Every operating point within all limits of the case -- bus voltages, outputs, capability curves, power factors, flow and angle limits -- can be returned as a solution by
the AC optimal power flow, with a tolerance as small as wanted above rounding. -/
theorem C127_accepts (solve : AnySolver) (t : Index.Case Tables) (F : AcFeasible base lim K c t) (δ : ℝ) (hδ : 1 / 2 ^ 52 < δ) :
    ∃ x0 o ret, 0 < o.costMult ∧ 0 < o.feastol ∧ 0 < o.gradtol ∧ 0 < o.comptol ∧ opfAcCurve srt base lim { K with ang := { K.ang with x0 := x0 } } o solve c = some ret ∧
      ret.success = true ∧ ret.tol = δ ∧ (∀ i ∈ onBuses c, vaAt ret.tables i = vaAt t i ∧ vmAt ret.tables i = vmAt t i) ∧
      ∀ i ∈ onGens c, pgAt ret.tables i = pgAt t i ∧ qgAt ret.tables i = qgAt t i := by
  obtain ⟨c', d, he, hd, hw⟩ := bridge_exists hs base h
  obtain ⟨g, hn⟩ := curve_wellposed hs h hin K hang hmore c' d he hd
  obtain ⟨m, hm⟩ := curve_runs (d := d) K (readCase_valid hd K.ang) (hmore d c')
  rw [← upper_iff hs h K he hd, ← lower_iff hs h K he hd] at hboth
  obtain ⟨r0, hr0⟩ := hw ⟨fun _ b => b, fun _ g => g, fun _ l => l⟩
  obtain ⟨bp, gp, lp, -, -, -, -, -, -, hbp, hgp, -⟩ := bridge_at hs h he hd _ hr0 opfOff
  have en : curveExtra K d c' ++ [] = curveExtra K d c' := List.append_nil _
  obtain ⟨o, o1, o2, o3, o4, hsol⟩ := feas_accepts hs h hin K hmore hC hmod he hd (post := []) (by rw [en]; exact hm) (by rw [en]; exact g) (by rw [en]; exact hn) F hbp hgp (fun _ => 0) rfl
    ⟨fun b hb => by simp [varVals] at hb, fun b hb => by simp [linBlks] at hb⟩ δ hδ
  obtain ⟨s, hs', hsu, htol, -, hV, hG⟩ := hsol solve
  obtain ⟨mu, hmu⟩ : ∃ mu, curveMus base K c' m s = some mu := by
    unfold curveMus
    rw [if_pos hsu]
    exact curveMu_some K hm g hboth s
  obtain ⟨r, hr⟩ := hw (acUpd s (curvePost K c' m s mu))
  obtain ⟨bp', gp', lp', B, -, -, -, -, -, hbp', hgp', -⟩ := bridge_at hs h he hd _ hr opfOff
  have eb : bp' = bp := funext fun k => by have := hbp' k; rw [hbp k] at this; exact (Option.some.inj this).symm
  have eg : gp' = gp := funext fun k => by have := hgp' k; rw [hgp k] at this; exact (Option.some.inj this).symm
  subst eb eg
  refine ⟨fun _ _ i => acStack (fun k => vaAt t (bp' k)) (fun k => vmAt t (bp' k)) (fun k => pgAt t (gp' k) / base) (fun k => qgAt t (gp' k) / base) (fun _ => 0) i, o,
    ⟨s.success, s.f, s.tol, s.dual, m.var.total + m.lin.total, zeroOff opfOff r⟩, o1, o2, o3, o4, ?_, hsu, htol, ?_, ?_⟩
  · unfold opfAcCurve
    simp only [he, hd, Option.bind_eq_bind, Option.bind_some]
    show (OpfModel.run (acOps d ++ curveExtra K d c')).bind _ = _
    rw [hm, Option.bind_some, hs', Option.bind_some]
    show (curveMus base K c' m s).bind _ = _
    rw [hmu, Option.bind_some]
    show (Index.int2ext (write c' (acUpd s (curvePost K c' m s mu)))).bind _ = _
    rw [hr, Option.bind_some]
  · intro i hi
    obtain ⟨k, rfl⟩ : ∃ k, bp' k = i := by
      obtain ⟨-, b, h1, h2⟩ := (@Finset.mem_filter _ _ (Classical.decPred _) _ _).1 hi
      exact B.busOn i b h1 h2
    obtain ⟨b, -, -, h2, -⟩ := B.bus k
    rw [← (hV k).1, ← (hV k).2]
    simp only [vaAt, vmAt, h2, Option.map_some, Option.getD_some]
    exact ⟨rfl, rfl⟩
  · intro i hi
    obtain ⟨k, rfl⟩ : ∃ k, gp' k = i := by
      obtain ⟨-, b, h1, h2⟩ := (@Finset.mem_filter _ _ (Classical.decPred _) _ _).1 hi
      exact B.genOn i b h1 h2
    obtain ⟨b, -, -, h2, -⟩ := B.gen k
    rw [← (hG k).1, ← (hG k).2]
    simp only [pgAt, qgAt, h2, Option.map_some, Option.getD_some]
    exact ⟨rfl, rfl⟩

variable {U : UserIn} (hu : AcUserInputs c U)

include hu

theorem acUser_accepts (solve : AnySolver) (t : Index.Case Tables) (z : List ℝ) (F : AcFeasible base lim K c t)
    (FU : AcUserFeasible base c U (posOf srt c .bus) (posOf srt c .gen) t z) (δ : ℝ) (hδ : 1 / 2 ^ 52 < δ) :
    ∃ x0 o ret out, 0 < o.costMult ∧ 0 < o.feastol ∧ 0 < o.gradtol ∧ 0 < o.comptol ∧ opfAcUser srt base lim { K with ang := { K.ang with x0 := x0 } } U o solve c = some (ret, out) ∧
      ret.success = true ∧ ret.tol = δ ∧ (∀ i ∈ onBuses c, vaAt ret.tables i = vaAt t i ∧ vmAt ret.tables i = vmAt t i) ∧
      (∀ i ∈ onGens c, pgAt ret.tables i = pgAt t i ∧ qgAt ret.tables i = qgAt t i) ∧ out.z = z := by
  obtain ⟨c', d, m, he, hd, hm, hrun⟩ := acUser_core hs h hin K hang hmore hu hboth
  obtain ⟨hW, hex, hf, g, hn⟩ := acUser_extra hs h hin K hang hmore hu he hd
  obtain ⟨hok, -⟩ := acInputs_ok hs h hin he hd
  obtain ⟨c0, d0, he0, hd0, hw⟩ := bridge_exists hs base h
  rw [he] at he0; cases he0
  obtain ⟨r0, hr0⟩ := hw ⟨fun _ b => b, fun _ g => g, fun _ l => l⟩
  obtain ⟨bp, gp, lp, B, -, -, -, -, -, hbp, hgp, -⟩ := bridge_at hs h he hd _ hr0 opfOff
  obtain ⟨hbl, hgl, -, -⟩ := int_sizes hs h he
  have hzl : z.length = (aW c c' U).nz := by
    rw [FU.size, ← hbl, ← hgl]; rfl
  have hz : (aW c c' U).nz ≠ 0 → ("z", (aW c c' U).nz) ∈ varBlocks (curveExtra (withUser K U) d c') := fun hz => (withUser_z K U d c' _ hW hz).1
  set x := acStack (fun k => vaAt t (bp k)) (fun k => vmAt t (bp k)) (fun k => pgAt t (gp k) / base) (fun k => qgAt t (gp k) / base) (fun j => z.getD j 0) with hxd
  have hstart : (aW c c' U).nz ≠ 0 → start (varBlocks (acOps d ++ curveExtra (withUser K U) d c')) "z" = 2 * c'.bus.length + 2 * c'.gen.length := by
    intro h0
    rw [hex, ac_varBlocks]
    have e : varBlocks (curveExtra K d c') = [] := by
      obtain ⟨H, L, V, -, -, -, -, -, -, -, hops, -⟩ := curve_blocks d.base K c' rfl
      unfold curveExtra
      rw [hmore, hops, varBlocks_append, List.append_nil, angOps_varBlocks]
      rfl
    rw [varBlocks_append, e, (aW c c' U).varBlocks_eq, if_neg h0]
    simp [start, total]
    omega
  have haux : ∀ j < 2 * c'.bus.length + 2 * c'.gen.length + (aW c c' U).nz,
      aux c'.bus.length c'.gen.length (start (varBlocks (acOps d ++ curveExtra (withUser K U) d c')) "z") x j = acColValue base t (posOf srt c .bus) (posOf srt c .gen) z j := by
    intro j hj
    unfold aux acColValue
    simp only
    rw [← hbl, ← hgl]
    by_cases a0 : j < 2 * c'.bus.length + 2 * c'.gen.length
    · rw [if_pos a0]
      by_cases a1 : j < c'.bus.length
      · rw [if_pos a1, List.getD_eq_getElem?_getD, hbp ⟨j, a1⟩, Option.getD_some]
        exact acStack_va _ _ _ _ _ ⟨j, a1⟩
      rw [if_neg a1]
      by_cases a2 : j < 2 * c'.bus.length
      · have h3 : j - c'.bus.length < c'.bus.length := by omega
        rw [if_pos a2, List.getD_eq_getElem?_getD, hbp ⟨j - c'.bus.length, h3⟩, Option.getD_some]
        have := acStack_vm (fun k => vaAt t (bp k)) (fun k => vmAt t (bp k)) (fun k => pgAt t (gp k) / base) (fun k => qgAt t (gp k) / base) (fun j => z.getD j 0) ⟨j - c'.bus.length, h3⟩
        simp only [show c'.bus.length + (j - c'.bus.length) = j by omega] at this
        exact this
      rw [if_neg a2]
      by_cases a3 : j < 2 * c'.bus.length + c'.gen.length
      · have h3 : j - 2 * c'.bus.length < c'.gen.length := by omega
        rw [if_pos a3, List.getD_eq_getElem?_getD, hgp ⟨j - 2 * c'.bus.length, h3⟩, Option.getD_some]
        have := acStack_pg (fun k => vaAt t (bp k)) (fun k => vmAt t (bp k)) (fun k => pgAt t (gp k) / base) (fun k => qgAt t (gp k) / base) (fun j => z.getD j 0) ⟨j - 2 * c'.bus.length, h3⟩
        simp only [show 2 * c'.bus.length + (j - 2 * c'.bus.length) = j by omega] at this
        exact this
      rw [if_neg a3, if_pos a0]
      have h3 : j - 2 * c'.bus.length - c'.gen.length < c'.gen.length := by omega
      rw [List.getD_eq_getElem?_getD, hgp ⟨j - 2 * c'.bus.length - c'.gen.length, h3⟩, Option.getD_some]
      have := acStack_qg (fun k => vaAt t (bp k)) (fun k => vmAt t (bp k)) (fun k => pgAt t (gp k) / base) (fun k => qgAt t (gp k) / base) (fun j => z.getD j 0)
        ⟨j - 2 * c'.bus.length - c'.gen.length, h3⟩
      simp only [show 2 * c'.bus.length + c'.gen.length + (j - 2 * c'.bus.length - c'.gen.length) = j by omega] at this
      exact this
    · rw [if_neg a0, if_neg (by omega), if_neg (by omega), if_neg (by omega), if_neg (by omega), hstart (by omega), hxd, acStack_z]
      congr 1
      omega
  have hpost : Holds (varBlocks (acOps d ++ (curveExtra K d c' ++ (aW c c' U).ops))) (aW c c' U).ops x := by
    rw [← hex]
    constructor
    · rw [AUData.varVals_eq]
      intro b hbm i hi
      split_ifs at hbm with h0
      · simp at hbm
      · rw [List.mem_singleton] at hbm
        subst hbm
        have hi' : i < (aW c c' U).nz := hi
        simp only
        rw [(acUser_zlo hi').1, (acUser_zlo hi').2, hstart h0, hxd, acStack_z]
        exact FU.vars i (by rw [hzl]; exact hi')
    · rw [AUData.linBlks_eq]
      intro b hbm i hi
      split_ifs at hbm with h0
      · simp at hbm
      · rw [List.mem_singleton] at hbm
        subst hbm
        have e : rowDot (aW c c' U).blk.A i (subvec (varBlocks (acOps d ++ curveExtra (withUser K U) d c')) x
            (eff (varBlocks (acOps d ++ curveExtra (withUser K U) d c')) (aW c c' U).blk.vs)) = acRowValue base t (posOf srt c .bus) (posOf srt c .gen) z (colsOf c.A) i := by
          refine ((aW c c' U).row d _ g.varNames hz (aW c c' U).A (hf h0) x i).trans ?_
          unfold acRowValue
          have hc : (colsOf c.A).length = 2 * c'.bus.length + 2 * c'.gen.length + (aW c c' U).nz := hf h0
          rw [hc]
          refine Finset.sum_congr rfl fun j hj => ?_
          rw [← haux j (Finset.mem_range.1 hj)]
          rfl
        simp only [e]
        exact FU.rows i hi
  rw [hex] at hm g hn
  obtain ⟨o, o1, o2, o3, o4, hsol⟩ := feas_accepts hs h hin K hmore hC hmod he hd hm g hn F hbp hgp (fun j => z.getD j 0) hxd hpost δ hδ
  obtain ⟨s, hs', hsu, htol, hxs, hV, hG⟩ := hsol solve
  let X0 : ∀ (_ : Index.Case Tables) (m : Model), Fin m.var.total → ℝ := fun _ _ i => x i
  obtain ⟨ret, out, hr, e1, e2⟩ := hrun X0 lim o solve s hs'
  refine ⟨X0, o, ret, out, o1, o2, o3, o4, hr, by rw [e1, hsu], by rw [e2, htol], ?_⟩
  obtain ⟨c2, d2, m2, s2, bp2, gp2, X2⟩ := acUser_run hs h hu.shape (acUser_wellposed hs h hin { K with ang := { K.ang with x0 := X0 } } hang hmore hu) hr
  have := X2.ext
  rw [he] at this; cases this
  have := X2.read
  rw [hd] at this; cases this
  have hm2 : OpfModel.run (acOps d ++ curveExtra (withUser K U) d c') = some m2 := X2.run
  rw [hex, hm] at hm2; cases hm2
  have hs3 : some s = some s2 := hs'.symm.trans X2.sol
  cases hs3
  have eb : bp2 = bp := funext fun k => by have := X2.bpos k; rw [hbp k] at this; exact (Option.some.inj this).symm
  have eg : gp2 = gp := funext fun k => by have := X2.gpos k; rw [hgp k] at this; exact (Option.some.inj this).symm
  subst eb eg
  refine ⟨?_, ?_, ?_⟩
  · intro i hi
    obtain ⟨k, rfl⟩ : ∃ k, bp2 k = i := by
      obtain ⟨-, b, h1, h2⟩ := (@Finset.mem_filter _ _ (Classical.decPred _) _ _).1 hi
      exact B.busOn i b h1 h2
    rw [X2.va, X2.vm]
    exact hV k
  · intro i hi
    obtain ⟨k, rfl⟩ : ∃ k, gp2 k = i := by
      obtain ⟨-, b, h1, h2⟩ := (@Finset.mem_filter _ _ (Classical.decPred _) _ _).1 hi
      exact B.genOn i b h1 h2
    rw [X2.pg, X2.qg]
    exact hG k
  · rw [X2.z]
    refine List.ext_getElem (by simp [hzl]) fun k hk1 hk2 => ?_
    have hk : k < (aW c c' U).nz := by rw [← hzl]; exact hk2
    have e := hstart (by omega)
    have htot : 2 * c'.bus.length + 2 * c'.gen.length + k < m.var.total := by
      obtain ⟨q, -, ht, -⟩ := linearOf_spec hm g
      rw [ht, ac_varBlocks]
      simp only [total, List.map_cons, List.sum_cons, varBlocks_append, List.map_append, List.sum_append, (aW c c' U).varBlocks_eq, if_neg (show (aW c c' U).nz ≠ 0 by omega)]
      simp
      omega
    simp only [List.getElem_map, List.getElem_range]
    show s.x (start (varBlocks (acOps d ++ curveExtra (withUser K U) d c')) "z" + k) = _
    rw [e, hxs _ htot, hxd, acStack_z, List.getD_eq_getElem?_getD, List.getElem?_eq_getElem hk2]
    rfl

/-- **C126 (accepts).**  Every operating point within all limits that meets the user constraints and bounds -- in the order of rows the code uses -- can be returned as a solution, with the user
variables that go with it. -/
theorem C126_accepts (solve : AnySolver) : ∃ bs gs, RowOrder c bs gs ∧ ∀ t z, AcFeasible base lim K c t → AcUserFeasible base c U bs gs t z → ∀ δ : ℝ, 1 / 2 ^ 52 < δ →
    ∃ x0 o ret out, 0 < o.costMult ∧ 0 < o.feastol ∧ 0 < o.gradtol ∧ 0 < o.comptol ∧ opfAcUser srt base lim { K with ang := { K.ang with x0 := x0 } } U o solve c = some (ret, out) ∧
      ret.success = true ∧ ret.tol = δ ∧ (∀ i ∈ onBuses c, vaAt ret.tables i = vaAt t i ∧ vmAt ret.tables i = vmAt t i) ∧
      (∀ i ∈ onGens c, pgAt ret.tables i = pgAt t i ∧ qgAt ret.tables i = qgAt t i) ∧ out.z = z :=
  ⟨_, _, rowOrder hs h, fun t z F FU δ hδ => acUser_accepts hs h hin K hmore hC hmod hang hboth hu solve t z F FU δ hδ⟩

end

end

end Verif.Opf
