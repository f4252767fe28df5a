import Verif.Opf.ResPriceProps

/-!
# C106: runs with reserves exist, and when they do not

The hypotheses of C106, C107 and C108 are met: a successful run with reserves on the example of C96, and another dispatch with reserves within all limits.
-/

namespace Verif.Opf

open Verif.Index (BusRow GenRow BranchRow IsArgsort WF GenInService BranchInService Connected posOf orderOf)
open Verif.OpfModel Verif.Pips Verif.Network Verif.Cost Verif.OpfCost
open Verif.Reserves (Provides providers zoneReserves)

section
variable {nb ng nl n nz : ℕ} (d : Case nb ng nl) (E : Econ) (c' : Index.Case Tables) (gc : Fin ng → CostRow ℝ) (W : RData ng n nz)

/-- Internal: the calls of the formulation are accepted. -/
theorem res_runs (hv : ∀ b ∈ angRows E c', b.f < nb ∧ b.t < nb) : ∃ m, OpfModel.run (dcOps d ++ (angOps E nb c' ++ (pwlOps d.base gc ++ W.ops))) = some m := by
  obtain ⟨B, hB, hvs, -⟩ := ang_block E nb c' hv
  rw [hB, hvs]
  by_cases hy : nyOf gc = 0
  · rw [show pwlOps d.base gc = [] by unfold pwlOps; rw [if_pos hy]]
    simp only [OpfModel.run, dcOps, RData.ops, List.cons_append, List.nil_append, List.foldlM_cons, List.foldlM_nil, step, Model.addLin, Model.addCosts, storeVs, Model.resolve,
      Model.addVars, Idx.add, Model.init, Idx.empty]
    simp [Model.width, Dict.set, RData.cst, badH, badLen]
  · unfold pwlOps
    rw [if_neg hy]
    simp only [OpfModel.run, dcOps, RData.ops, List.cons_append, List.nil_append, List.foldlM_cons, List.foldlM_nil, step, Model.addLin, Model.addCosts, storeVs, Model.resolve,
      Model.addVars, Idx.add, Model.init, Idx.empty]
    simp [Model.width, Dict.set, ayMat, RData.cst, badH, badLen]

/-- Internal: the formulation with reserves is well posed if that without is and the limits of the reserves are not negative. -/
theorem res_good (hv : ∀ b ∈ angRows E c', b.f < nb ∧ b.t < nb) (g : Good (dcOps d ++ (angOps E nb c' ++ (pwlOps d.base gc ++ [])))) (hn : 0 < n) (hhi : ∀ k, 0 ≤ W.hi k) :
    Good (dcOps d ++ (angOps E nb c' ++ (pwlOps d.base gc ++ W.ops))) := by
  have hlin := angOps_varBlocks (nb := nb) E c'
  have hvb : varBlocks (dcOps d ++ (angOps E nb c' ++ (pwlOps d.base gc ++ W.ops))) = varBlocks (dcOps d ++ (angOps E nb c' ++ (pwlOps d.base gc ++ []))) ++ [("R", n)] := by
    rw [W.blocks d gc _ hlin, econ_varBlocks]
    simp
  have hvv : varVals (dcOps d ++ (angOps E nb c' ++ (pwlOps d.base gc ++ W.ops))) = varVals (dcOps d ++ (angOps E nb c' ++ (pwlOps d.base gc ++ []))) ++ [("R", W.vars)] := by
    simp only [varVals_append, W.varVals_eq, List.append_assoc]
    rfl
  have hlb : linBlks (dcOps d ++ (angOps E nb c' ++ (pwlOps d.base gc ++ W.ops))) =
      linBlks (dcOps d ++ (angOps E nb c' ++ (pwlOps d.base gc ++ []))) ++ [("Pg_plus_R", W.pgR), ("Rreq", W.req)] := by
    simp only [linBlks_append, W.linBlks_eq, List.append_assoc]
    rfl
  -- the other blocks
  have hold : ∀ b ∈ linBlks (dcOps d ++ (angOps E nb c' ++ (pwlOps d.base gc ++ []))), b.2.vs ≠ [] ∧ "R" ∉ b.2.vs ∧ b.1 ∈ ["Pmis", "Pf", "Pt", "ang", "ycon"] := by
    obtain ⟨B, hB, hvs, -⟩ := ang_block E nb c' hv
    have hlb0 : linBlks (dcOps d) = [("Pmis", ⟨hcat (Bbus d.branch) d.negCg, vec d.bmis, vec d.bmis, ["Va", "Pg"]⟩),
      ("Pf", ⟨matOf d.BfIl, List.replicate d.il.length ⊥, vec d.upf, ["Va"]⟩),
      ("Pt", ⟨matOf (-d.BfIl), List.replicate d.il.length ⊥, vec d.upt, ["Va"]⟩)] := rfl
    rw [linBlks_append, linBlks_append, linBlks_append, hlb0, hB]
    by_cases hy : nyOf gc = 0
    · rw [show pwlOps d.base gc = [] by unfold pwlOps; rw [if_pos hy]]
      simp [linBlks, hvs]
    · rw [pwlOps_linBlks _ _ hy]
      simp [linBlks, hvs]
  have hsize : ∀ v, v ≠ "R" → size (varBlocks (dcOps d ++ (angOps E nb c' ++ (pwlOps d.base gc ++ []))) ++ [("R", n)]) v =
      size (varBlocks (dcOps d ++ (angOps E nb c' ++ (pwlOps d.base gc ++ [])))) v := by
    intro v hv'
    unfold size
    rw [List.find?_append]
    have : List.find? (fun b : String × ℕ => decide (b.1 = v)) [("R", n)] = none := by
      simp [Ne.symm hv']
    rw [this, Option.or_none]
  have hsR : size (varBlocks (dcOps d ++ (angOps E nb c' ++ (pwlOps d.base gc ++ []))) ++ [("R", n)]) "R" = n ∧
      size (varBlocks (dcOps d ++ (angOps E nb c' ++ (pwlOps d.base gc ++ []))) ++ [("R", n)]) "Pg" = ng := by
    rw [econ_varBlocks]
    unfold size
    constructor
    · split_ifs <;> simp
    · simp
  refine ⟨?_, ?_, ?_, ?_, ?_, ?_⟩
  · rw [hvb, econ_varBlocks]
    split_ifs <;> simp [names]
  · rw [hlb, names, List.map_append, List.nodup_append]
    refine ⟨g.linNames, by simp, ?_⟩
    rintro a ha b hb rfl
    obtain ⟨x, hx, rfl⟩ := List.mem_map.1 ha
    have := (hold x hx).2.2
    simp at hb this
    rcases hb with hb | hb <;> simp [hb] at this
  · rw [hvv]
    intro b hb
    rcases List.mem_append.1 hb with hb | hb
    · exact g.varFits b hb
    · rw [List.mem_singleton] at hb
      subst hb
      unfold VarFits RData.vars
      rw [orDefault_ne (by simp; omega), orDefault_ne (by simp; omega)]
      simp
  · rw [hvb, hlb]
    intro b hb
    rcases List.mem_append.1 hb with hb | hb
    · obtain ⟨h1, h2, -⟩ := hold b hb
      obtain ⟨f1, f2, f3, f4⟩ := g.linFits b hb
      refine ⟨f1, f2.trans ?_, f3, f4⟩
      unfold eff widthOf
      rw [if_neg h1, if_neg h1]
      congr 1
      refine List.map_congr_left fun v hv' => (hsize v ?_).symm
      rintro rfl
      exact h2 hv'
    · simp only [List.mem_cons, List.not_mem_nil, or_false] at hb
      rcases hb with rfl | rfl
      · refine ⟨by simp [RData.pgR], ?_, Or.inl rfl, Or.inr ?_⟩
        · show ng + n = widthOf _ ["Pg", "R"]
          simp only [widthOf, List.map_cons, List.map_nil, List.sum_cons, List.sum_nil, hsR.1, hsR.2, add_zero]
        · show (List.ofFn _).length = n
          simp
      · refine ⟨by simp [RData.req], ?_, Or.inr ?_, Or.inl rfl⟩
        · show n = widthOf _ ["R"]
          simp only [widthOf, List.map_cons, List.map_nil, List.sum_cons, List.sum_nil, hsR.1, add_zero]
        · show (List.ofFn _).length = nz
          simp
  · rw [hvv]
    intro b hb
    rcases List.mem_append.1 hb with hb | hb
    · exact g.varSane b hb
    · rw [List.mem_singleton] at hb
      subst hb
      intro i hi
      have hi' : i < n := hi
      have e1 := W.vars_lo ⟨i, hi'⟩
      have e2 := W.vars_hi ⟨i, hi'⟩
      simp only at e1 e2 ⊢
      rw [e1, e2]
      have := hhi ⟨i, hi'⟩
      refine ⟨by rw [EReal.coe_zero]; exact this, fun h0 => ?_, EReal.coe_ne_top _, ?_⟩
      · rw [h0] at this; simp at this
      · rintro ⟨a, b, ha, hb, hab⟩
        rw [hb]
        have : a = 0 := by exact_mod_cast ha.symm
        subst this
        refine ⟨by exact_mod_cast (by norm_num : (-10 ^ 10 : ℝ) < 0), EReal.coe_lt_coe_iff.2 ?_⟩
        rw [sub_zero] at hab
        have := (abs_le.1 hab).2
        norm_num at this ⊢
        linarith
  · rw [hlb]
    intro b hb
    rcases List.mem_append.1 hb with hb | hb
    · exact g.linSane b hb
    · simp only [List.mem_cons, List.not_mem_nil, or_false] at hb
      rcases hb with rfl | rfl
      · intro i hi
        have e2 := W.pgR_hi ⟨i, hi⟩
        simp only at e2 ⊢
        rw [W.pgR_lo, e2]
        exact sane_bot (EReal.coe_ne_bot _)
      · intro i hi
        have e2 := W.req_lo ⟨i, hi⟩
        simp only at e2 ⊢
        rw [W.req_hi, e2]
        exact ⟨le_top, by simp, EReal.coe_ne_top _, by rintro ⟨x, y, -, hy, -⟩; exact absurd hy (EReal.top_ne_coe y)⟩

end

section
variable {srt : List ℕ → List ℕ} (hs : IsArgsort srt) {base : ℝ} {c : Index.Case Tables} (h : WF c) {ramp10 : List ℝ → ℝ} {r : Reserves.Res}

include hs h in
/-- **C106 (no provider).**  Without a generator in service that belongs to a zone the run ends with an exception. -/
theorem C106_none (hv : Reserves.Valid c.gen.length r) (hno : resGens c r = ∅) (E : Econ) (o : Opt) (solve : AnySolver) :
    opfDcReserves srt base E ramp10 o solve c r = none := by
  by_contra hne
  obtain ⟨⟨ret, out⟩, hrun⟩ := Option.ne_none_iff_exists'.1 hne
  unfold opfDcReserves at hrun
  simp only [Option.bind_eq_bind, Option.bind_eq_some_iff] at hrun
  obtain ⟨c', hc', d, hd, ord, hord, F, hF, m, hm, m', hm', s, hs', out', hout, -⟩ := hrun
  obtain ⟨ho, hlen⟩ := int_order hs h hc'
  rw [ho] at hord; cases hord
  have hig0 : F.2.1.length ≠ 0 := by
    intro h0
    unfold resResults at hout
    rw [if_pos h0] at hout
    exact absurd hout (by simp)
  have hz : r.zones ≠ [] := by
    have hF' := hF
    unfold resForm at hF'
    simp only [ho, Option.bind_eq_bind, Option.bind_some, Option.bind_eq_some_iff] at hF'
    obtain ⟨ri, h1, f, -, e⟩ := hF'
    injection e with e
    rw [← e] at hig0
    refine zones_ne (fun val x hx hval => ?_) hv.req h1 hig0
    rw [Index.e2iSet_eq hs, hval] at hx
    cases hp : posOf srt c .gen with
    | nil => rw [hp] at hx; simpa [NumPy.gather] using hx.symm
    | cons a l => rw [hp] at hx; simp [NumPy.gather] at hx
  obtain ⟨ri, f, hF1, -⟩ := resForm_eq hs c c' r hv hlen base ramp10 ho hz
  rw [hF] at hF1
  injection hF1 with hF1
  subst hF1
  have : resRow srt c r ⟨0, Nat.pos_of_ne_zero hig0⟩ ∈ resGens c r := by
    rw [resGens_eq hs, Finset.mem_image]
    exact ⟨_, Finset.mem_univ _, rfl⟩
  rw [hno] at this
  simp at this

variable (hin : DcInputs base c) (E : Econ) (hang : AngInputs E c) (hres : ResInputs ramp10 c r)

include hres in
theorem ResInputs.zones_ne : r.zones ≠ [] := by
  obtain ⟨i, hi⟩ := hres.provider
  have hp : Provides r i := (@Finset.mem_filter _ _ (Classical.decPred _) _ _ |>.1 hi).2
  rintro h0
  unfold Provides at hp
  rw [h0] at hp
  simp at hp

include hs h hin hang hres

theorem res_extra {c' : Index.Case Tables} {d} (he : Index.ext2int srt c = some c') (hd : readCase base c' = some d) :
    ∃ (hlen : c'.gen.length = (posOf srt c .gen).length) (ri : Reserves.Res) (f : Reserves.Form), c'.order = some (orderOf srt c) ∧
      resForm base ramp10 r c' = some (ri, igOf srt c r, f) ∧ ri.zones = (r.zones.map fun row => (posOf srt c .gen).map fun i => row.getD i 0) ∧
      (resSetup base E ramp10 r).extra d c' = angOps E c'.bus.length c' ++ (pwlOps d.base (gcOf c') ++ (resW c c' r hlen base ramp10).ops) ∧
      0 < (igOf srt c r).length ∧ Good (dcOps d ++ (resSetup base E ramp10 r).extra d c') := by
  obtain ⟨ho, hlen⟩ := int_order hs h he
  obtain ⟨ri, f, hF, hzi, hops⟩ := resForm_eq hs c c' r hres.shape hlen base ramp10 ho hres.zones_ne
  have hextra : (resSetup base E ramp10 r).extra d c' = angOps E c'.bus.length c' ++ (pwlOps d.base (gcOf c') ++ (resW c c' r hlen base ramp10).ops) := by
    show angOps E c'.bus.length c' ++ (pwlOps d.base (gcOf c') ++ resExtra base ramp10 r c') = _
    unfold resExtra
    rw [hF]
    simp only [hops]
  have hpos : 0 < (igOf srt c r).length := by
    obtain ⟨i, hi⟩ := hres.provider
    rw [resGens_eq hs, Finset.mem_image] at hi
    obtain ⟨k, -⟩ := hi
    exact k.pos
  refine ⟨hlen, ri, f, ho, hF, hzi, hextra, hpos, ?_⟩
  rw [hextra]
  refine res_good d E c' (gcOf c') _ (readCase_valid hd E) (econ_wellposed hs h hin E hang c' d he hd) hpos fun k => ?_
  obtain ⟨c1, d1, he1, hd1, hw⟩ := bridge_exists hs base h
  rw [he] at he1; cases he1
  obtain ⟨t, ht⟩ := hw ⟨fun _ b => b, fun _ g => g, fun _ l => l⟩
  obtain ⟨bp, gp, lp, B, -, -, hgen, -, -, -, hgp, -⟩ := bridge_at hs h he hd _ ht opfOff
  have hrowk : gp ((resW c c' r hlen base ramp10).jp k) = resRow srt c r k := by
    have h1 := hgp ((resW c c' r hlen base ramp10).jp k)
    have h2 := resRow_get c r k
    have e : (((resW c c' r hlen base ramp10).jp k : Fin c'.gen.length) : ℕ) = (igOf srt c r)[k] := rfl
    rw [e, h2] at h1
    exact (Option.some.inj h1).symm
  obtain ⟨g0, hg0, -, hdat, -⟩ := hgen ((resW c c' r hlen base ramp10).jp k)
  rw [hrowk] at hg0
  have hmem : resRow srt c r k ∈ resGens c r := by
    rw [resGens_eq hs, Finset.mem_image]
    exact ⟨_, Finset.mem_univ _, rfl⟩
  show 0 ≤ resLimit ramp10 _ r _ (c'.gen[(resW c c' r hlen base ramp10).jp k]).data.rest (c'.gen[(resW c c' r hlen base ramp10).jp k]).data.PMAX / (base : EReal)
  rw [hdat]
  refine EReal.div_nonneg ?_ (by exact_mod_cast hin.pos.le)
  have := (le_resLimit c r ramp10 hg0 0).2 ⟨fun g hg _ => hres.ramp _ hmem g hg, fun q hq => hres.qty q hq _ hmem⟩
  exact_mod_cast this

/-- Internal: the formulation is well posed. -/
theorem res_wellposed : ∀ c' d, Index.ext2int srt c = some c' → readCase base c' = some d → Good (dcOps d ++ (resSetup base E ramp10 r).extra d c') := by
  intro c' d he hd
  obtain ⟨-, -, -, -, -, -, -, -, g⟩ := res_extra hs h hin E hang hres he hd
  exact g

/-- **C106 (completes).**  On every well-formed case with data, angle limits and reserve data in range, whatever the cost table, the DC optimal power flow with reserves returns,
whatever the linear solver does; with tolerances wide enough for the starting point it succeeds. -/
theorem C106_completes : (∀ (o : Opt) (solve : AnySolver), ∃ x, opfDcReserves srt base E ramp10 o solve c r = some x) ∧
    ∀ solve : AnySolver, ∃ o ret out, 0 < o.costMult ∧ 0 < o.feastol ∧ 0 < o.gradtol ∧ 0 < o.comptol ∧ opfDcReserves srt base E ramp10 o solve c r = some (ret, out) ∧
      ret.success = true := by
  obtain ⟨c', d, he, hd, hw⟩ := bridge_exists hs base h
  obtain ⟨hlen, ri, f, ho, hF, hzi, hextra, hpos, g⟩ := res_extra hs h hin E hang hres he hd
  have hv := hres.shape
  set W := resW c c' r hlen base ramp10 with hW
  obtain ⟨m, hm⟩ := res_runs d E c' (gcOf c') W (readCase_valid hd E)
  have hm' : OpfModel.run (dcOps d ++ (resSetup base E ramp10 r).extra d c') = some m := by rw [hextra]; exact hm
  obtain ⟨q, hq, -, -, -, -, hok⟩ := linearOf_spec hm' g
  obtain ⟨i1, i2, i3, i4, i5⟩ := dc_idx hm' g
  have g' := g
  rw [hextra] at g'
  obtain ⟨P, hP1, hP2⟩ := res_params d (fun k : Fin c'.gen.length => costAt c' k) _ (angOps_varBlocks E c') (ang_costBlks E _ c') W m hm g'
  have sol : ∀ (o : Opt) (solve : AnySolver), ∃ s, dcopfSolver d m ((resSetup base E ramp10 r).H c' m) ((resSetup base E ramp10 r).C c' m)
      ((resSetup base E ramp10 r).C0 c' m) o solve (E.x0 c' m) = some s := by
    intro o solve
    obtain ⟨x, hx⟩ := C76_returns (qp ((resSetup base E ramp10 r).H c' m) ((resSetup base E ramp10 r).C c' m)) q o (solve _ _) (E.x0 c' m) hok
    unfold dcopfSolver
    simp only [hq, hx, i1, i2, i3, i4, i5, Option.bind_eq_bind, Option.bind_some]
    exact ⟨_, rfl⟩
  have hidx : m.var.i1 "R" = some (iROf c') := by
    have hvn := (foldIdx_lookup (varBlocks (resCalls E c' d W)) g'.varNames).1
    rw [(Rep.run hm).var, (hvn "R" (by rw [W.blocks d _ _ (angOps_varBlocks E c')]; simp [names])).1, (W.start_R d _ _ (angOps_varBlocks E c')).1]
  have hln := (foldIdx_lookup (linBlocks (resCalls E c' d W)) (by rw [linBlocks_names]; exact g'.linNames)).1
  have hmemP := res_mem_pgR d (fun k : Fin c'.gen.length => costAt c' k) (angOps E c'.bus.length c') W
  have hmemR := res_mem_req d (fun k : Fin c'.gen.length => costAt c' k) (angOps E c'.bus.length c') W
  have hjP : m.lin.i1 "Pg_plus_R" = some (start (linBlocks (resCalls E c' d W)) "Pg_plus_R") := by
    rw [(Rep.run hm).lin, (hln "Pg_plus_R" ?_).1]
    rw [linBlocks_names, resCalls, linBlks_append, names, List.map_append]
    exact List.mem_append_right _ (List.mem_map.2 ⟨_, hmemP, rfl⟩)
  have hjR : m.lin.i1 "Rreq" = some (start (linBlocks (resCalls E c' d W)) "Rreq") := by
    rw [(Rep.run hm).lin, (hln "Rreq" ?_).1]
    rw [linBlocks_names, resCalls, linBlks_append, names, List.map_append]
    exact List.mem_append_right _ (List.mem_map.2 ⟨_, hmemR, rfl⟩)
  have hget : m.getv (some "R") = some (List.replicate (igOf srt c r).length 0, List.replicate (igOf srt c r).length ((0 : ℝ) : EReal), List.ofFn W.hi) := by
    have := (C40_getv _ m hm g'.varNames).2.1 ("R", W.vars) (by
      rw [varVals_append]
      exact List.mem_append_right _ (res_mem_R d (fun k : Fin c'.gen.length => costAt c' k) (angOps E c'.bus.length c') W))
    rw [this]
    have hl : (igOf srt c r).length ≠ 0 := hpos.ne'
    simp only [RData.vars]
    rw [orDefault_ne (l := List.replicate (igOf srt c r).length ((0 : ℝ) : EReal)) (by simpa using hl), orDefault_ne (l := List.ofFn W.hi) (by simpa using hl)]
    rfl
  have hspread : ∀ {α : Type} [Zero α] (l : List α), l.length = (igOf srt c r).length → ∃ L, spread (orderOf srt c) c'.gen.length (igOf srt c r) l = some L := by
    intro α _ l hl
    have e : l = List.ofFn fun k : Fin (igOf srt c r).length => l[k]'(by rw [hl]; exact k.isLt) := by
      apply List.ext_getElem
      · simp [hl]
      · intro i a b; simp
    obtain ⟨L, h1, -⟩ := spread_at hs c r l _ e
    exact ⟨L, by rw [hlen]; exact h1⟩
  have res : ∀ s : DcRes c'.bus.length c'.gen.length c'.branch.length, ∃ out,
      resResults base (orderOf srt c) r ri (igOf srt c r) m { m with params := some P } s = some out := by
    intro s
    obtain ⟨mm, hcomp⟩ := res_computeCost d (fun k : Fin c'.gen.length => costAt c' k) _ (angOps_varBlocks E c') (ang_costBlks E _ c') W m hm g' hpos hP1 s.x
    unfold resResults
    rw [if_neg hpos.ne']
    obtain ⟨L1, h1⟩ := hspread ((List.range (igOf srt c r).length).map fun k => s.x (iROf c' + k) * base) (by simp)
    obtain ⟨L2, h2⟩ := hspread ((List.replicate (igOf srt c r).length ((0 : ℝ) : EReal)).map fun u => u * (base : EReal)) (by simp)
    obtain ⟨L3, h3⟩ := hspread ((List.ofFn W.hi).map fun u => u * (base : EReal)) (by simp)
    obtain ⟨L4, h4⟩ := hspread ((List.range (igOf srt c r).length).map fun k => s.lower (iROf c' + k) / base) (by simp)
    obtain ⟨L5, h5⟩ := hspread ((List.range (igOf srt c r).length).map fun k => s.upper (iROf c' + k) / base) (by simp)
    obtain ⟨L6, h6⟩ := hspread ((List.range (igOf srt c r).length).map fun k => s.mu_u (start (linBlocks (resCalls E c' d W)) "Pg_plus_R" + k) / base) (by simp)
    obtain ⟨L7, h7, -⟩ := prices_eq c r hv base ((List.range r.zones.length).map fun z => s.mu_l (start (linBlocks (resCalls E c' d W)) "Rreq" + z)) (by simp)
    have h7' : prices base (orderOf srt c).extGen.length (Reserves.igr (orderOf srt c).extGen.length r) r.zones
      ((List.range r.zones.length).map fun z => s.mu_l (start (linBlocks (resCalls E c' d W)) "Rreq" + z)) = some L7 := h7
    simp only [hzi, extZones_eq hs c r hv, hget, hidx, hjP, hjR, hcomp, h1, h2, h3, h4, h5, h6, h7', Option.bind_eq_bind, Option.bind_some]
    exact ⟨_, rfl⟩
  have all : ∀ (o : Opt) (solve : AnySolver) s, dcopfSolver d m ((resSetup base E ramp10 r).H c' m) ((resSetup base E ramp10 r).C c' m)
      ((resSetup base E ramp10 r).C0 c' m) o solve (E.x0 c' m) = some s → ∃ ret out, opfDcReserves srt base E ramp10 o solve c r = some (ret, out) ∧ ret.success = s.success := by
    intro o solve s hs'
    obtain ⟨t, ht⟩ := hw (dcUpd s (angPost E c' m s))
    obtain ⟨out, hout⟩ := res s
    unfold opfDcReserves
    simp only [he, hd, ho, hF, hm', hP1, hs', hout, ht, Option.bind_eq_bind, Option.bind_some]
    exact ⟨_, _, rfl, rfl⟩
  constructor
  · intro o solve
    obtain ⟨s, hs'⟩ := sol o solve
    obtain ⟨ret, out, h1, -⟩ := all o solve s hs'
    exact ⟨_, h1⟩
  · intro solve
    obtain ⟨o, h1, h3, h4, h5, h2⟩ := exists_success_nonneg (problem (qp ((resSetup base E ramp10 r).H c' m) ((resSetup base E ramp10 r).C c' m)) q) (E.x0 c' m)
    obtain ⟨s, hs'⟩ := sol o solve
    obtain ⟨ret, out, h6, h7⟩ := all o solve s hs'
    obtain ⟨q', r', hq', hr', e1, -⟩ := dc_ofSolver hm' g hs'
    rw [hq] at hq'; cases hq'
    refine ⟨o, ret, out, h1, h3, h4, h5, h6, ?_⟩
    rw [h7, e1, (ofFull hr').2.1]
    exact h2 _

end

/-! ### The example -/

noncomputable section

/-- Two overlapping zones on the tables of C96; the fourth generator is out of service; costs and quantities are given for the three generators that belong to a zone. -/
def exZones : Reserves.Res := ⟨[[1, 0, 1, 0], [1, 0, 0, 1]], [50, 15], [5, 3, 2], some [25, 40, 10]⟩

/-- Reserves of 20 MW and 35 MW. -/
def exR (i : ℕ) : ℝ := if i = 0 then 20 else if i = 2 then 35 else 0

theorem exZones_prov (i : ℕ) : Provides exZones i ↔ i = 0 ∨ i = 2 ∨ i = 3 := by
  match i with
  | 0 => simp [Provides, exZones]
  | 1 => simp [Provides, exZones]
  | 2 => simp [Provides, exZones]
  | 3 => simp [Provides, exZones]
  | i + 4 => simp [Provides, exZones]

theorem exZones_providers : providers 4 exZones = [0, 2, 3] := by
  unfold providers
  rw [show List.range 4 = [0, 1, 2, 3] from rfl]
  simp [exZones_prov]

theorem exZones_gens (i : ℕ) : i ∈ resGens exEcon exZones ↔ i = 0 ∨ i = 2 := by
  unfold resGens
  rw [@Finset.mem_filter _ _ (Classical.decPred _), exZones_prov]
  constructor
  · rintro ⟨h, -⟩; exact exEcon_on i h
  · intro h
    refine ⟨?_, by omega⟩
    rcases h with rfl | rfl <;> simp [onGens, exEcon, exTables, GenInService, Connected]

theorem exZones_valid : Reserves.Valid exEcon.gen.length exZones := by
  have e : exEcon.gen.length = 4 := rfl
  refine ⟨rfl, ?_, Or.inr (by rw [e, exZones_providers]; rfl), ?_⟩
  · intro row h
    simp [exZones] at h
    rcases h with rfl | rfl <;> rfl
  · intro q h
    simp [exZones] at h
    rw [← h]
    rfl

theorem exZones_datum (v : List ℝ) (hv : v.length = 3) : resDatum exEcon.gen.length exZones v 0 = v.getD 0 0 ∧ resDatum exEcon.gen.length exZones v 2 = v.getD 1 0 := by
  have e : exEcon.gen.length = 4 := rfl
  unfold resDatum
  rw [e, if_pos (by omega), if_pos (by omega), exZones_providers]
  constructor <;> rfl

theorem exZones_inputs : ResInputs (fun _ => 38) exEcon exZones where
  shape := exZones_valid
  provider := ⟨0, by rw [exZones_gens]; simp⟩
  qty := by
    intro q hq i hi
    simp [exZones] at hq
    subst hq
    rw [exZones_gens] at hi
    obtain ⟨e1, e2⟩ := exZones_datum [25, 40, 10] rfl
    rcases hi with rfl | rfl
    · rw [e1]; norm_num
    · rw [e2]; norm_num
  ramp := by intros; norm_num

theorem exR_feasible : ResFeasible (fun _ => 38) exEcon exZones exAlt exR where
  off := by
    intro i hi
    rw [exZones_gens] at hi
    push Not at hi
    simp [exR, hi.1, hi.2]
  nonneg := by
    intro i _
    unfold exR
    split_ifs <;> norm_num
  limits := by
    intro i hi
    rw [exZones_gens] at hi
    obtain ⟨e1, e2⟩ := exZones_datum [25, 40, 10] rfl
    refine ⟨fun g _ _ => ?_, fun q hq => ?_⟩
    · unfold exR
      split_ifs <;> norm_num
    · simp [exZones] at hq
      subst hq
      rcases hi with rfl | rfl
      · rw [e1]; norm_num [exR]
      · rw [e2]; norm_num [exR]
  capacity := by
    intro i hi g hg
    rw [exZones_gens] at hi
    rcases hi with rfl | rfl
    · simp [exEcon, exTables] at hg
      subst hg
      norm_num [pgAt, exAlt, exR]
    · simp [exEcon, exTables] at hg
      subst hg
      norm_num [pgAt, exAlt, exR]
  required := by
    intro z row q hz hq
    match z with
    | 0 =>
      simp [exZones] at hz hq
      subst hz hq
      simp [zoneReserves, exEcon, exTables, Finset.sum_range_succ, exR]
      norm_num
    | 1 =>
      simp [exZones] at hz hq
      subst hz hq
      simp [zoneReserves, exEcon, exTables, Finset.sum_range_succ, exR]
      norm_num
    | z + 2 => simp [exZones] at hz

/-- The hypotheses of C106, C107 and C108 hold on the example: a successful run, and another dispatch with reserves within all limits. -/
example : ∃ o ret out, IsArgsort Index.stableArgsort ∧ (0 : ℝ) < 100 ∧ WF exEcon ∧ EconCosts exEcon ∧ (∀ l ∈ exEcon.branch, l.status = 0 ∨ l.status = 1) ∧
    0 < o.costMult ∧ 0 ≤ o.feastol ∧ 0 ≤ o.comptol ∧ Reserves.Valid exEcon.gen.length exZones ∧
    (∀ c' d, Index.ext2int Index.stableArgsort exEcon = some c' → readCase 100 c' = some d → Good (dcOps d ++ (resSetup 100 exE (fun _ => 38) exZones).extra d c')) ∧
    opfDcReserves Index.stableArgsort 100 exE (fun _ => 38) o (fun _ _ _ _ => none) exEcon exZones = some (ret, out) ∧ ret.success = true ∧
    DcFeasible 100 exE exEcon exAlt exθ ∧ ResFeasible (fun _ => 38) exEcon exZones exAlt exR ∧ (∀ row ∈ exZones.zones, ∀ x ∈ row, x = 0 ∨ x = 1) := by
  obtain ⟨o, ret, out, h1, h2, -, h3, h4, h5⟩ := (C106_completes Index.stableArgsort_isArgsort exEcon_wf exEcon_dc exE exE_ang exZones_inputs).2 (fun _ _ _ _ => none)
  refine ⟨o, ret, out, Index.stableArgsort_isArgsort, by norm_num, exEcon_wf, exEcon_costs, ?_, h1, h2.le, h3.le, exZones_valid,
    res_wellposed Index.stableArgsort_isArgsort exEcon_wf exEcon_dc exE exE_ang exZones_inputs, h4, h5, exAlt_feasible, exR_feasible, ?_⟩
  · simp [exEcon]
  · simp [exZones]

/-- The hypothesis of `C106_none`: only the generator out of service belongs to the zone. -/
example : Reserves.Valid exEcon.gen.length ⟨[[0, 0, 0, 1]], [5], [3, 3, 3, 3], none⟩ ∧ resGens exEcon ⟨[[0, 0, 0, 1]], [5], [3, 3, 3, 3], none⟩ = ∅ := by
  refine ⟨⟨rfl, ?_, Or.inl rfl, by simp⟩, ?_⟩
  · intro row h
    rw [List.mem_singleton] at h
    rw [h]; rfl
  · refine Finset.eq_empty_iff_forall_notMem.2 fun i hi => ?_
    unfold resGens at hi
    rw [@Finset.mem_filter _ _ (Classical.decPred _)] at hi
    obtain ⟨h1, row, hrow, h2⟩ := hi
    rw [List.mem_singleton] at hrow
    subst hrow
    rcases exEcon_on i h1 with rfl | rfl <;> simp at h2

end

end Verif.Opf
