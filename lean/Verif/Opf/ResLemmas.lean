import Verif.Opf.ResTables
import Verif.Opf.EconProps

/-! # A run of the DC optimal power flow with reserves, in internal numbering -/

namespace Verif.Opf

open Verif.Index (IsArgsort WF GenInService posOf orderOf)
open Verif.OpfModel Verif.Pips Verif.Network Verif.Cost Verif.OpfCost Verif.NumPy
open Verif.Reserves (Provides providers zoneReserves)

noncomputable section

/-- The costs of the generators in internal order. -/
abbrev gcOf (c' : Index.Case Tables) (k : Fin c'.gen.length) : CostRow ℝ := pwl1Row (costAt c' k)

/-- Where the reserves start among the variables. -/
abbrev iROf (c' : Index.Case Tables) : ℕ := c'.bus.length + c'.gen.length + nyOf (gcOf c')

/-- The calls of a run. -/
abbrev resCalls (E : Econ) (c' : Index.Case Tables) (d : Case c'.bus.length c'.gen.length c'.branch.length) {n nz : ℕ} (W : RData c'.gen.length n nz) : List Op :=
  dcOps d ++ (angOps E c'.bus.length c' ++ (pwlOps d.base (gcOf c') ++ W.ops))

/-- What a run amounts to in internal numbering. -/
structure ResRun (srt : List ℕ → List ℕ) (bs : ℝ) (E : Econ) (ramp10 : List ℝ → ℝ) (o : Opt) (solve : AnySolver) (c : Index.Case Tables) (r : Reserves.Res)
    (ret : Ret) (out : ResOut) (c' : Index.Case Tables) (d : Case c'.bus.length c'.gen.length c'.branch.length) (m : Model)
    (s : DcRes c'.bus.length c'.gen.length c'.branch.length) (P : Params) (p : PostMu c'.gen.length c'.branch.length) (bp : Fin c'.bus.length → ℕ)
    (gp : Fin c'.gen.length → ℕ) (lp : Fin c'.branch.length → ℕ) (W : RData c'.gen.length (igOf srt c r).length r.zones.length) : Prop
    extends DcRun bs E c ret c' d s p bp gp lp where
  run : OpfModel.run (resCalls E c' d W) = some m
  good : Good (resCalls E c' d W)
  par : RParams W (iROf c') m.var.total P
  sol : dcopfSolver d m (HH (dcData d.base (gcOf c') (userOf P m.var.total) c'.bus.length (c'.bus.length + c'.gen.length) (dc_width run good)))
    (CC (dcData d.base (gcOf c') (userOf P m.var.total) c'.bus.length (c'.bus.length + c'.gen.length) (dc_width run good)))
    (C0 (dcData d.base (gcOf c') (userOf P m.var.total) c'.bus.length (c'.bus.length + c'.gen.length) (dc_width run good)))
    o solve (E.x0 c' m) = some s
  size : ret.size = m.var.total + m.lin.total
  pos : 0 < (igOf srt c r).length
  row : ∀ k, gp (W.jp k) = resRow srt c r k
  hi : ∀ k g, c.gen[resRow srt c r k]? = some g → W.hi k = resLimit ramp10 c.gen.length r (resRow srt c r k) g.data.rest g.data.PMAX / (bs : EReal)
  pm : ∀ k g, c.gen[resRow srt c r k]? = some g → W.pm k = g.data.PMAX / bs
  Z : ∀ z k, W.Z z k = r.zones[z].getD (resRow srt c r k) 0
  lq : ∀ z, W.lq z = r.req.getD z 0 / bs
  cw : ∀ k, W.cw k = resDatum c.gen.length r r.cost (resRow srt c r k) * bs
  R : Spread srt c r out.R fun k => s.x (iROf c' + k) * bs
  Rmin : Spread srt c r out.Rmin fun _ => 0
  Rmax : Spread srt c r out.Rmax fun k => W.hi k * (bs : EReal)
  mu_l : Spread srt c r out.mu_l fun k => s.lower (iROf c' + k) / bs
  mu_u : Spread srt c r out.mu_u fun k => s.upper (iROf c' + k) / bs
  mu_Pmax : Spread srt c r out.mu_Pmax fun k => s.mu_u (start (linBlocks (resCalls E c' d W)) "Pg_plus_R" + k) / bs
  lam : out.lam = (List.range r.zones.length).map fun z => s.mu_l (start (linBlocks (resCalls E c' d W)) "Rreq" + z)
  prc : out.prc.length = c.gen.length ∧ ∀ i < c.gen.length,
    out.prc[i]? = some ((∑ z ∈ Finset.range r.zones.length, if (r.zones.getD z []).getD i 0 ≠ 0 then out.lam.getD z 0 else 0) / bs)
  totalcost : out.totalcost = ∑ k, W.cw k * s.x (iROf c' + k)

theorem zones_ne {o : Index.Order Tables} {r : Reserves.Res} {ri : Reserves.Res × List ℕ} (hs : ∀ (val : List Bool) x, Index.e2iSet o val .gen = some x → val = [] → x = [])
    (hreq : r.zones.length = r.req.length) (h : intReserves o r = some ri) (hl : ri.2.length ≠ 0) : r.zones ≠ [] := by
  intro hz
  unfold intReserves at h
  simp only [Option.bind_eq_bind, Option.bind_eq_some_iff] at h
  obtain ⟨r1, -, qty, -, cost, -, zones, -, mask, hm, e⟩ := h
  have : Reserves.rgens o.extGen.length r = [] := by
    unfold Reserves.rgens
    rw [if_neg (by rw [← hreq, hz]; simp), hz]
    rfl
  rw [hs _ _ hm this] at e
  injection e with e
  rw [← e] at hl
  exact hl rfl

theorem orDefault_ne {n : ℕ} {x : EReal} {l : List EReal} (h : l ≠ []) : orDefault n x (some l) = l := by
  cases l with
  | nil => exact absurd rfl h
  | cons a l => rfl

theorem ang_costBlks (E : Econ) (nb : ℕ) (c' : Index.Case Tables) : costBlks (angOps E nb c') = [] := by
  unfold angOps
  split <;> rfl

section
variable {srt : List ℕ → List ℕ} (hs : IsArgsort srt) {base : ℝ} (hb : 0 < base) {E : Econ} {ramp10 : List ℝ → ℝ} {o : Opt} {solve : AnySolver} {c : Index.Case Tables} (h : WF c)
  (hgc : c.gencost.isSome) {r : Reserves.Res} (hv : Reserves.Valid c.gen.length r)

include hs h in
/-- The internal case: order, length of the generator table. -/
theorem int_order {c' : Index.Case Tables} (he : Index.ext2int srt c = some c') :
    c'.order = some (orderOf srt c) ∧ c'.gen.length = (posOf srt c .gen).length := by
  obtain ⟨c1, o1, pos, apos, h1, h2, -, h3, rfl, rfl⟩ := Index.ext2int_corr hs h
  rw [he] at h1; cases h1
  exact ⟨h2, h3.genLen⟩

include hs hb h hgc hv in
theorem res_run (hgood : ∀ c' d, Index.ext2int srt c = some c' → readCase base c' = some d → Good (dcOps d ++ (resSetup base E ramp10 r).extra d c'))
    {ret : Ret} {out : ResOut} (hrun : opfDcReserves srt base E ramp10 o solve c r = some (ret, out)) :
    ∃ c' d m s P p bp gp lp W, ResRun srt base E ramp10 o solve c r ret out c' d m s P p bp gp lp W := by
  unfold opfDcReserves at hrun
  simp only [Option.bind_eq_bind, Option.bind_eq_some_iff] at hrun
  obtain ⟨c', hc', d, hd, ord, hord, F, hF, m, hm, m', hm', s, hs', out', hout, t, ht, e⟩ := hrun
  injection e with e
  obtain ⟨e1, e2⟩ := Prod.mk.inj e
  subst e1 e2
  obtain ⟨ho, hlen⟩ := int_order hs h hc'
  rw [ho] at hord; cases hord
  obtain ⟨bp, gp, lp, B, -, -, hgen, hbr, hco, -, hgp, -⟩ := bridge_at hs h hc' hd _ ht opfOff
  have hbase := readCase_base hd
  have hval := readCase_valid hd E
  -- the reserve data
  have hig0 : F.2.1.length ≠ 0 := by
    intro h0
    unfold resResults at hout
    rw [if_pos h0] at hout
    exact absurd hout (by simp)
  have hne : r.zones ≠ [] := by
    have hF' := hF
    unfold resForm at hF'
    simp only [ho, Option.bind_eq_bind, Option.bind_some, Option.bind_eq_some_iff] at hF'
    obtain ⟨ri, h1, f, -, e⟩ := hF'
    injection e with e
    rw [← e] at hig0
    refine zones_ne (fun val x hx hval => ?_) hv.req h1 hig0
    rw [Index.e2iSet_eq hs, hval] at hx
    cases hp : posOf srt c .gen with
    | nil => rw [hp] at hx; simpa [gather] using hx.symm
    | cons a l => rw [hp] at hx; simp [gather] at hx
  obtain ⟨ri, f, hF1, hzi, hops⟩ := resForm_eq hs c c' r hv hlen base ramp10 ho hne
  rw [hF] at hF1
  injection hF1 with hF1
  subst hF1
  set W := resW c c' r hlen base ramp10 with hW
  have hextra : (resSetup base E ramp10 r).extra d c' = angOps E c'.bus.length c' ++ (pwlOps d.base (gcOf c') ++ W.ops) := by
    show angOps E c'.bus.length c' ++ (pwlOps d.base (gcOf c') ++ resExtra base ramp10 r c') = _
    unfold resExtra
    rw [hF]
    simp only [hops]
  have g := hgood c' d hc' hd
  rw [hextra] at g hm
  have hw := dc_width hm g
  obtain ⟨P, hP1, hP2⟩ := res_params d (fun k : Fin c'.gen.length => costAt c' k) _ (angOps_varBlocks E c') (ang_costBlks E _ c') W m hm g
  have hpar : resParams m = some P := by unfold resParams; rw [hP1]; rfl
  subst hbase
  -- the results
  have hpos : 0 < (igOf srt c r).length := Nat.pos_of_ne_zero hig0
  have hidx : m.var.i1 "R" = some (iROf c') := by
    have hvn := (foldIdx_lookup (varBlocks (resCalls E c' d W)) g.varNames).1
    rw [(Rep.run hm).var, (hvn "R" (by rw [W.blocks d _ _ (angOps_varBlocks E c')]; simp [names])).1, (W.start_R d _ _ (angOps_varBlocks E c')).1]
  have hln := (foldIdx_lookup (linBlocks (resCalls E c' d W)) (by rw [linBlocks_names]; exact g.linNames)).1
  have hmemP := res_mem_pgR d (fun k : Fin c'.gen.length => costAt c' k) (angOps E c'.bus.length c') W
  have hmemR := res_mem_req d (fun k : Fin c'.gen.length => costAt c' k) (angOps E c'.bus.length c') W
  have hjP : m.lin.i1 "Pg_plus_R" = some (start (linBlocks (resCalls E c' d W)) "Pg_plus_R") := by
    rw [(Rep.run hm).lin, (hln "Pg_plus_R" ?_).1]
    rw [linBlocks_names, resCalls, linBlks_append, names, List.map_append]
    exact List.mem_append_right _ (List.mem_map.2 ⟨_, hmemP, rfl⟩)
  have hjR : m.lin.i1 "Rreq" = some (start (linBlocks (resCalls E c' d W)) "Rreq") := by
    rw [(Rep.run hm).lin, (hln "Rreq" ?_).1]
    rw [linBlocks_names, resCalls, linBlks_append, names, List.map_append]
    exact List.mem_append_right _ (List.mem_map.2 ⟨_, hmemR, rfl⟩)
  have hget : m.getv (some "R") = some (List.replicate (igOf srt c r).length 0, List.replicate (igOf srt c r).length ((0 : ℝ) : EReal), List.ofFn W.hi) := by
    have := (C40_getv _ m hm g.varNames).2.1 ("R", W.vars) (by
      rw [varVals_append]
      exact List.mem_append_right _ (res_mem_R d (fun k : Fin c'.gen.length => costAt c' k) (angOps E c'.bus.length c') W))
    rw [this]
    have hl : (igOf srt c r).length ≠ 0 := hpos.ne'
    simp only [RData.vars]
    rw [orDefault_ne (l := List.replicate (igOf srt c r).length ((0 : ℝ) : EReal)) (by simpa using hl), orDefault_ne (l := List.ofFn W.hi) (by simpa using hl)]
    rfl
  obtain ⟨mm, hcomp⟩ := res_computeCost d (fun k : Fin c'.gen.length => costAt c' k) _ (angOps_varBlocks E c') (ang_costBlks E _ c') W m hm g hpos hm' s.x
  unfold resResults at hout
  rw [if_neg hig0] at hout
  simp only [hzi, extZones_eq hs c r hv, hget, hidx, hjP, hjR, hcomp, Option.bind_eq_bind, Option.bind_some, Option.bind_eq_some_iff] at hout
  obtain ⟨R, hR, Rmin, hRmin, Rmax, hRmax, ml, hml, mu, hmu, mP, hmP, prc, hprc, e⟩ := hout
  injection e with e
  have hrange : ∀ G : ℕ → ℝ, (List.range (igOf srt c r).length).map G = List.ofFn fun k : Fin (igOf srt c r).length => G k := by
    intro G
    apply List.ext_getElem
    · simp
    · intro i a b; simp
  have sp : ∀ {α : Type} [Zero α] (l : List α) (w : Fin (igOf srt c r).length → α) (L : List α), l = List.ofFn w →
      spread (orderOf srt c) c'.gen.length (igOf srt c r) l = some L → Spread srt c r L w := by
    intro α _ l w L hl hL
    obtain ⟨L', h1, h2⟩ := spread_at hs c r l w hl
    rw [← hlen, hL] at h1
    cases h1
    exact h2
  obtain ⟨L, hL1, hL2, hL3⟩ := prices_eq c r hv d.base ((List.range r.zones.length).map fun z => s.mu_l (start (linBlocks (resCalls E c' d W)) "Rreq" + z)) (by simp)
  have hprc' : prices d.base c.gen.length (Reserves.igr c.gen.length r) r.zones
    ((List.range r.zones.length).map fun z => s.mu_l (start (linBlocks (resCalls E c' d W)) "Rreq" + z)) = some prc := hprc
  rw [hL1] at hprc'
  cases hprc'
  have hrowk : ∀ k, gp (W.jp k) = resRow srt c r k := by
    intro k
    have h1 := hgp (W.jp k)
    have h2 := resRow_get c r k
    have e : ((W.jp k : Fin c'.gen.length) : ℕ) = (igOf srt c r)[k] := rfl
    rw [e, h2] at h1
    exact (Option.some.inj h1).symm
  have hdata : ∀ k g0, c.gen[resRow srt c r k]? = some g0 → c'.gen[W.jp k].data = g0.data := by
    intro k g0 hg0
    obtain ⟨g1, h1, -, h2, -⟩ := hgen (W.jp k)
    rw [hrowk, hg0] at h1
    cases h1
    exact h2
  refine ⟨c', d, m, s, P, _, bp, gp, lp, W, ⟨⟨B, rfl, hval, rfl, rfl, rfl, rfl, ?_, hbr⟩, hm, g, hP2, ?_, rfl, hpos, hrowk, ?_, ?_, fun z k => rfl, fun z => rfl, fun k => rfl, ?_, ?_, ?_,
    ?_, ?_, ?_, ?_, ?_, ?_⟩⟩
  · obtain ⟨gc, hgc⟩ := Option.isSome_iff_exists.1 hgc
    obtain ⟨gc', h1, h2⟩ := hco gc hgc
    intro k
    simp only [costAt, hgc, h1, Option.getD_some, List.getD_eq_getElem?_getD, h2]
  · simp only [resSetup, hpar, dif_pos hw] at hs'
    exact hs'
  · intro k g0 hg0
    have := hdata k g0 hg0
    show resLimit ramp10 _ r _ (c'.gen[W.jp k]).data.rest (c'.gen[W.jp k]).data.PMAX / _ = _
    rw [this]
  · intro k g0 hg0
    have := hdata k g0 hg0
    show (c'.gen[W.jp k]).data.PMAX / _ = _
    rw [this]
  · rw [← e]; exact sp _ _ _ (hrange fun k => s.x (iROf c' + k) * d.base) hR
  · rw [← e]
    refine sp _ _ _ ?_ hRmin
    rw [List.map_replicate, EReal.coe_zero, zero_mul]
    apply List.ext_getElem
    · simp
    · intro i a b; simp
  · rw [← e]; exact sp _ _ _ List.map_ofFn hRmax
  · rw [← e]; exact sp _ _ _ (hrange fun k => s.lower (iROf c' + k) / d.base) hml
  · rw [← e]; exact sp _ _ _ (hrange fun k => s.upper (iROf c' + k) / d.base) hmu
  · rw [← e]; exact sp _ _ _ (hrange fun k => s.mu_u (start (linBlocks (resCalls E c' d W)) "Pg_plus_R" + k) / d.base) hmP
  · rw [← e]
  · rw [← e]; exact ⟨hL2, hL3⟩
  · rw [← e]

end

end

end Verif.Opf
