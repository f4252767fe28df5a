import Verif.Cpf.TableFlow

/-!
# C102: the tables and the curve returned by `runcpf`
-/

open Matrix ComplexConjugate

namespace Verif.Cpf

open Verif.Opf (Tables readCase Upd write Off zeroOff Bridge BusD GenD BrD acBalanceP acBalanceQ rowPhasor)
open Verif.Index (BusRow GenRow BranchRow IsArgsort WF GenInService BranchInService Connected posOf)
open Verif.Runpf (Case Out readPf initialV pfOff PfBridge HasGenOn IsControlled IsSlack runAC Guarantee Writes solution genOnAt)
open Verif.Network Verif.Solvers Verif.Pfsoln

section
variable {srt : List ℕ → List ℕ} {baseB baseT : ℝ} {o : CpfOpt} {lin : ∀ {n : ℕ}, LinSolver (Fin n)} {cb ct : Index.Case Tables} {fuel : ℕ} {ret : CpfRet}

theorem run_steps (h : runcpfTables srt baseB baseT o lin cb ct fuel = some (some ret)) :
    ∃ (b c : Index.Case Tables) (p : Case (Fin b.bus.length) (Fin b.branch.length) b.gen.length) (t : Target b.bus.length b.gen.length c.branch.length)
      (hn : c.bus.length = b.bus.length) (hm : c.gen.length = b.gen.length) (r : Report (Fin b.bus.length)),
      Index.ext2int srt cb = some b ∧ Index.ext2int srt ct = some c ∧ readPf baseB b = some p ∧ readTarget baseT c b.bus.length b.gen.length = some t ∧
      traceFrom o (netOf baseT p t lin o.tol o.maxIt) (initialV p) fuel = some (some r) ∧ cpfTables o baseT p c t hn hm r = some ret.tables ∧
      curveOf cb.bus.length c r = some ret.curve ∧ ret.success = r.success ∧ ret.iterations = r.iterations := by
  unfold runcpfTables at h
  simp only [Option.bind_eq_bind, Option.bind_eq_some_iff] at h
  obtain ⟨b, hb, p, hp, c, hc, t, ht, r, hr, h⟩ := h
  cases r with
  | none => simp at h
  | some r =>
    dsimp only at h
    split_ifs at h with hl
    simp only [Option.bind_eq_some_iff] at h
    obtain ⟨T, hT, cv, hcv, h⟩ := h
    injection h with h
    injection h with h
    subst h
    exact ⟨b, c, p, t, hl.1, hl.2, r, hb, hc, hp, ht, hr, hT, hcv, rfl, rfl⟩

/-- Any table written with the columns of the continuation power flow. -/
theorem targetWith_of (hs : IsArgsort srt) (hwt : WF ct) {c e : Index.Case Tables} (hec : Index.ext2int srt ct = some c) {base : ℝ}
    {d : Opf.Case c.bus.length c.gen.length c.branch.length} (hd : readCase base c = some d) {nb ng : ℕ} (hn : c.bus.length = nb) (hm : c.gen.length = ng)
    (load : Fin nb → Bus) (s : Out (Fin nb) (Fin c.branch.length) ng) (he : Index.int2ext (write c (cpfUpd hn hm load s)) = some e) : TargetWith ct (zeroOff pfOff e) := by
  obtain ⟨bp, gp, lp, B⟩ := Opf.bridge hs hwt hec hd _ he pfOff
  obtain ⟨h1, h2, h3, h4, h5⟩ := B.kept (fb := cpfBusInput) (fg := Runpf.pfGenInput) (fl := Runpf.pfBranchInput) (fun _ _ => rfl) (fun _ _ => rfl) (fun _ _ => rfl)
    (fun _ => ⟨rfl, rfl, rfl⟩) (fun _ => ⟨rfl, rfl, rfl, rfl, rfl⟩)
  exact ⟨h1, h2, h3, h4, h5, B.busOff⟩

/-- **C102, inputs.** Whatever the two cases and whatever the outcome: if the returned tables are finite they are the target case with other demands, outputs,
voltages and flows; results of equipment out of service are zero. -/
theorem C102_inputs (hs : IsArgsort srt) (hwt : WF ct) (h : runcpfTables srt baseB baseT o lin cb ct fuel = some (some ret)) {R : Index.Case Tables}
    (hR : ret.tables = some R) : TargetWith ct R := by
  obtain ⟨b, c, p, t, hn, hm, r, heb, hec, hp, ht, hr, hT, -⟩ := run_steps h
  obtain ⟨d, _, _, hd, -⟩ := readTarget_eq ht
  rw [hR] at hT
  unfold cpfTables at hT
  split at hT
  · simp only [Option.bind_eq_bind, Option.bind_eq_some_iff] at hT
    obtain ⟨s, -, e, he, hT⟩ := hT
    injection hT with hT
    injection hT with hT
    rw [← hT]
    exact targetWith_of hs hwt hec hd hn hm _ s he
  · simp at hT

end

section
variable {srt : List ℕ → List ℕ} {base : ℝ} {o : CpfOpt} {lin : ∀ {n : ℕ}, LinSolver (Fin n)} {cb ct : Index.Case Tables} {fuel : ℕ} {ret : CpfRet}

theorem mapM_at {α β : Type} {f : α → Option β} : ∀ {xs : List α} {ys : List β}, xs.mapM f = some ys → ys.length = xs.length ∧
    ∀ (i : ℕ) x, xs[i]? = some x → ∃ y, ys[i]? = some y ∧ f x = some y
  | [], ys, h => by
    have : ys = [] := by simpa using h.symm
    subst this
    exact ⟨rfl, by simp⟩
  | x :: xs, ys, h => by
    rw [List.mapM_cons] at h
    simp only [Option.bind_eq_bind, Option.bind_eq_some_iff, Option.pure_def] at h
    obtain ⟨y, hy, zs, hz, h⟩ := h
    injection h with h
    subst h
    obtain ⟨h1, h2⟩ := mapM_at hz
    refine ⟨by simp [h1], fun i a ha => ?_⟩
    cases i with
    | zero =>
      simp only [List.getElem?_cons_zero, Option.some.injEq] at ha ⊢
      subst ha
      exact ⟨y, rfl, hy⟩
    | succ i =>
      simp only [List.getElem?_cons_succ] at ha ⊢
      exact h2 i a ha

/-- The tables made from a corrected point of the curve. -/
theorem point_tables (hs : IsArgsort srt) {b c : Index.Case Tables} (hwb : WF cb) (hwt : WF ct) (hN : SameNet cb ct) (hbase : 0 < base)
    (heb : Index.ext2int srt cb = some b) (hec : Index.ext2int srt ct = some c) {lam EPS tol : ℝ}
    {p : Case (Fin b.bus.length) (Fin b.branch.length) b.gen.length} (hp : readPf base b = some p) {t : Target b.bus.length b.gen.length c.branch.length}
    (ht : readTarget base c b.bus.length b.gen.length = some t) (hn : c.bus.length = b.bus.length) (hm : c.gen.length = b.gen.length)
    {V0 V : Fin b.bus.length → ℂ} {s : Out (Fin b.bus.length) (Fin c.branch.length) b.gen.length} (h0 : initialV p = some V0) (hK : Kept p.pv p.pq V0 V)
    (hC : OnCurve (Ybus p.baseMVA p.bus p.branch) (makeSbus p.baseMVA p.bus fun g => (p.gen g).toGen)
      (fun b => makeSbus base t.bus (fun g => (t.gen g).toGen) b - makeSbus p.baseMVA p.bus (fun g => (p.gen g).toGen) b) p.pv p.pq tol (V, lam))
    (ho : cpfOut EPS base p t V lam true = some s) {e : Index.Case Tables} (he : Index.int2ext (write c (cpfUpd hn hm (loadAt p.bus t lam) s)) = some e) :
    TargetWith ct (zeroOff pfOff e) ∧ FlowAt tol EPS base lam cb ct (zeroOff pfOff e) ∧
      ∀ col, column cb.bus.length c V = some col → ColumnOf (zeroOff pfOff e) col := by
  obtain ⟨d, _, _, hd, -⟩ := readTarget_eq ht
  obtain ⟨pX, uX, sX, bp, gp, lp, solve, BX, W, hr, hG, hsucc, hV, hbp⟩ := cpf_point hs hwb hwt hN heb hec hp ht hn hm h0 hK hC ho he
  have hT := targetWith_of hs hwt hec hd hn hm _ s he
  refine ⟨hT, flowAt_of hwt hN hbase BX W hr hG hsucc, fun col hcol => ?_⟩
  refine column_of hs hwb hwt hN heb hec (map_len hT.bus) ?_ hbp (fun k => ?_) hcol
  · intro i x t0 hx ht0
    obtain ⟨y, hy, e⟩ := map_at hT.bus ht0
    rw [hx] at hy; cases hy
    have := congrArg BusRow.typ e
    simpa [cpfBusInput, Runpf.pfBusInput] using this
  · rw [← hV]
    exact phasor_of BX W hr k

theorem trace_success {nb : ℕ} {n : Net (Fin nb)} {V0 : Option (Fin nb → ℂ)} {r : Report (Fin nb)} (h : traceFrom o n V0 fuel = some (some r)) (hs : r.success = true) :
    ∃ W, V0 = some W ∧ runcpf n o.stopAt o.adapt o.ctl W fuel = some (some r) := by
  unfold traceFrom at h
  split at h
  · exact ⟨_, rfl, h⟩
  · split_ifs at h
    simp only [Option.some.injEq] at h
    rw [← h] at hs
    cases hs

variable (hs : IsArgsort srt) (hwb : WF cb) (hwt : WF ct) (hN : SameNet cb ct) (hbase : 0 < base)
  (h : runcpfTables srt base base o lin cb ct fuel = some (some ret)) (hok : ret.success = true)

include hs hwb hwt hN hbase h hok

/-- **C102, tables.** A successful continuation power flow between two cases on the same network returns finite tables and a curve; the tables are the target case
at the last reported `lam`, between base and target, solved as a power flow with the set points of the base case, and the last corrected voltages of the curve are
those of the tables. -/
theorem C102 : ∃ R cv lam col, ret.tables = some R ∧ ret.curve = some cv ∧ cv.lamc.getLast? = some lam ∧ cv.Vc.getLast? = some col ∧
    TargetWith ct R ∧ FlowAt o.tol o.EPS base lam cb ct R ∧ ColumnOf R col := by
  obtain ⟨b, c, p, t, hn, hm, r, heb, hec, hp, ht, hr, hT, hcv, hsucc, hit⟩ := run_steps h
  have hrs : r.success = true := hsucc ▸ hok
  obtain ⟨V0, h0, hrun⟩ := trace_success hr hrs
  obtain ⟨Vb, V, lam, e, m, hlen, hpos, hfirst, hlast, hec', hrV, hrl, hcurve, -⟩ := C63 _ _ _ _ _ _ _ hrun hrs
  have hK := (C63_controlled _ _ _ _ _ _ _ hrun hrs).1 V hrV
  obtain ⟨k, hk⟩ : ∃ k, r.iterations = k + 1 := ⟨r.iterations - 1, by omega⟩
  have hkx : k < r.hist.length := by omega
  have hC := (hcurve k r.hist[k] e (List.getElem?_eq_getElem hkx) (hk ▸ hlast)).1
  rw [hec'] at hC
  unfold cpfTables at hT
  rw [hrV, hrl] at hT
  simp only [Option.bind_eq_bind, Option.bind_eq_some_iff, hrs] at hT
  obtain ⟨s, hs', q, hq, hT⟩ := hT
  injection hT with hT
  obtain ⟨hTW, hF, hcol⟩ := point_tables hs hwb hwt hN hbase heb hec hp ht hn hm h0 hK hC hs' hq
  unfold curveOf at hcv
  rw [if_pos hrs] at hcv
  simp only [Option.bind_eq_bind, Option.bind_eq_some_iff] at hcv
  obtain ⟨Vp, -, Vc, hVc, hcv⟩ := hcv
  injection hcv with hcv
  obtain ⟨hl2, hat⟩ := mapM_at hVc
  obtain ⟨col, hcol1, hcol2⟩ := hat _ e hlast
  rw [hec'] at hcol2
  refine ⟨_, _, lam, col, hT.symm, hcv.symm, ?_, ?_, hTW, hF, hcol col hcol2⟩
  · rw [List.getLast?_eq_getElem?, List.length_map, List.getElem?_map, hlen, Nat.add_sub_cancel, hlast]
    simp [hec']
  · rw [List.getLast?_eq_getElem?, hl2, hlen, Nat.add_sub_cancel]
    exact hcol1

/-- **C102, curve.** The curve has a point for the base case (`lam` 0) and one per iteration; every corrected point after the first is a power flow solution at its
`lam`: its voltages, placed in the rows of the caller, are those of tables that solve the case at that loading. The largest `lam` is reported. -/
theorem C102_curve : ∃ cv, ret.curve = some cv ∧ cv.lamc.length = ret.iterations + 1 ∧ cv.Vc.length = ret.iterations + 1 ∧
    cv.lamp.length = ret.iterations + 1 ∧ cv.Vp.length = ret.iterations + 1 ∧ 0 < ret.iterations ∧ cv.lamc[0]? = some 0 ∧
    (∀ (j : ℕ) lam col, 0 < j → cv.lamc[j]? = some lam → cv.Vc[j]? = some col → ∃ R, TargetWith ct R ∧ FlowAt o.tol o.EPS base lam cb ct R ∧ ColumnOf R col) ∧
    ∃ m, cv.maxLam = some m ∧ m ∈ cv.lamc ∧ ∀ x ∈ cv.lamc, x ≤ m := by
  obtain ⟨b, c, p, t, hn, hm, r, heb, hec, hp, ht, hr, hT, hcv, hsucc, hit⟩ := run_steps h
  have hrs : r.success = true := hsucc ▸ hok
  obtain ⟨V0, h0, hrun⟩ := trace_success hr hrs
  obtain ⟨Vb, V, lam, e, m, hlen, hpos, hfirst, hlast, hec', hrV, hrl, hcurve, hm1, hm2, x, hx, hxm⟩ := C63 _ _ _ _ _ _ _ hrun hrs
  have hK := (C63_controlled _ _ _ _ _ _ _ hrun hrs).2
  unfold curveOf at hcv
  rw [if_pos hrs] at hcv
  simp only [Option.bind_eq_bind, Option.bind_eq_some_iff] at hcv
  obtain ⟨Vp, hVp, Vc, hVc, hcv⟩ := hcv
  injection hcv with hcv
  obtain ⟨hl2, hat⟩ := mapM_at hVc
  obtain ⟨hl3, -⟩ := mapM_at hVp
  rw [hit]
  refine ⟨_, hcv.symm, by simp [hlen], by rw [hl2, hlen], by simp [hlen], by rw [hl3, hlen], hpos, ?_, ?_, m, hm1, ?_, ?_⟩
  · simp [List.getElem?_map, hfirst]
  · intro j lam' col hj hlj hcj
    dsimp only at hlj hcj
    rw [List.getElem?_map, Option.map_eq_some_iff] at hlj
    obtain ⟨y, hy, rfl⟩ := hlj
    obtain ⟨col', h1, h2⟩ := hat j y hy
    rw [hcj] at h1; cases h1
    obtain ⟨k, rfl⟩ : ∃ k, j = k + 1 := ⟨j - 1, by omega⟩
    have hyl := (List.getElem?_eq_some_iff.1 hy).1
    have hkx : k < r.hist.length := by omega
    have hC := (hcurve k r.hist[k] y (List.getElem?_eq_getElem hkx) hy).1
    obtain ⟨s, hs'⟩ := cpfOut_exists hs hwb hwt hN heb hec hp ht o.EPS y.c.1 y.c.2 true
    obtain ⟨c', dc, hec2, -, hint⟩ := Opf.bridge_exists hs base hwt
    rw [hec] at hec2; cases hec2
    obtain ⟨q, hq⟩ := hint (cpfUpd hn hm (loadAt p.bus t y.c.2) s)
    obtain ⟨hTW, hF, hcol⟩ := point_tables hs hwb hwt hN hbase heb hec hp ht hn hm h0 (hK y (List.mem_of_getElem? hy)).2 hC hs' hq
    exact ⟨_, hTW, hF, hcol col h2⟩
  · exact List.mem_map.2 ⟨x, hx, hxm⟩
  · intro z hz
    obtain ⟨w, hw, rfl⟩ := List.mem_map.1 hz
    exact hm2 w hw

end

end Verif.Cpf
