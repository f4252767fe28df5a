import Verif.Opf.RunLemmas
import Verif.Opf.AcProps

/-!
# C86: what `opf` returns, in the caller's numbering
-/

open ComplexConjugate

namespace Verif.Opf

open Verif.Index (BusRow GenRow BranchRow IsArgsort WF GenInService BranchInService Connected)
open Verif.OpfModel Verif.Pips Verif.Network

/-! ### DC -/

section dc
variable {srt : List ℕ → List ℕ} (hs : IsArgsort srt) {base : ℝ} (hb : 0 < base) {S : DcSetup} {o : Opt} {solve : AnySolver} {c : Index.Case Tables} (h : WF c)
  (hgood : ∀ c' d, Index.ext2int srt c = some c' → readCase base c' = some d → Good (dcOps d ++ S.extra d c'))
  {r : Ret} (hrun : opfDc srt base S o solve c = some r)

include hs h hrun

theorem dc_bridge : ∃ (nb ng nl : ℕ) (c' : Index.Case Tables) (d : Case nb ng nl) (m : Model) (H : Matrix (Fin m.var.total) (Fin m.var.total) ℝ)
    (C : Fin m.var.total → ℝ) (C0 : ℝ) (x0 : Fin m.var.total → ℝ) (s : DcRes nb ng nl) (p : PostMu ng nl) (bp : Fin nb → ℕ) (gp : Fin ng → ℕ) (lp : Fin nl → ℕ),
    Bridge c r.tables opfOff d (dcUpd s p) bp gp lp ∧ d.base = base ∧ OpfModel.run (dcOps d ++ S.extra d c') = some m ∧
    ((∀ c' d, Index.ext2int srt c = some c' → readCase base c' = some d → Good (dcOps d ++ S.extra d c')) → Good (dcOps d ++ S.extra d c')) ∧
    dcopfSolver d m H C C0 o solve x0 = some s ∧ r.success = s.success ∧ r.f = s.f ∧ r.tol = s.tol := by
  unfold opfDc at hrun
  simp only [Option.bind_eq_bind, Option.bind_eq_some_iff] at hrun
  obtain ⟨c', hc', d, hd, m, hm, s, hs', r1, hr, e⟩ := hrun
  injection e with e
  subst e
  obtain ⟨bp, gp, lp, B⟩ := bridge hs h hc' hd _ hr opfOff
  exact ⟨_, _, _, c', d, m, _, _, _, _, s, _, bp, gp, lp, B, readCase_base hd, hm, fun hg => hg c' d hc' hd, hs', rfl, rfl, rfl⟩

include hb hgood in
/-- **C86 (DC).**  In the tables returned by a successful DC optimal power flow, in the caller's own numbering and row order: at every connected bus the
generation, demand, shunt and flows over *all* rows of the tables balance; every generator in service is within its limits; the flow of every branch in service
is within its rating; reference angles are kept. -/
theorem C86_dc (hok : r.success = true) :
    (∀ b ∈ r.tables.bus, b.typ ≠ 4 → |dcBalance r.tables b| < r.tol * base) ∧
    (∀ g ∈ r.tables.gen, GenInService r.tables g →
      (g.data.PMAX / base < 10 ^ 10 → g.data.PG < g.data.PMAX + r.tol * base) ∧ (-10 ^ 10 < g.data.PMIN / base → g.data.PMIN - r.tol * base < g.data.PG)) ∧
    (∀ l ∈ r.tables.branch, BranchInService r.tables l → l.data.rateA ≠ 0 → l.data.rateA < 10 ^ 10 →
      l.data.rateA / base + |Pfinj (fun _ : Unit => asBranch l) ()| < 10 ^ 10 →
      |l.data.PF| < l.data.rateA + r.tol * base ∧ |l.data.PT| < l.data.rateA + r.tol * base) ∧
    (∀ (i : ℕ) b b0, r.tables.bus[i]? = some b → c.bus[i]? = some b0 → b.typ = 3 → |b.data.VA - b0.data.VA| < r.tol * (180 / Real.pi)) := by
  obtain ⟨nb, ng, nl, c', d, m, H, C, C0, x0, s, p, bp, gp, lp, B, hbase, hm, hg, hsol, e1, e2, e3⟩ := dc_bridge hs h hrun
  have g := hg hgood
  have hbd : 0 < d.base := by rw [hbase]; exact hb
  rw [e1] at hok
  rw [e3, ← hbase]
  refine ⟨?_, ?_, ?_, ?_⟩
  · intro b hbm ht
    obtain ⟨k, b0, h0, rfl, hbus, -⟩ := B.busRow hbm ht
    have := C77_balance d _ m hm g hbd H C C0 o solve x0 s hsol hok k
    have hG := B.genSum h h0 GenD.PG s.PG (fun _ _ => rfl) (fun _ => rfl)
    have hF := (B.brSum h h0 BrD.PF s.PF (fun _ _ => rfl) (fun _ => rfl)).1
    have hT := (B.brSum h h0 BrD.PT s.PT (fun _ _ => rfl) (fun _ => rfl)).2
    unfold mismatchP at this
    rw [hbus] at this
    unfold dcBalance
    rw [hG, hF, hT]
    exact this
  · intro g' hgm hon
    obtain ⟨k, g0, h0, rfl, -, -, h1, h2, -⟩ := B.genRow hgm hon
    have := C77_dispatch d _ m hm g hbd H C C0 o solve x0 s hsol hok k
    rw [h1, h2] at this
    exact this
  · intro l hlm hon hr1 hr2 hr3
    obtain ⟨k, l0, h0, rfl, -, -, -, hx, -, htap, hshift, hstat, hrate⟩ := B.brRow hlm hon
    have := C77_flow_limit d _ m hm g hbd H C C0 o solve x0 s hsol hok k (by rw [hrate]; exact ⟨hr1, hr2⟩) (by
      rw [hrate]
      have e : Pfinj d.branch k = Pfinj (fun _ : Unit => asBranch { l0 with data := (dcUpd s p).branch k l0.data }) () := by
        simp only [Pfinj, bdc, tapRatio, asBranch, hx, htap, hshift, hstat, dcUpd]
        congr
      rw [e]
      exact hr3)
    rw [hrate] at this
    exact this
  · intro i b b0 h1 h2 ht
    obtain ⟨b1, h3, -, h5, h6, -⟩ := B.bus_at h1
    rw [h2] at h3; cases h3
    obtain ⟨k, hk, rfl⟩ := h6 (by rw [← h5, ht]; decide)
    obtain ⟨b2, h7, -, -, -, h8, h9, -⟩ := B.bus k
    rw [hk, h2] at h7; cases h7
    have := C77_reference d _ m hm g H C C0 o solve x0 s hsol hok k (by rw [h8]; simpa using ht)
    rw [h9] at this
    exact this

omit hb in
include hgood in
/-- **C86 (DC flows).**  Successful or not: the flow of every branch in service is given by the DC branch equation at the returned angles of its end buses, there are no
losses and no reactive flows. -/
theorem C86_dc_flows (hst : ∀ l ∈ c.branch, l.status = 0 ∨ l.status = 1) (θ : ℕ → ℝ) (hθ : ∀ b ∈ r.tables.bus, θ b.num = b.data.VA * (Real.pi / 180)) :
    ∀ l ∈ r.tables.branch, BranchInService r.tables l →
      l.data.PF = base * dcFlow (asBranch l) θ ∧ l.data.PT = -l.data.PF ∧ l.data.QF = 0 ∧ l.data.QT = 0 := by
  obtain ⟨nb, ng, nl, c', d, m, H, C, C0, x0, s, p, bp, gp, lp, B, hbase, hm, hg, hsol, e1, e2, e3⟩ := dc_bridge hs h hrun
  have g := hg hgood
  intro l hlm hon
  have hstat' : ∀ k, (d.branch k).stat = 0 ∨ (d.branch k).stat = 1 := by
    intro k
    obtain ⟨l0, h1, -, -, -, -, -, -, -, -, -, h2, -⟩ := B.branch k
    rw [h2]
    rcases hst l0 (List.mem_of_getElem? h1) with h3 | h3 <;> simp [h3]
  obtain ⟨k, l0, h0, rfl, ⟨bf, hbf, hnf⟩, ⟨bt, hbt, hnt⟩, -, hx, -, htap, hshift, hstat, -⟩ := B.brRow hlm hon
  have := C77_flows d _ m hm g H C C0 o solve x0 s hsol hstat' k
  have ang : ∀ (j : Fin nb) b0 n, c.bus[bp j]? = some b0 → b0.num = n → s.VA j * (Real.pi / 180) = θ n := by
    rintro j b0 n hj rfl
    obtain ⟨b1, h1, -, h2, -⟩ := B.bus j
    rw [hj] at h1; cases h1
    exact (hθ _ (List.mem_of_getElem? h2)).symm
  refine ⟨?_, this.2⟩
  have e := this.1
  rw [hbase] at e
  refine e.trans ?_
  congr 1
  simp only [dcFlow, asBranch, hstat, hx, htap, hshift, ang _ _ _ hbf hnf, ang _ _ _ hbt hnt, dcUpd]
  congr

/-- **C86 (DC, inputs).**  Whatever the outcome, the rows and their order, the bus numbers, types, statuses, demands, limits, impedances and every other input column come back
unchanged, the case has the same costs and user matrices, and the outputs and flows of equipment out of service are zero. -/
theorem C86_dc_inputs :
    r.tables.bus.map busInput = c.bus.map busInput ∧ r.tables.gen.map genInput = c.gen.map genInput ∧ r.tables.branch.map branchInput = c.branch.map branchInput ∧
    (∀ g ∈ r.tables.gen, ¬ GenInService r.tables g → g.data.PG = 0 ∧ g.data.QG = 0) ∧
    (∀ l ∈ r.tables.branch, ¬ BranchInService r.tables l → l.data.PF = 0 ∧ l.data.QF = 0 ∧ l.data.PT = 0 ∧ l.data.QT = 0) := by
  obtain ⟨nb, ng, nl, c', d, m, H, C, C0, x0, s, p, bp, gp, lp, B, -⟩ := dc_bridge hs h hrun
  exact B.kept (fun _ _ => rfl) (fun _ _ => rfl) (fun _ _ => rfl) (fun _ => ⟨rfl, rfl, rfl⟩) (fun _ => ⟨rfl, rfl, rfl, rfl, rfl⟩)

/-- **C86 (DC, untouched).**  A DC optimal power flow leaves voltage magnitudes, voltage set points and the reactive outputs of generators in service alone. -/
theorem C86_dc_untouched :
    r.tables.bus.map (·.data.VM) = c.bus.map (·.data.VM) ∧ r.tables.gen.map (·.data.VG) = c.gen.map (·.data.VG) ∧
    ∀ (j : ℕ) g g0, r.tables.gen[j]? = some g → c.gen[j]? = some g0 → GenInService c g0 → g.data.QG = g0.data.QG := by
  obtain ⟨nb, ng, nl, c', d, m, H, C, C0, x0, s, p, bp, gp, lp, B, -⟩ := dc_bridge hs h hrun
  obtain ⟨h1, h2, -⟩ := B.kept (fb := (·.data.VM)) (fg := (·.data.VG)) (fl := branchInput) (fun _ _ => rfl) (fun _ _ => rfl) (fun _ _ => rfl)
    (fun _ => ⟨rfl, rfl, rfl⟩) (fun _ => ⟨rfl, rfl, rfl, rfl, rfl⟩)
  refine ⟨h1, h2, fun j g g0 hg hg0 hin => ?_⟩
  obtain ⟨k, rfl⟩ := B.genOn j g0 hg0 hin
  obtain ⟨g', h3, -, h4, -⟩ := B.gen k
  rw [hg0] at h3; cases h3
  rw [hg] at h4; cases h4
  rfl

end dc

/-! ### AC -/

section ac
variable {srt : List ℕ → List ℕ} (hs : IsArgsort srt) {base : ℝ} (hb : 0 < base) {lim : Int} {S : AcSetup} {o : Opt} {solve : AnySolver}
  {c : Index.Case Tables} (h : WF c)
  (hgood : ∀ c' d, Index.ext2int srt c = some c' → readCase base c' = some d →
    Good (acOps d ++ S.extra d c') ∧ (names (nlnBlocks (acOps d ++ S.extra d c'))).Nodup)
  {r : Ret} (hrun : opfAc srt base lim S o solve c = some r)

include hs h hrun

theorem ac_bridge : ∃ (nb ng nl : ℕ) (c' : Index.Case Tables) (d : Case nb ng nl) (m : Model) (cost : OpfCost.AcData)
    (x0 : Fin m.var.total → ℝ) (s : AcRes nb ng nl) (p : PostMu ng nl) (bp : Fin nb → ℕ) (gp : Fin ng → ℕ) (lp : Fin nl → ℕ),
    Bridge c r.tables opfOff d (acUpd s p) bp gp lp ∧ d.base = base ∧ OpfModel.run (acOps d ++ S.extra d c') = some m ∧
    ((∀ c' d, Index.ext2int srt c = some c' → readCase base c' = some d → Good (acOps d ++ S.extra d c') ∧
      (names (nlnBlocks (acOps d ++ S.extra d c'))).Nodup) → Good (acOps d ++ S.extra d c') ∧ (names (nlnBlocks (acOps d ++ S.extra d c'))).Nodup) ∧
    pipsopfSolver d lim cost m o solve x0 = some s ∧ r.success = s.success ∧ r.f = s.f ∧ r.tol = s.tol := by
  unfold opfAc at hrun
  simp only [Option.bind_eq_bind, Option.bind_eq_some_iff] at hrun
  obtain ⟨c', hc', d, hd, m, hm, s, hs', r1, hr, e⟩ := hrun
  injection e with e
  subst e
  obtain ⟨bp, gp, lp, B⟩ := bridge hs h hc' hd _ hr opfOff
  exact ⟨_, _, _, c', d, m, _, _, s, _, bp, gp, lp, B, readCase_base hd, hm, fun hg => hg c' d hc' hd, hs', rfl, rfl, rfl⟩

include hb hgood in
/-- **C86 (AC).**  In the tables returned by a successful AC optimal power flow, in the caller's own numbering and row order: at every connected bus active and
reactive generation, demand, shunts and flows over *all* rows balance; generators in service and voltage magnitudes are within their limits, the voltage set point
of a generator is the voltage of its bus; the flows of branches in service are within their ratings at both ends (apparent power; active power for
`OPF_FLOW_LIM` 1; current for 2); reference angles are kept. -/
theorem C86_ac (hok : r.success = true) :
    (∀ b ∈ r.tables.bus, b.typ ≠ 4 → |acBalanceP r.tables b| < r.tol * base ∧ |acBalanceQ r.tables b| < r.tol * base ∧
      (b.data.VMAX < 10 ^ 10 → b.data.VM < b.data.VMAX + r.tol) ∧ (-10 ^ 10 < b.data.VMIN → b.data.VMIN - r.tol < b.data.VM)) ∧
    (∀ g ∈ r.tables.gen, GenInService r.tables g →
      (g.data.PMAX / base < 10 ^ 10 → g.data.PG < g.data.PMAX + r.tol * base) ∧ (-10 ^ 10 < g.data.PMIN / base → g.data.PMIN - r.tol * base < g.data.PG) ∧
      (g.data.QMAX / base < 10 ^ 10 → g.data.QG < g.data.QMAX + r.tol * base) ∧ (-10 ^ 10 < g.data.QMIN / base → g.data.QMIN - r.tol * base < g.data.QG) ∧
      (∀ b ∈ r.tables.bus, b.num = g.bus → g.data.VG = b.data.VM)) ∧
    (∀ l ∈ r.tables.branch, BranchInService r.tables l → l.data.rateA ≠ 0 → l.data.rateA < 10 ^ 10 → ∀ vf vt : ℝ,
      (∀ b ∈ r.tables.bus, (b.num = l.f → b.data.VM = vf) ∧ (b.num = l.t → b.data.VM = vt)) →
      (lim ≠ 1 → lim ≠ 2 → l.data.PF ^ 2 + l.data.QF ^ 2 < l.data.rateA ^ 2 + r.tol * base ^ 2 ∧ l.data.PT ^ 2 + l.data.QT ^ 2 < l.data.rateA ^ 2 + r.tol * base ^ 2) ∧
      (lim = 1 → l.data.PF ^ 2 < l.data.rateA ^ 2 + r.tol * base ^ 2 ∧ l.data.PT ^ 2 < l.data.rateA ^ 2 + r.tol * base ^ 2) ∧
      (lim = 2 → l.data.PF ^ 2 + l.data.QF ^ 2 ≤ vf ^ 2 * (l.data.rateA ^ 2 + r.tol * base ^ 2) ∧
        l.data.PT ^ 2 + l.data.QT ^ 2 ≤ vt ^ 2 * (l.data.rateA ^ 2 + r.tol * base ^ 2))) ∧
    (∀ (i : ℕ) b b0, r.tables.bus[i]? = some b → c.bus[i]? = some b0 → b.typ = 3 → |b.data.VA - b0.data.VA| < r.tol * (180 / Real.pi)) := by
  obtain ⟨nb, ng, nl, c', d, m, cost, x0, s, p, bp, gp, lp, B, hbase, hm, hg, hsol, e1, e2, e3⟩ := ac_bridge hs h hrun
  obtain ⟨g, hn⟩ := hg hgood
  have hbd : 0 < d.base := by rw [hbase]; exact hb
  rw [e1] at hok
  rw [e3, ← hbase]
  obtain ⟨lP, lQ, lV, lG⟩ := C79_limits d _ m hm g hn hbd lim cost o solve x0 s hsol hok
  have vmOf : ∀ (j : Fin nb) b0 (b : BusRow BusD), c.bus[bp j]? = some b0 → b ∈ r.tables.bus → b.num = b0.num → b.data.VM = s.VM j := by
    intro j b0 b hj hbm hnum
    rw [B.busOf hbm j hj hnum h]
    rfl
  refine ⟨?_, ?_, ?_, ?_⟩
  · intro b hbm ht
    obtain ⟨k, b0, h0, rfl, hbus, -, -, hlo, hhi⟩ := B.busRow hbm ht
    have hbal := C79_balance d _ m hm g hn hbd lim cost o solve x0 s hsol hok k
    have hall : ∀ w : Fin ng → ℝ, ∑ p with (d.gen p).stat > 0 ∧ (d.gen p).bus = k, w p = ∑ p with (d.gen p).bus = k, w p := by
      intro w
      refine Finset.sum_congr (Finset.filter_congr fun p _ => ?_) fun _ _ => rfl
      obtain ⟨g0, -, hin, -, -, hst, -⟩ := B.gen p
      have : (d.gen p).stat > 0 := by rw [hst]; exact_mod_cast hin.1
      simp [this]
    unfold acMismatchP acMismatchQ at hbal
    rw [hbus, hall, hall] at hbal
    refine ⟨?_, ?_, ?_, ?_⟩
    · unfold acBalanceP
      rw [B.genSum h h0 GenD.PG s.PG (fun _ _ => rfl) (fun _ => rfl), (B.brSum h h0 BrD.PF s.PF (fun _ _ => rfl) (fun _ => rfl)).1,
        (B.brSum h h0 BrD.PT s.PT (fun _ _ => rfl) (fun _ => rfl)).2]
      exact hbal.1
    · unfold acBalanceQ
      rw [B.genSum h h0 GenD.QG s.QG (fun _ _ => rfl) (fun _ => rfl), (B.brSum h h0 BrD.QF s.QF (fun _ _ => rfl) (fun _ => rfl)).1,
        (B.brSum h h0 BrD.QT s.QT (fun _ _ => rfl) (fun _ => rfl)).2]
      exact hbal.2
    · have := (lV k).1
      rw [hhi] at this
      exact this
    · have := (lV k).2
      rw [hlo] at this
      exact this
  · intro g' hgm hon
    obtain ⟨k, g0, h0, rfl, ⟨b0, hb0, hnum⟩, -, h1, h2, h3, h4⟩ := B.genRow hgm hon
    have hP := lP k
    have hQ := lQ k
    rw [h1, h2] at hP
    rw [h3, h4] at hQ
    refine ⟨hP.1, hP.2, hQ.1, hQ.2, fun b hbm hbn => ?_⟩
    rw [vmOf _ b0 b hb0 hbm (by rw [hbn, hnum])]
    exact lG k
  · intro l hlm hon hr1 hr2 vf vt hv
    obtain ⟨k, l0, h0, rfl, ⟨bf, hbf, hnf⟩, ⟨bt, hbt, hnt⟩, -, -, -, -, -, -, hrate⟩ := B.brRow hlm hon
    have := C79_flow_limit d _ m hm g hn hbd lim cost o solve x0 s hsol hok k (by rw [hrate]; exact ⟨hr1, hr2⟩)
    obtain ⟨b1, h1, -, h2, -⟩ := B.bus (d.branch k).f
    obtain ⟨b3, h3, -, h4, -⟩ := B.bus (d.branch k).t
    rw [hbf] at h1; cases h1
    rw [hbt] at h3; cases h3
    have e1 : s.VM (d.branch k).f = vf := (hv _ (List.mem_of_getElem? h2)).1 hnf
    have e2 : s.VM (d.branch k).t = vt := (hv _ (List.mem_of_getElem? h4)).2 hnt
    rw [hrate, e1, e2] at this
    exact this
  · intro i b b0 h1 h2 ht
    obtain ⟨b1, h3, -, h5, h6, -⟩ := B.bus_at h1
    rw [h2] at h3; cases h3
    obtain ⟨k, hk, rfl⟩ := h6 (by rw [← h5, ht]; decide)
    obtain ⟨b2, h7, -, -, -, h8, h9, -⟩ := B.bus k
    rw [hk, h2] at h7; cases h7
    have := C79_reference d _ m hm g hn hbd lim cost o solve x0 s hsol hok k (by rw [h8]; simpa using ht)
    rw [h9] at this
    exact this

include hb hgood in
/-- **C86 (AC flows).**  Successful or not: the flows of every branch in service with nonzero impedance are those of the standard branch model at the returned voltages
of its end buses. -/
theorem C86_ac_flows : ∀ l ∈ r.tables.branch, BranchInService r.tables l → l.status = 1 → (l.data.r : ℂ) + Complex.I * l.data.x ≠ 0 →
    ∀ bf ∈ r.tables.bus, ∀ bt ∈ r.tables.bus, bf.num = l.f → bt.num = l.t →
      ∃ If It : ℂ, PiModel (asBranch l) (rowPhasor bf) (rowPhasor bt) If It ∧
        (⟨l.data.PF, l.data.QF⟩ : ℂ) = rowPhasor bf * conj If * base ∧ (⟨l.data.PT, l.data.QT⟩ : ℂ) = rowPhasor bt * conj It * base := by
  obtain ⟨nb, ng, nl, c', d, m, cost, x0, s, p, bp, gp, lp, B, hbase, hm, hg, hsol, e1, e2, e3⟩ := ac_bridge hs h hrun
  obtain ⟨g, hn⟩ := hg hgood
  have hbd : 0 < d.base := by rw [hbase]; exact hb
  intro l hlm hon hst hz bf hbf bt hbt hnf hnt
  obtain ⟨k, l0, h0, rfl, ⟨b1, h1, hn1⟩, ⟨b2, h2, hn2⟩, er, ex, eb, etap, eshift, estat, -⟩ := B.brRow hlm hon
  have hz' : ((d.branch k).r : ℂ) + Complex.I * (d.branch k).x ≠ 0 := by
    rw [er, ex]; exact hz
  have hst' : InService (d.branch k) := by
    unfold InService
    rw [estat, show l0.status = 1 from hst]
    norm_num
  obtain ⟨If, It, hp, h3, h4⟩ := C79_flows d _ m hm g hn hbd lim cost o solve x0 s hsol k hst' hz'
  have ef : rowPhasor bf = phasor s.VM s.VA (d.branch k).f := by
    rw [B.busOf hbf _ h1 (by rw [hnf, hn1]) h]
    rfl
  have et : rowPhasor bt = phasor s.VM s.VA (d.branch k).t := by
    rw [B.busOf hbt _ h2 (by rw [hnt, hn2]) h]
    rfl
  refine ⟨If, It, ?_, ?_, ?_⟩
  · rw [ef, et]
    unfold PiModel at hp ⊢
    have eturn : turns (asBranch { l0 with data := (acUpd s p).branch k l0.data }) = turns (d.branch k) := by
      simp only [turns, asBranch, etap, eshift, acUpd]
      congr
    rw [eturn]
    rw [er, ex, eb] at hp
    exact hp
  · rw [ef, ← hbase]; exact h3
  · rw [et, ← hbase]; exact h4

/-- **C86 (AC, inputs).**  As `C86_dc_inputs`. -/
theorem C86_ac_inputs :
    r.tables.bus.map busInput = c.bus.map busInput ∧ r.tables.gen.map genInput = c.gen.map genInput ∧ r.tables.branch.map branchInput = c.branch.map branchInput ∧
    (∀ g ∈ r.tables.gen, ¬ GenInService r.tables g → g.data.PG = 0 ∧ g.data.QG = 0) ∧
    (∀ l ∈ r.tables.branch, ¬ BranchInService r.tables l → l.data.PF = 0 ∧ l.data.QF = 0 ∧ l.data.PT = 0 ∧ l.data.QT = 0) := by
  obtain ⟨nb, ng, nl, c', d, m, cost, x0, s, p, bp, gp, lp, B, -⟩ := ac_bridge hs h hrun
  exact B.kept (fun _ _ => rfl) (fun _ _ => rfl) (fun _ _ => rfl) (fun _ => ⟨rfl, rfl, rfl⟩) (fun _ => ⟨rfl, rfl, rfl, rfl, rfl⟩)

end ac

/-! ### Runs exist -/

theorem finite_of_abs {v : ℝ} (h : |v| < 10 ^ 10) : Finite v := ⟨(abs_lt.1 h).1, (abs_lt.1 h).2⟩

theorem DcPlain.inputs {base : ℝ} {c : Index.Case Tables} (h : DcPlain base c) : DcInputs base c := by
  have hz : shiftTotal c = 0 := by
    unfold shiftTotal
    apply List.sum_eq_zero
    intro x hx
    obtain ⟨l, hl, rfl⟩ := List.mem_map.1 hx
    by_cases h1 : l.status = 1
    · rw [if_pos h1, h.shift l hl h1]; simp
    · rw [if_neg h1]
  exact ⟨h.pos, fun b hb h4 => ⟨(h.bus b hb h4).1, by rw [hz, add_zero]; exact (h.bus b hb h4).2⟩, h.gen, h.branch⟩

/-- The injections of phase shifters at one bus are no more than all of them together. -/
theorem Pbusinj_le {B L : Type} [Fintype L] [DecidableEq B] [DecidableEq L] (branch : L → Branch B) (k : B) : |Pbusinj branch k| ≤ ∑ l, |Pfinj branch l| := by
  unfold Pbusinj
  rw [Matrix.mulVec, dotProduct]
  refine (Finset.abs_sum_le_sum_abs _ _).trans (Finset.sum_le_sum fun l _ => ?_)
  rw [abs_mul]
  have : |(Cft branch).transpose k l| ≤ 1 := by
    simp only [Matrix.transpose_apply, Cft, Matrix.add_apply, coo, id]
    rw [Finset.sum_eq_single l (fun b _ hb => if_neg fun h => hb h.1) (fun h => absurd (Finset.mem_univ l) h),
      Finset.sum_eq_single l (fun b _ hb => if_neg fun h => hb h.1) (fun h => absurd (Finset.mem_univ l) h)]
    by_cases h1 : (branch l).f = k <;> by_cases h2 : (branch l).t = k <;> simp [h1, h2]
  calc _ ≤ 1 * |Pfinj branch l| := mul_le_mul_of_nonneg_right this (abs_nonneg _)
    _ = _ := one_mul _

theorem dcInputs_ok {srt : List ℕ → List ℕ} (hs : IsArgsort srt) {base : ℝ} {c : Index.Case Tables} (h : WF c) (hin : DcInputs base c)
    {c' : Index.Case Tables} {d : Case c'.bus.length c'.gen.length c'.branch.length} (he : Index.ext2int srt c = some c') (hd : readCase base c' = some d) :
    d.DcOK := by
  obtain ⟨c1, d1, he1, hd1, hw⟩ := bridge_exists hs base h
  rw [he] at he1; cases he1
  rw [hd] at hd1; cases hd1
  obtain ⟨r, hr⟩ := hw ⟨fun _ b => b, fun _ g => g, fun _ l => l⟩
  obtain ⟨bp, gp, lp, B⟩ := bridge hs h he hd _ hr opfOff
  have hb := readCase_base hd
  have hinj : ∑ k, |Pfinj d.branch k| ≤ shiftTotal c := by
    have key : ∀ k, |Pfinj d.branch k| = ((c.branch.map fun l => if l.status = 1 then
        |l.data.shift * (Real.pi / 180) / (l.data.x * if l.data.tap = 0 then 1 else l.data.tap)| else 0)[lp k]?).getD 0 := by
      intro k
      obtain ⟨l, h1, h2, -, -, -, -, h6, -, h8, h9, h10, -⟩ := B.branch k
      have hst := hin.branch l (List.mem_of_getElem? h1) h2
      rw [List.getElem?_map, h1, Option.map_some, Option.getD_some, if_pos hst]
      unfold Pfinj bdc tapRatio
      rw [h6, h8, h9, h10, hst, ← abs_neg]
      congr 1
      push_cast
      rw [div_div, one_div, div_eq_mul_inv _ (_ * _)]
      ring
    unfold shiftTotal
    rw [Finset.sum_congr rfl fun k _ => key k]
    generalize hf : (c.branch.map fun l => if l.status = 1 then
        |l.data.shift * (Real.pi / 180) / (l.data.x * if l.data.tap = 0 then 1 else l.data.tap)| else 0) = v
    have hv : ∀ x ∈ v, (0 : ℝ) ≤ x := by
      intro x hx
      rw [← hf] at hx
      obtain ⟨l, -, rfl⟩ := List.mem_map.1 hx
      split_ifs <;> first | exact abs_nonneg _ | exact le_refl _
    have hlt : ∀ k, lp k < v.length := by
      intro k
      obtain ⟨l, h1, -⟩ := B.branch k
      have := (List.getElem?_eq_some_iff.1 h1).1
      rw [← hf, List.length_map]; exact this
    rw [← Fin.sum_univ_getElem v]
    let lp' : Fin c'.branch.length → Fin v.length := fun k => ⟨lp k, hlt k⟩
    have hinj' : Function.Injective lp' := fun i j e => B.lInj (by simpa [lp'] using e)
    calc ∑ k, (v[lp k]?).getD 0 = ∑ k, v[(lp' k : ℕ)] := Finset.sum_congr rfl fun k _ => by
            rw [List.getElem?_eq_getElem (hlt k), Option.getD_some]
      _ = ∑ i ∈ Finset.univ.map ⟨lp', hinj'⟩, v[(i : ℕ)] := by rw [Finset.sum_map]; rfl
      _ ≤ _ := Finset.sum_le_sum_of_subset_of_nonneg (Finset.subset_univ _) fun i _ _ => hv _ (List.getElem_mem _)
  refine ⟨hb ▸ hin.pos, ?_, ?_, ?_, ?_, ?_⟩
  · intro k
    obtain ⟨l, h1, h2, -, -, -, -, -, -, -, -, h3, -⟩ := B.branch k
    rw [h3, hin.branch l (List.mem_of_getElem? h1) h2]; norm_num
  · intro k
    obtain ⟨g, h1, h2, -, -, -, h3, h4, -⟩ := B.gen k
    rw [h3, h4]; exact (hin.gen g (List.mem_of_getElem? h1) h2).1
  · intro k
    obtain ⟨g, h1, h2, -, -, -, h3, h4, -⟩ := B.gen k
    obtain ⟨-, h5, h6⟩ := hin.gen g (List.mem_of_getElem? h1) h2
    rw [h3, h4, hb]; exact ⟨finite_of_abs h5, finite_of_abs h6⟩
  · intro k
    obtain ⟨b, h1, h2, -, -, -, h3, -⟩ := B.bus k
    have := (hin.bus b (List.mem_of_getElem? h1) h2).1
    unfold Case.vaRad
    rw [h3]; exact finite_of_abs this
  · intro k
    obtain ⟨b, h1, h2, -, h3, -⟩ := B.bus k
    have := (hin.bus b (List.mem_of_getElem? h1) h2).2
    unfold Case.bmis
    rw [h3, hb]
    apply finite_of_abs
    rw [neg_div, ← neg_add', abs_neg]
    exact lt_of_le_of_lt ((abs_add_le _ _).trans (add_le_add le_rfl ((Pbusinj_le d.branch k).trans hinj))) this

/-- **C86 (DC, completes).**  On every well-formed case with data in range, the DC optimal power flow returns, whatever the linear solver does. -/
theorem C86_dc_completes {srt : List ℕ → List ℕ} (hs : IsArgsort srt) {base : ℝ} {c : Index.Case Tables} (h : WF c) (hin : DcInputs base c) (S : DcSetup)
    (hS : ∀ (nb ng nl : ℕ) (d : Case nb ng nl) c', S.extra d c' = []) :
    (∀ c' d, Index.ext2int srt c = some c' → readCase base c' = some d → Good (dcOps d ++ S.extra d c')) ∧
    ∀ (o : Opt) (solve : AnySolver), ∃ r, opfDc srt base S o solve c = some r := by
  constructor
  · intro c' d he hd
    rw [hS, List.append_nil]
    exact (dcInputs_ok hs h hin he hd).good
  · intro o solve
    obtain ⟨c', d, he, hd, hw⟩ := bridge_exists hs base h
    obtain ⟨m, hm, -, hall⟩ := C77_completes d (dcInputs_ok hs h hin he hd)
    obtain ⟨s, hs'⟩ := hall (S.H c' m) (S.C c' m) (S.C0 c' m) o solve (S.x0 c' m)
    obtain ⟨r, hr⟩ := hw (dcUpd s (S.post c' m s))
    unfold opfDc
    simp only [he, hd, hS, List.append_nil, hm, hs', hr, Option.bind_eq_bind, Option.bind_some]
    exact ⟨_, rfl⟩

/-- A successful run exists on every such case, with tolerances wide enough for the starting point. -/
theorem opfDc_succeeds {srt : List ℕ → List ℕ} (hs : IsArgsort srt) {base : ℝ} {c : Index.Case Tables} (h : WF c) (hin : DcInputs base c) (S : DcSetup)
    (hS : ∀ (nb ng nl : ℕ) (d : Case nb ng nl) c', S.extra d c' = []) (solve : AnySolver) :
    ∃ o r, 0 < o.costMult ∧ opfDc srt base S o solve c = some r ∧ r.success = true := by
  obtain ⟨c', d, he, hd, hw⟩ := bridge_exists hs base h
  obtain ⟨m, hm, hg, hall⟩ := C77_completes d (dcInputs_ok hs h hin he hd)
  obtain ⟨q, hq, -, -, -, -, hok⟩ := linearOf_spec hm hg
  obtain ⟨o, h1, -, h2⟩ := exists_success (problem (qp (S.H c' m) (S.C c' m)) q) (S.x0 c' m)
  obtain ⟨s, hs'⟩ := hall (S.H c' m) (S.C c' m) (S.C0 c' m) o solve (S.x0 c' m)
  obtain ⟨r, hr⟩ := hw (dcUpd s (S.post c' m s))
  have hm' : OpfModel.run (dcOps d ++ []) = some m := by rw [List.append_nil]; exact hm
  have g' : Good (dcOps d ++ []) := by rw [List.append_nil]; exact hg
  obtain ⟨q', r', hq', hr', e1, -⟩ := dc_ofSolver hm' g' hs'
  rw [hq] at hq'; cases hq'
  refine ⟨o, ⟨s.success, s.f, s.tol, s.dual, m.var.total + m.lin.total, zeroOff opfOff r⟩, h1, ?_, ?_⟩
  · unfold opfDc
    simp only [he, hd, hS, List.append_nil, hm, hs', hr, Option.bind_eq_bind, Option.bind_some]
  · show s.success = true
    rw [e1, (ofFull hr').2.1]; exact h2 _

theorem acInputs_ok {srt : List ℕ → List ℕ} (hs : IsArgsort srt) {base : ℝ} {c : Index.Case Tables} (h : WF c) (hin : AcInputs base c)
    {c' : Index.Case Tables} {d : Case c'.bus.length c'.gen.length c'.branch.length} (he : Index.ext2int srt c = some c') (hd : readCase base c' = some d) :
    d.AcOK ∧ ∃ l, d.rateA l ≠ 0 ∧ d.rateA l < 10 ^ 10 := by
  obtain ⟨c1, d1, he1, hd1, hw⟩ := bridge_exists hs base h
  rw [he] at he1; cases he1
  rw [hd] at hd1; cases hd1
  obtain ⟨r, hr⟩ := hw ⟨fun _ b => b, fun _ g => g, fun _ l => l⟩
  obtain ⟨bp, gp, lp, B⟩ := bridge hs h he hd _ hr opfOff
  have hb := readCase_base hd
  refine ⟨⟨hb ▸ hin.pos, ?_, ?_, ?_, ?_⟩, ?_⟩
  · intro k
    obtain ⟨g, h1, h2, -, -, -, h3, h4, -⟩ := B.gen k
    obtain ⟨⟨h5, h6, h7⟩, -⟩ := hin.gen g (List.mem_of_getElem? h1) h2
    rw [h3, h4, hb]; exact ⟨h5, finite_of_abs h6, finite_of_abs h7⟩
  · intro k
    obtain ⟨g, h1, h2, -, -, -, -, -, h3, h4⟩ := B.gen k
    obtain ⟨-, h5, h6, h7⟩ := hin.gen g (List.mem_of_getElem? h1) h2
    rw [h3, h4, hb]; exact ⟨h5, finite_of_abs h6, finite_of_abs h7⟩
  · intro k
    obtain ⟨b, h1, h2, -, -, -, -, h3, h4⟩ := B.bus k
    obtain ⟨-, h5, h6, h7⟩ := hin.bus b (List.mem_of_getElem? h1) h2
    rw [h3, h4]; exact ⟨h5, finite_of_abs h6, finite_of_abs h7⟩
  · intro k
    obtain ⟨b, h1, h2, -, -, -, h3, -⟩ := B.bus k
    have := (hin.bus b (List.mem_of_getElem? h1) h2).1
    unfold Case.vaRad
    rw [h3]; exact finite_of_abs this
  · obtain ⟨l, hl, hon, h1⟩ := hin.limited
    obtain ⟨i, hi⟩ := List.getElem?_of_mem hl
    obtain ⟨k, rfl⟩ := B.brOn i l hi hon
    obtain ⟨l1, h2, -, -, -, -, -, -, -, -, -, -, h3⟩ := B.branch k
    rw [hi] at h2; cases h2
    exact ⟨k, by rw [h3]; exact h1⟩

/-- The cost data handed to the AC solver fit the case in internal numbering. -/
def CostFits (srt : List ℕ → List ℕ) (base : ℝ) (lim : Int) (S : AcSetup) (c : Index.Case Tables) : Prop :=
  ∀ c' d, Index.ext2int srt c = some c' → readCase base c' = some d →
    OpfCost.AcOk (acNl d lim (S.cost c')).cost ∧ (S.cost c').gencost.length = c'.gen.length ∧
      ((S.cost c').kind ≠ .pyFloat ∨ ∃ i, i < (S.cost c').gencost.length ∧ ((S.cost c').row i).model = 2)

/-- **C86 (AC, completes).**  On every well-formed case with data in range, at least one limited branch and costs of active power only, the AC optimal power flow
returns, whatever the linear solver does. -/
theorem C86_ac_completes_partial {srt : List ℕ → List ℕ} (hs : IsArgsort srt) {base : ℝ} {c : Index.Case Tables} (h : WF c) (hin : AcInputs base c) (lim : Int)
    (S : AcSetup) (hS : ∀ (nb ng nl : ℕ) (d : Case nb ng nl) c', S.extra d c' = []) (hC : CostFits srt base lim S c) :
    (∀ c' d, Index.ext2int srt c = some c' → readCase base c' = some d →
      Good (acOps d ++ S.extra d c') ∧ (names (nlnBlocks (acOps d ++ S.extra d c'))).Nodup) ∧
    ∀ (o : Opt) (solve : AnySolver), ∃ r, opfAc srt base lim S o solve c = some r := by
  constructor
  · intro c' d he hd
    rw [hS, List.append_nil]
    exact (acInputs_ok hs h hin he hd).1.good
  · intro o solve
    obtain ⟨c', d, he, hd, hw⟩ := bridge_exists hs base h
    obtain ⟨hok, hl⟩ := acInputs_ok hs h hin he hd
    obtain ⟨c1, c2, c3⟩ := hC c' d he hd
    obtain ⟨m, hm, hall⟩ := C81_completes_partial d hok lim (S.cost c') c1 c2 c3 hl
    obtain ⟨s, hs'⟩ := hall o solve (S.x0 c' m)
    obtain ⟨r, hr⟩ := hw (acUpd s (S.post c' m s))
    unfold opfAc
    simp only [he, hd, hS, List.append_nil, hm, hs', hr, Option.bind_eq_bind, Option.bind_some]
    exact ⟨_, rfl⟩

theorem opfAc_succeeds {srt : List ℕ → List ℕ} (hs : IsArgsort srt) {base : ℝ} {c : Index.Case Tables} (h : WF c) (hin : AcInputs base c) (lim : Int)
    (S : AcSetup) (hS : ∀ (nb ng nl : ℕ) (d : Case nb ng nl) c', S.extra d c' = []) (hC : CostFits srt base lim S c) (solve : AnySolver) :
    ∃ o r, 0 < o.costMult ∧ opfAc srt base lim S o solve c = some r ∧ r.success = true := by
  obtain ⟨c', d, he, hd, hw⟩ := bridge_exists hs base h
  obtain ⟨hok, hl⟩ := acInputs_ok hs h hin he hd
  obtain ⟨c1, c2, c3⟩ := hC c' d he hd
  obtain ⟨m, hm, hall⟩ := C81_completes_partial d hok lim (S.cost c') c1 c2 c3 hl
  obtain ⟨g, hn⟩ := hok.good
  obtain ⟨q, hq, -, -, -, -, -⟩ := linearOf_spec hm g
  obtain ⟨o, h1, -, h2⟩ := exists_success (problem (callbacks (acNl d lim (S.cost c')) m.var.total) q) (S.x0 c' m)
  obtain ⟨s, hs'⟩ := hall o solve (S.x0 c' m)
  obtain ⟨r, hr⟩ := hw (acUpd s (S.post c' m s))
  have hm' : OpfModel.run (acOps d ++ []) = some m := by rw [List.append_nil]; exact hm
  have g' : Good (acOps d ++ []) := by rw [List.append_nil]; exact g
  have n' : (names (nlnBlocks (acOps d ++ []))).Nodup := by rw [List.append_nil]; exact hn
  obtain ⟨-, q', r', hq', hr', e1, -⟩ := ac_ofSolver hm' g' n' hok.base.ne' hs'
  rw [hq] at hq'; cases hq'
  refine ⟨o, ⟨s.success, s.f, s.tol, s.dual, m.var.total + m.lin.total, zeroOff opfOff r⟩, h1, ?_, ?_⟩
  · unfold opfAc
    simp only [he, hd, hS, List.append_nil, hm, hs', hr, Option.bind_eq_bind, Option.bind_some]
  · show s.success = true
    rw [e1, (ofFull hr').2.1]; exact h2 _

/-! ### A case with renumbered buses and equipment out of service -/

noncomputable section
/-- Bus 9 is the reference, bus 7 isolated, bus 2 has demand and a shunt; a generator at the isolated bus, one switched off; one branch to the isolated bus, one
switched off. -/
def exTables : Index.Case Tables where
  bus := [⟨9, 3, ⟨0, 0, 0, 0, 1, 5, 1.1, 0.9, 0, 0, 0, 0, []⟩⟩, ⟨7, 4, ⟨10, 5, 0, 0, 1, 0, 1.1, 0.9, 0, 0, 0, 0, []⟩⟩,
    ⟨2, 1, ⟨90, 30, 1, 2, 1, 0, 1.1, 0.9, 0, 0, 0, 0, [345]⟩⟩]
  gen := [⟨2, 1, ⟨10, 0, 50, -50, 1, 100, 10, 0, 0, 0, 0, []⟩⟩, ⟨7, 1, ⟨5, 1, 50, -50, 1, 100, 10, 0, 0, 0, 0, []⟩⟩,
    ⟨9, 1, ⟨80, 0, 50, -50, 1, 200, 10, 0, 0, 0, 0, []⟩⟩, ⟨9, 0, ⟨7, 3, 50, -50, 1, 100, 10, 4, 0, 0, 0, []⟩⟩]
  branch := [⟨9, 2, 1, ⟨0.01, 0.1, 0.02, 60, 0, 0, 0, 0, 0, 0, 0, 0, 0, 0, []⟩⟩, ⟨9, 7, 1, ⟨0.01, 0.1, 0.02, 60, 0, 0, 8, 0, 0, 0, 0, 0, 0, 0, []⟩⟩,
    ⟨2, 9, 0, ⟨0.01, 0.1, 0.02, 60, 0, 0, 0, 9, 0, 0, 0, 0, 0, 0, []⟩⟩]
  areas := none
  gencost := none
  A := none
  N := none
  order := none

theorem exTables_wf : WF exTables where
  busNodup := by simp [exTables]
  typValid := by simp [exTables]
  someOn := ⟨_, List.mem_cons_self, by decide⟩
  genRef := by simp [exTables, Index.HasBus]
  fRef := by simp [exTables, Index.HasBus]
  tRef := by simp [exTables, Index.HasBus]
  areaRef := by simp [exTables]
  costRows := by simp [exTables]
  aCols := by simp [exTables]
  nCols := by simp [exTables]
  notInternal := by simp [exTables]

theorem small_angle : |(5 : ℝ) * (Real.pi / 180)| < 10 ^ 10 := by
  rw [abs_of_pos (by positivity)]
  have := Real.pi_le_four
  linarith

theorem exTables_plain : DcPlain 100 exTables where
  pos := by norm_num
  bus := by
    simp only [exTables, List.mem_cons, List.not_mem_nil, or_false, forall_eq_or_imp, forall_eq]
    refine ⟨fun _ => ⟨small_angle, by norm_num⟩, fun h => absurd rfl h, fun _ => ⟨by norm_num, by norm_num [abs_of_pos]⟩⟩
  gen := by
    simp only [exTables, List.mem_cons, List.not_mem_nil, or_false, forall_eq_or_imp, forall_eq]
    norm_num [abs_of_pos]
  branch := by
    simp only [exTables, List.mem_cons, List.not_mem_nil, or_false, forall_eq_or_imp, forall_eq]
    norm_num [BranchInService]
  shift := by
    simp only [exTables, List.mem_cons, List.not_mem_nil, or_false, forall_eq_or_imp, forall_eq]
    norm_num [BranchInService]

theorem exTables_dc : DcInputs 100 exTables := exTables_plain.inputs

/-- The same network with a phase shifter of 5 degrees. -/
def exShifted : Index.Case Tables :=
  { exTables with branch := [⟨9, 2, 1, ⟨0.01, 0.1, 0.02, 60, 0.95, 5, 0, 0, 0, 0, 0, 0, 0, 0, []⟩⟩, ⟨9, 7, 1, ⟨0.01, 0.1, 0.02, 60, 0, 0, 8, 0, 0, 0, 0, 0, 0, 0, []⟩⟩] }

theorem exShifted_wf : WF exShifted :=
  { exTables_wf with
    fRef := by simp [exShifted, exTables, Index.HasBus]
    tRef := by simp [exShifted, exTables, Index.HasBus]
    notInternal := by simp [exShifted, exTables] }

theorem exShifted_dc : DcInputs 100 exShifted := by
  have hz : shiftTotal exShifted ≤ 10 := by
    have hpi := Real.pi_le_four
    simp only [shiftTotal, exShifted, List.map_cons, List.map_nil, List.sum_cons, List.sum_nil]
    norm_num
    rw [abs_of_pos (by positivity)]
    linarith
  refine ⟨by norm_num, fun b hb h4 => ⟨(exTables_plain.bus b hb h4).1, ?_⟩, exTables_plain.gen, ?_⟩
  · have h2 : |(b.data.PD + b.data.GS) / 100| ≤ 1 := by
      revert b
      simp only [exShifted, exTables, List.mem_cons, List.not_mem_nil, or_false, forall_eq_or_imp, forall_eq]
      norm_num [abs_of_pos]
    linarith
  · simp only [exShifted, List.mem_cons, List.not_mem_nil, or_false, forall_eq_or_imp, forall_eq]
    norm_num [BranchInService]

theorem exTables_ac : AcInputs 100 exTables where
  pos := by norm_num
  bus := by
    simp only [exTables, List.mem_cons, List.not_mem_nil, or_false, forall_eq_or_imp, forall_eq]
    refine ⟨fun _ => ⟨small_angle, by norm_num [abs_of_pos]⟩, fun h => absurd rfl h, fun _ => ⟨by norm_num, by norm_num [abs_of_pos]⟩⟩
  gen := by
    simp only [exTables, List.mem_cons, List.not_mem_nil, or_false, forall_eq_or_imp, forall_eq]
    norm_num [abs_of_pos]
  limited := by
    refine ⟨_, List.mem_cons_self, ?_, by norm_num, by norm_num⟩
    simp [BranchInService, Connected, exTables]

def exDcSetup : DcSetup := ⟨fun _ _ => [], fun _ _ => 0, fun _ _ => 1, fun _ _ => 0, fun _ _ => 0, fun _ _ _ _ _ _ => ⟨fun _ v => v, fun _ v => v, fun _ v => v, fun _ v => v, fun _ v => v, fun _ v => v⟩⟩

/-- The hypotheses of the DC theorems hold on the example, which has a connected bus with demand, an isolated bus, a limited branch, equipment out of service with nonzero old
results. -/
example : ∃ o r, WF exTables ∧ (∀ c' d, Index.ext2int Index.stableArgsort exTables = some c' → readCase 100 c' = some d → Good (dcOps d ++ exDcSetup.extra d c')) ∧
    opfDc Index.stableArgsort 100 exDcSetup o (fun _ _ _ _ => none) exTables = some r ∧ r.success = true := by
  obtain ⟨o, r, -, h1, h2⟩ := opfDc_succeeds Index.stableArgsort_isArgsort exTables_wf exTables_dc exDcSetup (fun _ _ _ _ _ => rfl) (fun _ _ _ _ => none)
  exact ⟨o, r, exTables_wf, (C86_dc_completes Index.stableArgsort_isArgsort exTables_wf exTables_dc exDcSetup (fun _ _ _ _ _ => rfl)).1, h1, h2⟩

/-- With a phase shifter. -/
example : ∃ o r, WF exShifted ∧ DcInputs 100 exShifted ∧ 0 < shiftTotal exShifted ∧ opfDc Index.stableArgsort 100 exDcSetup o (fun _ _ _ _ => none) exShifted = some r ∧
    r.success = true := by
  obtain ⟨o, r, -, h1, h2⟩ := opfDc_succeeds Index.stableArgsort_isArgsort exShifted_wf exShifted_dc exDcSetup (fun _ _ _ _ _ => rfl) (fun _ _ _ _ => none)
  refine ⟨o, r, exShifted_wf, exShifted_dc, ?_, h1, h2⟩
  simp only [shiftTotal, exShifted, List.map_cons, List.map_nil, List.sum_cons, List.sum_nil]
  norm_num

/-- A quadratic cost for every generator in service. -/
def exAcSetup : AcSetup where
  extra := fun _ _ => []
  cost := fun c => ⟨100, .pyFloat, c.gen.length, List.replicate c.gen.length ⟨2, 3, [1, 2, 3, 0]⟩, 0, 0, 0, 0, false,
    ⟨0, 2 * c.bus.length + 2 * c.gen.length, fun _ _ => 0, fun _ => 0, fun _ _ => 0, fun _ => 1, fun _ => 0, fun _ => 0, fun _ => 1⟩⟩
  x0 := fun _ _ => 1
  post := fun _ _ _ _ _ _ => ⟨fun _ v => v, fun _ v => v, fun _ v => v, fun _ v => v, fun _ v => v, fun _ v => v⟩

theorem exCostFits : CostFits Index.stableArgsort 100 0 exAcSetup exTables := by
  intro c' d he hd
  have hg : 0 < c'.gen.length := by
    obtain ⟨c1, d1, he1, hd1, hw⟩ := bridge_exists Index.stableArgsort_isArgsort 100 exTables_wf
    rw [he] at he1; cases he1
    obtain ⟨r, hr⟩ := hw ⟨fun _ b => b, fun _ g => g, fun _ l => l⟩
    obtain ⟨bp, gp, lp, B⟩ := bridge Index.stableArgsort_isArgsort exTables_wf he hd1 _ hr opfOff
    obtain ⟨k, -⟩ := B.genOn 0 _ rfl (by simp [GenInService, Connected, exTables])
    exact k.pos
  refine ⟨⟨?_, ?_, ?_, ?_, ?_, ?_⟩, ?_, Or.inr ⟨0, ?_, ?_⟩⟩
  · simp [exAcSetup, nlOf]; omega
  · intro r hr hm
    simp only [exAcSetup, nlOf, List.mem_replicate] at hr
    rw [hr.2]
    exact ⟨rfl, by simp, by simp⟩
  · simp [exAcSetup, nlOf]; omega
  · simp [exAcSetup, nlOf]; omega
  · simp [exAcSetup, nlOf]
  · simp [nlOf]
  · simp [exAcSetup]
  · simpa [exAcSetup] using hg
  · simp [exAcSetup, OpfCost.AcData.row, hg]

/-- The hypotheses of the AC theorems hold on the example. -/
example : ∃ o r, WF exTables ∧ (∀ c' d, Index.ext2int Index.stableArgsort exTables = some c' → readCase 100 c' = some d →
      Good (acOps d ++ exAcSetup.extra d c') ∧ (names (nlnBlocks (acOps d ++ exAcSetup.extra d c'))).Nodup) ∧
    opfAc Index.stableArgsort 100 0 exAcSetup o (fun _ _ _ _ => none) exTables = some r ∧ r.success = true := by
  obtain ⟨o, r, -, h1, h2⟩ := opfAc_succeeds Index.stableArgsort_isArgsort exTables_wf exTables_ac 0 exAcSetup (fun _ _ _ _ _ => rfl) exCostFits (fun _ _ _ _ => none)
  exact ⟨o, r, exTables_wf, (C86_ac_completes_partial Index.stableArgsort_isArgsort exTables_wf exTables_ac 0 exAcSetup (fun _ _ _ _ _ => rfl) exCostFits).1, h1, h2⟩

end

end Verif.Opf
