import Verif.Runpf.TableLemmas

/-!
# What a converged AC solver and `pfsoln` put into the caller's tables

For any solver with the common guarantee (`Guarantee`) and any further columns written (`Writes`): used for `runpf` (C87) and `runcpf` (C102).
-/

open ComplexConjugate

namespace Verif.Runpf

open Verif.Opf (Tables readCase Upd write Off zeroOff Bridge BusD GenD BrD genAt fromAt toAt dcBalance acBalanceP acBalanceQ asBranch rowPhasor)
open Verif.Index (BusRow GenRow BranchRow IsArgsort WF GenInService BranchInService Connected)
open Verif.Network Verif.Solvers Verif.Pfsoln

theorem qbound {q lo hi need E : ℝ} (h : q = 0 ∨ lo ≠ hi ∧ q = (lo - need) * (1 - (hi - lo) / (hi - lo + E))) (hE : 0 ≤ E) (hle : lo ≤ hi) :
    |q| * (hi - lo) ≤ |need - lo| * E := by
  rcases h with h | ⟨hne, h⟩
  · rw [h]; simp; positivity
  · have hlt : 0 < hi - lo := sub_pos.2 (lt_of_le_of_ne hle hne)
    have hpos : 0 < hi - lo + E := by linarith
    have e : 1 - (hi - lo) / (hi - lo + E) = E / (hi - lo + E) := by field_simp; ring
    rw [h, e, abs_mul, abs_div, abs_of_nonneg hE, abs_of_pos hpos, abs_sub_comm lo need, mul_assoc]
    refine mul_le_mul_of_nonneg_left ?_ (abs_nonneg _)
    rw [div_mul_eq_mul_div, div_le_iff₀ hpos]
    nlinarith

section
variable {base : ℝ} {c R : Index.Case Tables} {nb ng nl : ℕ} {p : Case (Fin nb) (Fin nl) ng} {u : Upd nb ng nl} {bp : Fin nb → ℕ} {gp : Fin ng → ℕ} {lp : Fin nl → ℕ}
  (B : PfBridge c R base p u bp gp lp)

include B

theorem PfBridge.disjoint : ∀ b ∈ p.pq, b ∉ p.pv := fun b h1 h2 => (B.pq b).1 h1 ((B.pv b).1 h2).1

omit B in
theorem slackCtl {i : ℕ} (hi : IsSlack c i) : IsControlled c i := by
  obtain ⟨b, hb, hg, h1⟩ := hi
  exact ⟨b, hb, by tauto, hg⟩

theorem PfBridge.cover (b : Fin nb) (hr : b ∉ p.ref) : b ∈ p.pv ∨ b ∈ p.pq := by
  rw [B.ref] at hr
  rw [B.pv, B.pq]
  tauto

/-- Sums over the generators at a bus. -/
theorem PfBridge.genFilter (k : Fin nb) (w : Fin ng → ℝ) {d : Opf.Case nb ng nl} (hd : ∀ k, p.gen k = ⟨d.gen k, d.qmin k, d.qmax k⟩) :
    ∑ g with (d.gen g).bus = k, w g = ∑ g with (p.gen g).stat > 0 ∧ (p.gen g).bus = k, w g := by
  refine Finset.sum_congr (Finset.filter_congr fun g _ => ?_) fun _ _ => rfl
  have := B.stat g
  rw [hd g] at this ⊢
  exact ⟨fun e => ⟨this, e⟩, fun e => e.2⟩

/-- Outputs that are changed only for the first generator of each reference bus. -/
theorem PfBridge.slackGen (PG : Fin ng → ℝ) (hPG : ∀ k g, (u.gen k g).PG = PG k)
    (hother : ∀ g, (∀ r ∈ p.ref, (refgen p.gen r).head? ≠ some g) → PG g = (p.gen g).PG) :
    ∃ slackGen : ℕ → ℕ, ∀ (j : ℕ) g g0, R.gen[j]? = some g → c.gen[j]? = some g0 → GenInService c g0 → g.data.PG ≠ g0.data.PG →
      ∃ (i : ℕ) (b : BusRow BusD), c.bus[i]? = some b ∧ IsSlack c i ∧ b.num = g0.bus ∧ slackGen i = j := by
  obtain ⟨d, D, hbase, hbus, hva, hbr, hgen⟩ := B.bridge
  classical
  refine ⟨fun i => if hx : ∃ (k : Fin nb) (g : Fin ng), bp k = i ∧ (refgen p.gen k).head? = some g then gp hx.choose_spec.choose else 0, ?_⟩
  intro j g g0 hg hg0 hin hne
  obtain ⟨g1, hg1, -, -, h4, -⟩ := D.gen_at hg
  rw [hg0] at hg1; cases hg1
  obtain ⟨x, rfl, rfl⟩ := h4 hin
  obtain ⟨g2, hg2, -, hPG2, -⟩ := B.gen x
  rw [hg0] at hg2; cases hg2
  have : ¬ ∀ r ∈ p.ref, (refgen p.gen r).head? ≠ some x := by
    intro hh
    exact hne ((hPG x _).trans ((hother x hh).trans hPG2))
  push Not at this
  obtain ⟨k, hk, hx⟩ := this
  obtain ⟨g3, hg3, -, -, ⟨b, hb, hn⟩, -⟩ := D.gen x
  rw [hg0] at hg3; cases hg3
  have hmem : x ∈ refgen p.gen k := List.mem_of_mem_head? hx
  rw [mem_refgen] at hmem
  have hbk : (d.gen x).bus = k := by
    have := hmem.2
    rw [hgen] at this
    exact this
  rw [hbk] at hb
  refine ⟨bp k, b, hb, (B.ref k).1 hk, hn, ?_⟩
  have hex : ∃ (k' : Fin nb) (g : Fin ng), bp k' = bp k ∧ (refgen p.gen k').head? = some g := ⟨k, x, rfl, hx⟩
  beta_reduce
  rw [dif_pos hex]
  have h5 := hex.choose_spec.choose_spec
  have h6 : hex.choose = k := D.bInj h5.1
  have h7 : (refgen p.gen hex.choose).head? = some x := by rw [h6]; exact hx
  rw [Option.some_injective _ (h5.2.symm.trans h7)]

/-- Sums of an input column over the generators in service at a bus. -/
theorem PfBridge.genOnSum (h : WF c) {k : Fin nb} {b : BusRow BusD} (hbk : c.bus[bp k]? = some b) (f : GenD → ℝ) (w : Fin ng → ℝ)
    (hw : ∀ p g, c.gen[gp p]? = some g → f g.data = w p) :
    genOnAt c b.num f = ∑ g with (p.gen g).stat > 0 ∧ (p.gen g).bus = k, w g := by
  obtain ⟨d, D, -, -, -, -, hd⟩ := B.bridge
  rw [← B.genFilter k w hd]
  unfold genOnAt
  rw [Opf.filter_sum, Finset.sum_filter]
  refine Opf.sum_rows c.gen gp D.gInj _ _ ?_ ?_
  · intro q
    obtain ⟨g, h1, hin, -, ⟨b', hb', hn⟩, -⟩ := D.gen q
    refine ⟨g, h1, ?_⟩
    have e1 := D.sameBus h hb' hbk
    rw [hn] at e1
    rw [hw q g h1]
    by_cases e : (d.gen q).bus = k
    · simp [e, e1.2 e, hin]
    · have : ¬ g.bus = b.num := fun hh => e (e1.1 hh)
      simp [e, this]
  · intro i g hi hk
    have : ¬ GenInService c g := fun hh => by
      obtain ⟨q, e⟩ := D.genOn i g hi hh
      exact hk q e
    simp [this]

end


/-- The columns of the result are written, and those that enter the balances and the branch model are not touched otherwise. -/
structure Writes {nb ng nl : ℕ} (u : Upd nb ng nl) (s : Out (Fin nb) (Fin nl) ng) : Prop where
  bus : ∀ k b, (u.bus k b).VM = s.VM k ∧ (u.bus k b).VA = s.VA k ∧ (u.bus k b).PD = b.PD ∧ (u.bus k b).QD = b.QD ∧ (u.bus k b).GS = b.GS ∧ (u.bus k b).BS = b.BS
  gen : ∀ k g, (u.gen k g).PG = s.PG k ∧ (u.gen k g).QG = s.QG k
  branch : ∀ k l, (u.branch k l).PF = (s.Sf k).re ∧ (u.branch k l).QF = (s.Sf k).im ∧ (u.branch k l).PT = (s.St k).re ∧ (u.branch k l).QT = (s.St k).im ∧
    (u.branch k l).r = l.r ∧ (u.branch k l).x = l.x ∧ (u.branch k l).b = l.b ∧ (u.branch k l).tap = l.tap ∧ (u.branch k l).shift = l.shift

theorem acUpd_writes {nb ng nl : ℕ} (s : Out (Fin nb) (Fin nl) ng) : Writes (acUpd s) s :=
  ⟨fun _ _ => ⟨rfl, rfl, rfl, rfl, rfl, rfl⟩, fun _ _ => ⟨rfl, rfl⟩, fun _ _ => ⟨rfl, rfl, rfl, rfl, rfl, rfl, rfl, rfl, rfl⟩⟩

section
variable {base : ℝ} {c R : Index.Case Tables} {nb ng nl : ℕ} {p : Case (Fin nb) (Fin nl) ng} {u : Upd nb ng nl} {s : Out (Fin nb) (Fin nl) ng} {bp : Fin nb → ℕ}
  {gp : Fin ng → ℕ} {lp : Fin nl → ℕ} (h : WF c) (W : Writes u s) (B : PfBridge c R base p u bp gp lp)
  {EPS viol : ℝ} {qlim : Bool} {solve : Solver (Fin nb)} (hr : runAC EPS viol qlim solve p = some (.ok s))

include W hr in
theorem polarRow (k : Fin nb) (b : BusRow BusD) : rowPhasor { b with data := u.bus k b.data } = s.V k ∧ (u.bus k b.data).VM = ‖s.V k‖ := by
  obtain ⟨V0, q, V, PG, -, -, -, -, rfl⟩ := runAC_steps hr
  have hpi := Real.pi_ne_zero
  have e2 : (V k).arg * 180 / Real.pi * (Real.pi / 180) = (V k).arg := by field_simp
  unfold rowPhasor
  dsimp only
  rw [(W.bus k b.data).1, (W.bus k b.data).2.1]
  refine ⟨?_, rfl⟩
  dsimp only
  rw [e2, mul_comm Complex.I]
  exact Complex.norm_mul_exp_arg_mul_I (V k)

include h W B in
theorem rowBalance {k : Fin nb} {b0 : BusRow BusD} (h0 : c.bus[bp k]? = some b0) :
    acBalanceP R { b0 with data := u.bus k b0.data } = balP p s k ∧ acBalanceQ R { b0 with data := u.bus k b0.data } = balQ p s k ∧
      genAt R b0.num GenD.QG = ∑ g with (p.gen g).stat > 0 ∧ (p.gen g).bus = k, s.QG g := by
  obtain ⟨d, D, hbase, hbus, hva, hbr, hgen⟩ := B.bridge
  obtain ⟨b1, h7, -, -, h8, -⟩ := D.bus k
  rw [h0] at h7; cases h7
  have e1 := D.genSum h h0 GenD.PG s.PG (fun k g => (W.gen k g).1) (fun _ => rfl)
  have e2 := (D.brSum h h0 BrD.PF (fun l => (s.Sf l).re) (fun k l => (W.branch k l).1) (fun _ => rfl)).1
  have e3 := (D.brSum h h0 BrD.PT (fun l => (s.St l).re) (fun k l => (W.branch k l).2.2.1) (fun _ => rfl)).2
  have f1 := D.genSum h h0 GenD.QG s.QG (fun k g => (W.gen k g).2) (fun _ => rfl)
  have f2 := (D.brSum h h0 BrD.QF (fun l => (s.Sf l).im) (fun k l => (W.branch k l).2.1) (fun _ => rfl)).1
  have f3 := (D.brSum h h0 BrD.QT (fun l => (s.St l).im) (fun k l => (W.branch k l).2.2.2.1) (fun _ => rfl)).2
  obtain ⟨w1, -, w3, w4, w5, w6⟩ := W.bus k b0.data
  refine ⟨?_, ?_, ?_⟩
  · unfold acBalanceP balP
    rw [hbr, hbus, h8, ← B.genFilter k s.PG hgen]
    dsimp only
    rw [e1, e2, e3, w1, w3, w5]
  · unfold acBalanceQ balQ
    rw [hbr, hbus, h8, ← B.genFilter k s.QG hgen]
    dsimp only
    rw [f1, f2, f3, w1, w4, w6]
  · rw [← B.genFilter k s.QG hgen]
    exact f1

variable {e : ℝ → ℝ} (hG : Guarantee solve (Ybus p.baseMVA p.bus p.branch) p.pv p.pq fun V b => e ‖V b‖) (hb : 0 < base)

include h W B hr hG hb in
theorem core_balance (hok : s.success = true) : ∀ (i : ℕ) b, R.bus[i]? = some b → b.typ ≠ 4 →
    (¬ IsSlack c i → |acBalanceP R b| < e b.data.VM * base) ∧ (IsSlack c i → acBalanceP R b = 0) ∧
    (¬ HasGenOn c b.num → |acBalanceQ R b| < e b.data.VM * base) := by
  obtain ⟨d, D, hbase, hbus, hva, hbr, hgen⟩ := B.bridge
  obtain ⟨-, h2, h3, h4, -⟩ := C70_all (by rw [hbase]; exact hb) hG hr hok
  intro i b hbi ht
  obtain ⟨b0, h0, hnum, htyp, h6, -⟩ := D.bus_at hbi
  obtain ⟨k, rfl, rfl⟩ := h6 (by rw [← htyp]; exact ht)
  obtain ⟨hP, hQ, -⟩ := rowBalance h W B h0
  rw [hP, hQ, (polarRow W hr k b0).2, ← hbase]
  refine ⟨fun hns => ?_, fun hsl => h2 k ((B.ref k).2 hsl), fun hng => ?_⟩
  · have hk : k ∉ p.ref := fun hh => hns ((B.ref k).1 hh)
    exact h3 k (B.cover k hk) hk
  · have hng' : ¬ HasGenOn c b0.num := hng
    refine h4 k ((B.pq k).2 ?_) ?_
    · rintro ⟨b', hb', -, hg⟩
      rw [h0] at hb'; cases hb'
      exact hng' hg
    · intro g hg
      exact hng' ((B.hasGen k b0 h0).1 ⟨g, hg⟩)

include h W B hr hG hb in
theorem core_reactive (hok : s.success = true) : ∀ (i : ℕ) b, R.bus[i]? = some b → HasGenOn c b.num →
    let lo := genOnAt c b.num GenD.QMIN
    let hi := genOnAt c b.num GenD.QMAX
    let need := genAt R b.num GenD.QG - acBalanceQ R b
    (acBalanceQ R b = 0 ∨ lo ≠ hi ∧ acBalanceQ R b = (lo - need) * (1 - (hi - lo) / (hi - lo + EPS))) ∧
    (0 ≤ EPS → lo ≤ hi → |acBalanceQ R b| * (hi - lo) ≤ |need - lo| * EPS) := by
  obtain ⟨d, D, hbase, hbus, hva, hbr, hgen⟩ := B.bridge
  obtain ⟨-, -, -, -, h5⟩ := C70_all (by rw [hbase]; exact hb) hG hr hok
  intro i b hbi hgo lo hi need
  obtain ⟨b0, h0, hnum, htyp, h6, -⟩ := D.bus_at hbi
  have ht0 : b0.typ ≠ 4 := by
    obtain ⟨g, -, ⟨-, b', hb', hn, ht4⟩, hgn⟩ := hgo
    obtain ⟨j, hj⟩ := List.getElem?_of_mem hb'
    have := Opf.num_inj h hj h0 (by rw [hn, hgn, hnum])
    rw [this, h0] at hj
    cases hj
    exact ht4
  obtain ⟨k, rfl, rfl⟩ := h6 ht0
  obtain ⟨-, hQ, hQG⟩ := rowBalance h W B h0
  have hlo : lo = ∑ g with (p.gen g).stat > 0 ∧ (p.gen g).bus = k, (p.gen g).QMIN := by
    refine B.genOnSum h h0 _ _ fun q g hq => ?_
    obtain ⟨g1, h1, -, -, -, -, -, -, h2, -⟩ := D.gen q
    rw [hq] at h1; cases h1
    rw [hgen, ← h2]
  have hhi : hi = ∑ g with (p.gen g).stat > 0 ∧ (p.gen g).bus = k, (p.gen g).QMAX := by
    refine B.genOnSum h h0 _ _ fun q g hq => ?_
    obtain ⟨g1, h1, -, -, -, -, -, -, -, h2⟩ := D.gen q
    rw [hq] at h1; cases h1
    rw [hgen, ← h2]
  have hneed : need = (∑ g with (p.gen g).stat > 0 ∧ (p.gen g).bus = k, s.QG g) - balQ p s k := by
    simp only [need]
    rw [hQ]
    congr 1
  have key := h5 k ((B.hasGen k b0 h0).2 hgo)
  dsimp only at key
  rw [← hlo, ← hhi, ← hneed, ← hQ] at key
  refine ⟨key, fun hE hle => ?_⟩
  exact qbound key hE hle

include W B hr hG in
theorem core_voltages : ∀ (i : ℕ) b b0, R.bus[i]? = some b → c.bus[i]? = some b0 → IsControlled c i →
    ∃ g ∈ c.gen, GenInService c g ∧ g.bus = b.num ∧ b.data.VM = |g.data.VG| ∧
      (IsSlack c i → 0 < b0.data.VM → 0 ≤ g.data.VG → rowPhasor b = rowPhasor { b0 with data := { b0.data with VM := g.data.VG } }) := by
  obtain ⟨d, D, hbase, hbus, hva, hbr, hgen⟩ := B.bridge
  intro i b b0 hbi h0 hc
  obtain ⟨b', h0', hnum, htyp, h6, -⟩ := D.bus_at hbi
  rw [h0] at h0'; cases h0'
  obtain ⟨b', h1, h2, hgo⟩ := id hc
  rw [h0] at h1; cases h1
  obtain ⟨k, rfl, rfl⟩ := h6 (by omega)
  have hk : k ∉ p.pq := fun hh => (B.pq k).1 hh hc
  obtain ⟨g, -, hgb, hvm, hph⟩ := C70_setpoints hG hr k hk ((B.hasGen k b0 h0).2 hgo)
  obtain ⟨g0, hg0, hin, -, ⟨b2, hb2, hn2⟩, -⟩ := D.gen g
  obtain ⟨g1, hg1, hVG, -⟩ := B.gen g
  rw [hg0] at hg1; cases hg1
  have hbk : (d.gen g).bus = k := by rw [hgen] at hgb; exact hgb
  rw [hbk, h0] at hb2; cases hb2
  refine ⟨g0, List.mem_of_getElem? hg0, hin, hn2.symm, ?_, ?_⟩
  · rw [← hVG]
    show (u.bus k b0.data).VM = _
    rw [(W.bus k b0.data).1]
    exact hvm
  · intro hsl hpos hvg
    obtain ⟨b3, hb3, hVM3, hVA3⟩ := B.vm k
    rw [h0] at hb3; cases hb3
    have hkv : k ∉ p.pv := fun hh => ((B.pv k).1 hh).2 hsl
    have e := hph hkv (by rw [hVM3]; exact hpos)
    rw [(polarRow W hr k b0).1, e, hVG, hVA3]
    unfold rowPhasor
    dsimp only
    rw [mul_comm (Real.pi / 180)]

include h W B hr in
theorem core_flows : ∀ l ∈ R.branch, BranchInService R l → l.status = 1 → (l.data.r : ℂ) + Complex.I * l.data.x ≠ 0 →
    ∀ bf ∈ R.bus, bf.num = l.f → ∀ bt ∈ R.bus, bt.num = l.t →
    ∃ If It : ℂ, PiModel (asBranch l) (rowPhasor bf) (rowPhasor bt) If It ∧
      (l.data.PF : ℂ) + Complex.I * l.data.QF = rowPhasor bf * conj If * base ∧ (l.data.PT : ℂ) + Complex.I * l.data.QT = rowPhasor bt * conj It * base := by
  obtain ⟨d, D, hbase, hbus, hva, hbr, hgen⟩ := B.bridge
  intro l hl hon hst hz bf hbf hnf bt hbt hnt
  obtain ⟨k, l0, h0, rfl, ⟨b1, hb1, hn1⟩, ⟨b2, hb2, hn2⟩, hr', hx', hb', htap', hsh', hstat', -⟩ := D.brRow hl hon
  obtain ⟨w1, w2, w3, w4, w5, w6, w7, w8, w9⟩ := W.branch k l0.data
  have ef : rowPhasor bf = s.V (d.branch k).f := by
    rw [D.busOf hbf _ hb1 (hnf.trans hn1.symm) h]
    exact (polarRow W hr _ _).1
  have et : rowPhasor bt = s.V (d.branch k).t := by
    rw [D.busOf hbt _ hb2 (hnt.trans hn2.symm) h]
    exact (polarRow W hr _ _).1
  obtain ⟨-, hflow⟩ := C70_flows hr k
  rw [hbr] at hflow
  have hst' : (l0.status : ℝ) = 1 := by
    have : l0.status = 1 := hst
    rw [this]; norm_num
  dsimp only at hz
  rw [w5, w6] at hz
  obtain ⟨If, It, h1, h2, h3⟩ := hflow (by unfold InService; rw [hstat']; exact_mod_cast hst') (by rw [hr', hx']; exact hz)
  refine ⟨If, It, ?_, ?_, ?_⟩
  · rw [ef, et]
    unfold PiModel at h1 ⊢
    have eturn : turns (asBranch { l0 with data := u.branch k l0.data }) = turns (d.branch k) := by
      simp only [turns, asBranch, htap', hsh', w8, w9]
    rw [eturn]
    rw [hr', hx', hb'] at h1
    simp only [asBranch, w5, w6, w7]
    exact h1
  · rw [ef]
    rw [hbase] at h2
    dsimp only
    rw [w1, w2, ← h2, mul_comm Complex.I]
    exact Complex.re_add_im _
  · rw [et]
    rw [hbase] at h3
    dsimp only
    rw [w3, w4, ← h3, mul_comm Complex.I]
    exact Complex.re_add_im _

include W B hr in
theorem core_dispatch : ∃ slackGen : ℕ → ℕ, ∀ (j : ℕ) g g0, R.gen[j]? = some g → c.gen[j]? = some g0 → GenInService c g0 → g.data.PG ≠ g0.data.PG →
    ∃ (i : ℕ) (b : BusRow BusD), c.bus[i]? = some b ∧ IsSlack c i ∧ b.num = g0.bus ∧ slackGen i = j := by
  obtain ⟨V0, q, V, PG, -, -, -, hPG, rfl⟩ := runAC_steps hr
  obtain ⟨-, hother⟩ := (slackPG p.baseMVA p.bus p.gen (Ybus p.baseMVA p.bus p.branch) V p.ref).1 PG hPG
  exact B.slackGen PG (fun k g => (W.gen k g).1) hother

end

end Verif.Runpf
