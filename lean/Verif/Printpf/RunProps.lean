import Verif.Printpf.Props

/-!
# What `runpf` and `runopf` print and return (C91, C93)
-/

namespace Verif.Printpf

open Verif.Opf (Tables BusD GenD BrD asBranch rowPhasor genAt fromAt toAt acBalanceP acBalanceQ dcBalance busInput genInput branchInput)
open Verif.Runpf (pfBusInput pfGenInput pfBranchInput tolAt IsSlack Inductive Tied)
open Verif.Index (BusRow GenRow BranchRow HasBus WF IsArgsort GenInService BranchInService Connected)

noncomputable section

/-- The two tables have the same rows up to results. -/
structure Same (c R : Index.Case Tables) : Prop where
  bus : R.bus.map (fun b => (b.num, b.typ)) = c.bus.map (fun b => (b.num, b.typ))
  gen : R.gen.map (fun g => (g.bus, g.status)) = c.gen.map (fun g => (g.bus, g.status))
  branch : R.branch.map (fun l => (l.f, l.t, l.status, l.data.r, l.data.x)) = c.branch.map (fun l => (l.f, l.t, l.status, l.data.r, l.data.x))

theorem map_via {α β γ : Type} {f : α → β} {a b : List α} (h : a.map f = b.map f) (g : β → γ) : a.map (g ∘ f) = b.map (g ∘ f) := by
  rw [← List.map_map, ← List.map_map, h]

theorem same_pf {c R : Index.Case Tables} (h1 : R.bus.map pfBusInput = c.bus.map pfBusInput) (h2 : R.gen.map pfGenInput = c.gen.map pfGenInput)
    (h3 : R.branch.map pfBranchInput = c.branch.map pfBranchInput) : Same c R :=
  ⟨map_via h1 fun b => (b.num, b.typ), map_via h2 fun g => (g.bus, g.status), map_via h3 fun l => (l.f, l.t, l.status, l.data.r, l.data.x)⟩

theorem same_opf {c R : Index.Case Tables} (h1 : R.bus.map busInput = c.bus.map busInput) (h2 : R.gen.map genInput = c.gen.map genInput)
    (h3 : R.branch.map branchInput = c.branch.map branchInput) : Same c R :=
  ⟨map_via h1 fun b => (b.num, b.typ), map_via h2 fun g => (g.bus, g.status), map_via h3 fun l => (l.f, l.t, l.status, l.data.r, l.data.x)⟩

namespace Same

variable {c R : Index.Case Tables} (h : Same c R)
include h

theorem busRow {b} (hb : b ∈ R.bus) : ∃ b0 ∈ c.bus, b0.num = b.num ∧ b0.typ = b.typ := by
  have : (b.num, b.typ) ∈ c.bus.map (fun b => (b.num, b.typ)) := by rw [← h.bus]; exact List.mem_map.2 ⟨b, hb, rfl⟩
  obtain ⟨b0, h0, e⟩ := List.mem_map.1 this
  simp only [Prod.mk.injEq] at e
  exact ⟨b0, h0, e.1, e.2⟩

theorem busBack {b0} (hb : b0 ∈ c.bus) : ∃ b ∈ R.bus, b.num = b0.num := by
  have : (b0.num, b0.typ) ∈ R.bus.map (fun b => (b.num, b.typ)) := by rw [h.bus]; exact List.mem_map.2 ⟨b0, hb, rfl⟩
  obtain ⟨b, h0, e⟩ := List.mem_map.1 this
  simp only [Prod.mk.injEq] at e
  exact ⟨b, h0, e.1⟩

theorem brRow {l} (hl : l ∈ R.branch) : ∃ l0 ∈ c.branch, l0.f = l.f ∧ l0.t = l.t ∧ l0.status = l.status ∧ l0.data.r = l.data.r ∧ l0.data.x = l.data.x := by
  have : (l.f, l.t, l.status, l.data.r, l.data.x) ∈ c.branch.map (fun l => (l.f, l.t, l.status, l.data.r, l.data.x)) := by
    rw [← h.branch]; exact List.mem_map.2 ⟨l, hl, rfl⟩
  obtain ⟨l0, h0, e⟩ := List.mem_map.1 this
  simp only [Prod.mk.injEq] at e
  exact ⟨l0, h0, e⟩

theorem refs (hw : WF c) : Refs R where
  nodup := by
    have := congrArg (List.map Prod.fst) h.bus
    simp only [List.map_map, Function.comp_def] at this
    rw [this]; exact hw.busNodup
  gen := by
    intro g hg
    have : (g.bus, g.status) ∈ c.gen.map (fun g => (g.bus, g.status)) := by rw [← h.gen]; exact List.mem_map.2 ⟨g, hg, rfl⟩
    obtain ⟨g0, h0, e⟩ := List.mem_map.1 this
    simp only [Prod.mk.injEq] at e
    obtain ⟨b0, hb0, e0⟩ := hw.genRef g0 h0
    obtain ⟨b, hb, e1⟩ := h.busBack hb0
    exact ⟨b, hb, by rw [e1, e0, e.1]⟩
  f := by
    intro l hl
    obtain ⟨l0, h0, e, -⟩ := h.brRow hl
    obtain ⟨b0, hb0, e0⟩ := hw.fRef l0 h0
    obtain ⟨b, hb, e1⟩ := h.busBack hb0
    exact ⟨b, hb, by rw [e1, e0, e]⟩
  t := by
    intro l hl
    obtain ⟨l0, h0, -, e, -⟩ := h.brRow hl
    obtain ⟨b0, hb0, e0⟩ := hw.tRef l0 h0
    obtain ⟨b, hb, e1⟩ := h.busBack hb0
    exact ⟨b, hb, by rw [e1, e0, e]⟩

theorem busOn (ha : AllOn c) {b} (hb : b ∈ R.bus) : b.typ ≠ 4 := by
  obtain ⟨b0, h0, -, e⟩ := h.busRow hb
  rw [← e]; exact ha.bus b0 h0

theorem connected (ha : AllOn c) {n : ℕ} (hn : HasBus R n) : Connected R n := by
  obtain ⟨b, hb, e⟩ := hn
  exact ⟨b, hb, e, h.busOn ha hb⟩

theorem acPoint {base : ℝ} (hw : WF c) (ha : AllOn c) (hgen : ∀ g ∈ R.gen, ¬ GenInService R g → g.data.PG = 0 ∧ g.data.QG = 0)
    (hbr : ∀ l ∈ R.branch, ¬ BranchInService R l → l.data.PF = 0 ∧ l.data.QF = 0 ∧ l.data.PT = 0 ∧ l.data.QT = 0)
    (hfl : ∀ l ∈ R.branch, BranchInService R l → l.status = 1 → (l.data.r : ℂ) + Complex.I * l.data.x ≠ 0 → ∀ bf ∈ R.bus, bf.num = l.f → ∀ bt ∈ R.bus, bt.num = l.t →
      ∃ If It : ℂ, Network.PiModel (asBranch l) (rowPhasor bf) (rowPhasor bt) If It ∧
      (l.data.PF : ℂ) + Complex.I * l.data.QF = rowPhasor bf * (starRingEnd ℂ) If * base ∧
      (l.data.PT : ℂ) + Complex.I * l.data.QT = rowPhasor bt * (starRingEnd ℂ) It * base) : AcPoint base R := by
  have key : ∀ l ∈ R.branch, l.status ≠ 0 → l.status = 1 ∧ (l.data.r : ℂ) + Complex.I * l.data.x ≠ 0 := by
    intro l hl hs
    obtain ⟨l0, h0, -, -, e1, e2, e3⟩ := h.brRow hl
    have h1 : l0.status = 1 := (ha.status l0 h0).resolve_left (by rw [e1]; exact hs)
    have := ha.impedance l0 h0 h1
    rw [e2, e3] at this
    exact ⟨by rw [← e1]; exact h1, this⟩
  refine ⟨fun g hg hs => hgen g hg fun hin => ?_, fun l hl hs => hbr l hl fun hin => (by have := hin.1; omega), fun l hl hs => (key l hl hs).2, fun l hl hs => ?_⟩
  · have := hin.1; omega
  · exact hfl l hl ⟨by have := (key l hl hs).1; omega, h.connected ha ((h.refs hw).f l hl), h.connected ha ((h.refs hw).t l hl)⟩ (key l hl hs).1 (key l hl hs).2

end Same

theorem dcPoint {R : Index.Case Tables} (hgen : ∀ g ∈ R.gen, ¬ GenInService R g → g.data.PG = 0 ∧ g.data.QG = 0)
    (hbr : ∀ l ∈ R.branch, ¬ BranchInService R l → l.data.PF = 0 ∧ l.data.QF = 0 ∧ l.data.PT = 0 ∧ l.data.QT = 0)
    (hfl : ∀ l ∈ R.branch, BranchInService R l → l.data.PT = -l.data.PF) : DcPoint R := by
  refine ⟨fun g hg hs => (hgen g hg fun hin => ?_).1, fun l hl => ?_⟩
  · have := hin.1; omega
  · by_cases hin : BranchInService R l
    · exact hfl l hl hin
    · obtain ⟨h1, -, h2, -⟩ := hbr l hl hin
      rw [h1, h2]; simp

theorem sum_abs_le {α : Type} (l : List α) (f g : α → ℝ) (h : ∀ x ∈ l, |f x| ≤ g x) : |(l.map f).sum| ≤ (l.map g).sum := by
  induction l with
  | nil => simp
  | cons a l ih =>
    simp only [List.map_cons, List.sum_cons]
    exact (abs_add_le _ _).trans (add_le_add (h a (by simp)) (ih fun x hx => h x (by simp [hx])))

theorem angles {R : Index.Case Tables} (hr : Refs R) : ∃ θ : ℕ → ℝ, ∀ b ∈ R.bus, θ b.num = b.data.VA * (Real.pi / 180) := by
  refine ⟨fun n => ((R.bus.find? fun b => b.num == n).map fun b => b.data.VA * (Real.pi / 180)).getD 0, fun b hbm => ?_⟩
  cases hf : R.bus.find? fun b' => b'.num == b.num with
  | none => have := List.find?_eq_none.1 hf b hbm; simp at this
  | some b' =>
    have h1 := List.mem_of_find?_eq_some hf
    have h2 := List.find?_some hf
    simp only [beq_iff_eq] at h2
    show (Option.map _ (List.find? (fun b' => b'.num == b.num) R.bus)).getD 0 = _
    rw [hf, row_unique hr.nodup h1 hbm h2]
    rfl

theorem printed_dc {area : List ℝ → ℤ} {o : PrintOpt} {isOPF : Bool} {base : ℝ} {t t' : Index.Case Tables} {r : Option Report} (h : printpf area o isOPF base t = some (t', r))
    (hdc : o.PF_DC = true) (ho : o.OUT_ALL ≠ 0) : t' = dcZero t := by
  cases r with
  | none =>
    unfold printpf at h
    rw [if_neg ho] at h
    simp only [Option.bind_eq_bind, Option.bind_eq_some_iff, Option.some.injEq, Prod.mk.injEq] at h
    obtain ⟨_, _, _, _, _, _, _, _, _, _, _, _, _, h⟩ := h
    cases h
  | some rep => rw [(printpf_inv h).2.1, if_pos hdc]

variable {area : List ℝ → ℤ} {o : PrintOpt} {srt : List ℕ → List ℕ} (hs : IsArgsort srt) {base : ℝ} (hb : 0 < base) {c t' : Index.Case Tables} (h : WF c) (ha : AllOn c)
  {rep : Report} {s : Sys}

include hs h ha

include hb in
/-- **C91 (runpf, AC).**  The system summary printed after a successful AC power flow balances: generation − load + shunt injection − losses is within the sum over the buses of the
tolerances of the power flow. -/
theorem C91_runpf_ac {po : Runpf.PfOpt} {lib : Runpf.PfLib} (hrun : runpfAcShown area o srt base po lib c = some (true, t', some rep)) (hsys : rep.sys = some s) :
    |s.genP - s.loadP + s.shuntP - s.lossP| ≤ (t'.bus.map fun b => |tolAt po b.data.VM| * base).sum ∧
    s.genQ - s.loadQ + s.shuntQ + s.chg - s.lossQ = (t'.bus.map (acBalanceQ t')).sum := by
  unfold runpfAcShown at hrun
  simp only [Option.bind_eq_bind, Option.bind_eq_some_iff, Option.some.injEq, Prod.mk.injEq] at hrun
  obtain ⟨⟨ok, tb⟩, hr, R, hR, p, hp, hok, rfl⟩ := hrun
  simp only at hR hok
  subst hR hok
  have hprint : printpf area { o with PF_DC := false } false base R = some (t', some rep) := hp
  have e := C93_partial hprint (.inl rfl)
  subst e
  obtain ⟨i1, i2, i3, i4, i5⟩ := Runpf.C87_ac_inputs hs h hr
  have hsame := same_pf i1 i2 i3
  have hpt : AcPoint base t' := hsame.acPoint h ha i4 i5 (Runpf.C87_ac_flows hs h hr)
  obtain ⟨h1, h2⟩ := C91_system_ac rfl (hsame.refs h) hpt hprint hsys
  refine ⟨?_, h2⟩
  rw [h1]
  refine sum_abs_le _ _ _ fun b hbm => ?_
  obtain ⟨i, hi⟩ := List.getElem?_of_mem hbm
  obtain ⟨k1, k2, -⟩ := Runpf.C87_ac hs hb h hr rfl i b hi (hsame.busOn ha hbm)
  by_cases hsl : IsSlack c i
  · rw [k2 hsl, abs_zero]; positivity
  · exact (k1 hsl).le.trans (mul_le_mul_of_nonneg_right (le_abs_self _) hb.le)

include hb in
/-- **C91 (runpf, DC).**  The system summary printed after a DC power flow balances exactly and shows no losses. -/
theorem C91_runpf_dc {lib : Runpf.DcLib} (hlib : Runpf.Solves lib) (hind : Inductive c) (htied : Tied c) {ok : Bool}
    (hrun : runpfDcShown area o srt base lib c = some (ok, t', some rep)) (hsys : rep.sys = some s) :
    s.lossP = 0 ∧ s.genP - s.loadP + s.shuntP = 0 := by
  unfold runpfDcShown at hrun
  simp only [Option.bind_eq_bind, Option.bind_eq_some_iff, Option.some.injEq, Prod.mk.injEq] at hrun
  obtain ⟨⟨ok', tb⟩, hr, R, hR, p, hp, hok, rfl⟩ := hrun
  simp only at hR hok
  subst hR hok
  obtain ⟨i1, i2, i3, i4, i5⟩ := Runpf.C87_dc_inputs hs h hr
  have hsame := same_pf i1 i2 i3
  have hbus := (Runpf.C87_dc hs hb.ne' hlib h hr hind htied).2.1
  obtain ⟨θ, hθ⟩ := angles (hsame.refs h)
  have hpt : DcPoint R := dcPoint i4 i5 fun l hl hin => (Runpf.C87_dc_flows hs h hr ha.status θ hθ l hl hin).2.1
  obtain ⟨h1, h2⟩ := C91_system_dc rfl (hsame.refs h) hpt hp hsys
  refine ⟨h1, ?_⟩
  have z1 : (R.bus.map (dcBalance R)).sum = 0 := total_zero fun b hbm => (hbus b hbm (hsame.busOn ha hbm)).1
  have z2 : (R.bus.map fun b => b.data.GS * (1 - b.data.VM ^ 2)).sum = 0 := total_zero fun b hbm => by rw [(hbus b hbm (hsame.busOn ha hbm)).2]; ring
  rw [h2, z1, z2, add_zero]

include hb in
/-- **C91 (runopf, AC).**  The system summary printed after a successful AC optimal power flow balances in active and reactive power, within the sum of the tolerances at the buses. -/
theorem C91_runopf_ac {S : Opf.AcSetup} {po : Pips.Opt} {solve : Opf.AnySolver} {r : Opf.Ret}
    (hgood : ∀ c' d, Index.ext2int srt c = some c' → Opf.readCase base c' = some d →
      Opf.Good (Opf.acOps d ++ S.extra d c') ∧ (OpfModel.names (OpfModel.nlnBlocks (Opf.acOps d ++ S.extra d c'))).Nodup)
    (hrun : runopfAc area o srt base S po solve c = some (r, some rep)) (hok : r.success = true) (hsys : rep.sys = some s) :
    |s.genP - s.loadP + s.shuntP - s.lossP| ≤ c.bus.length * (r.tol * base) ∧ |s.genQ - s.loadQ + s.shuntQ + s.chg - s.lossQ| ≤ c.bus.length * (r.tol * base) := by
  unfold runopfAc at hrun
  simp only [Option.bind_eq_bind, Option.bind_eq_some_iff, Option.some.injEq, Prod.mk.injEq] at hrun
  obtain ⟨r0, hr, ⟨t1, rp⟩, hp, hok', hrp⟩ := hrun
  simp only at hok' hrp
  subst hrp hok'
  have e := C93_partial hp (.inl rfl)
  subst e
  simp only at hok ⊢
  obtain ⟨i1, i2, i3, i4, i5⟩ := Opf.C86_ac_inputs hs h hr
  have hsame := same_opf i1 i2 i3
  have hpt : AcPoint base r0.tables := hsame.acPoint h ha i4 i5 fun l hl hin h1 hz bf hbf e1 bt hbt e2 => by
    obtain ⟨If, It, h1, h2, h3⟩ := Opf.C86_ac_flows hs hb h hgood hr l hl hin h1 hz bf hbf bt hbt e1 e2
    refine ⟨If, It, h1, ?_, ?_⟩
    · rw [← h2, mul_comm Complex.I]; exact (Complex.mk_eq_add_mul_I _ _).symm
    · rw [← h3, mul_comm Complex.I]; exact (Complex.mk_eq_add_mul_I _ _).symm
  obtain ⟨h1, h2⟩ := C91_system_ac rfl (hsame.refs h) hpt hp hsys
  have hbal := (Opf.C86_ac hs hb h hgood hr hok).1
  have hlen : (r0.tables.bus.map fun _ => r0.tol * base).sum = c.bus.length * (r0.tol * base) := by
    have := congrArg List.length hsame.bus
    simp only [List.length_map] at this
    rw [List.map_const', List.sum_replicate, this, nsmul_eq_mul]
  rw [h1, h2, ← hlen]
  exact ⟨sum_abs_le _ _ _ fun b hbm => (hbal b hbm (hsame.busOn ha hbm)).1.le, sum_abs_le _ _ _ fun b hbm => (hbal b hbm (hsame.busOn ha hbm)).2.1.le⟩

include hb in
/-- **C91 (runopf, DC; partial).**  After a successful DC optimal power flow the printed generation − load + shunt injection is zero within the sum of the tolerances, up to the shunts: the
optimisation takes them at 1 p.u., the printout at the voltage magnitude that the caller left in the table. Missing: balance in that case, see `C91_dc_shunt_negation`. -/
theorem C91_runopf_dc_partial {S : Opf.DcSetup} {po : Pips.Opt} {solve : Opf.AnySolver} {r : Opf.Ret}
    (hgood : ∀ c' d, Index.ext2int srt c = some c' → Opf.readCase base c' = some d → Opf.Good (Opf.dcOps d ++ S.extra d c'))
    (hrun : runopfDc area o srt base S po solve c = some (r, some rep)) (hok : r.success = true) (hsys : rep.sys = some s) :
    s.lossP = 0 ∧ |s.genP - s.loadP + s.shuntP - (r.tables.bus.map fun b => b.data.GS * (1 - b.data.VM ^ 2)).sum| ≤ c.bus.length * (r.tol * base) := by
  unfold runopfDc at hrun
  simp only [Option.bind_eq_bind, Option.bind_eq_some_iff, Option.some.injEq, Prod.mk.injEq] at hrun
  obtain ⟨r0, hr, ⟨t1, rp⟩, hp, hok', hrp⟩ := hrun
  simp only at hok' hrp
  subst hrp hok'
  simp only at hok ⊢
  obtain ⟨i1, i2, i3, i4, i5⟩ := Opf.C86_dc_inputs hs h hr
  have hsame := same_opf i1 i2 i3
  obtain ⟨θ, hθ⟩ := angles (hsame.refs h)
  have hpt : DcPoint r0.tables := dcPoint i4 i5 fun l hl hin => (Opf.C86_dc_flows hs h hgood hr ha.status θ hθ l hl hin).2.1
  obtain ⟨h1, h2⟩ := C91_system_dc rfl (hsame.refs h) hpt hp hsys
  have hbal := (Opf.C86_dc hs hb h hgood hr hok).1
  have hlen : (r0.tables.bus.map fun _ => r0.tol * base).sum = c.bus.length * (r0.tol * base) := by
    have := congrArg List.length hsame.bus
    simp only [List.length_map] at this
    rw [List.map_const', List.sum_replicate, this, nsmul_eq_mul]
  have ht : t1 = dcZero r0.tables := (printpf_inv hp).2.1
  have e : (t1.bus.map fun b => b.data.GS * (1 - b.data.VM ^ 2)).sum = (r0.tables.bus.map fun b => b.data.GS * (1 - b.data.VM ^ 2)).sum := by
    rw [ht]; simp only [dcZero, List.map_map, Function.comp_def]
  refine ⟨h1, ?_⟩
  rw [e, h2, add_sub_cancel_right, ← hlen]
  exact sum_abs_le _ _ _ fun b hbm => (hbal b hbm (hsame.busOn ha hbm)).le

omit hs h ha

/-- **C93 (negation).**  Unless all printing is switched off, `runpf` with the DC formulation returns tables whose reactive demands, shunt susceptances, reactive limits, branch resistances
and line charging are zero, whatever the case had; all other columns are those of the calculation. -/
theorem C93_negation {lib : Runpf.DcLib} {ok : Bool} {rp : Option Report} (hrun : runpfDcShown area o srt base lib c = some (ok, t', rp)) (ho : o.OUT_ALL ≠ 0) :
    (∀ b ∈ t'.bus, b.data.QD = 0 ∧ b.data.BS = 0) ∧ (∀ g ∈ t'.gen, g.data.QG = 0 ∧ g.data.QMAX = 0 ∧ g.data.QMIN = 0) ∧ (∀ l ∈ t'.branch, l.data.r = 0 ∧ l.data.b = 0) ∧
    ∃ R, Runpf.runpfDc srt base lib c = some ⟨ok, some R⟩ ∧
      t'.bus = R.bus.map (fun b => { b with data := { b.data with QD := 0, BS := 0 } }) ∧
      t'.gen = R.gen.map (fun g => { g with data := { g.data with QG := 0, QMAX := 0, QMIN := 0 } }) ∧
      t'.branch = R.branch.map (fun l => { l with data := { l.data with r := 0, b := 0 } }) := by
  unfold runpfDcShown at hrun
  simp only [Option.bind_eq_bind, Option.bind_eq_some_iff, Option.some.injEq, Prod.mk.injEq] at hrun
  obtain ⟨⟨ok', tb⟩, hr, R, hR, p, hp, hok, rfl⟩ := hrun
  simp only at hR hok
  subst hR hok
  have ht := printed_dc hp rfl ho
  have hb : t'.bus = R.bus.map (fun b => { b with data := { b.data with QD := 0, BS := 0 } }) := by rw [ht]; rfl
  have hg : t'.gen = R.gen.map (fun g => { g with data := { g.data with QG := 0, QMAX := 0, QMIN := 0 } }) := by rw [ht]; rfl
  have hl : t'.branch = R.branch.map (fun l => { l with data := { l.data with r := 0, b := 0 } }) := by rw [ht]; rfl
  refine ⟨?_, ?_, ?_, R, hr, hb, hg, hl⟩
  · rw [hb]; intro b hbm
    obtain ⟨x, -, rfl⟩ := List.mem_map.1 hbm; exact ⟨rfl, rfl⟩
  · rw [hg]; intro b hbm
    obtain ⟨x, -, rfl⟩ := List.mem_map.1 hbm; exact ⟨rfl, rfl, rfl⟩
  · rw [hl]; intro b hbm
    obtain ⟨x, -, rfl⟩ := List.mem_map.1 hbm; exact ⟨rfl, rfl⟩

/-- **C93 (negation, OPF).**  The same for `runopf`. -/
theorem C93_negation_opf {S : Opf.DcSetup} {po : Pips.Opt} {solve : Opf.AnySolver} {r : Opf.Ret} {rp : Option Report}
    (hrun : runopfDc area o srt base S po solve c = some (r, rp)) (ho : o.OUT_ALL ≠ 0) :
    (∀ b ∈ r.tables.bus, b.data.QD = 0 ∧ b.data.BS = 0) ∧ (∀ g ∈ r.tables.gen, g.data.QG = 0 ∧ g.data.QMAX = 0 ∧ g.data.QMIN = 0) ∧
    (∀ l ∈ r.tables.branch, l.data.r = 0 ∧ l.data.b = 0) := by
  unfold runopfDc at hrun
  simp only [Option.bind_eq_bind, Option.bind_eq_some_iff, Option.some.injEq, Prod.mk.injEq] at hrun
  obtain ⟨r0, hr, ⟨t1, rp'⟩, hp, hok', hrp⟩ := hrun
  simp only at hok' hrp
  subst hrp hok'
  have ht := printed_dc hp rfl ho
  simp only
  rw [ht]
  refine ⟨?_, ?_, ?_⟩ <;> intro b hbm <;> simp only [dcZero, List.mem_map] at hbm <;> obtain ⟨x, -, rfl⟩ := hbm
  · exact ⟨rfl, rfl⟩
  · exact ⟨rfl, rfl, rfl⟩
  · exact ⟨rfl, rfl⟩

/-- **C93 (partial, runs).**  `runpf` and `runopf` with the AC formulation, or with printing switched off, return what the calculation returned. -/
theorem C93_runs_partial {po : Runpf.PfOpt} {lib : Runpf.PfLib} {dlib : Runpf.DcLib} {ok : Bool} {rp : Option Report} {S : Opf.AcSetup} {D : Opf.DcSetup} {o' : Pips.Opt} {solve : Opf.AnySolver}
    {r : Opf.Ret} :
    (runpfAcShown area o srt base po lib c = some (ok, t', rp) → Runpf.runpfAc srt base po lib c = some ⟨ok, some t'⟩) ∧
    (runopfAc area o srt base S o' solve c = some (r, rp) → Opf.opfAc srt base o.OPF_FLOW_LIM S o' solve c = some r) ∧
    (o.OUT_ALL = 0 → runpfDcShown area o srt base dlib c = some (ok, t', rp) → Runpf.runpfDc srt base dlib c = some ⟨ok, some t'⟩) ∧
    (o.OUT_ALL = 0 → runopfDc area o srt base D o' solve c = some (r, rp) → Opf.opfDc srt base D o' solve c = some r) := by
  refine ⟨fun hrun => ?_, fun hrun => ?_, fun h0 hrun => ?_, fun h0 hrun => ?_⟩
  · unfold runpfAcShown at hrun
    simp only [Option.bind_eq_bind, Option.bind_eq_some_iff, Option.some.injEq, Prod.mk.injEq] at hrun
    obtain ⟨⟨ok', tb⟩, hr, R, hR, p, hp, hok, rfl⟩ := hrun
    simp only at hR hok
    subst hR hok
    rw [C93_partial hp (.inl rfl), hr]
  · unfold runopfAc at hrun
    simp only [Option.bind_eq_bind, Option.bind_eq_some_iff, Option.some.injEq, Prod.mk.injEq] at hrun
    obtain ⟨r0, hr, ⟨t1, rp'⟩, hp, rfl, -⟩ := hrun
    rw [hr, C93_partial hp (.inl rfl)]
  · unfold runpfDcShown at hrun
    simp only [Option.bind_eq_bind, Option.bind_eq_some_iff, Option.some.injEq, Prod.mk.injEq] at hrun
    obtain ⟨⟨ok', tb⟩, hr, R, hR, p, hp, hok, rfl⟩ := hrun
    simp only at hR hok
    subst hR hok
    rw [C93_partial hp (.inr h0), hr]
  · unfold runopfDc at hrun
    simp only [Option.bind_eq_bind, Option.bind_eq_some_iff, Option.some.injEq, Prod.mk.injEq] at hrun
    obtain ⟨r0, hr, ⟨t1, rp'⟩, hp, rfl, -⟩ := hrun
    rw [hr, C93_partial hp (.inr h0)]

/-- **C95 (negation, runs).**  With the default options `runopf` does not return the results of a calculation in which a dispatchable load is at one of its limits: it raises. -/
theorem C95_runopf_negation {S : Opf.AcSetup} {po : Pips.Opt} {solve : Opf.AnySolver} {r : Opf.Ret} (hr : Opf.opfAc srt base defaults.OPF_FLOW_LIM S po solve c = some r)
    {g : GenRow GenD} (hg : g ∈ r.tables.gen) (hon : 0 < g.status) (hload : g.data.PMIN < 0 ∧ g.data.PMAX = 0)
    (hat : g.data.PG < g.data.PMIN + defaults.OPF_VIOLATION ∨ g.data.PG > g.data.PMAX - defaults.OPF_VIOLATION) :
    runopfAc area defaults srt base S po solve c = none := by
  unfold runopfAc
  rw [hr, Option.bind_eq_bind, Option.bind_some]
  rw [C95_negation (o := { defaults with PF_DC := false }) rfl rfl rfl hg hon hload hat]
  rfl

end

end Verif.Printpf
