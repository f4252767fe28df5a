import Verif.Printpf.RunProps
import Verif.Printpf.FigureProps

/-!
# Tables on which the printed figures go wrong (C91), and on which the hypotheses of C91–C95 hold
-/

namespace Verif.Printpf

open Verif.Opf (Tables BusD GenD BrD asBranch rowPhasor genAt fromAt toAt acBalanceP acBalanceQ dcBalance)
open Verif.Index (BusRow GenRow BranchRow HasBus WF IsArgsort GenInService BranchInService Connected)
open ComplexConjugate

noncomputable section

/-- Two areas: buses 1 and 2 in area 1, bus 3 in area 2. -/
def exArea (rest : List ℝ) : ℤ := if rest.length = 0 then 1 else 2

/-- A line with charging from bus 1 to bus 3; 10 MW generated and used at bus 1, the charging of 20 MVAr used at both ends. -/
def exTab : Index.Case Tables where
  bus := [⟨1, 3, ⟨10, 0, 0, 0, 1, 0, 1.1, 0.9, 0, 0, 0, 0, []⟩⟩, ⟨2, 1, ⟨0, 0, 0, 0, 1, 0, 1.1, 0.9, 0, 0, 0, 0, []⟩⟩, ⟨3, 1, ⟨0, 10, 0, 0, 1, 0, 1.1, 0.9, 0, 0, 0, 0, [0]⟩⟩]
  gen := [⟨1, 1, ⟨10, -10, 50, -50, 1, 100, 0, 0, 0, 0, 0, []⟩⟩]
  branch := [⟨1, 3, 1, ⟨0, 1, 0.2, 60, 0, 0, 0, -10, 0, -10, 0, 0, 0, 0, []⟩⟩]
  areas := none
  gencost := none
  A := none
  N := none
  order := none

/-- The same with an isolated bus that has a demand. -/
def exIso : Index.Case Tables := { exTab with bus := exTab.bus ++ [⟨4, 4, ⟨10, 0, 0, 0, 1, 0, 1.1, 0.9, 0, 0, 0, 0, []⟩⟩] }

/-- A conductance of 10 MW at bus 1, whose voltage magnitude was left at 0.9 p.u.; bus 2 is joined to it. -/
def exShunt : Index.Case Tables where
  bus := [⟨1, 3, ⟨0, 0, 10, 0, 0.9, 0, 1.1, 0.9, 0, 0, 0, 0, []⟩⟩, ⟨2, 1, ⟨20, 0, 0, 0, 1, 0, 1.1, 0.9, 0, 0, 0, 0, []⟩⟩]
  gen := [⟨1, 1, ⟨30, 0, 50, -50, 1, 100, 0, 0, 0, 0, 0, []⟩⟩]
  branch := [⟨1, 2, 1, ⟨0, 1, 0.2, 60, 0, 0, 20, 0, -20, 0, 0, 0, 0, 0, []⟩⟩]
  areas := none
  gencost := none
  A := none
  N := none
  order := none

theorem exTab_refs : Refs exTab := ⟨by simp [exTab], by simp [exTab, HasBus], by simp [exTab, HasBus], by simp [exTab, HasBus]⟩
theorem exIso_refs : Refs exIso := ⟨by simp [exIso, exTab], by simp [exIso, exTab, HasBus], by simp [exIso, exTab, HasBus], by simp [exIso, exTab, HasBus]⟩
theorem exShunt_refs : Refs exShunt := ⟨by simp [exShunt], by simp [exShunt, HasBus], by simp [exShunt, HasBus], by simp [exShunt, HasBus]⟩

theorem exLine (bf bt : BusRow BusD) (hf : bf.data.VM = 1 ∧ bf.data.VA = 0) (ht : bt.data.VM = 1 ∧ bt.data.VA = 0) :
    ∃ If It : ℂ, Network.PiModel (asBranch ⟨1, 3, 1, ⟨0, 1, 0.2, 60, 0, 0, 0, -10, 0, -10, 0, 0, 0, 0, []⟩⟩) (rowPhasor bf) (rowPhasor bt) If It ∧
      ((0 : ℝ) : ℂ) + Complex.I * ((-10 : ℝ) : ℂ) = rowPhasor bf * conj If * ((100 : ℝ) : ℂ) ∧ ((0 : ℝ) : ℂ) + Complex.I * ((-10 : ℝ) : ℂ) = rowPhasor bt * conj It * ((100 : ℝ) : ℂ) := by
  have e1 : rowPhasor bf = 1 := by simp [rowPhasor, hf.1, hf.2]
  have e2 : rowPhasor bt = 1 := by simp [rowPhasor, ht.1, ht.2]
  have hc : conj (Complex.I * ((0.1 : ℝ) : ℂ)) = -(Complex.I * ((0.1 : ℝ) : ℂ)) := by
    rw [map_mul, Complex.conj_I, Complex.conj_ofReal]; ring
  have ht : Network.turns (asBranch ⟨1, 3, 1, ⟨0, 1, 0.2, 60, 0, 0, 0, -10, 0, -10, 0, 0, 0, 0, []⟩⟩) = 1 := by
    simp [Network.turns, asBranch]
  refine ⟨Complex.I * ((0.1 : ℝ) : ℂ), Complex.I * ((0.1 : ℝ) : ℂ), ?_, ?_, ?_⟩
  · refine ⟨1, Complex.I * ((0.1 : ℝ) : ℂ), 0, ?_, ?_, ?_, ?_, ?_, ?_⟩
    · rw [ht, e1]; simp
    · rw [e1]
    · rw [ht]; simp
    · rw [e2]; simp
    · simp only [asBranch]; push_cast; ring
    · rw [e2]; simp only [asBranch]; push_cast; ring
  · rw [e1, hc]; push_cast; ring
  · rw [e2, hc]; push_cast; ring

theorem exTab_point : AcPoint 100 exTab where
  genOff := by simp [exTab]
  branchOff := by simp [exTab]
  impedance := by simp [exTab]
  branchOn := by
    intro l hl _ bf hbf e1 bt hbt e2
    have h1 : ∀ b ∈ exTab.bus, b.data.VM = 1 ∧ b.data.VA = 0 := by simp [exTab]
    simp only [exTab, List.mem_cons, List.not_mem_nil, or_false] at hl
    subst hl
    exact exLine bf bt (h1 bf hbf) (h1 bt hbt)

theorem exIso_point : AcPoint 100 exIso where
  genOff := by simp [exIso, exTab]
  branchOff := by simp [exIso, exTab]
  impedance := by simp [exIso, exTab]
  branchOn := by
    intro l hl _ bf hbf e1 bt hbt e2
    have h1 : ∀ b ∈ exIso.bus, b.data.VM = 1 ∧ b.data.VA = 0 := by simp [exIso, exTab]
    simp only [exIso, exTab, List.mem_cons, List.not_mem_nil, or_false] at hl
    subst hl
    exact exLine bf bt (h1 bf hbf) (h1 bt hbt)

theorem exShunt_point : DcPoint exShunt := ⟨by simp [exShunt], by simp [exShunt]⟩

/-- All sections. -/
def exAll : PrintOpt := { defaults with OUT_ALL := 1 }

/-- **C91 (reactive area balance, negation).**  A table with an exact AC operating point, balanced at every bus, whose area summary does not balance in reactive power: the charging of tie
lines is counted twice. -/
theorem C91_area_reactive_negation : ∃ (area : List ℝ → ℤ) (base : ℝ) (t : Index.Case Tables), Refs t ∧ AcPoint base t ∧ (∀ b ∈ t.bus, acBalanceP t b = 0 ∧ acBalanceQ t b = 0) ∧
    ∃ o t' rep as s, printpf area o false base t = some (t', some rep) ∧ rep.areas = some as ∧ s ∈ as ∧ s.genQ - s.loadQ + s.shuntQ + s.chg - s.lossQ - s.exportQ ≠ 0 := by
  have hbal : ∀ b ∈ exTab.bus, acBalanceP exTab b = 0 ∧ acBalanceQ exTab b = 0 := by
    simp only [acBalanceP, acBalanceQ, genAt, fromAt, toAt, exTab, List.mem_cons, List.not_mem_nil, or_false, forall_eq_or_imp, forall_eq]
    norm_num [List.filter_cons]
  refine ⟨exArea, 100, exTab, exTab_refs, exTab_point, hbal, exAll, ?_⟩
  obtain ⟨t', rep, h, h1, h2, -⟩ := (C95_partial (area := exArea) (o := exAll) (isOPF := false) (base := 100) exTab_refs (by simp [exTab]) (by simp [exTab]) (by simp [exTab])).2 (by decide)
  obtain ⟨as, has⟩ := Option.isSome_iff_exists.1 (h2.trans (by decide))
  have hmem := ((C92_partial h ⟨0, 1, by decide, _, _, rfl, rfl, rfl, by simp [exTab, exArea]⟩).1 as has).2
  obtain ⟨s, hs, hn⟩ := List.mem_map.1 ((hmem 1).2 ⟨_, List.mem_cons_self, rfl⟩)
  refine ⟨t', rep, as, s, h, has, hs, ?_⟩
  rw [C91_area_reactive_partial rfl exTab_refs exTab_point h has s hs, hn]
  have z : ((busesIn exArea exTab 1).map (acBalanceQ exTab)).sum = 0 := total_zero fun b hb => (hbal b (List.mem_of_mem_filter hb)).2
  rw [z]
  simp only [tieCharging, busesIn, exTab, exArea]
  norm_num [List.filter_cons]

/-- **C91 (isolated buses, negation).**  A table with an exact AC operating point, balanced at every connected bus, whose system summary is off by the demand of an isolated bus. -/
theorem C91_isolated_negation : ∃ (area : List ℝ → ℤ) (base : ℝ) (t : Index.Case Tables), Refs t ∧ AcPoint base t ∧
    (∀ b ∈ t.bus, b.typ ≠ 4 → acBalanceP t b = 0 ∧ acBalanceQ t b = 0) ∧
    ∃ o t' rep s, printpf area o false base t = some (t', some rep) ∧ rep.sys = some s ∧ s.genP - s.loadP + s.shuntP - s.lossP = -10 := by
  refine ⟨exArea, 100, exIso, exIso_refs, exIso_point, ?_, exAll, ?_⟩
  · simp only [acBalanceP, acBalanceQ, genAt, fromAt, toAt, exIso, exTab, List.cons_append, List.nil_append, List.mem_cons, List.not_mem_nil, or_false, forall_eq_or_imp, forall_eq]
    norm_num [List.filter_cons]
  · obtain ⟨t', rep, h, h1, -⟩ :=
      (C95_partial (area := exArea) (o := exAll) (isOPF := false) (base := 100) exIso_refs (by simp [exIso, exTab]) (by simp [exIso, exTab]) (by simp [exIso, exTab])).2 (by decide)
    obtain ⟨s, hs⟩ := Option.isSome_iff_exists.1 (h1.trans (by decide))
    refine ⟨t', rep, s, h, hs, ?_⟩
    rw [(C91_system_ac rfl exIso_refs exIso_point h hs).1]
    simp only [exIso, exTab, List.cons_append, List.nil_append, List.map_cons, List.map_nil, acBalanceP, genAt, fromAt, toAt]
    norm_num [List.filter_cons]

/-- **C91 (DC shunts, negation).**  A table with an exact DC operating point, balanced at every bus, for which the printed shunt injection is not the one of the calculation. -/
theorem C91_dc_shunt_negation : ∃ (area : List ℝ → ℤ) (base : ℝ) (t : Index.Case Tables), Refs t ∧ DcPoint t ∧ (∀ b ∈ t.bus, dcBalance t b = 0) ∧
    ∃ o t' rep s, o.PF_DC = true ∧ printpf area o true base t = some (t', some rep) ∧ rep.sys = some s ∧ s.lossP = 0 ∧ s.genP - s.loadP + s.shuntP ≠ 0 := by
  have hbal : ∀ b ∈ exShunt.bus, dcBalance exShunt b = 0 := by
    simp only [dcBalance, genAt, fromAt, toAt, exShunt, List.mem_cons, List.not_mem_nil, or_false, forall_eq_or_imp, forall_eq]
    norm_num [List.filter_cons]
  refine ⟨exArea, 100, exShunt, exShunt_refs, exShunt_point, hbal, { exAll with PF_DC := true }, ?_⟩
  obtain ⟨t', rep, h, h1, -⟩ := (C95_partial (area := exArea) (o := { exAll with PF_DC := true }) (isOPF := true) (base := 100) exShunt_refs (by simp [exShunt]) (by simp [exShunt])
    (by simp [exShunt])).2 (by decide)
  obtain ⟨s, hs⟩ := Option.isSome_iff_exists.1 (h1.trans (by decide))
  obtain ⟨e1, e2⟩ := C91_system_dc rfl exShunt_refs exShunt_point h hs
  refine ⟨t', rep, s, rfl, h, hs, e1, ?_⟩
  have z : (exShunt.bus.map (dcBalance exShunt)).sum = 0 := total_zero hbal
  rw [e2, z]
  simp only [exShunt]
  norm_num

/-! ## Runs -/

/-- Two connected buses, the second with demand and a shunt; one branch in service, one not. -/
def exRun : Index.Case Tables where
  bus := [⟨9, 3, ⟨0, 0, 0, 0, 1, 5, 1.1, 0.9, 0, 0, 0, 0, []⟩⟩, ⟨2, 1, ⟨90, 30, 1, 2, 1, 0, 1.1, 0.9, 0, 0, 0, 0, [345]⟩⟩]
  gen := [⟨2, 1, ⟨10, 0, 50, -50, 1, 100, 10, 0, 0, 0, 0, []⟩⟩, ⟨9, 1, ⟨80, 0, 50, -50, 1, 200, 10, 0, 0, 0, 0, []⟩⟩]
  branch := [⟨9, 2, 1, ⟨0.01, 0.1, 0.02, 60, 0, 0, 0, 0, 0, 0, 0, 0, 0, 0, []⟩⟩, ⟨2, 9, 0, ⟨0.01, 0.1, 0.02, 60, 0, 0, 0, 9, 0, 0, 0, 0, 0, 0, []⟩⟩]
  areas := none
  gencost := none
  A := none
  N := none
  order := none

theorem exRun_wf : WF exRun where
  busNodup := by simp [exRun]
  typValid := by simp [exRun]
  someOn := ⟨_, List.mem_cons_self, by decide⟩
  genRef := by simp [exRun, HasBus]
  fRef := by simp [exRun, HasBus]
  tRef := by simp [exRun, HasBus]
  areaRef := by simp [exRun]
  costRows := by simp [exRun]
  aCols := by simp [exRun]
  nCols := by simp [exRun]
  notInternal := by simp [exRun]

theorem exRun_on : AllOn exRun where
  bus := by simp [exRun]
  status := by simp [exRun]
  impedance := by
    simp only [exRun, List.mem_cons, List.not_mem_nil, or_false, forall_eq_or_imp, forall_eq]
    refine ⟨fun _ h => ?_, fun h => absurd h (by decide)⟩
    have := congrArg Complex.re h
    norm_num at this

theorem exRun_slack : Runpf.IsSlack exRun 0 :=
  ⟨_, rfl, ⟨⟨9, 1, ⟨80, 0, 50, -50, 1, 200, 10, 0, 0, 0, 0, []⟩⟩, by simp [exRun], by simp [GenInService, Connected, exRun], rfl⟩, Or.inl rfl⟩

theorem exRun_other : ∃ (i : ℕ) (b : BusRow BusD), exRun.bus[i]? = some b ∧ b.typ ≠ 4 ∧ ¬ Runpf.IsSlack exRun i := by
  refine ⟨1, _, rfl, by decide, ?_⟩
  rintro ⟨b, hb, -, h⟩
  have : b.typ = 1 := by
    have e : exRun.bus[1]? = some ⟨2, 1, ⟨90, 30, 1, 2, 1, 0, 1.1, 0.9, 0, 0, 0, 0, [345]⟩⟩ := rfl
    rw [e] at hb
    injection hb with hb
    rw [← hb]
  rw [this] at h
  simp at h

theorem exRun_tied : Runpf.Tied exRun := by
  simp only [Runpf.Tied, exRun, List.mem_cons, List.not_mem_nil, or_false, forall_eq_or_imp, forall_eq]
  refine ⟨fun _ => ⟨0, _, rfl, exRun_slack, .refl⟩, fun _ => ⟨0, _, rfl, exRun_slack, .single ⟨_, List.mem_cons_self, ?_, Or.inl ⟨rfl, rfl⟩⟩⟩⟩
  simp [BranchInService, Connected]

theorem exRun_inductive : Runpf.Inductive exRun := by
  simp only [Runpf.Inductive, exRun, List.mem_cons, List.not_mem_nil, or_false, forall_eq_or_imp, forall_eq]
  norm_num [BranchInService]

theorem exRun_prints {R : Index.Case Tables} (h1 : R.bus.map Runpf.pfBusInput = exRun.bus.map Runpf.pfBusInput) (h2 : R.gen.map Runpf.pfGenInput = exRun.gen.map Runpf.pfGenInput)
    (h3 : R.branch.map Runpf.pfBranchInput = exRun.branch.map Runpf.pfBranchInput) (o : PrintOpt) (ho : o.OUT_ALL = 1) :
    ∃ t' rep s, printpf exArea o false 100 R = some (t', some rep) ∧ rep.sys = some s := by
  have hsame := same_pf h1 h2 h3
  have hlen : ∀ {α β : Type} {a b : List α} {f : α → β}, a.map f = b.map f → a.length = b.length := by
    intro α β a b f h
    have := congrArg List.length h
    simpa using this
  obtain ⟨t', rep, h, hsys, -⟩ := (C95_partial (area := exArea) (o := o) (isOPF := false) (base := 100) (hsame.refs exRun_wf) (by rw [hlen h1]; simp [exRun])
    (by intro h0; have := hlen h3; rw [h0] at this; simp [exRun] at this)
    (by
      intro _ g hg _ hh
      have : ∀ x ∈ R.gen.map (fun g => g.data.PMIN), 0 ≤ x := by
        rw [show R.gen.map (fun g => g.data.PMIN) = exRun.gen.map (fun g => g.data.PMIN) from map_via h2 fun g => g.data.PMIN]
        simp [exRun]
      have := this _ (List.mem_map.2 ⟨g, hg, rfl⟩)
      linarith [hh.1])).2 (by rw [ho]; decide)
  obtain ⟨s, hs⟩ := Option.isSome_iff_exists.1 (hsys.trans (by simp [PrintOpt.flag, ho]))
  exact ⟨t', rep, s, h, hs⟩

/-- `C91_runpf_ac`: a successful run with a printed system summary. -/
example (lib : Runpf.PfLib) : WF exRun ∧ AllOn exRun ∧ ∃ po t' rep s, runpfAcShown exArea exAll Index.stableArgsort 100 po lib exRun = some (true, t', some rep) ∧ rep.sys = some s := by
  obtain ⟨tol, R, hr⟩ := Runpf.runpfAc_succeeds Index.stableArgsort_isArgsort 100 lib exRun_wf ⟨0, exRun_slack⟩ exRun_other (by simp [exRun])
  obtain ⟨i1, i2, i3, -⟩ := Runpf.C87_ac_inputs Index.stableArgsort_isArgsort exRun_wf hr
  obtain ⟨t', rep, s, hp, hs⟩ := exRun_prints i1 i2 i3 { exAll with PF_DC := false } rfl
  refine ⟨exRun_wf, exRun_on, ⟨1, tol, 10, 10, 10, false, 0, 0⟩, t', rep, s, ?_, hs⟩
  unfold runpfAcShown
  rw [hr, Option.bind_eq_bind, Option.bind_some, Option.bind_eq_bind, Option.bind_some, hp]
  rfl

/-- `C91_runpf_dc`, `C93_negation`: a run that returns reactive demands of zero although the case has one. -/
theorem exRun_dc : ∃ t' rep s, runpfDcShown exArea exAll Index.stableArgsort 100 Runpf.invLib exRun = some (true, t', some rep) ∧ rep.sys = some s ∧
    (∃ b ∈ exRun.bus, b.data.QD ≠ 0) ∧ ∀ b ∈ t'.bus, b.data.QD = 0 := by
  obtain ⟨R, hr⟩ := Runpf.C87_dc_completes Index.stableArgsort_isArgsort exRun_wf (lib := Runpf.invLib) (base := 100) ⟨0, exRun_slack⟩
  obtain ⟨i1, i2, i3, -⟩ := Runpf.C87_dc_inputs Index.stableArgsort_isArgsort exRun_wf hr
  obtain ⟨t', rep, s, hp, hs⟩ := exRun_prints i1 i2 i3 { exAll with PF_DC := true } rfl
  have hrun : runpfDcShown exArea exAll Index.stableArgsort 100 Runpf.invLib exRun = some (true, t', some rep) := by
    unfold runpfDcShown
    rw [hr, Option.bind_eq_bind, Option.bind_some, Option.bind_eq_bind, Option.bind_some, hp]
    rfl
  exact ⟨t', rep, s, hrun, hs, by simp [exRun], fun b hb => ((C93_negation hrun (by decide)).1 b hb).1⟩

example : WF exRun ∧ AllOn exRun ∧ Runpf.Inductive exRun ∧ Runpf.Tied exRun ∧ Runpf.Solves Runpf.invLib := ⟨exRun_wf, exRun_on, exRun_inductive, exRun_tied, Runpf.invLib_solves⟩

theorem exRun_plain : Opf.DcPlain 100 exRun where
  pos := by norm_num
  bus := by
    simp only [exRun, List.mem_cons, List.not_mem_nil, or_false, forall_eq_or_imp, forall_eq]
    refine ⟨fun _ => ⟨Opf.small_angle, by norm_num⟩, fun _ => ⟨by norm_num, by norm_num [abs_of_pos]⟩⟩
  gen := by
    simp only [exRun, List.mem_cons, List.not_mem_nil, or_false, forall_eq_or_imp, forall_eq]
    norm_num [abs_of_pos]
  branch := by
    simp only [exRun, List.mem_cons, List.not_mem_nil, or_false, forall_eq_or_imp, forall_eq]
    norm_num [BranchInService]
  shift := by
    simp only [exRun, List.mem_cons, List.not_mem_nil, or_false, forall_eq_or_imp, forall_eq]
    norm_num [BranchInService]

theorem exRun_dcIn : Opf.DcInputs 100 exRun := exRun_plain.inputs

theorem exRun_acIn : Opf.AcInputs 100 exRun where
  pos := by norm_num
  bus := by
    simp only [exRun, List.mem_cons, List.not_mem_nil, or_false, forall_eq_or_imp, forall_eq]
    refine ⟨fun _ => ⟨Opf.small_angle, by norm_num [abs_of_pos]⟩, fun _ => ⟨by norm_num, by norm_num [abs_of_pos]⟩⟩
  gen := by
    simp only [exRun, List.mem_cons, List.not_mem_nil, or_false, forall_eq_or_imp, forall_eq]
    norm_num [abs_of_pos]
  limited := by
    refine ⟨_, List.mem_cons_self, ?_, by norm_num, by norm_num⟩
    simp [BranchInService, Connected, exRun]

theorem exRun_cost : Opf.CostFits Index.stableArgsort 100 0 Opf.exAcSetup exRun := by
  intro c' d he hd
  have hg : 0 < c'.gen.length := by
    obtain ⟨c1, d1, he1, hd1, hw⟩ := Opf.bridge_exists Index.stableArgsort_isArgsort 100 exRun_wf
    rw [he] at he1; cases he1
    obtain ⟨r, hr⟩ := hw ⟨fun _ b => b, fun _ g => g, fun _ l => l⟩
    obtain ⟨bp, gp, lp, B⟩ := Opf.bridge Index.stableArgsort_isArgsort exRun_wf he hd1 _ hr Opf.opfOff
    obtain ⟨k, -⟩ := B.genOn 0 _ rfl (by simp [GenInService, Connected, exRun])
    exact k.pos
  refine ⟨⟨?_, ?_, ?_, ?_, ?_, ?_⟩, ?_, Or.inr ⟨0, ?_, ?_⟩⟩
  · simp [Opf.exAcSetup, Opf.nlOf]; omega
  · intro r hr hm
    simp only [Opf.exAcSetup, Opf.nlOf, List.mem_replicate] at hr
    rw [hr.2]
    exact ⟨rfl, by simp, by simp⟩
  · simp [Opf.exAcSetup, Opf.nlOf]; omega
  · simp [Opf.exAcSetup, Opf.nlOf]; omega
  · simp [Opf.exAcSetup, Opf.nlOf]
  · simp [Opf.nlOf]
  · simp [Opf.exAcSetup]
  · simpa [Opf.exAcSetup] using hg
  · simp [Opf.exAcSetup, OpfCost.AcData.row, hg]

theorem exRun_printsOpf {R : Index.Case Tables} (h1 : R.bus.map Opf.busInput = exRun.bus.map Opf.busInput) (h2 : R.gen.map Opf.genInput = exRun.gen.map Opf.genInput)
    (h3 : R.branch.map Opf.branchInput = exRun.branch.map Opf.branchInput) (o : PrintOpt) (ho : o.OUT_ALL = 1) :
    ∃ t' rep s, printpf exArea o true 100 R = some (t', some rep) ∧ rep.sys = some s := by
  have hsame := same_opf h1 h2 h3
  have hlen : ∀ {α β : Type} {a b : List α} {f : α → β}, a.map f = b.map f → a.length = b.length := by
    intro α β a b f h
    have := congrArg List.length h
    simpa using this
  obtain ⟨t', rep, h, hsys, -⟩ := (C95_partial (area := exArea) (o := o) (isOPF := true) (base := 100) (hsame.refs exRun_wf) (by rw [hlen h1]; simp [exRun])
    (by intro h0; have := hlen h3; rw [h0] at this; simp [exRun] at this)
    (by
      intro _ g hg _ hh
      have : ∀ x ∈ R.gen.map (fun g => g.data.PMIN), 0 ≤ x := by
        rw [show R.gen.map (fun g => g.data.PMIN) = exRun.gen.map (fun g => g.data.PMIN) from map_via h2 fun g => g.data.PMIN]
        simp [exRun]
      have := this _ (List.mem_map.2 ⟨g, hg, rfl⟩)
      linarith [hh.1])).2 (by rw [ho]; decide)
  obtain ⟨s, hs⟩ := Option.isSome_iff_exists.1 (hsys.trans (by simp [PrintOpt.flag, ho]))
  exact ⟨t', rep, s, h, hs⟩

/-- `C91_runopf_ac`: a successful run with a printed system summary. -/
example : ∃ po r rep s, (∀ c' d, Index.ext2int Index.stableArgsort exRun = some c' → Opf.readCase 100 c' = some d →
      Opf.Good (Opf.acOps d ++ Opf.exAcSetup.extra d c') ∧ (OpfModel.names (OpfModel.nlnBlocks (Opf.acOps d ++ Opf.exAcSetup.extra d c'))).Nodup) ∧
    runopfAc exArea exAll Index.stableArgsort 100 Opf.exAcSetup po (fun _ _ _ _ => none) exRun = some (r, some rep) ∧ r.success = true ∧ rep.sys = some s := by
  obtain ⟨po, r, -, hr, hok⟩ := Opf.opfAc_succeeds Index.stableArgsort_isArgsort exRun_wf exRun_acIn 0 Opf.exAcSetup (fun _ _ _ _ _ => rfl) exRun_cost (fun _ _ _ _ => none)
  obtain ⟨i1, i2, i3, -⟩ := Opf.C86_ac_inputs Index.stableArgsort_isArgsort exRun_wf hr
  obtain ⟨t', rep, s, hp, hs⟩ := exRun_printsOpf i1 i2 i3 { exAll with PF_DC := false } rfl
  refine ⟨po, { r with tables := t' }, rep, s, (Opf.C86_ac_completes_partial Index.stableArgsort_isArgsort exRun_wf exRun_acIn 0 Opf.exAcSetup (fun _ _ _ _ _ => rfl) exRun_cost).1, ?_, hok, hs⟩
  unfold runopfAc
  have hr' : Opf.opfAc Index.stableArgsort 100 exAll.OPF_FLOW_LIM Opf.exAcSetup po (fun _ _ _ _ => none) exRun = some r := hr
  rw [hr', Option.bind_eq_bind, Option.bind_some, hp]
  rfl

/-- `C91_runopf_dc_partial`, `C93_negation_opf`. -/
example : ∃ po r rep s, (∀ c' d, Index.ext2int Index.stableArgsort exRun = some c' → Opf.readCase 100 c' = some d → Opf.Good (Opf.dcOps d ++ Opf.exDcSetup.extra d c')) ∧
    runopfDc exArea exAll Index.stableArgsort 100 Opf.exDcSetup po (fun _ _ _ _ => none) exRun = some (r, some rep) ∧ r.success = true ∧ rep.sys = some s := by
  obtain ⟨po, r, -, hr, hok⟩ := Opf.opfDc_succeeds Index.stableArgsort_isArgsort exRun_wf exRun_dcIn Opf.exDcSetup (fun _ _ _ _ _ => rfl) (fun _ _ _ _ => none)
  obtain ⟨i1, i2, i3, -⟩ := Opf.C86_dc_inputs Index.stableArgsort_isArgsort exRun_wf hr
  obtain ⟨t', rep, s, hp, hs⟩ := exRun_printsOpf i1 i2 i3 { exAll with PF_DC := true } rfl
  refine ⟨po, { r with tables := t' }, rep, s, (Opf.C86_dc_completes Index.stableArgsort_isArgsort exRun_wf exRun_dcIn Opf.exDcSetup (fun _ _ _ _ _ => rfl)).1, ?_, hok, hs⟩
  unfold runopfDc
  rw [hr, Option.bind_eq_bind, Option.bind_some, hp]
  rfl

/-- `C94_partial`, `C94_negation`: an optimal power flow result whose only generator is at its lower limit and whose buses are at their upper voltage limit; with the default options the
former is listed, the latter are not. -/
def exLim : Index.Case Tables where
  bus := [⟨1, 3, ⟨10, 0, 0, 0, 1.1, 0, 1.1, 0.9, 0, 0, 0, 0, []⟩⟩, ⟨2, 1, ⟨0, 0, 0, 0, 1.1, 0, 1.1, 0.9, 0, 0, 0, 0, []⟩⟩]
  gen := [⟨1, 1, ⟨10, 0, 50, -50, 1, 100, 10, 0, 0, 0, 0, []⟩⟩]
  branch := [⟨1, 2, 1, ⟨0, 1, 0, 60, 0, 0, 0, 0, 0, 0, 0, 0, 0, 0, []⟩⟩]
  areas := none
  gencost := none
  A := none
  N := none
  order := none

example : ∃ t' rep, printpf exArea defaults true 100 exLim = some (t', some rep) ∧ rep.pgLims ≠ [] ∧ rep.vLims = [] ∧ ∀ b ∈ exLim.bus, b.data.VM = b.data.VMAX := by
  have hr : Refs exLim := ⟨by simp [exLim], by simp [exLim, HasBus], by simp [exLim, HasBus], by simp [exLim, HasBus]⟩
  obtain ⟨t', rep, h, -⟩ := (C95_partial (area := exArea) (o := defaults) (isOPF := true) (base := 100) hr (by simp [exLim]) (by simp [exLim]) (by simp [exLim])).2 (by decide)
  refine ⟨t', rep, h, ?_, C94_negation h rfl (by decide), by simp [exLim]⟩
  have ht : t' = exLim := C93_partial h (.inl rfl)
  have := ((C94_partial h).1 ⟨1, 1, ⟨10, 0, 50, -50, 1, 100, 10, 0, 0, 0, 0, []⟩⟩).2 ⟨by rw [ht]; simp [ong, exLim, isload], .inr ⟨by decide, .inl (by norm_num [defaults])⟩⟩
  exact List.ne_nil_of_mem this

/-- `C95_negation`: a load that is served in full. -/
example : printpf exArea defaults true 100 { exLim with gen := exLim.gen ++ [⟨2, 1, ⟨-30, 0, 0, 0, 1, 0, -30, 0, 0, 0, 0, []⟩⟩] } = none :=
  C95_negation (g := ⟨2, 1, ⟨-30, 0, 0, 0, 1, 0, -30, 0, 0, 0, 0, []⟩⟩) rfl rfl rfl (by simp) (by decide) (by norm_num) (.inl (by norm_num [defaults]))

/-- `C95_exact_partial`: a load that is served in part is no obstacle in DC, one at a reactive limit is in AC. -/
example : (∃ t' rep, printpf exArea { defaults with PF_DC := true } true 100 { exLim with gen := exLim.gen ++ [⟨2, 1, ⟨-20, 0, 0, -5, 1, 0, -30, 0, 0, 0, 0, []⟩⟩] } = some (t', some rep)) ∧
    ¬ ∃ t' rep, printpf exArea { defaults with OUT_QG_LIM := 1 } true 100 { exLim with gen := exLim.gen ++ [⟨2, 1, ⟨-20, 0, 0, -5, 1, 0, -30, 0, 0, 0, 0, []⟩⟩] } = some (t', some rep) := by
  have hr : Refs { exLim with gen := exLim.gen ++ [⟨2, 1, ⟨-20, 0, 0, -5, 1, 0, -30, 0, 0, 0, 0, []⟩⟩] } :=
    ⟨by simp [exLim], by simp [exLim, HasBus], by simp [exLim, HasBus], by simp [exLim, HasBus]⟩
  constructor
  · refine (C95_exact_partial (n := 1) (k := 1) hr (by simp [exLim]) (by simp [exLim]) (by decide) (.inr (.inr ⟨rfl, rfl, rfl⟩)) (.inr (.inr ⟨rfl, rfl, rfl⟩))).2 ?_
    intro g hg hl
    simp only [exLim, List.cons_append, List.nil_append, List.mem_cons, List.not_mem_nil, or_false] at hg
    rcases hg with rfl | rfl
    · exact absurd hl.2.1 (by norm_num)
    · refine ⟨?_, fun h => by cases h⟩
      norm_num [PgBinding, defaults]
  · rw [C95_exact_partial (n := 1) (k := 1) hr (by simp [exLim]) (by simp [exLim]) (by decide) (.inr (.inr ⟨rfl, rfl, rfl⟩)) (.inr (.inr ⟨rfl, rfl, rfl⟩))]
    intro h
    exact (h ⟨2, 1, ⟨-20, 0, 0, -5, 1, 0, -30, 0, 0, 0, 0, []⟩⟩ (by simp) ⟨by decide, by norm_num [Disp]⟩).2 rfl (.inr ⟨rfl, .inr (.inl (by norm_num [defaults]))⟩)

/-- `C103_*`: a table with two areas and a tie line at an exact operating point, printed in full after a power flow or an optimal power flow. -/
example (isOPF : Bool) : ∃ t' rep s as ls, Refs exTab ∧ AcPoint 100 exTab ∧ printpf exArea exAll isOPF 100 exTab = some (t', some rep) ∧ rep.sys = some s ∧ rep.areas = some as ∧
    rep.gens = some ls ∧ s.ties = 1 ∧ ls.1 ≠ [] ∧
    ∃ i j : ℕ, i ≠ j ∧ ∃ b b', exTab.bus[i]? = some b ∧ exTab.bus[j]? = some b' ∧ exArea b.data.rest = exArea b'.data.rest ∧ ∀ c ∈ exTab.bus, exArea b.data.rest ≤ exArea c.data.rest := by
  obtain ⟨t', rep, h, h1, h2, h3, -⟩ := (C95_partial (area := exArea) (o := exAll) (isOPF := isOPF) (base := 100) exTab_refs (by simp [exTab]) (by simp [exTab]) (by simp [exTab])).2 (by decide)
  obtain ⟨s, hs⟩ := Option.isSome_iff_exists.1 (h1.trans (by decide))
  obtain ⟨as, has⟩ := Option.isSome_iff_exists.1 (h2.trans (by decide))
  obtain ⟨ls, hls⟩ := Option.isSome_iff_exists.1 (h3.trans (by decide))
  have ht : t' = exTab := C93_partial h (.inl rfl)
  refine ⟨t', rep, s, as, ls, exTab_refs, exTab_point, h, hs, has, hls, ?_, ?_, 0, 1, by decide, _, _, rfl, rfl, rfl, by simp [exTab, exArea]⟩
  · rw [(C103_system exTab_refs h hs).1.2.2.2.2.2.2.2.2.2, ht]
    have : Tie exArea exTab ⟨1, 3, 1, ⟨0, 1, 0.2, 60, 0, 0, 0, -10, 0, -10, 0, 0, 0, 0, []⟩⟩ :=
      ⟨1, 2, ⟨_, List.mem_cons_self, rfl, rfl⟩, ⟨_, List.mem_cons_of_mem _ (List.mem_cons_of_mem _ List.mem_cons_self), rfl, by simp [exArea]⟩, by decide⟩
    simp only [count, exTab, List.map_cons, List.map_nil, List.sum_cons, List.sum_nil]
    exact congrArg (· + 0) (if_pos this)
  · obtain ⟨l, hl, -⟩ := (C103_generators exTab_refs h hls).1.2.1 0 ⟨1, 1, ⟨10, -10, 50, -50, 1, 100, 0, 0, 0, 0, 0, []⟩⟩ (by rw [ht]; rfl)
      ⟨by decide, fun hd => by simp [Disp] at hd⟩
    exact List.ne_nil_of_mem hl

/-- `C94_lists`: the default options. -/
example : LimIs defaults (·.OUT_PG_LIM) 1 ∧ LimIs defaults (·.OUT_QG_LIM) 1 ∧ LimIs defaults (·.OUT_LINE_LIM) 1 ∧ LimIs exAll (·.OUT_LINE_LIM) 2 ∧
    ∃ t' rep, Refs exLim ∧ printpf exArea defaults true 100 exLim = some (t', some rep) := by
  have hr : Refs exLim := ⟨by simp [exLim], by simp [exLim, HasBus], by simp [exLim, HasBus], by simp [exLim, HasBus]⟩
  obtain ⟨t', rep, h, -⟩ := (C95_partial (area := exArea) (o := defaults) (isOPF := true) (base := 100) hr (by simp [exLim]) (by simp [exLim]) (by simp [exLim])).2 (by decide)
  exact ⟨.inr (.inr ⟨rfl, rfl, rfl⟩), .inr (.inr ⟨rfl, rfl, rfl⟩), .inr (.inr ⟨rfl, rfl, rfl⟩), .inl ⟨rfl, rfl⟩, t', rep, hr, h⟩

end

end Verif.Printpf
