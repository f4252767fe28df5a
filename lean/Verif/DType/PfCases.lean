import Verif.DType.PfProps

/-!
# C113: the balance that is lost, and a case that meets the hypotheses
-/

namespace Verif.DType

open Verif.Opf (Tables Upd write zeroOff BusD GenD BrD genAt dcBalance acBalanceP acBalanceQ)
open Verif.Index (BusRow GenRow BranchRow IsArgsort WF GenInService BranchInService Connected)
open Verif.Network Verif.Pfsoln Verif.Solvers Verif.Runpf

/-- A slack bus 9, a bus 2 with demand `d` and a generator, joined by one branch in service; the generator table holds whole numbers. -/
def exInt (d : ℝ) : Index.Case Tables :=
  { Opf.exTables with
    bus := [⟨9, 3, ⟨0, 0, 0, 0, 1, 5, 1.1, 0.9, 0, 0, 0, 0, []⟩⟩, ⟨7, 4, ⟨10, 5, 0, 0, 1, 0, 1.1, 0.9, 0, 0, 0, 0, []⟩⟩,
      ⟨2, 1, ⟨d, 30, 1, 2, 1, 0, 1.1, 0.9, 0, 0, 0, 0, [345]⟩⟩] }

theorem exInt_wf (d : ℝ) : WF (exInt d) where
  busNodup := by simp [exInt]
  typValid := by simp [exInt]
  someOn := ⟨_, List.mem_cons_self, by decide⟩
  genRef := by simp [exInt, Opf.exTables, Index.HasBus]
  fRef := by simp [exInt, Opf.exTables, Index.HasBus]
  tRef := by simp [exInt, Opf.exTables, Index.HasBus]
  areaRef := by simp [exInt, Opf.exTables]
  costRows := by simp [exInt, Opf.exTables]
  aCols := by simp [exInt, Opf.exTables]
  nCols := by simp [exInt, Opf.exTables]
  notInternal := by simp [exInt, Opf.exTables]

theorem exInt_whole (d : ℝ) : WholeGens (exInt d) := by
  have w : ∀ z : ℤ, Whole (z : ℝ) := fun z => ⟨z, rfl⟩
  intro g hg
  simp only [exInt, Opf.exTables, List.mem_cons, List.not_mem_nil, or_false] at hg
  rcases hg with rfl | rfl | rfl | rfl
  · exact ⟨by simpa using w 10, by simpa using w 0, by simpa using w 50, by simpa using w (-50), by simpa using w 1, by simpa using w 100, by simpa using w 10⟩
  · exact ⟨by simpa using w 5, by simpa using w 1, by simpa using w 50, by simpa using w (-50), by simpa using w 1, by simpa using w 100, by simpa using w 10⟩
  · exact ⟨by simpa using w 80, by simpa using w 0, by simpa using w 50, by simpa using w (-50), by simpa using w 1, by simpa using w 200, by simpa using w 10⟩
  · exact ⟨by simpa using w 7, by simpa using w 3, by simpa using w 50, by simpa using w (-50), by simpa using w 1, by simpa using w 100, by simpa using w 10⟩

theorem exInt_slack (d : ℝ) : IsSlack (exInt d) 0 :=
  ⟨_, rfl, ⟨⟨9, 1, ⟨80, 0, 50, -50, 1, 200, 10, 0, 0, 0, 0, []⟩⟩, by simp [exInt, Opf.exTables], by simp [GenInService, Connected, exInt], rfl⟩, Or.inl rfl⟩

theorem exInt_tied (d : ℝ) : Tied (exInt d) := by
  simp only [Tied, exInt, List.mem_cons, List.not_mem_nil, or_false, forall_eq_or_imp, forall_eq]
  refine ⟨fun _ => ⟨0, _, rfl, exInt_slack d, .refl⟩, fun h => absurd rfl h,
    fun _ => ⟨0, _, rfl, exInt_slack d, .single ⟨_, List.mem_cons_self, ?_, Or.inl ⟨rfl, rfl⟩⟩⟩⟩
  simp [BranchInService, Connected]

theorem exInt_inductive (d : ℝ) : Inductive (exInt d) := by
  simp only [Inductive, exInt, Opf.exTables, List.mem_cons, List.not_mem_nil, or_false, forall_eq_or_imp, forall_eq]
  norm_num [BranchInService]

theorem exInt_notSlack (d : ℝ) : ¬ IsSlack (exInt d) 2 := by
  rintro ⟨b, hb, -, h⟩
  have e : (exInt d).bus[2]? = some ⟨2, 1, ⟨d, 30, 1, 2, 1, 0, 1.1, 0.9, 0, 0, 0, 0, [345]⟩⟩ := rfl
  rw [e] at hb
  injection hb with hb
  rw [← hb] at h
  simp at h

/-- **C113 (negation).**  A demand `d` of any size, a generator table of whole numbers: the run reports success, the flows carry `d - 9` from the slack bus, the slack generator is
reported without the fraction of it. -/
theorem C113_negation {srt : List ℕ → List ℕ} (hs : IsArgsort srt) {base : ℝ} (hb : base ≠ 0) {lib : DcLib} (hlib : Solves lib) (d : ℝ) :
    ∃ R' b, runpfDcT .int srt base lib (exInt d) = some ⟨true, some R'⟩ ∧ R'.bus[0]? = some b ∧ b.typ = 3 ∧ dcBalance R' b = trunc (d - 9) - (d - 9) := by
  have hwf := exInt_wf d
  have hcomp := C113_dc_completes hs (base := base) hwf (lib := lib)
  obtain ⟨R0, hR0⟩ := C87_dc_completes hs hwf (lib := lib) (base := base) ⟨0, exInt_slack d⟩
  rw [hR0, Option.map_some, Option.map_eq_some_iff] at hcomp
  obtain ⟨⟨ok, tb⟩, hrun, hok⟩ := hcomp
  have hok : ok = true := hok
  subst hok
  have htb : ∃ R', tb = some R' := by
    unfold runpfDcT at hrun
    simp only [Option.bind_eq_bind, Option.bind_eq_some_iff, Option.some.injEq, PfRet.mk.injEq] at hrun
    obtain ⟨_, -, _, -, _, -, r, -, -, e⟩ := hrun
    exact ⟨_, e.symm⟩
  obtain ⟨R', rfl⟩ := htb
  obtain ⟨R, hR, e1, e2, e3⟩ := C113_dc hs hwf (exInt_whole d) hrun
  obtain ⟨-, hbal, -⟩ := C87_dc hs hb hlib hwf hR (exInt_inductive d) (exInt_tied d)
  obtain ⟨i1, i2, i3, i4, i5⟩ := C87_dc_inputs hs hwf hR
  have hdisp := (C87_dc_dispatch hs hwf hR).1
  have hflow := C87_dc_flows hs hwf hR (by simp [exInt, Opf.exTables])
  obtain ⟨b0, b1, b2, hbus⟩ : ∃ b0 b1 b2, R.bus = [b0, b1, b2] := by
    have := congrArg List.length i1
    simp only [List.length_map] at this
    exact List.length_eq_three.1 this
  obtain ⟨g0, gs, hg0⟩ : ∃ g0 gs, R.gen = g0 :: gs := by
    cases hR : R.gen with
    | nil => rw [hR] at i2; simp [exInt, Opf.exTables] at i2
    | cons a l => exact ⟨a, l, rfl⟩
  obtain ⟨g1, g2, g3, hgs⟩ : ∃ g1 g2 g3, gs = [g1, g2, g3] := by
    have := congrArg List.length i2
    rw [hg0] at this
    simp only [List.length_map, List.length_cons, exInt, Opf.exTables] at this
    exact List.length_eq_three.1 (by simpa using this)
  subst hgs
  obtain ⟨l0, l1, l2, hbr⟩ : ∃ l0 l1 l2, R.branch = [l0, l1, l2] := by
    have := congrArg List.length i3
    simp only [List.length_map] at this
    exact List.length_eq_three.1 this
  rw [hbus] at i1
  rw [hg0] at i2
  rw [hbr] at i3
  simp only [exInt, Opf.exTables, List.map_cons, List.map_nil, List.cons.injEq, and_true] at i1 i2 i3
  obtain ⟨i10, i11, i12⟩ := i1
  obtain ⟨i20, i21, i22, i23⟩ := i2
  obtain ⟨i30, i31, i32⟩ := i3
  have nb0 : b0.num = 9 := congrArg BusRow.num i10
  have nb1 : b1.num = 7 := congrArg BusRow.num i11
  have nb2 : b2.num = 2 := congrArg BusRow.num i12
  have tb0 : b0.typ = 3 := congrArg BusRow.typ i10
  have tb1 : b1.typ = 4 := congrArg BusRow.typ i11
  have tb2 : b2.typ = 1 := congrArg BusRow.typ i12
  have pd0 : b0.data.PD = 0 := congrArg (fun b => b.data.PD) i10
  have gd0 : b0.data.GS = 0 := congrArg (fun b => b.data.GS) i10
  have pd2 : b2.data.PD = d := congrArg (fun b => b.data.PD) i12
  have gd2 : b2.data.GS = 1 := congrArg (fun b => b.data.GS) i12
  have ng0 : g0.bus = 2 := congrArg GenRow.bus i20
  have ng1 : g1.bus = 7 := congrArg GenRow.bus i21
  have ng2 : g2.bus = 9 := congrArg GenRow.bus i22
  have ng3 : g3.bus = 9 := congrArg GenRow.bus i23
  have sg3 : g3.status = 0 := congrArg GenRow.status i23
  have f0 : l0.f = 9 := congrArg BranchRow.f i30
  have f1 : l1.f = 9 := congrArg BranchRow.f i31
  have f2 : l2.f = 2 := congrArg BranchRow.f i32
  have t0 : l0.t = 2 := congrArg BranchRow.t i30
  have t1 : l1.t = 7 := congrArg BranchRow.t i31
  have t2 : l2.t = 9 := congrArg BranchRow.t i32
  have s0 : l0.status = 1 := congrArg BranchRow.status i30
  have s2 : l2.status = 0 := congrArg BranchRow.status i32
  have off3 : g3.data.PG = 0 := (i4 g3 (by simp [hg0]) (by simp [GenInService, sg3])).1
  have offl1 : l1.data.PF = 0 ∧ l1.data.QF = 0 ∧ l1.data.PT = 0 ∧ l1.data.QT = 0 := i5 l1 (by simp [hbr]) (by
    simp [BranchInService, Connected, hbus, nb0, nb1, nb2, tb1, f1, t1])
  have offl2 : l2.data.PF = 0 ∧ l2.data.QF = 0 ∧ l2.data.PT = 0 ∧ l2.data.QT = 0 := i5 l2 (by simp [hbr]) (by simp [BranchInService, s2])
  have on0 : BranchInService R l0 := by simp [BranchInService, Connected, hbus, nb0, nb1, nb2, tb0, tb2, f0, t0, s0]
  have hpt : l0.data.PT = -l0.data.PF := by
    refine (hflow (fun n => if n = 9 then b0.data.VA * (Real.pi / 180) else if n = 7 then b1.data.VA * (Real.pi / 180) else b2.data.VA * (Real.pi / 180)) ?_
      l0 (by simp [hbr]) on0).2.1
    simp [hbus, nb0, nb1, nb2]
  have pg0 : g0.data.PG = 10 := by
    obtain ⟨sl, hsl⟩ := hdisp
    by_contra hne
    obtain ⟨i, b, hbi, hsli, hbn, -⟩ := hsl 0 g0 ⟨2, 1, ⟨10, 0, 50, -50, 1, 100, 10, 0, 0, 0, 0, []⟩⟩ (by rw [hg0]; rfl) rfl
      (by simp [GenInService, Connected, exInt]) hne
    have : i = 2 := by
      match i, hbi with
      | 0, hbi =>
        injection hbi with hbi
        rw [← hbi] at hbn; simp at hbn
      | 1, hbi =>
        injection hbi with hbi
        rw [← hbi] at hbn; simp at hbn
      | 2, _ => rfl
      | n + 3, hbi => simp [exInt] at hbi
    subst this
    exact exInt_notSlack d hsli
  have bal0 := (hbal b0 (by simp [hbus]) (by rw [tb0]; decide)).1
  have bal2 := (hbal b2 (by simp [hbus]) (by rw [tb2]; decide)).1
  simp [dcBalance, genAt, Opf.fromAt, Opf.toAt, hg0, hbr, nb0, nb2, ng0, ng1, ng2, ng3, f0, f1, f2, t0, t1, t2, pd0, gd0, pd2, gd2, off3, pg0, offl1, offl2, hpt] at bal0 bal2
  refine ⟨R', b0, hrun, by rw [e1, hbus]; rfl, tb0, ?_⟩
  have hg2 : g2.data.PG = d - 9 := by linarith
  have hl0 : l0.data.PF = d - 9 := by linarith
  simp [dcBalance, genAt, Opf.fromAt, Opf.toAt, e2, e3, truncPG, hg0, hbr, nb0, ng0, ng1, ng2, ng3, f0, f1, f2, t0, t1, t2, pd0, gd0, off3, offl1, offl2, hg2, hl0,
    trunc_of_whole whole_zero]

/-- With a demand of 90.5 MW half a megawatt is missing from the tables of a run reported as a success. -/
theorem C113_negation_half {srt : List ℕ → List ℕ} (hs : IsArgsort srt) {base : ℝ} (hb : base ≠ 0) {lib : DcLib} (hlib : Solves lib) :
    ∃ c R' b, WF c ∧ WholeGens c ∧ Inductive c ∧ Tied c ∧ runpfDcT .int srt base lib c = some ⟨true, some R'⟩ ∧ b ∈ R'.bus ∧ b.typ ≠ 4 ∧ dcBalance R' b = -(1 / 2) := by
  obtain ⟨R', b, h1, h2, h3, h4⟩ := C113_negation hs hb hlib (181 / 2)
  refine ⟨_, R', b, exInt_wf _, exInt_whole _, exInt_inductive _, exInt_tied _, h1, List.mem_of_getElem? h2, by rw [h3]; decide, ?_⟩
  rw [h4]
  have : trunc (181 / 2 - 9 : ℝ) = 81 := by
    unfold trunc
    rw [if_pos (by norm_num)]
    have : ⌊(181 / 2 - 9 : ℝ)⌋ = 81 := by
      rw [Int.floor_eq_iff]; norm_num
    rw [this]; norm_num
  rw [this]; norm_num

/-- The hypotheses of the AC theorems are met by a successful run. -/
example (lib : PfLib) : ∃ o R', o.qlim = false ∧ WF (exInt 90) ∧ WholeGens (exInt 90) ∧
    runpfAcT .int Index.stableArgsort 100 o lib (exInt 90) = some ⟨true, some R'⟩ := by
  have hne : ∃ (i : ℕ) (b : BusRow BusD), (exInt 90).bus[i]? = some b ∧ b.typ ≠ 4 ∧ ¬ IsSlack (exInt 90) i := ⟨2, _, rfl, by decide, exInt_notSlack 90⟩
  obtain ⟨tol, R, h⟩ := runpfAc_succeeds Index.stableArgsort_isArgsort 100 lib (exInt_wf 90) ⟨0, exInt_slack 90⟩ hne (by simp [exInt])
  have hc := C113_ac_completes Index.stableArgsort_isArgsort (base := 100) (exInt_wf 90) (lib := lib) (o := ⟨1, tol, 10, 10, 10, false, 0, 0⟩) rfl
  rw [h, Option.map_some, Option.map_eq_some_iff] at hc
  obtain ⟨⟨ok, tb⟩, h1, h2⟩ := hc
  simp only [Option.isSome_some, Prod.mk.injEq] at h2
  obtain ⟨rfl, h3⟩ := h2
  obtain ⟨R', rfl⟩ := Option.isSome_iff_exists.1 h3
  exact ⟨_, R', rfl, exInt_wf 90, exInt_whole 90, h1⟩

end Verif.DType
