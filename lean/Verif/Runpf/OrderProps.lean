import Verif.Runpf.OrderLemmas

/-! C132: the order of the rows of the tables does not matter to a DC power flow with a REF bus; without one it does. -/

namespace Verif.Runpf

open Verif.Index (BusRow GenRow BranchRow IsArgsort WF GenInService BranchInService Connected)
open Verif.Opf (Tables BusD GenD BrD genAt)

/-- **C132** (DC power flows). Two cases with the same rows in another order, a REF bus with a generator in service, every connected bus joined to it: both power flows
succeed and return the same bus and branch rows in the respective order, the same generation of each bus and, where no bus has two generators in service, the same
generator rows. -/
theorem C132_dc {srt1 srt2 : List ℕ → List ℕ} (hs1 : IsArgsort srt1) (hs2 : IsArgsort srt2) {base : ℝ} (hb : base ≠ 0) {lib1 lib2 : DcLib} (hlib1 : Solves lib1)
    (hlib2 : Solves lib2) {c1 c2 : Index.Case Tables} (h1 : WF c1) (h2 : WF c2) (r : Reordered c1 c2) (hind : Inductive c1) (htied : Tied c1)
    (hst : ∀ l ∈ c1.branch, l.status = 0 ∨ l.status = 1) (href : ∃ b ∈ c1.bus, b.typ = 3 ∧ HasGenOn c1 b.num) :
    ∃ R1 R2, runpfDc srt1 base lib1 c1 = some ⟨true, some R1⟩ ∧ runpfDc srt2 base lib2 c2 = some ⟨true, some R2⟩ ∧
      R2.bus.Perm R1.bus ∧ R2.branch.Perm R1.branch ∧ (∀ b ∈ c1.bus, genAt R2 b.num GenD.PG = genAt R1 b.num GenD.PG) ∧
      (OnePerBus c1 → R2.gen.Perm R1.gen) := by
  have href2 : ∃ b ∈ c2.bus, b.typ = 3 ∧ HasGenOn c2 b.num := by
    obtain ⟨b, q1, q2, q3⟩ := href
    exact ⟨b, r.bus.mem_iff.2 q1, q2, (r.hasGen _).2 q3⟩
  have hsl : ∀ {c : Index.Case Tables}, (∃ b ∈ c.bus, b.typ = 3 ∧ HasGenOn c b.num) → ∃ i, IsSlack c i := by
    rintro c ⟨b, q1, q2, q3⟩
    obtain ⟨i, hi⟩ := List.getElem?_of_mem q1
    exact ⟨i, b, hi, q3, Or.inl q2⟩
  obtain ⟨R1, hr1⟩ := C87_dc_completes hs1 h1 (lib := lib1) (base := base) (hsl href)
  obtain ⟨R2, hr2⟩ := C87_dc_completes hs2 h2 (lib := lib2) (base := base) (hsl href2)
  have hind2 : Inductive c2 := fun l hl hon => hind l (r.branch.mem_iff.1 hl) ((r.brIn l).1 hon)
  have hst2 : ∀ l ∈ c2.branch, l.status = 0 ∨ l.status = 1 := fun l hl => hst l (r.branch.mem_iff.1 hl)
  have htied2 : Tied c2 := by
    intro b hbm h4
    obtain ⟨i, s, q1, q2, q3⟩ := htied b (r.bus.mem_iff.1 hbm) h4
    obtain ⟨j, hj⟩ := List.getElem?_of_mem (r.bus.mem_iff.2 (List.mem_of_getElem? q1))
    refine ⟨j, s, hj, (isSlack_iff href2 hj).2 ?_, ?_⟩
    · have := (isSlack_iff href q1).1 q2
      exact ⟨this.1, (r.hasGen _).2 this.2⟩
    · refine Relation.ReflTransGen.mono ?_ _ _ q3
      rintro m n ⟨l, q4, q5, q6⟩
      exact ⟨l, r.branch.mem_iff.2 q4, (r.brIn l).2 q5, q6⟩
  obtain ⟨θ1, s1⟩ := dc_sol hs1 hb hlib1 h1 hr1 hind htied hst
  obtain ⟨θ2, s2⟩ := dc_sol hs2 hb hlib2 h2 hr2 hind2 htied2 hst2
  exact ⟨R1, R2, hr1, hr2, sol_unique hb r h1.busNodup hind htied href s1 s2⟩

/-! ### A concrete case: the rows of `exTables` in reverse order -/

/-- `Opf.exTables` with all tables in reverse order. -/
noncomputable def exReversed : Index.Case Tables :=
  { Opf.exTables with bus := Opf.exTables.bus.reverse, gen := Opf.exTables.gen.reverse, branch := Opf.exTables.branch.reverse }

theorem exReversed_reordered : Reordered Opf.exTables exReversed := ⟨List.reverse_perm _, List.reverse_perm _, List.reverse_perm _⟩

theorem exReversed_wf : WF exReversed where
  busNodup := by simp [exReversed, Opf.exTables]
  typValid := by simp [exReversed, Opf.exTables]
  someOn := ⟨_, List.mem_cons_self, by decide⟩
  genRef := by simp [exReversed, Opf.exTables, Index.HasBus]
  fRef := by simp [exReversed, Opf.exTables, Index.HasBus]
  tRef := by simp [exReversed, Opf.exTables, Index.HasBus]
  areaRef := by simp [exReversed, Opf.exTables]
  costRows := by simp [exReversed, Opf.exTables]
  aCols := by simp [exReversed, Opf.exTables]
  nCols := by simp [exReversed, Opf.exTables]
  notInternal := by simp [exReversed, Opf.exTables]

/-- All hypotheses hold of it, including that no bus has two generators in service. -/
example : WF Opf.exTables ∧ WF exReversed ∧ Reordered Opf.exTables exReversed ∧ exReversed.bus ≠ Opf.exTables.bus ∧ Inductive Opf.exTables ∧ Tied Opf.exTables ∧
    (∀ l ∈ Opf.exTables.branch, l.status = 0 ∨ l.status = 1) ∧ (∃ b ∈ Opf.exTables.bus, b.typ = 3 ∧ HasGenOn Opf.exTables b.num) ∧ OnePerBus Opf.exTables ∧ Solves invLib := by
  refine ⟨Opf.exTables_wf, exReversed_wf, exReversed_reordered, ?_, exInductive, exTied, ?_, ?_, ?_, invLib_solves⟩
  · simp [exReversed, Opf.exTables]
  · simp [Opf.exTables]
  · obtain ⟨b, q1, q2, -⟩ := exSlack
    have : b.typ = 3 := by cases q1; rfl
    exact ⟨b, List.mem_of_getElem? q1, this, q2⟩
  · simp [OnePerBus, GenInService, Connected, Opf.exTables]

/-! ### Without a REF bus the order matters -/

/-- Two PV buses, one branch; generator 1 has output 10, generator 2 has output 0, no loads. -/
noncomputable def exPv : Index.Case Tables where
  bus := [⟨1, 2, ⟨0, 0, 0, 0, 1, 0, 1.1, 0.9, 0, 0, 0, 0, []⟩⟩, ⟨2, 2, ⟨0, 0, 0, 0, 1, 0, 1.1, 0.9, 0, 0, 0, 0, []⟩⟩]
  gen := [⟨1, 1, ⟨10, 0, 50, -50, 1, 100, 10, 0, 0, 0, 0, []⟩⟩, ⟨2, 1, ⟨0, 0, 50, -50, 1, 100, 10, 0, 0, 0, 0, []⟩⟩]
  branch := [⟨1, 2, 1, ⟨0.01, 0.1, 0.02, 60, 0, 0, 0, 0, 0, 0, 0, 0, 0, 0, []⟩⟩]
  areas := none
  gencost := none
  A := none
  N := none
  order := none

/-- The same with the two bus rows exchanged. -/
noncomputable def exPv' : Index.Case Tables := { exPv with bus := exPv.bus.reverse }

theorem exPv_wf : WF exPv where
  busNodup := by simp [exPv]
  typValid := by simp [exPv]
  someOn := ⟨_, List.mem_cons_self, by decide⟩
  genRef := by simp [exPv, Index.HasBus]
  fRef := by simp [exPv, Index.HasBus]
  tRef := by simp [exPv, Index.HasBus]
  areaRef := by simp [exPv]
  costRows := by simp [exPv]
  aCols := by simp [exPv]
  nCols := by simp [exPv]
  notInternal := by simp [exPv]

theorem exPv'_wf : WF exPv' where
  busNodup := by simp [exPv', exPv]
  typValid := by simp [exPv', exPv]
  someOn := ⟨_, List.mem_cons_self, by decide⟩
  genRef := by simp [exPv', exPv, Index.HasBus]
  fRef := by simp [exPv', exPv, Index.HasBus]
  tRef := by simp [exPv', exPv, Index.HasBus]
  areaRef := by simp [exPv', exPv]
  costRows := by simp [exPv', exPv]
  aCols := by simp [exPv', exPv]
  nCols := by simp [exPv', exPv]
  notInternal := by simp [exPv', exPv]

theorem exPv_reordered : Reordered exPv exPv' := ⟨List.reverse_perm _, .refl _, .refl _⟩

theorem exPv_gen (n : ℕ) (hn : n = 1 ∨ n = 2) : HasGenOn exPv n := by
  rcases hn with rfl | rfl <;> simp [HasGenOn, exPv, GenInService, Connected]

theorem exPv_slack : IsSlack exPv 0 := by
  refine ⟨_, rfl, exPv_gen 1 (Or.inl rfl), Or.inr ⟨rfl, ?_, fun _ _ _ _ _ => Nat.zero_le _⟩⟩
  simp [exPv]

theorem exPv'_slack : IsSlack exPv' 0 := by
  refine ⟨_, rfl, (exPv_reordered.hasGen _).2 (exPv_gen 2 (Or.inr rfl)), Or.inr ⟨rfl, ?_, fun _ _ _ _ _ => Nat.zero_le _⟩⟩
  simp [exPv', exPv]

theorem exPv_on : JoinedOn exPv 1 2 := ⟨_, List.mem_cons_self, by simp [BranchInService, Connected, exPv], Or.inl ⟨rfl, rfl⟩⟩

theorem exPv'_on : JoinedOn exPv' 2 1 := by
  obtain ⟨l, q1, q2, q3⟩ := exPv_on
  exact ⟨l, q1, (exPv_reordered.brIn l).2 q2, q3.symm⟩

theorem exPv_tied : Tied exPv := by
  have hb : ∀ b ∈ exPv.bus, b.num = 1 ∨ b.num = 2 := by simp [exPv]
  intro b hbm _
  refine ⟨0, _, rfl, exPv_slack, ?_⟩
  rcases hb b hbm with e | e
  · rw [e]
  · rw [e]
    exact .single exPv_on

theorem exPv'_tied : Tied exPv' := by
  have hb : ∀ b ∈ exPv'.bus, b.num = 1 ∨ b.num = 2 := by simp [exPv', exPv]
  intro b hbm _
  refine ⟨0, _, rfl, exPv'_slack, ?_⟩
  rcases hb b hbm with e | e
  · rw [e]
    exact .single exPv'_on
  · rw [e]

theorem exPv_ind : Inductive exPv := by
  simp only [Inductive, exPv, List.mem_cons, List.not_mem_nil, or_false, forall_eq]
  norm_num [BranchInService]

theorem exPv'_ind : Inductive exPv' := fun l hl hon => exPv_ind l hl ((exPv_reordered.brIn l).1 hon)

/-- **C132** needs the REF bus: two cases that satisfy all its other hypotheses, whose DC power flows succeed and return different bus rows (the first PV bus of the table
becomes the slack bus). -/
theorem C132_needs_ref {srt : List ℕ → List ℕ} (hs : IsArgsort srt) {base : ℝ} (hb : base ≠ 0) {lib : DcLib} (hlib : Solves lib) :
    ∃ c1 c2 R1 R2, WF c1 ∧ WF c2 ∧ Reordered c1 c2 ∧ Inductive c1 ∧ Tied c1 ∧ (∀ l ∈ c1.branch, l.status = 0 ∨ l.status = 1) ∧
      runpfDc srt base lib c1 = some ⟨true, some R1⟩ ∧ runpfDc srt base lib c2 = some ⟨true, some R2⟩ ∧ ¬ R2.bus.Perm R1.bus := by
  obtain ⟨R1, hr1⟩ := C87_dc_completes hs exPv_wf (lib := lib) (base := base) ⟨0, exPv_slack⟩
  obtain ⟨R2, hr2⟩ := C87_dc_completes hs exPv'_wf (lib := lib) (base := base) ⟨0, exPv'_slack⟩
  have hst : ∀ l ∈ exPv.branch, l.status = 0 ∨ l.status = 1 := by simp [exPv]
  refine ⟨exPv, exPv', R1, R2, exPv_wf, exPv'_wf, exPv_reordered, exPv_ind, exPv_tied, hst, hr1, hr2, fun hp => ?_⟩
  obtain ⟨θ1, s1⟩ := dc_sol hs hb hlib exPv_wf hr1 exPv_ind exPv_tied hst
  obtain ⟨θ2, s2⟩ := dc_sol hs hb hlib exPv'_wf hr2 exPv'_ind exPv'_tied hst
  have e1 : θ1 1 = 0 := by
    have := s1.slack 0 _ rfl exPv_slack
    simpa using this
  have e2 : θ2 2 = 0 := by
    have := s2.slack 0 _ rfl exPv'_slack
    simpa using this
  have hns : ¬ IsSlack exPv' 1 := by
    rintro ⟨b, q1, -, q2⟩
    have ht : b.typ = 2 := by cases q1; rfl
    rcases q2 with q2 | ⟨-, -, q2⟩
    · rw [ht] at q2; exact absurd q2 (by decide)
    · exact absurd (q2 0 _ rfl rfl ((exPv_reordered.hasGen _).2 (exPv_gen 2 (Or.inr rfl)))) (by decide)
  have e3 := s2.gen 1 _ rfl hns
  have e4 := s2.net ⟨1, 2, ⟨0, 0, 0, 0, 1, 0, 1.1, 0.9, 0, 0, 0, 0, []⟩⟩ (by simp [exPv', exPv]) (by simp)
  have e5 : θ2 1 = 0 := by
    have hm : busAt θ2 ⟨1, 2, ⟨0, 0, 0, 0, 1, 0, 1.1, 0.9, 0, 0, 0, 0, []⟩⟩ ∈ R1.bus := by
      refine hp.mem_iff.1 ?_
      rw [s2.bus]
      exact List.mem_map_of_mem (by simp [exPv', exPv])
    rw [s1.bus] at hm
    simp [exPv, busAt, e1, Real.pi_ne_zero] at hm
    exact hm
  have e6 : netOut exPv' θ2 1 = 0 := by
    rw [exPv_reordered.netOut]
    have hz : netOut exPv θ2 1 = netOut exPv (fun _ => 0) 1 := netOut_congr (by simp [exPv, e2, e5]) 1
    rw [hz]
    unfold netOut Opf.onSum
    refine List.sum_eq_zero fun x hx => ?_
    obtain ⟨l, hl, rfl⟩ := List.mem_map.1 hx
    have : Network.dcFlow (Opf.asBranch l) (fun _ => 0) = 0 := by
      simp only [exPv, List.mem_cons, List.not_mem_nil, or_false] at hl
      subst hl
      simp [Network.dcFlow, Opf.asBranch]
    beta_reduce
    rw [this, mul_zero, ite_self]
  rw [e6, e3, exPv_reordered.genOnAt] at e4
  have e7 : genOnAt exPv 1 GenD.PG = 10 := by
    simp [genOnAt, exPv, GenInService, Connected]
  rw [e7] at e4
  norm_num at e4

end Verif.Runpf
