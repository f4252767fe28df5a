import Verif.Runpf.LinearProps
import Verif.Runpf.InjectSpec

/-! C134: only net injections matter to a DC power flow. -/

namespace Verif.Runpf

open Verif.Index (BusRow GenRow BranchRow IsArgsort WF GenInService BranchInService Connected HasBus)
open Verif.Opf (Tables BusD GenD BrD asBranch genAt onSum sum_filter_if)
open Verif.Network

section
variable {c1 c2 : Index.Case Tables} (h : SameInjections c1 c2)
include h

/-- The second case with the generators of the first: on the same network in the sense of C133. -/
theorem SameInjections.wires : SameWires c1 { c2 with gen := c1.gen } := ⟨h.bus, rfl, h.branch⟩

theorem SameInjections.connected (n : ℕ) : Connected c2 n ↔ Connected c1 n := (h.wires).connected n

theorem SameInjections.busRow {i : ℕ} {b2 : BusRow BusD} (hi : c2.bus[i]? = some b2) : ∃ b1, c1.bus[i]? = some b1 ∧ b1.num = b2.num ∧ b1.typ = b2.typ := h.wires.busRow hi

theorem SameInjections.busRow' {i : ℕ} {b1 : BusRow BusD} (hi : c1.bus[i]? = some b1) : ∃ b2, c2.bus[i]? = some b2 ∧ b2.num = b1.num ∧ b2.typ = b1.typ := h.wires.symm.busRow hi

theorem SameInjections.brRow {i : ℕ} {l2 : BranchRow BrD} (hi : c2.branch[i]? = some l2) : ∃ l1, c1.branch[i]? = some l1 ∧ l1.f = l2.f ∧ l1.t = l2.t ∧
    l1.status = l2.status ∧ l1.data.x = l2.data.x ∧ l1.data.tap = l2.data.tap ∧ l1.data.shift = l2.data.shift := h.wires.brRow hi

theorem SameInjections.brIn {l1 l2 : BranchRow BrD} (hf : l1.f = l2.f) (ht : l1.t = l2.t) (hs : l1.status = l2.status) : BranchInService c2 l2 ↔ BranchInService c1 l1 :=
  h.wires.brIn hf ht hs

theorem SameInjections.ind (hi : Inductive c1) : Inductive c2 := h.wires.ind hi

theorem SameInjections.stat (hi : ∀ l ∈ c1.branch, l.status = 0 ∨ l.status = 1) : ∀ l ∈ c2.branch, l.status = 0 ∨ l.status = 1 := h.wires.stat hi

theorem SameInjections.tied (ht : Tied c1) : Tied c2 := by
  intro b hb h4
  obtain ⟨i, hi⟩ := List.getElem?_of_mem hb
  obtain ⟨b1, q1, q2, q3⟩ := h.busRow hi
  obtain ⟨j, s, q4, q5, q6⟩ := ht b1 (List.mem_of_getElem? q1) (by rwa [q3])
  obtain ⟨s2, q7, q8, -⟩ := h.busRow' q4
  refine ⟨j, s2, q7, (h.slack j).2 q5, ?_⟩
  rw [q8, ← q2]
  refine Relation.ReflTransGen.mono ?_ _ _ q6
  rintro m n ⟨l, w1, w2, w3⟩
  obtain ⟨k, hk⟩ := List.getElem?_of_mem w1
  obtain ⟨l2, v1, v2, v3, v4, -⟩ := h.wires.symm.brRow hk
  exact ⟨l2, List.mem_of_getElem? v1, (h.brIn v2.symm v3.symm v4.symm).2 w2, by rwa [v2, v3]⟩

open Classical in
/-- Flows out of a bus depend on the network only. -/
theorem SameInjections.net (θ : ℕ → ℝ) (n : ℕ) : netOut c2 θ n = netOut c1 θ n := by
  unfold netOut onSum
  have := sum_mix 1 0 (fun l => if BranchInService c1 l then ((if l.f = n then 1 else 0) - if l.t = n then 1 else 0) * dcFlow (asBranch l) θ else 0)
    (fun l => if BranchInService c1 l then ((if l.f = n then 1 else 0) - if l.t = n then 1 else 0) * dcFlow (asBranch l) θ else 0)
    (fun l => if BranchInService c2 l then ((if l.f = n then 1 else 0) - if l.t = n then 1 else 0) * dcFlow (asBranch l) θ else 0) c1.branch c1.branch c2.branch
    h.wires.lens.2.2.symm h.wires.lens.2.2.symm fun i l1 l1' l2 q1 q1' q2 => by
      obtain ⟨g1, w1, w2, w3, w4, w5, w6, w7⟩ := h.brRow q2
      rw [q1] at w1; cases w1
      have e := h.brIn w2 w3 w4
      by_cases hin : BranchInService c1 l1
      · simp only [if_pos hin, if_pos (e.2 hin)]
        have : dcFlow (asBranch l2) θ = dcFlow (asBranch l1) θ := by
          unfold dcFlow asBranch
          simp only [w2, w3, w4, w5, w6, w7]
        rw [this, w2, w3]
        ring
      · simp only [if_neg hin, if_neg fun h => hin (e.1 h)]
        ring
  rw [one_mul, zero_mul, add_zero] at this
  exact this

end

/-- **C134** (only net injections matter). Two cases on the same network, with the same slack buses and angles and the same net injection at every other bus, however it is
made up of generators, demand and shunts: both DC power flows succeed and return the same angles and flows; the net injection of the slack buses after the run is the same
too. -/
theorem C134_dc {srt1 srt2 : List ℕ → List ℕ} (hs1 : IsArgsort srt1) (hs2 : IsArgsort srt2) {base : ℝ} (hb : base ≠ 0) {lib1 lib2 : DcLib} (hlib1 : Solves lib1)
    (hlib2 : Solves lib2) {c1 c2 : Index.Case Tables} (h1 : WF c1) (h2 : WF c2) (h : SameInjections c1 c2) (hind : Inductive c1) (htied : Tied c1)
    (hst : ∀ l ∈ c1.branch, l.status = 0 ∨ l.status = 1) :
    ∃ R1 R2, runpfDc srt1 base lib1 c1 = some ⟨true, some R1⟩ ∧ runpfDc srt2 base lib2 c2 = some ⟨true, some R2⟩ ∧
      (∀ (i : ℕ) b1 b2, R1.bus[i]? = some b1 → R2.bus[i]? = some b2 → b1.typ ≠ 4 →
        b2.data.VA = b1.data.VA ∧ genAt R2 b2.num GenD.PG - b2.data.PD - b2.data.GS = genAt R1 b1.num GenD.PG - b1.data.PD - b1.data.GS) ∧
      ∀ (i : ℕ) l1 l2, R1.branch[i]? = some l1 → R2.branch[i]? = some l2 → l2.data.PF = l1.data.PF ∧ l2.data.PT = l1.data.PT := by
  obtain ⟨i0, hi0⟩ : ∃ i, IsSlack c1 i := by
    obtain ⟨b, q1, q2⟩ := h1.someOn
    obtain ⟨i, -, -, q3, -⟩ := htied b q1 q2
    exact ⟨i, q3⟩
  obtain ⟨R1, hr1⟩ := C87_dc_completes hs1 h1 (lib := lib1) (base := base) ⟨i0, hi0⟩
  obtain ⟨R2, hr2⟩ := C87_dc_completes hs2 h2 (lib := lib2) (base := base) ⟨i0, (h.slack i0).2 hi0⟩
  obtain ⟨θ1, s1⟩ := dc_sol hs1 hb hlib1 h1 hr1 hind htied hst
  obtain ⟨θ2, s2⟩ := dc_sol hs2 hb hlib2 h2 hr2 (h.ind hind) (h.tied htied) (h.stat hst)
  have hθ := net_unique h1.busNodup hind htied θ1 θ2
    (fun i b1 hi hsl => by
      obtain ⟨b2, w1, w2, w3⟩ := h.busRow' hi
      have e := s2.slack i b2 w1 ((h.slack i).2 hsl)
      rw [w2, h.angle i b1 b2 hi w1 hsl] at e
      rw [s1.slack i b1 hi hsl, e])
    (fun i b1 hi h4 hns => by
      obtain ⟨b2, w1, w2, w3⟩ := h.busRow' hi
      have e1 := s1.net b1 (List.mem_of_getElem? hi) h4
      have e2 := s2.net b2 (List.mem_of_getElem? w1) (by rwa [w3])
      rw [s1.gen i b1 hi hns] at e1
      rw [s2.gen i b2 w1 fun q => hns ((h.slack i).1 q), h.net, w2] at e2
      have := h.power i b1 b2 hi w1 h4 hns
      unfold injection at this
      rw [w2] at this
      exact mul_left_cancel₀ hb (by linarith))
  refine ⟨R1, R2, hr1, hr2, ?_, ?_⟩
  · intro i b1 b2 q1 q2 h4
    rw [s1.bus, List.getElem?_map] at q1
    rw [s2.bus, List.getElem?_map] at q2
    obtain ⟨d1, w1, rfl⟩ := Option.map_eq_some_iff.1 q1
    obtain ⟨d2, w2, rfl⟩ := Option.map_eq_some_iff.1 q2
    obtain ⟨e2, u1, u2, u3⟩ := h.busRow w2
    rw [w1] at u1; cases u1
    have t1 : d1.typ ≠ 4 := by
      unfold busAt at h4
      split_ifs at h4 with h
      · exact h4
      · exact h
    have t2 : d2.typ ≠ 4 := by rw [← u3]; exact t1
    unfold busAt
    rw [if_neg t1, if_neg t2]
    dsimp only
    have e0 := hθ d1 (List.mem_of_getElem? w1) t1
    have e1 := s1.net d1 (List.mem_of_getElem? w1) t1
    have e3 := s2.net d2 (List.mem_of_getElem? w2) t2
    rw [h.net, ← netOut_congr hθ, ← u2] at e3
    rw [← u2, e0]
    exact ⟨rfl, by linarith⟩
  · intro i l1 l2 q1 q2
    rw [s1.branch, List.getElem?_map] at q1
    rw [s2.branch, List.getElem?_map] at q2
    obtain ⟨d1, w1, rfl⟩ := Option.map_eq_some_iff.1 q1
    obtain ⟨d2, w2, rfl⟩ := Option.map_eq_some_iff.1 q2
    obtain ⟨e2, u1, u2, u3, u4, u5, u6, u7⟩ := h.brRow w2
    rw [w1] at u1; cases u1
    have i2 := h.brIn u2 u3 u4
    unfold brAt
    by_cases hin : BranchInService c1 d1
    · have hf : dcFlow (asBranch d2) θ2 = dcFlow (asBranch d1) θ1 := by
        obtain ⟨-, ⟨x1, y1, z1, k1⟩, ⟨x2, y2, z2, k2⟩⟩ := hin
        have g1 := hθ x1 y1 k1
        have g2 := hθ x2 y2 k2
        rw [z1] at g1; rw [z2] at g2
        unfold dcFlow asBranch
        simp only [u2, u3, u4, u5, u6, u7] at *
        rw [g1, g2]
      rw [if_pos hin, if_pos (i2.2 hin)]
      dsimp only
      rw [hf]
      exact ⟨rfl, rfl⟩
    · rw [if_neg hin, if_neg fun h => hin (i2.1 h)]
      exact ⟨rfl, rfl⟩

/-! ### A concrete case: 30 of the 90 MW of demand at bus 2 of `exTables` as a generator of -30 MW -/

/-- `exTables` with part of the demand at bus 2 modelled as a negative generator, the generator out of service deleted. -/
noncomputable def exNegative : Index.Case Tables :=
  { Opf.exTables with
    bus := [⟨9, 3, ⟨0, 0, 0, 0, 1, 5, 1.1, 0.9, 0, 0, 0, 0, []⟩⟩, ⟨7, 4, ⟨10, 5, 0, 0, 1, 0, 1.1, 0.9, 0, 0, 0, 0, []⟩⟩,
      ⟨2, 1, ⟨60, 30, 1, 2, 1, 0, 1.1, 0.9, 0, 0, 0, 0, [345]⟩⟩]
    gen := [⟨2, 1, ⟨-30, 0, 0, 0, 1, 0, -30, 0, 0, 0, 0, []⟩⟩, ⟨9, 1, ⟨80, 0, 50, -50, 1, 200, 10, 0, 0, 0, 0, []⟩⟩, ⟨2, 1, ⟨10, 0, 50, -50, 1, 100, 10, 0, 0, 0, 0, []⟩⟩] }

theorem exNegative_wf : WF exNegative where
  busNodup := by simp [exNegative]
  typValid := by simp [exNegative]
  someOn := ⟨_, List.mem_cons_self, by decide⟩
  genRef := by simp [exNegative, Index.HasBus]
  fRef := by simp [exNegative, Opf.exTables, Index.HasBus]
  tRef := by simp [exNegative, Opf.exTables, Index.HasBus]
  areaRef := by simp [exNegative, Opf.exTables]
  costRows := by simp [exNegative, Opf.exTables]
  aCols := by simp [exNegative, Opf.exTables]
  nCols := by simp [exNegative, Opf.exTables]
  notInternal := by simp [exNegative, Opf.exTables]

theorem exNegative_same : SameInjections Opf.exTables exNegative := by
  have hg1 : ∃ b ∈ Opf.exTables.bus, b.typ = 3 ∧ HasGenOn Opf.exTables b.num := by simp [Opf.exTables, HasGenOn, GenInService, Connected]
  have hg2 : ∃ b ∈ exNegative.bus, b.typ = 3 ∧ HasGenOn exNegative b.num := by simp [exNegative, HasGenOn, GenInService, Connected]
  have hs1 : ∀ i, IsSlack Opf.exTables i ↔ i = 0 := by
    intro i
    constructor
    · rintro ⟨b, q1, q2, q3⟩
      rcases q3 with q3 | ⟨-, q3, -⟩
      · match i with
        | 0 => rfl
        | 1 => cases q1; exact absurd q3 (by decide)
        | 2 => cases q1; exact absurd q3 (by decide)
        | n + 3 => simp [Opf.exTables] at q1
      · exact absurd hg1 q3
    · rintro rfl; exact exSlack
  have hs2 : ∀ i, IsSlack exNegative i ↔ i = 0 := by
    intro i
    constructor
    · rintro ⟨b, q1, q2, q3⟩
      rcases q3 with q3 | ⟨-, q3, -⟩
      · match i with
        | 0 => rfl
        | 1 => cases q1; exact absurd q3 (by decide)
        | 2 => cases q1; exact absurd q3 (by decide)
        | n + 3 => simp [exNegative] at q1
      · exact absurd hg2 q3
    · rintro rfl
      obtain ⟨b, q1, q2, q3⟩ := hg2
      exact ⟨_, rfl, by simp [HasGenOn, exNegative, GenInService, Connected], Or.inl rfl⟩
  refine ⟨rfl, rfl, fun i => by rw [hs1, hs2], ?_, ?_⟩
  · intro i b1 b2 q1 q2 hi
    rw [hs1] at hi; subst hi
    cases q1; cases q2; rfl
  · intro i b1 b2 q1 q2 h4 hi
    rw [hs1] at hi
    match i with
    | 0 => exact absurd rfl hi
    | 1 => cases q1; exact absurd rfl h4
    | 2 =>
      cases q1; cases q2
      simp [injection, genOnAt, exNegative, Opf.exTables, GenInService, Connected]
      norm_num
    | n + 3 => simp [Opf.exTables] at q1

example : WF Opf.exTables ∧ WF exNegative ∧ SameInjections Opf.exTables exNegative ∧ Inductive Opf.exTables ∧ Tied Opf.exTables ∧
    (∀ l ∈ Opf.exTables.branch, l.status = 0 ∨ l.status = 1) ∧ Solves invLib :=
  ⟨Opf.exTables_wf, exNegative_wf, exNegative_same, exInductive, exTied, by simp [Opf.exTables], invLib_solves⟩

end Verif.Runpf
