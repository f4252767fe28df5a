import Verif.Runpf.OrderLemmas
import Verif.Runpf.LinearSpec
import Verif.Cpf.TableLemmas

/-! C133: results of DC power flows superpose. -/

namespace Verif.Runpf

open Verif.Index (BusRow GenRow BranchRow IsArgsort WF GenInService BranchInService Connected HasBus)
open Verif.Opf (Tables BusD GenD BrD asBranch genAt onSum sum_filter_if)
open Verif.Network

noncomputable section
open Classical

theorem sum_mix {α β γ : Type} (a b : ℝ) (F1 : α → ℝ) (F2 : β → ℝ) (F3 : γ → ℝ) : ∀ (xs : List α) (ys : List β) (zs : List γ), xs.length = zs.length → ys.length = zs.length →
    (∀ (i : ℕ) x y z, xs[i]? = some x → ys[i]? = some y → zs[i]? = some z → F3 z = a * F1 x + b * F2 y) →
    (zs.map F3).sum = a * (xs.map F1).sum + b * (ys.map F2).sum
  | [], [], [], _, _, _ => by simp
  | [], _ :: _, [], _, h2, _ => by simp at h2
  | _ :: _, _, [], h1, _, _ => by simp at h1
  | [], _, _ :: _, h1, _, _ => by simp at h1
  | _ :: _, [], _ :: _, _, h2, _ => by simp at h2
  | x :: xs, y :: ys, z :: zs, h1, h2, h => by
    simp only [List.map_cons, List.sum_cons]
    rw [sum_mix a b F1 F2 F3 xs ys zs (by simpa using h1) (by simpa using h2) fun i x' y' z' q1 q2 q3 => h (i + 1) x' y' z' (by simpa using q1) (by simpa using q2) (by simpa using q3),
      h 0 x y z rfl rfl rfl]
    ring

theorem SameWires.rows {c1 c2 : Index.Case Tables} (h : SameWires c1 c2) : Cpf.SameRows c1 c2 := ⟨h.bus, h.gen⟩

section
variable {c1 c2 : Index.Case Tables} (h : SameWires c1 c2)
include h

theorem SameWires.symm : SameWires c2 c1 := ⟨h.bus.symm, h.gen.symm, h.branch.symm⟩

theorem SameWires.connected (n : ℕ) : Connected c2 n ↔ Connected c1 n := ⟨h.symm.rows.connected, h.rows.connected⟩

theorem SameWires.slack (i : ℕ) : IsSlack c2 i ↔ IsSlack c1 i := ⟨h.symm.rows.slack, h.rows.slack⟩

theorem SameWires.busRow {i : ℕ} {b2 : BusRow BusD} (hi : c2.bus[i]? = some b2) : ∃ b1, c1.bus[i]? = some b1 ∧ b1.num = b2.num ∧ b1.typ = b2.typ := by
  have := congrArg (·[i]?) h.bus
  simp only [List.getElem?_map, hi, Option.map_some] at this
  obtain ⟨b1, q1, q2⟩ := Option.map_eq_some_iff.1 this.symm
  simp only [Prod.mk.injEq] at q2
  exact ⟨b1, q1, q2.1, q2.2⟩

theorem SameWires.genRow {i : ℕ} {g2 : GenRow GenD} (hi : c2.gen[i]? = some g2) : ∃ g1, c1.gen[i]? = some g1 ∧ g1.bus = g2.bus ∧ g1.status = g2.status := by
  have := congrArg (·[i]?) h.gen
  simp only [List.getElem?_map, hi, Option.map_some] at this
  obtain ⟨b1, q1, q2⟩ := Option.map_eq_some_iff.1 this.symm
  simp only [Prod.mk.injEq] at q2
  exact ⟨b1, q1, q2.1, q2.2⟩

theorem SameWires.brRow {i : ℕ} {l2 : BranchRow BrD} (hi : c2.branch[i]? = some l2) : ∃ l1, c1.branch[i]? = some l1 ∧ l1.f = l2.f ∧ l1.t = l2.t ∧
    l1.status = l2.status ∧ l1.data.x = l2.data.x ∧ l1.data.tap = l2.data.tap ∧ l1.data.shift = l2.data.shift := by
  have := congrArg (·[i]?) h.branch
  simp only [List.getElem?_map, hi, Option.map_some] at this
  obtain ⟨b1, q1, q2⟩ := Option.map_eq_some_iff.1 this.symm
  simp only [Prod.mk.injEq] at q2
  exact ⟨b1, q1, q2⟩

theorem SameWires.brIn {l1 l2 : BranchRow BrD} (hf : l1.f = l2.f) (ht : l1.t = l2.t) (hs : l1.status = l2.status) : BranchInService c2 l2 ↔ BranchInService c1 l1 := by
  simp only [BranchInService, h.connected, hf, ht, hs]

theorem SameWires.genIn {g1 g2 : GenRow GenD} (hb : g1.bus = g2.bus) (hs : g1.status = g2.status) : GenInService c2 g2 ↔ GenInService c1 g1 := by
  simp only [GenInService, h.connected, hb, hs]

theorem SameWires.lens : c2.bus.length = c1.bus.length ∧ c2.gen.length = c1.gen.length ∧ c2.branch.length = c1.branch.length :=
  ⟨by simpa using congrArg List.length h.bus, by simpa using congrArg List.length h.gen, by simpa using congrArg List.length h.branch⟩

theorem SameWires.ind (hi : Inductive c1) : Inductive c2 := by
  intro l hl hon
  obtain ⟨i, hi'⟩ := List.getElem?_of_mem hl
  obtain ⟨l1, q1, q2, q3, q4, q5, q6, q7⟩ := h.brRow hi'
  have := hi l1 (List.mem_of_getElem? q1) ((h.brIn q2 q3 q4).1 hon)
  rwa [q4, q5, q6] at this

theorem SameWires.stat (hi : ∀ l ∈ c1.branch, l.status = 0 ∨ l.status = 1) : ∀ l ∈ c2.branch, l.status = 0 ∨ l.status = 1 := by
  intro l hl
  obtain ⟨i, hi'⟩ := List.getElem?_of_mem hl
  obtain ⟨l1, q1, q2, q3, q4, -⟩ := h.brRow hi'
  have := hi l1 (List.mem_of_getElem? q1)
  rwa [q4] at this

theorem SameWires.tied (ht : Tied c1) : Tied c2 := by
  intro b hb h4
  obtain ⟨i, hi⟩ := List.getElem?_of_mem hb
  obtain ⟨b1, q1, q2, q3⟩ := h.busRow hi
  obtain ⟨j, s, q4, q5, q6⟩ := ht b1 (List.mem_of_getElem? q1) (by rwa [q3])
  obtain ⟨s2, q7, q8, -⟩ := h.symm.busRow q4
  refine ⟨j, s2, q7, (h.slack j).2 q5, ?_⟩
  rw [q8, ← q2]
  refine Relation.ReflTransGen.mono ?_ _ _ q6
  rintro m n ⟨l, w1, w2, w3⟩
  obtain ⟨k, hk⟩ := List.getElem?_of_mem w1
  obtain ⟨l2, v1, v2, v3, v4, -⟩ := h.symm.brRow hk
  exact ⟨l2, List.mem_of_getElem? v1, (h.symm.brIn v2 v3 v4).1 w2, by rwa [v2, v3]⟩

end

theorem flow_mix {a b : ℝ} {l1 l2 l3 : BranchRow BrD} (h1 : l3.f = l1.f ∧ l3.t = l1.t ∧ l3.status = l1.status ∧ l3.data.x = l1.data.x ∧ l3.data.tap = l1.data.tap ∧ l3.data.shift = l1.data.shift)
    (h2 : l3.f = l2.f ∧ l3.t = l2.t ∧ l3.status = l2.status ∧ l3.data.x = l2.data.x ∧ l3.data.tap = l2.data.tap ∧ l3.data.shift = l2.data.shift)
    (hab : a + b = 1 ∨ l3.data.shift = 0) (θ1 θ2 : ℕ → ℝ) :
    dcFlow (asBranch l3) (fun n => a * θ1 n + b * θ2 n) = a * dcFlow (asBranch l1) θ1 + b * dcFlow (asBranch l2) θ2 := by
  obtain ⟨e1, e2, e3, e4, e5, e6⟩ := h1
  obtain ⟨f1, f2, f3, f4, f5, f6⟩ := h2
  unfold dcFlow asBranch
  simp only [← e1, ← e2, ← e3, ← e4, ← e5, ← e6, ← f1, ← f2, ← f3, ← f4, ← f5, ← f6]
  by_cases hz : ((l3.status : ℤ) : ℝ) = 0
  · simp [hz]
  · simp only [if_neg hz]
    rcases hab with h | h
    · obtain rfl : b = 1 - a := by linarith
      ring
    · rw [h]
      ring

variable {a b : ℝ} {c1 c2 c3 : Index.Case Tables} (hm : Mixed a b c1 c2 c3) (hab : a + b = 1 ∨ ∀ l ∈ c3.branch, BranchInService c3 l → l.data.shift = 0)
include hm

theorem Mixed.genOn (n : ℕ) : genOnAt c3 n GenD.PG = a * genOnAt c1 n GenD.PG + b * genOnAt c2 n GenD.PG := by
  unfold genOnAt
  rw [sum_filter_if, sum_filter_if, sum_filter_if]
  refine sum_mix a b _ _ _ _ _ _ hm.same1.lens.2.1 hm.same2.lens.2.1 fun i g1 g2 g3 q1 q2 q3 => ?_
  obtain ⟨g1', w1, w2, w3⟩ := hm.same1.symm.genRow q3
  obtain ⟨g2', v1, v2, v3⟩ := hm.same2.symm.genRow q3
  rw [q1] at w1; cases w1
  rw [q2] at v1; cases v1
  have i1 := hm.same1.symm.genIn w2 w3
  have i2 := hm.same2.symm.genIn v2 v3
  by_cases hin : GenInService c3 g3
  · rw [hm.output i g1 g2 g3 q1 q2 q3 hin]
    simp only [w2, v2, i1.1 hin, i2.1 hin, hin]
    by_cases hn : g3.bus = n <;> simp [hn]
  · have j1 : ¬ GenInService c1 g1 := fun h => hin (i1.2 h)
    have j2 : ¬ GenInService c2 g2 := fun h => hin (i2.2 h)
    simp [hin, j1, j2]

include hab

theorem Mixed.flowAt {i : ℕ} {l1 l2 l3 : BranchRow BrD} (q1 : c1.branch[i]? = some l1) (q2 : c2.branch[i]? = some l2) (q3 : c3.branch[i]? = some l3)
    (hon : BranchInService c3 l3) (θ1 θ2 : ℕ → ℝ) :
    dcFlow (asBranch l3) (fun n => a * θ1 n + b * θ2 n) = a * dcFlow (asBranch l1) θ1 + b * dcFlow (asBranch l2) θ2 := by
  obtain ⟨g1', w1, w2⟩ := hm.same1.brRow q1
  obtain ⟨g2', v1, v2⟩ := hm.same2.brRow q2
  rw [q3] at w1; cases w1
  rw [q3] at v1; cases v1
  exact flow_mix w2 v2 (hab.imp id fun h => h l3 (List.mem_of_getElem? q3) hon) θ1 θ2

theorem Mixed.net (θ1 θ2 : ℕ → ℝ) (n : ℕ) : netOut c3 (fun n => a * θ1 n + b * θ2 n) n = a * netOut c1 θ1 n + b * netOut c2 θ2 n := by
  unfold netOut onSum
  refine sum_mix a b _ _ _ _ _ _ hm.same1.lens.2.2 hm.same2.lens.2.2 fun i l1 l2 l3 q1 q2 q3 => ?_
  obtain ⟨g1', w1, w2, w3, w4, -⟩ := hm.same1.symm.brRow q3
  obtain ⟨g2', v1, v2, v3, v4, -⟩ := hm.same2.symm.brRow q3
  rw [q1] at w1; cases w1
  rw [q2] at v1; cases v1
  have i1 := hm.same1.symm.brIn w2 w3 w4
  have i2 := hm.same2.symm.brIn v2 v3 v4
  by_cases hin : BranchInService c3 l3
  · rw [if_pos hin, if_pos (i1.1 hin), if_pos (i2.1 hin)]
    beta_reduce
    rw [hm.flowAt hab q1 q2 q3 hin, w2, w3, v2, v3]
    ring
  · rw [if_neg hin, if_neg fun h => hin (i1.2 h), if_neg fun h => hin (i2.2 h)]
    ring

theorem mix_unique {base : ℝ} (hb : base ≠ 0) (hnd : (c3.bus.map BusRow.num).Nodup) (hind : Inductive c3) (htied : Tied c3) {R1 R2 R3 : Index.Case Tables} {θ1 θ2 θ3 : ℕ → ℝ}
    (s1 : DcSol base c1 R1 θ1) (s2 : DcSol base c2 R2 θ2) (s3 : DcSol base c3 R3 θ3) :
    (∀ b3 ∈ c3.bus, b3.typ ≠ 4 → θ3 b3.num = a * θ1 b3.num + b * θ2 b3.num) ∧
    ∀ b3 ∈ c3.bus, genAt R3 b3.num GenD.PG = a * genAt R1 b3.num GenD.PG + b * genAt R2 b3.num GenD.PG := by
  have hgen : ∀ (i : ℕ) b3, c3.bus[i]? = some b3 → ¬ IsSlack c3 i → genAt R3 b3.num GenD.PG = a * genAt R1 b3.num GenD.PG + b * genAt R2 b3.num GenD.PG := by
    intro i b3 hi hns
    obtain ⟨b1, w1, w2, w3⟩ := hm.same1.symm.busRow hi
    obtain ⟨b2, v1, v2, v3⟩ := hm.same2.symm.busRow hi
    have e1 := s1.gen i b1 w1 fun h => hns ((hm.same1.slack i).1 h)
    have e2 := s2.gen i b2 v1 fun h => hns ((hm.same2.slack i).1 h)
    rw [w2] at e1; rw [v2] at e2
    rw [s3.gen i b3 hi hns, e1, e2, hm.genOn]
  have hnet : ∀ (i : ℕ) b3, c3.bus[i]? = some b3 → b3.typ ≠ 4 → base * netOut c3 (fun n => a * θ1 n + b * θ2 n) b3.num =
      a * genAt R1 b3.num GenD.PG + b * genAt R2 b3.num GenD.PG - b3.data.PD - b3.data.GS := by
    intro i b3 hi h4
    obtain ⟨b1, w1, w2, w3⟩ := hm.same1.symm.busRow hi
    obtain ⟨b2, v1, v2, v3⟩ := hm.same2.symm.busRow hi
    have e1 := s1.net b1 (List.mem_of_getElem? w1) (by rwa [w3])
    have e2 := s2.net b2 (List.mem_of_getElem? v1) (by rwa [v3])
    obtain ⟨d1, d2⟩ := hm.demand i b1 b2 b3 w1 v1 hi
    rw [w2] at e1; rw [v2] at e2
    rw [hm.net hab, d1, d2]
    linear_combination a * e1 + b * e2
  have hθ := net_unique hnd hind htied θ3 (fun n => a * θ1 n + b * θ2 n)
    (fun i b3 hi hsl => by
      obtain ⟨b1, w1, w2, w3⟩ := hm.same1.symm.busRow hi
      obtain ⟨b2, v1, v2, v3⟩ := hm.same2.symm.busRow hi
      have e1 := s1.slack i b1 w1 ((hm.same1.slack i).2 hsl)
      have e2 := s2.slack i b2 v1 ((hm.same2.slack i).2 hsl)
      rw [w2] at e1; rw [v2] at e2
      rw [s3.slack i b3 hi hsl, e1, e2, hm.slack i b1 b2 b3 w1 v1 hi hsl]
      ring)
    (fun i b3 hi h4 hns => by
      have e1 := s3.net b3 (List.mem_of_getElem? hi) h4
      have e2 := hnet i b3 hi h4
      rw [hgen i b3 hi hns] at e1
      exact mul_left_cancel₀ hb (e1.trans e2.symm))
  refine ⟨hθ, fun b3 hb3 => ?_⟩
  obtain ⟨i, hi⟩ := List.getElem?_of_mem hb3
  by_cases h4 : b3.typ = 4
  · refine hgen i b3 hi ?_
    rintro ⟨b', q1, -, q2⟩
    rw [hi] at q1; cases q1
    rw [h4] at q2
    rcases q2 with q2 | ⟨q2, -⟩ <;> exact absurd q2 (by decide)
  · have e1 := s3.net b3 hb3 h4
    have e2 := hnet i b3 hi h4
    rw [netOut_congr (θ2 := fun n => a * θ1 n + b * θ2 n) hθ] at e1
    linarith

omit hm hab in
/-- **C133** (DC power flows superpose). The demands, shunts, outputs and slack angles of `c3` are `a` times those of `c1` plus `b` times those of `c2`, on the same network;
`a + b = 1` unless there are no phase shifters in service. All three DC power flows succeed, and the returned angles, flows and generation at each bus of `c3` are `a` times
those of `c1` plus `b` times those of `c2`. -/
theorem C133_dc {srt : List ℕ → List ℕ} (hs : IsArgsort srt) {base : ℝ} (hb : base ≠ 0) {lib : DcLib} (hlib : Solves lib) {a b : ℝ} {c1 c2 c3 : Index.Case Tables}
    (h1 : WF c1) (h2 : WF c2) (h3 : WF c3) (hm : Mixed a b c1 c2 c3) (hab : a + b = 1 ∨ ∀ l ∈ c3.branch, BranchInService c3 l → l.data.shift = 0)
    (hind : Inductive c3) (htied : Tied c3) (hst : ∀ l ∈ c3.branch, l.status = 0 ∨ l.status = 1) :
    ∃ R1 R2 R3, runpfDc srt base lib c1 = some ⟨true, some R1⟩ ∧ runpfDc srt base lib c2 = some ⟨true, some R2⟩ ∧ runpfDc srt base lib c3 = some ⟨true, some R3⟩ ∧
      (∀ (i : ℕ) b1 b2 b3, R1.bus[i]? = some b1 → R2.bus[i]? = some b2 → R3.bus[i]? = some b3 → b3.typ ≠ 4 → b3.data.VA = a * b1.data.VA + b * b2.data.VA) ∧
      (∀ (i : ℕ) l1 l2 l3, R1.branch[i]? = some l1 → R2.branch[i]? = some l2 → R3.branch[i]? = some l3 →
        l3.data.PF = a * l1.data.PF + b * l2.data.PF ∧ l3.data.PT = a * l1.data.PT + b * l2.data.PT) ∧
      ∀ b3 ∈ c3.bus, genAt R3 b3.num GenD.PG = a * genAt R1 b3.num GenD.PG + b * genAt R2 b3.num GenD.PG := by
  have hsl : ∃ i, IsSlack c3 i := by
    obtain ⟨b, q1, q2⟩ := h3.someOn
    obtain ⟨i, -, -, q3, -⟩ := htied b q1 q2
    exact ⟨i, q3⟩
  obtain ⟨i0, hi0⟩ := hsl
  obtain ⟨R1, hr1⟩ := C87_dc_completes hs h1 (lib := lib) (base := base) ⟨i0, (hm.same1.slack i0).2 hi0⟩
  obtain ⟨R2, hr2⟩ := C87_dc_completes hs h2 (lib := lib) (base := base) ⟨i0, (hm.same2.slack i0).2 hi0⟩
  obtain ⟨R3, hr3⟩ := C87_dc_completes hs h3 (lib := lib) (base := base) ⟨i0, hi0⟩
  obtain ⟨θ1, s1⟩ := dc_sol hs hb hlib h1 hr1 (hm.same1.ind hind) (hm.same1.tied htied) (hm.same1.stat hst)
  obtain ⟨θ2, s2⟩ := dc_sol hs hb hlib h2 hr2 (hm.same2.ind hind) (hm.same2.tied htied) (hm.same2.stat hst)
  obtain ⟨θ3, s3⟩ := dc_sol hs hb hlib h3 hr3 hind htied hst
  obtain ⟨hθ, hG⟩ := mix_unique hm hab hb h3.busNodup hind htied s1 s2 s3
  refine ⟨R1, R2, R3, hr1, hr2, hr3, ?_, ?_, hG⟩
  · intro i b1 b2 b3 q1 q2 q3 h4
    rw [s1.bus, List.getElem?_map] at q1
    rw [s2.bus, List.getElem?_map] at q2
    rw [s3.bus, List.getElem?_map] at q3
    obtain ⟨d1, w1, rfl⟩ := Option.map_eq_some_iff.1 q1
    obtain ⟨d2, w2, rfl⟩ := Option.map_eq_some_iff.1 q2
    obtain ⟨d3, w3, rfl⟩ := Option.map_eq_some_iff.1 q3
    obtain ⟨e1, v1, v2, v3⟩ := hm.same1.busRow w1
    obtain ⟨e2, u1, u2, u3⟩ := hm.same2.busRow w2
    rw [w3] at v1 u1; cases v1; cases u1
    have t3 : d3.typ ≠ 4 := by
      unfold busAt at h4
      split_ifs at h4 with h
      · exact h4
      · exact h
    have t1 : d1.typ ≠ 4 := by rw [← v3]; exact t3
    have t2 : d2.typ ≠ 4 := by rw [← u3]; exact t3
    unfold busAt
    rw [if_neg t1, if_neg t2, if_neg t3]
    dsimp only
    rw [hθ d3 (List.mem_of_getElem? w3) t3, ← v2, ← u2]
    ring
  · intro i l1 l2 l3 q1 q2 q3
    rw [s1.branch, List.getElem?_map] at q1
    rw [s2.branch, List.getElem?_map] at q2
    rw [s3.branch, List.getElem?_map] at q3
    obtain ⟨d1, w1, rfl⟩ := Option.map_eq_some_iff.1 q1
    obtain ⟨d2, w2, rfl⟩ := Option.map_eq_some_iff.1 q2
    obtain ⟨d3, w3, rfl⟩ := Option.map_eq_some_iff.1 q3
    obtain ⟨e1, v1, v2, v3, v4, -⟩ := hm.same1.brRow w1
    obtain ⟨e2, u1, u2, u3, u4, -⟩ := hm.same2.brRow w2
    rw [w3] at v1 u1; cases v1; cases u1
    have i1 := hm.same1.brIn v2 v3 v4
    have i2 := hm.same2.brIn u2 u3 u4
    unfold brAt
    by_cases hin : BranchInService c3 d3
    · have hf : dcFlow (asBranch d3) θ3 = a * dcFlow (asBranch d1) θ1 + b * dcFlow (asBranch d2) θ2 := by
        rw [← hm.flowAt hab w1 w2 w3 hin]
        obtain ⟨-, ⟨x1, y1, z1, k1⟩, ⟨x2, y2, z2, k2⟩⟩ := hin
        have g1 := hθ x1 y1 k1
        have g2 := hθ x2 y2 k2
        rw [z1] at g1; rw [z2] at g2
        unfold dcFlow asBranch
        simp only [g1, g2]
      rw [if_pos hin, if_pos (i1.2 hin), if_pos (i2.2 hin)]
      dsimp only
      rw [hf]
      constructor <;> ring
    · rw [if_neg hin, if_neg fun h => hin (i1.1 h), if_neg fun h => hin (i2.1 h)]
      simp

end

/-! ### A concrete case: `exTables` with three times and twice the demand -/

/-- All demands times `k`. -/
noncomputable def demandTimes (k : ℝ) (c : Index.Case Tables) : Index.Case Tables :=
  { c with bus := c.bus.map fun b => { b with data := { b.data with PD := k * b.data.PD } } }

theorem demandTimes_same (k : ℝ) (c : Index.Case Tables) : SameWires c (demandTimes k c) := ⟨by simp [demandTimes], rfl, rfl⟩

theorem demandTimes_wf (k : ℝ) : WF (demandTimes k Opf.exTables) where
  busNodup := by simp [demandTimes, Opf.exTables]
  typValid := by simp [demandTimes, Opf.exTables]
  someOn := ⟨_, List.mem_cons_self, (by show (3 : ℤ) ≠ 4; decide)⟩
  genRef := by simp [demandTimes, Opf.exTables, Index.HasBus]
  fRef := by simp [demandTimes, Opf.exTables, Index.HasBus]
  tRef := by simp [demandTimes, Opf.exTables, Index.HasBus]
  areaRef := by simp [demandTimes, Opf.exTables]
  costRows := by simp [demandTimes, Opf.exTables]
  aCols := by simp [demandTimes, Opf.exTables]
  nCols := by simp [demandTimes, Opf.exTables]
  notInternal := by simp [demandTimes, Opf.exTables]

theorem demandTimes_mixed : Mixed (1 / 2) (1 / 2) Opf.exTables (demandTimes 3 Opf.exTables) (demandTimes 2 Opf.exTables) where
  same1 := (demandTimes_same 2 _).symm
  same2 := ⟨by simp [demandTimes], rfl, rfl⟩
  demand := by
    intro i b1 b2 b3 q1 q2 q3
    simp only [demandTimes, List.getElem?_map, q1, Option.map_some, Option.some.injEq] at q2 q3
    subst q2; subst q3
    constructor <;> ring
  slack := by
    intro i b1 b2 b3 q1 q2 q3 _
    simp only [demandTimes, List.getElem?_map, q1, Option.map_some, Option.some.injEq] at q2 q3
    subst q2; subst q3
    ring
  output := by
    intro j g1 g2 g3 q1 q2 q3 _
    have e2 : some g1 = some g2 := q1.symm.trans q2
    have e3 : some g1 = some g3 := q1.symm.trans q3
    cases e2; cases e3
    ring

example : WF Opf.exTables ∧ WF (demandTimes 3 Opf.exTables) ∧ WF (demandTimes 2 Opf.exTables) ∧
    Mixed (1 / 2) (1 / 2) Opf.exTables (demandTimes 3 Opf.exTables) (demandTimes 2 Opf.exTables) ∧ (1 / 2 : ℝ) + 1 / 2 = 1 ∧ Inductive (demandTimes 2 Opf.exTables) ∧
    Tied (demandTimes 2 Opf.exTables) ∧ (∀ l ∈ (demandTimes 2 Opf.exTables).branch, l.status = 0 ∨ l.status = 1) ∧ Solves invLib :=
  ⟨Opf.exTables_wf, demandTimes_wf 3, demandTimes_wf 2, demandTimes_mixed, by norm_num, (demandTimes_same 2 _).ind exInductive, (demandTimes_same 2 _).tied exTied,
    by simp [demandTimes, Opf.exTables], invLib_solves⟩

end Verif.Runpf
