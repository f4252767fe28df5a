import Verif.Opf.SensProps

/-!
# C128: a case meeting the hypotheses
-/

namespace Verif.Opf

open Verif.Index (BusRow GenRow BranchRow IsArgsort WF GenInService BranchInService Connected)
open Verif.OpfModel Verif.Pips Verif.Network Verif.Cost

noncomputable section

/-- The system of C96 with 5 MW more demand at bus 2, a least output of 15 MW at bus 2, at most 150 MW at bus 9 and a rating of 55 MW of the first branch. -/
def exOther : Index.Case Tables :=
  { exEcon with
    bus := exEcon.bus.map fun b => if b.num = 2 then { b with data := { b.data with PD := 95 } } else b
    gen := exEcon.gen.map fun g => if g.bus = 2 then { g with data := { g.data with PMIN := 15 } } else if g.status = 1 ∧ g.bus = 9 then { g with data := { g.data with PMAX := 150 } } else g
    branch := exEcon.branch.map fun l => if l.t = 2 then { l with data := { l.data with rateA := 55 } } else l }

/-- A dispatch of it: 50 MW at bus 2, 46 MW from bus 9 over an angle of 0.046 radians. -/
def exAlt2 : Index.Case Tables :=
  { exEcon with
    bus := [⟨9, 3, ⟨0, 0, 0, 0, 1, 5, 1.1, 0.9, 0, 0, 0, 0, []⟩⟩, ⟨7, 4, ⟨10, 5, 0, 0, 1, 0, 1.1, 0.9, 0, 0, 0, 0, []⟩⟩,
      ⟨2, 1, ⟨95, 30, 1, 2, 1, 5 - 0.046 * (180 / Real.pi), 1.1, 0.9, 0, 0, 0, 0, [345]⟩⟩]
    gen := [⟨2, 1, ⟨50, 0, 50, -50, 1, 100, 15, 0, 0, 0, 0, []⟩⟩, ⟨7, 1, ⟨0, 1, 50, -50, 1, 100, 10, 0, 0, 0, 0, []⟩⟩,
      ⟨9, 1, ⟨46, 0, 50, -50, 1, 150, 10, 0, 0, 0, 0, []⟩⟩, ⟨9, 0, ⟨0, 3, 50, -50, 1, 100, 10, 4, 0, 0, 0, []⟩⟩]
    branch := [⟨9, 2, 1, ⟨0.01, 0.1, 0.02, 55, 0, 0, 46, 0, -46, 0, 0, 0, 0, 0, [-30, 30]⟩⟩, ⟨9, 7, 1, ⟨0.01, 0.1, 0.02, 60, 0, 0, 0, 0, 0, 0, 0, 0, 0, 0, []⟩⟩,
      ⟨2, 9, 0, ⟨0.01, 0.1, 0.02, 60, 0, 0, 0, 9, 0, 0, 0, 0, 0, 0, []⟩⟩] }

def exθ2 (n : ℕ) : ℝ := if n = 9 then 5 * (Real.pi / 180) else if n = 2 then 5 * (Real.pi / 180) - 0.046 else 0

theorem exOther_ok : OtherLimits exEcon exOther where
  bus := by simp [exOther, exEcon, exTables]
  gen := by simp [exOther, exEcon, exTables]
  branch := by simp [exOther, exEcon, exTables]
  rated := by
    intro i l l2 h1 h2 h3 h4 h5
    simp only [exOther, List.getElem?_map, h1, Option.map_some, Option.some.injEq] at h2
    rw [← h2]
    split_ifs
    · norm_num
    · exact ⟨h4, h5⟩

theorem exConAlt2 (n : ℕ) : Connected exAlt2 n ↔ n = 9 ∨ n = 2 := by
  simp only [Connected, exAlt2, List.mem_cons, List.not_mem_nil, or_false]
  constructor
  · rintro ⟨b, rfl | rfl | rfl, rfl, h⟩ <;> simp at h ⊢
  · rintro (rfl | rfl)
    · exact ⟨_, Or.inl rfl, rfl, by decide⟩
    · exact ⟨_, Or.inr (Or.inr rfl), rfl, by decide⟩

theorem exAlt2_feasible : DcFeasible 100 exE exOther exAlt2 exθ2 where
  bus := by simp [exAlt2, exOther, exEcon, exTables, busInput]
  gen := by simp [exAlt2, exOther, exEcon, exTables, genInput]
  branch := by simp [exAlt2, exOther, exEcon, exTables, branchInput]
  angles := by
    have := Real.pi_pos
    simp only [exAlt2, List.mem_cons, List.not_mem_nil, or_false, forall_eq_or_imp, forall_eq, exθ2]
    refine ⟨by simp, by simp, ?_⟩
    simp only [show ¬ (2 : ℕ) = 9 by decide, if_false, if_true]
    field_simp
  flows := by
    simp only [BranchInService, exConAlt2]
    simp only [exAlt2, List.mem_cons, List.not_mem_nil, or_false, forall_eq_or_imp, forall_eq]
    refine ⟨fun _ => ?_, by simp, by simp⟩
    norm_num [dcFlow, asBranch, exθ2]
  balance := by
    simp only [exAlt2, List.mem_cons, List.not_mem_nil, or_false, forall_eq_or_imp, forall_eq]
    refine ⟨fun _ => ?_, fun h => absurd rfl h, fun _ => ?_⟩ <;> norm_num [dcBalance, genAt, fromAt, toAt, List.filter_cons]
  limits := by
    simp only [GenInService, exConAlt2]
    simp only [exAlt2, List.mem_cons, List.not_mem_nil, or_false, forall_eq_or_imp, forall_eq]
    norm_num
  rating := by
    simp only [BranchInService, exConAlt2]
    simp only [exAlt2, List.mem_cons, List.not_mem_nil, or_false, forall_eq_or_imp, forall_eq]
    refine ⟨fun _ _ _ => ?_, by simp, by simp⟩
    rw [abs_of_pos] <;> norm_num
  ref := by
    intro i b b0 h1 h2 h3
    match i with
    | 0 =>
      simp only [exAlt2, List.getElem?_cons_zero, Option.some.injEq] at h1
      simp [exOther, exEcon, exTables] at h2
      rw [← h1, ← h2]
    | 1 =>
      simp only [exAlt2, List.getElem?_cons_succ, List.getElem?_cons_zero, Option.some.injEq] at h1
      rw [← h1] at h3
      simp at h3
    | 2 =>
      simp only [exAlt2, List.getElem?_cons_succ, List.getElem?_cons_zero, Option.some.injEq] at h1
      rw [← h1] at h3
      simp at h3
    | n + 3 => simp [exAlt2] at h1
  angle := by
    intro _
    have hpi := Real.two_le_pi
    simp only [BranchInService, exOther_ok.connected, exCon]
    simp only [exOther, exEcon, List.map_cons, List.map_nil, List.mem_cons, List.not_mem_nil, or_false, forall_eq_or_imp, forall_eq]
    refine ⟨fun _ _ => ⟨fun _ => ?_, fun _ => ?_⟩, by simp, by simp⟩
    · norm_num [exE, exθ2]
      linarith
    · norm_num [exE, exθ2]
      linarith
  genOff := by
    simp only [GenInService, exConAlt2]
    simp only [exAlt2, List.mem_cons, List.not_mem_nil, or_false, forall_eq_or_imp, forall_eq]
    norm_num
  brOff := by
    simp only [BranchInService, exConAlt2]
    simp only [exAlt2, List.mem_cons, List.not_mem_nil, or_false, forall_eq_or_imp, forall_eq]
    norm_num

/-- The hypotheses of C128 hold on the example: a successful run, the system with other demand and limits of every kind, a dispatch of it. -/
example : ∃ o r, IsArgsort Index.stableArgsort ∧ (0 : ℝ) < 100 ∧ WF exEcon ∧ EconCosts exEcon ∧ (∀ l ∈ exEcon.branch, l.status = 0 ∨ l.status = 1) ∧
    0 < o.costMult ∧ 0 ≤ o.feastol ∧ 0 ≤ o.comptol ∧
    (∀ c' d, Index.ext2int Index.stableArgsort exEcon = some c' → readCase 100 c' = some d → Good (dcOps d ++ (econSetup 100 exE).extra d c')) ∧
    opfDcEcon Index.stableArgsort 100 exE o (fun _ _ _ _ => none) exEcon = some r ∧ r.success = true ∧ OtherLimits exEcon exOther ∧
    DcFeasible 100 exE exOther exAlt2 exθ2 := by
  obtain ⟨o, r, h1, h2, -, h3, h4, h5⟩ := (C96_completes Index.stableArgsort_isArgsort exEcon_wf exEcon_dc exE exE_ang).2 (fun _ _ _ _ => none)
  refine ⟨o, r, Index.stableArgsort_isArgsort, by norm_num, exEcon_wf, exEcon_costs, ?_, h1, h2.le, h3.le,
    econ_wellposed Index.stableArgsort_isArgsort exEcon_wf exEcon_dc exE exE_ang, h4, h5, exOther_ok, exAlt2_feasible⟩
  simp [exEcon]

end

end Verif.Opf
