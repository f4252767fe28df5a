import Verif.Opf.RentProps

/-!
# C129: a case meeting the hypotheses

The run of C96; the only reference is bus 9.
-/

namespace Verif.Opf

open Verif.Index (BusRow GenRow BranchRow IsArgsort WF GenInService BranchInService Connected)
open Verif.OpfModel Verif.Pips Verif.Network Verif.Cost

example : ∃ (o : Opt) (r : Ret) (lam : ℕ → ℝ) (θ0 : ℝ), (0 : ℝ) < 100 ∧ WF exEcon ∧ EconCosts exEcon ∧ (∀ l ∈ exEcon.branch, l.status = 0 ∨ l.status = 1) ∧ 0 < o.costMult ∧
    0 ≤ o.feastol ∧ 0 ≤ o.comptol ∧
    (∀ c' d, Index.ext2int Index.stableArgsort exEcon = some c' → readCase 100 c' = some d → Good (dcOps d ++ (econSetup 100 exE).extra d c')) ∧
    opfDcEcon Index.stableArgsort 100 exE o (fun _ _ _ _ => none) exEcon = some r ∧ r.success = true ∧ (∀ b ∈ r.tables.bus, lam b.num = b.data.LAM_P) ∧
    (∀ b ∈ r.tables.bus, b.typ = 3 → b.data.VA = θ0) ∧
    (∀ l ∈ r.tables.branch, BranchInService r.tables l →
      l.data.shift = 0 ∧ 0 ≤ l.data.rateA ∧ (AngLimited exE l → exE.angmin l.data.rest ≤ 0 ∧ 0 ≤ exE.angmax l.data.rest)) := by
  have hg := econ_wellposed Index.stableArgsort_isArgsort exEcon_wf exEcon_dc exE exE_ang
  obtain ⟨o, r, h1, h2, -, h3, h4, h5⟩ := (C96_completes Index.stableArgsort_isArgsort exEcon_wf exEcon_dc exE exE_ang).2 (fun _ _ _ _ => none)
  obtain ⟨c', d, m, s, p, bp, gp, lp, R⟩ := econ_run Index.stableArgsort_isArgsort exEcon_wf rfl hg h4
  have hnd : (r.tables.bus.map BusRow.num).Nodup := by rw [R.bridge.nums]; exact exEcon_wf.busNodup
  obtain ⟨lam, hlam⟩ := angle_function r.tables (fun a ha b hb hn => List.inj_on_of_nodup_map hnd ha hb hn) fun b => b.data.LAM_P
  obtain ⟨θ, hθ⟩ := angle_function r.tables (fun a ha b hb hn => List.inj_on_of_nodup_map hnd ha hb hn) fun b => b.data.VA
  refine ⟨o, r, lam, θ 9, by norm_num, exEcon_wf, exEcon_costs, by simp [exEcon], h1, h2.le, h3.le, hg, h4, h5, hlam, fun b hb ht => ?_, fun l hl _ => ?_⟩
  · obtain ⟨i, hi⟩ := List.getElem?_of_mem hb
    obtain ⟨b0, e1, e2, e3, -⟩ := R.bridge.bus_at hi
    have key : ∀ b0 ∈ exEcon.bus, b0.typ = 3 → b0.num = 9 := by
      intro b0 hb0 ht0
      rcases List.mem_cons.1 hb0 with rfl | hb0
      · rfl
      rcases List.mem_cons.1 hb0 with rfl | hb0
      · exact absurd ht0 (by decide)
      rcases List.mem_cons.1 hb0 with rfl | hb0
      · exact absurd ht0 (by decide)
      · cases hb0
    rw [← hθ b hb, e2, key b0 (List.mem_of_getElem? e1) (by rw [← e3]; exact ht)]
  · obtain ⟨-, -, hbr, -⟩ := C86_dc_inputs Index.stableArgsort_isArgsort exEcon_wf h4
    have : branchInput l ∈ exEcon.branch.map branchInput := by rw [← hbr]; exact List.mem_map_of_mem hl
    obtain ⟨l0, h0, e0⟩ := List.mem_map.1 this
    have s1 : l0.data.shift = l.data.shift := by have e := congrArg (fun x : BranchRow BrD => x.data.shift) e0; exact e
    have s2 : l0.data.rateA = l.data.rateA := by have e := congrArg (fun x : BranchRow BrD => x.data.rateA) e0; exact e
    have s3 : l0.data.rest = l.data.rest := by have e := congrArg (fun x : BranchRow BrD => x.data.rest) e0; exact e
    rw [← s1, ← s2, ← s3]
    simp only [exEcon, List.mem_cons, List.not_mem_nil, or_false] at h0
    rcases h0 with rfl | rfl | rfl <;> norm_num [exE]

end Verif.Opf
