import Verif.Opf.AcFeasProps
import Verif.Opf.AcUserCases

/-!
# C126 and C127: operating points of the case with user data; C126 fails for generators out of order
-/

open ComplexConjugate

namespace Verif.Opf

open Verif.Index (BusRow GenRow BranchRow IsArgsort WF GenInService BranchInService Connected posOf orderOf)
open Verif.OpfModel Verif.Pips Verif.Network Verif.OpfCost

noncomputable section

/-- Every bus supplied by its own generator: 50 MW at bus 9, 90 MW at bus 2, no flow. -/
theorem acu_feasible {b0 b1 : ℕ} {p0 p1 : ℝ} (hp : b0 = 9 ∧ b1 = 2 ∧ p0 = 50 ∧ p1 = 90 ∨ b0 = 2 ∧ b1 = 9 ∧ p0 = 90 ∧ p1 = 50) (q0 q1 : ℝ) :
    AcFeasible 100 0 exK (acuCase b0 b1 q0 q1) (acuCase b0 b1 p0 p1) where
  bus := rfl
  gen := by simp [acuCase, genInput]
  branch := rfl
  flows := by
    intro l hl _ bf hbf bt hbt _ _
    simp only [acuCase, List.mem_cons, List.not_mem_nil, or_false] at hl hbf hbt
    subst hl
    have e1 : rowPhasor bf = 1 := by rcases hbf with rfl | rfl <;> simp [rowPhasor]
    have e2 : rowPhasor bt = 1 := by rcases hbt with rfl | rfl <;> simp [rowPhasor]
    rw [e1, e2]
    refine ⟨0, 0, ⟨1, 0, 0, ?_, ?_, ?_, ?_, ?_, ?_⟩, ?_, ?_⟩
    all_goals simp [turns, asBranch, Complex.ext_iff]
  balance := by
    intro b hb _
    simp only [acuCase, List.mem_cons, List.not_mem_nil, or_false] at hb
    rcases hp with ⟨rfl, rfl, rfl, rfl⟩ | ⟨rfl, rfl, rfl, rfl⟩ <;> rcases hb with rfl | rfl <;>
      norm_num [acBalanceP, acBalanceQ, genAt, fromAt, toAt, acuCase]
  volt := by
    intro b hb _
    simp only [acuCase, List.mem_cons, List.not_mem_nil, or_false] at hb
    rcases hb with rfl | rfl <;> norm_num
  limits := by
    intro g hg _
    simp only [acuCase, List.mem_cons, List.not_mem_nil, or_false] at hg
    rcases hp with ⟨rfl, rfl, rfl, rfl⟩ | ⟨rfl, rfl, rfl, rfl⟩ <;> rcases hg with rfl | rfl <;> norm_num
  rating := by
    intro l hl _ _ _
    simp only [acuCase, List.mem_cons, List.not_mem_nil, or_false] at hl
    subst hl
    norm_num
  ref := by
    intro i b bc h1 h2 _
    have h2' : (acuCase b0 b1 p0 p1).bus[i]? = some bc := h2
    rw [h1] at h2'
    cases h2'
    rfl
  angle := by
    intro _ l hl _ _ θ hθ
    have hpi := Real.pi_pos
    simp only [acuCase, List.mem_cons, List.not_mem_nil, or_false, forall_eq_or_imp, forall_eq] at hl hθ
    subst hl
    obtain ⟨t1, t2⟩ := hθ
    simp only [Constr.AngleOk, t1, t2, exK, exE]
    simp only [List.getD_cons_zero, List.getD_cons_succ]
    constructor <;> intro _ <;> linarith
  curve := by
    intro g hg _
    simp only [acuCase, List.mem_cons, List.not_mem_nil, or_false] at hg
    rcases hg with rfl | rfl <;> simp [CutsUpper, CutsLower, Curves.row, exK]
  factor := by
    intro g hg _ hv
    simp only [acuCase, List.mem_cons, List.not_mem_nil, or_false] at hg
    rcases hg with rfl | rfl <;> norm_num [Constr.VarLoad, Curves.row] at hv
  genOff := by
    intro g hg hoff
    refine absurd ?_ hoff
    simp only [GenInService, acu_con]
    simp only [acuCase, List.mem_cons, List.not_mem_nil, or_false] at hg
    rcases hp with ⟨rfl, rfl, rfl, rfl⟩ | ⟨rfl, rfl, rfl, rfl⟩ <;> rcases hg with rfl | rfl <;> simp
  brOff := by
    intro l hl hoff
    refine absurd ?_ hoff
    simp only [BranchInService, acu_con]
    simp only [acuCase, List.mem_cons, List.not_mem_nil, or_false] at hl
    subst hl
    simp

theorem acu_model (b0 b1 : ℕ) (p0 p1 : ℝ) : AcModel exK (acuCase b0 b1 p0 p1) where
  branch := by
    intro l hl _
    simp only [acuCase, List.mem_cons, List.not_mem_nil, or_false] at hl
    subst hl
    refine ⟨rfl, fun h => ?_⟩
    have := congrArg Complex.re h
    norm_num at this
  curve := by
    intro g hg _
    simp only [acuCase, List.mem_cons, List.not_mem_nil, or_false] at hg
    rcases hg with rfl | rfl <;> simp [exK]

section
variable (b0 b1 : ℕ) (hb : b0 = 9 ∧ b1 = 2 ∨ b0 = 2 ∧ b1 = 9) (p0 p1 : ℝ)

/-- The order of rows of this case: buses as they are, generators by the place of their bus. -/
theorem acu_order {bs gs : List ℕ} (R : RowOrder (acuCase 2 9 p0 p1) bs gs) : bs = [0, 1] ∧ gs = [1, 0] := by
  have hb : (2 : ℕ) = 9 ∧ (9 : ℕ) = 2 ∨ (2 : ℕ) = 2 ∧ (9 : ℕ) = 9 := Or.inr ⟨rfl, rfl⟩
  obtain ⟨e1, e2⟩ := acu_sets 2 9 hb p0 p1
  have two : ∀ l : List ℕ, l.Nodup → (∀ i, i ∈ l ↔ i ∈ ({0, 1} : Finset ℕ)) → l = [0, 1] ∨ l = [1, 0] := by
    intro l hl hm
    have : l.Perm [0, 1] := (List.perm_ext_iff_of_nodup hl (by simp)).2 fun i => by rw [hm]; simp
    obtain ⟨a, b, rfl⟩ := List.length_eq_two.1 this.length_eq
    have h0 := (hm a).1 (by simp)
    have h1 := (hm b).1 (by simp)
    have h2 : a ≠ b := by simpa using hl
    simp only [Finset.mem_insert, Finset.mem_singleton] at h0 h1
    rcases h0 with rfl | rfl <;> rcases h1 with rfl | rfl <;> simp_all
  constructor
  · rcases two bs (R.busOrder.imp fun h => h.ne) (fun i => by rw [R.bus, ← e2]) with h | h
    · exact h
    · have := R.busOrder
      rw [h] at this
      simp at this
  · rcases two gs R.genNodup (fun i => by rw [R.gen, ← e1]) with h | h
    · have := R.genOrder
      rw [h] at this
      have := (List.pairwise_cons.1 this).1 1 (by simp) _ _ 1 0 _ _ rfl rfl rfl rfl rfl rfl
      omega
    · exact h

theorem acu_rowValue (t : Index.Case Tables) (i0 i1 : ℕ) (z : List ℝ) : ∀ i < 2, acRowValue 100 t [0, 1] [i0, i1] z (colsOf (acuCase b0 b1 p0 p1).A) i =
    if i = 0 then pgAt t i0 / 100 else pgAt t i1 / 100 - z.getD 0 0 := by
  intro i hi
  have hA : colsOf (acuCase b0 b1 p0 p1).A = [[0, 0], [0, 0], [0, 0], [0, 0], [1, 0], [0, 1], [0, 0], [0, 0], [0, -1]] := rfl
  rw [hA]
  unfold acRowValue
  interval_cases i <;> simp [Finset.sum_range_succ, acColValue]
  ring

theorem acu_userFeasible (i0 i1 : ℕ) (z : ℝ) (t : Index.Case Tables) (h0 : pgAt t i0 ≤ 60) (h1 : pgAt t i1 / 100 ≤ z) (hz0 : 0 ≤ z) (hz : z ≤ 1) :
    AcUserFeasible 100 (acuCase b0 b1 p0 p1) acuIn [0, 1] [i0, i1] t [z] := by
  refine ⟨rfl, ?_, ?_⟩
  · intro i hi
    have hi' : i < 2 := hi
    rw [acu_rowValue b0 b1 p0 p1 t i0 i1 [z] i hi']
    refine ⟨bot_le, ?_⟩
    interval_cases i
    · have : uppAt acuIn.u 0 = ((0.6 : ℝ) : EReal) := rfl
      rw [this]
      refine EReal.coe_le_coe_iff.2 ?_
      simp only [if_true]
      linarith
    · have : uppAt acuIn.u 1 = ((0 : ℝ) : EReal) := rfl
      rw [this]
      refine EReal.coe_le_coe_iff.2 ?_
      simpa using h1
  · intro k hk
    have hk' : k < 1 := hk
    interval_cases k
    exact ⟨EReal.coe_le_coe_iff.2 hz0, EReal.coe_le_coe_iff.2 hz⟩

end

/-- **C126 fails** for generators that are not listed in the order of their buses: with everything in service and user data in the documented form, there are successful runs, at any tolerance
above rounding, that return 90 MW in a row of the generator table the user limits to 60 MW. -/
theorem C126_negation : ∃ (c : Index.Case Tables) (U : UserIn), WF c ∧ AcInputs 100 c ∧ AcUserInputs c U ∧ (∀ b ∈ c.bus, b.typ ≠ 4) ∧ (∀ g ∈ c.gen, GenInService c g) ∧
    ∀ srt, IsArgsort srt → ∀ solve : AnySolver, ∀ δ : ℝ, 1 / 2 ^ 52 < δ →
      ∃ x0 o ret out, 0 < o.costMult ∧ 0 < o.feastol ∧ 0 < o.gradtol ∧ 0 < o.comptol ∧
        opfAcUser srt 100 0 { exK with ang := { exK.ang with x0 := x0 } } U o solve c = some (ret, out) ∧ ret.success = true ∧ ret.tol = δ ∧
        uppAt U.u 0 = ((0.6 : ℝ) : EReal) ∧ acRowValue 100 ret.tables (List.range c.bus.length) (List.range c.gen.length) out.z (colsOf c.A) 0 = 0.9 := by
  have hb : (2 : ℕ) = 9 ∧ (9 : ℕ) = 2 ∨ (2 : ℕ) = 2 ∧ (9 : ℕ) = 9 := Or.inr ⟨rfl, rfl⟩
  refine ⟨acuCase 2 9 0 0, acuIn, acu_wf 2 9 hb 0 0, acu_ac 2 9 0 0, acu_inputs 2 9 hb 0 0, by simp [acuCase], ?_, ?_⟩
  · simp only [GenInService, acu_con]
    simp [acuCase]
  · intro srt hs solve δ hδ
    obtain ⟨bs, gs, R, hacc⟩ := C126_accepts hs (acu_wf 2 9 hb 0 0) (acu_ac 2 9 0 0) exK (fun _ _ => rfl) (acu_costFits 2 9 hb 0 0 hs) (acu_model 2 9 0 0) (acu_ang 2 9 0 0) (acu_none 2 9 0 0) (acu_inputs 2 9 hb 0 0) solve
    obtain ⟨rfl, rfl⟩ := acu_order 0 0 R
    obtain ⟨x0, o, ret, out, o1, o2, o3, o4, h1, h2, h3, -, h4, -⟩ := hacc (acuCase 2 9 90 50) [0.95] (acu_feasible (Or.inr ⟨rfl, rfl, rfl, rfl⟩) 0 0)
      (by refine acu_userFeasible 2 9 0 0 1 0 0.95 _ ?_ ?_ ?_ ?_ <;> norm_num [pgAt, acuCase]) δ hδ
    refine ⟨x0, o, ret, out, o1, o2, o3, o4, h1, h2, h3, rfl, ?_⟩
    have e := acu_rowValue 2 9 0 0 ret.tables 0 1 out.z 0 (by decide)
    rw [if_pos rfl] at e
    show acRowValue 100 ret.tables [0, 1] [0, 1] out.z _ 0 = 0.9
    rw [e, (h4 0 (by rw [(acu_sets 2 9 hb 0 0).1]; simp)).1]
    norm_num [pgAt, acuCase]

/-- The hypotheses of C127 hold on this case: a run with tolerance `1e-6` that returns 50 MW and 90 MW. -/
example : ∃ x0 o ret, opfAcCurve Index.stableArgsort 100 0 { exK with ang := { exK.ang with x0 := x0 } } o (fun _ _ _ _ => none) (acuCase 9 2 0 0) = some ret ∧ ret.success = true ∧
    ret.tol = 1 / 10 ^ 6 ∧ pgAt ret.tables 0 = 50 ∧ pgAt ret.tables 1 = 90 := by
  have hb : (9 : ℕ) = 9 ∧ (2 : ℕ) = 2 ∨ (9 : ℕ) = 2 ∧ (2 : ℕ) = 9 := Or.inl ⟨rfl, rfl⟩
  obtain ⟨x0, o, ret, -, -, -, -, h1, h2, h3, -, h4⟩ := C127_accepts Index.stableArgsort_isArgsort (acu_wf 9 2 hb 0 0) (acu_ac 9 2 0 0) exK (fun _ _ => rfl) (acu_costFits 9 2 hb 0 0 Index.stableArgsort_isArgsort)
    (acu_model 9 2 0 0) (acu_ang 9 2 0 0) (acu_none 9 2 0 0) (fun _ _ _ _ => none) (acuCase 9 2 50 90) (acu_feasible (Or.inl ⟨rfl, rfl, rfl, rfl⟩) 0 0) (1 / 10 ^ 6) (by norm_num)
  refine ⟨x0, o, ret, h1, h2, h3, ?_, ?_⟩
  · rw [(h4 0 (by rw [(acu_sets 9 2 hb 0 0).1]; simp)).1]; simp [pgAt, acuCase]
  · rw [(h4 1 (by rw [(acu_sets 9 2 hb 0 0).1]; simp)).1]; simp [pgAt, acuCase]

end

end Verif.Opf
