import Verif.Opf.AcUserRuns
import Verif.Opf.UserCases

/-!
# C126: a case with user data

Two buses with a generator each, the buses of the generators in either order.
-/

namespace Verif.Opf

open Verif.Index (BusRow GenRow BranchRow IsArgsort WF GenInService BranchInService Connected posOf orderOf)
open Verif.OpfModel Verif.Pips Verif.Network Verif.OpfCost

noncomputable section

def acuCase (b0 b1 : ℕ) (p0 p1 : ℝ) : Index.Case Tables where
  bus := [⟨9, 3, ⟨50, 0, 0, 0, 1, 0, 1.1, 0.9, 0, 0, 0, 0, []⟩⟩, ⟨2, 1, ⟨90, 0, 0, 0, 1, 0, 1.1, 0.9, 0, 0, 0, 0, [345]⟩⟩]
  gen := [⟨b0, 1, ⟨p0, 0, 50, -50, 1, 100, 10, 0, 0, 0, 0, []⟩⟩, ⟨b1, 1, ⟨p1, 0, 50, -50, 1, 100, 10, 0, 0, 0, 0, []⟩⟩]
  branch := [⟨9, 2, 1, ⟨0.01, 0.1, 0, 100, 0, 0, 0, 0, 0, 0, 0, 0, 0, 0, [-30, 30]⟩⟩]
  areas := none
  gencost := some [⟨2, 2, [100, 0]⟩, ⟨2, 2, [1, 0]⟩]
  A := some ⟨true, [[0, 0], [0, 0], [0, 0], [0, 0], [1, 0], [0, 1], [0, 0], [0, 0], [0, -1]]⟩
  N := none
  order := none

/-- The output in the first row of the generator table is at most 60 MW, that in the second at most the user variable `z`, which is between 0 and 1. -/
def acuIn : UserIn := ⟨[], [((0.6 : ℝ) : EReal), ((0 : ℝ) : EReal)], [], [((0 : ℝ) : EReal)], [((1 : ℝ) : EReal)], [], none, []⟩

section
variable (b0 b1 : ℕ) (hb : b0 = 9 ∧ b1 = 2 ∨ b0 = 2 ∧ b1 = 9) (p0 p1 : ℝ)

include hb in
theorem acu_wf : WF (acuCase b0 b1 p0 p1) where
  busNodup := by simp [acuCase]
  typValid := by simp [acuCase]
  someOn := ⟨_, List.mem_cons_self, by decide⟩
  genRef := by rcases hb with ⟨rfl, rfl⟩ | ⟨rfl, rfl⟩ <;> simp [acuCase, Index.HasBus]
  fRef := by simp [acuCase, Index.HasBus]
  tRef := by simp [acuCase, Index.HasBus]
  areaRef := by simp [acuCase]
  costRows := by simp [acuCase]
  aCols := by simp [acuCase, Index.minCols, Index.isDC]
  nCols := by simp [acuCase]
  notInternal := by simp [acuCase]

theorem acu_con (n : ℕ) : Connected (acuCase b0 b1 p0 p1) n ↔ n = 9 ∨ n = 2 := by
  simp only [Connected, acuCase, List.mem_cons, List.not_mem_nil, or_false]
  constructor
  · rintro ⟨b, rfl | rfl, rfl, h⟩ <;> simp
  · rintro (rfl | rfl)
    · exact ⟨_, Or.inl rfl, rfl, by decide⟩
    · exact ⟨_, Or.inr rfl, rfl, by simp⟩

theorem acu_ac : AcInputs 100 (acuCase b0 b1 p0 p1) where
  pos := by norm_num
  bus := by
    simp only [acuCase, List.mem_cons, List.not_mem_nil, or_false, forall_eq_or_imp, forall_eq]
    norm_num [abs_of_pos]
  gen := by
    simp only [acuCase, List.mem_cons, List.not_mem_nil, or_false, forall_eq_or_imp, forall_eq]
    norm_num [abs_of_pos]
  limited := by
    refine ⟨_, List.mem_cons_self, ?_, by norm_num, by norm_num⟩
    simp [BranchInService, Connected, acuCase]

theorem acu_ang : AngInputs exK.ang (acuCase b0 b1 p0 p1) := by
  have hpi := Real.pi_pos
  have hpi' := Real.pi_le_four
  unfold AngInputs
  simp only [acuCase, List.mem_cons, List.not_mem_nil, or_false, forall_eq, exK, exE]
  refine fun _ => ⟨?_, ?_, ?_⟩
  · simp only [List.getD_cons_zero, abs_lt]
    constructor <;> linarith
  · simp only [List.getD_cons_succ, List.getD_cons_zero, abs_lt]
    constructor <;> linarith
  · intro _ _; norm_num

include hb in
theorem acu_sets : onGens (acuCase b0 b1 p0 p1) = {0, 1} ∧ onBuses (acuCase b0 b1 p0 p1) = {0, 1} := by
  constructor <;> ext i
  · simp only [onGens, Finset.mem_filter, Finset.mem_range, GenInService, acu_con]
    have hl : (acuCase b0 b1 p0 p1).gen.length = 2 := rfl
    rw [hl]
    constructor
    · rintro ⟨h, -⟩; simp; omega
    · simp only [Finset.mem_insert, Finset.mem_singleton]
      rintro (rfl | rfl)
      · refine ⟨by decide, _, rfl, ?_⟩
        rcases hb with ⟨rfl, rfl⟩ | ⟨rfl, rfl⟩ <;> simp
      · refine ⟨by decide, _, rfl, ?_⟩
        rcases hb with ⟨rfl, rfl⟩ | ⟨rfl, rfl⟩ <;> simp
  · simp only [onBuses, Finset.mem_filter, Finset.mem_range]
    have hl : (acuCase b0 b1 p0 p1).bus.length = 2 := rfl
    rw [hl]
    constructor
    · rintro ⟨h, -⟩; simp; omega
    · simp only [Finset.mem_insert, Finset.mem_singleton]
      rintro (rfl | rfl)
      · exact ⟨by decide, _, rfl, by simp⟩
      · exact ⟨by decide, _, rfl, by simp⟩

include hb in
theorem acu_inputs : AcUserInputs (acuCase b0 b1 p0 p1) acuIn := by
  obtain ⟨e1, e2⟩ := acu_sets b0 b1 hb p0 p1
  have hA : colsOf (acuCase b0 b1 p0 p1).A = [[0, 0], [0, 0], [0, 0], [0, 0], [1, 0], [0, 1], [0, 0], [0, 0], [0, -1]] := rfl
  have hn : nUserAc (onBuses (acuCase b0 b1 p0 p1)).card (onGens (acuCase b0 b1 p0 p1)).card (colsOf (acuCase b0 b1 p0 p1).A) = 1 := by
    rw [e1, e2, hA]; simp [nUserAc, rowsOf]
  refine ⟨⟨?_, ?_⟩, Or.inl rfl, Or.inr rfl, ?_, ?_, ?_, ?_⟩
  · intro a h; simp [acuCase] at h; rw [← h]
  · intro _; rw [e1, e2, hA]; simp
  · rw [hn]; exact Or.inr rfl
  · rw [hn]; exact Or.inr rfl
  · intro i _
    have hl : lowAt acuIn.l i = ⊥ := by simp [lowAt, acuIn]
    rw [hl]
    refine sane_bot ?_
    rcases i with _ | _ | i <;> simp [uppAt, acuIn]
    all_goals exact EReal.coe_ne_bot _
  · rw [hn]
    intro k hk
    obtain rfl : k = 0 := by omega
    have h1 : lowAt acuIn.zl 0 = ((0 : ℝ) : EReal) := by simp [lowAt, acuIn]
    have h2 : uppAt acuIn.zu 0 = ((1 : ℝ) : EReal) := by simp [uppAt, acuIn]
    rw [h1, h2]
    exact sane_real (by norm_num) (finite_of_abs (by norm_num)) (finite_of_abs (by norm_num))

include hb in
theorem acu_costFits {srt : List ℕ → List ℕ} (hs : IsArgsort srt) : CurveCostFits srt 100 0 exK (acuCase b0 b1 p0 p1) := by
  intro c' d he hd
  have hg : 0 < c'.gen.length := by
    obtain ⟨c1, d1, he1, hd1, hw⟩ := bridge_exists hs 100 (acu_wf b0 b1 hb p0 p1)
    rw [he] at he1; cases he1
    obtain ⟨r, hr⟩ := hw ⟨fun _ b => b, fun _ g => g, fun _ l => l⟩
    obtain ⟨bp, gp, lp, B⟩ := bridge hs (acu_wf b0 b1 hb p0 p1) he hd1 _ hr opfOff
    obtain ⟨k, -⟩ := B.genOn 0 _ rfl (by rcases hb with ⟨rfl, rfl⟩ | ⟨rfl, rfl⟩ <;> simp [GenInService, Connected, acuCase])
    exact k.pos
  refine ⟨⟨?_, ?_, ?_, ?_, ?_, ?_⟩, ?_, Or.inr ⟨0, ?_, ?_⟩⟩
  · simp [exK, exAcSetup, nlOf]; omega
  · intro r hr hm
    simp only [exK, exAcSetup, nlOf, List.mem_replicate] at hr
    rw [hr.2]
    exact ⟨rfl, by simp, by simp⟩
  · simp [exK, exAcSetup, nlOf]; omega
  · simp [exK, exAcSetup, nlOf]; omega
  · simp [exK, exAcSetup, nlOf]
  · simp [nlOf]
  · simp [exK, exAcSetup]
  · simpa [exK, exAcSetup] using hg
  · simp [exK, exAcSetup, OpfCost.AcData.row, hg]

theorem acu_none : SomeUpper exK (acuCase b0 b1 p0 p1) ↔ SomeLower exK (acuCase b0 b1 p0 p1) := by
  constructor
  · rintro ⟨g, hg, -, hc⟩
    simp only [acuCase, List.mem_cons, List.not_mem_nil, or_false] at hg
    rcases hg with rfl | rfl <;> norm_num [CutsUpper, Constr.BelowUpper, Curves.row, exK] at hc
  · rintro ⟨g, hg, -, hc⟩
    simp only [acuCase, List.mem_cons, List.not_mem_nil, or_false] at hg
    rcases hg with rfl | rfl <;> norm_num [CutsLower, Constr.AboveLower, Curves.row, exK] at hc

theorem acu_inOrder : InOrder Index.stableArgsort (acuCase 9 2 p0 p1) where
  bus := by simp [acuCase]
  gen := by simp [acuCase]
  order := by
    intro i j gi gj p q bi bj hij hi hj hp hq e1 e2
    have hj' : j < 2 := by
      by_contra h
      rw [List.getElem?_eq_none (by show 2 ≤ j; omega)] at hj
      simp at hj
    obtain ⟨rfl, rfl⟩ : i = 0 ∧ j = 1 := by omega
    left
    simp only [acuCase, List.getElem?_cons_zero, List.getElem?_cons_succ, Option.some.injEq] at hi hj
    subst hi hj
    have hp0 : p = 0 := by
      rcases p with _ | _ | p
      · rfl
      · simp [acuCase] at hp; subst hp; simp at e1
      · simp [acuCase] at hp
    have hq1 : q = 1 := by
      rcases q with _ | _ | q
      · simp [acuCase] at hq; subst hq; simp at e2
      · rfl
      · simp [acuCase] at hq
    omega

include hb in
/-- The hypotheses of `C126_applied` and `C126_multipliers` hold on this case with the generators in either order (those of `C126_partial` in the first: `acu_inOrder`). -/
theorem acu_succeeds : ∃ o ret out, WF (acuCase b0 b1 p0 p1) ∧ AcUserShape (acuCase b0 b1 p0 p1) ∧
    (∀ c' d, Index.ext2int Index.stableArgsort (acuCase b0 b1 p0 p1) = some c' → readCase 100 c' = some d →
      Good (acOps d ++ curveExtra (withUser exK acuIn) d c') ∧ (names (nlnBlocks (acOps d ++ curveExtra (withUser exK acuIn) d c'))).Nodup) ∧
    0 < o.costMult ∧ opfAcUser Index.stableArgsort 100 0 exK acuIn o (fun _ _ _ _ => none) (acuCase b0 b1 p0 p1) = some (ret, out) ∧ ret.success = true := by
  obtain ⟨o, ret, out, h0, h1, h2⟩ := (C126_completes Index.stableArgsort_isArgsort (acu_wf b0 b1 hb p0 p1) (acu_ac b0 b1 p0 p1) exK (acu_ang b0 b1 p0 p1) (fun _ _ => rfl)
    (acu_inputs b0 b1 hb p0 p1) 0 (acu_costFits b0 b1 hb p0 p1 Index.stableArgsort_isArgsort) (acu_none b0 b1 p0 p1)).2 (fun _ _ _ _ => none)
  exact ⟨o, ret, out, acu_wf b0 b1 hb p0 p1, (acu_inputs b0 b1 hb p0 p1).shape, acUser_wellposed Index.stableArgsort_isArgsort (acu_wf b0 b1 hb p0 p1) (acu_ac b0 b1 p0 p1) exK
    (acu_ang b0 b1 p0 p1) (fun _ _ => rfl) (acu_inputs b0 b1 hb p0 p1), h0, h1, h2⟩

example : ∃ o ret out, opfAcUser Index.stableArgsort 100 0 exK acuIn o (fun _ _ _ _ => none) (acuCase 2 9 p0 p1) = some (ret, out) ∧ ret.success = true := by
  obtain ⟨o, ret, out, -, -, -, -, h1, h2⟩ := acu_succeeds 2 9 (Or.inr ⟨rfl, rfl⟩) p0 p1
  exact ⟨o, ret, out, h1, h2⟩

/-- The hypotheses of `C126_dense` can be met. -/
example : ∃ a : Index.UserMat (List ℝ), a.sparse = false ∧ rowsOf a.cols ≠ 0 ∧ (∀ x ∈ a.cols, ∀ y ∈ a.cols, x.length = y.length) ∧
    WF { acuCase 9 2 p0 p1 with A := some a } :=
  ⟨⟨false, List.replicate 8 [1]⟩, rfl, by simp [rowsOf], by simp,
    { acu_wf 9 2 (Or.inl ⟨rfl, rfl⟩) p0 p1 with aCols := by intro m hm; simp only [Option.some.injEq] at hm; subst hm; simp [acuCase, Index.minCols, Index.isDC] }⟩

end

end

end Verif.Opf
