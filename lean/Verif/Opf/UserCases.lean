import Verif.Opf.AcceptProps

/-!
# C109, C110: examples, and where the claims fail
-/

namespace Verif.Opf

open Verif.Index (BusRow GenRow BranchRow IsArgsort WF GenInService BranchInService Connected posOf orderOf)
open Verif.OpfModel Verif.Pips Verif.Network Verif.Cost Verif.OpfCost

noncomputable section

/-- Two buses, 9 (reference) and 2 (90 MW demand, 1 MW shunt), joined by a line rated 100 MW; a generator at 100 $/MWh at bus `b0` and one at 1 $/MWh at bus `b1`.  The last four numbers
are a dispatch: angle across the line, outputs, flow. -/
def usrCase (b0 b1 : ℕ) (φ p0 p1 f : ℝ) : Index.Case Tables where
  bus := [⟨9, 3, ⟨0, 0, 0, 0, 1, 5, 1.1, 0.9, 0, 0, 0, 0, []⟩⟩, ⟨2, 1, ⟨90, 30, 1, 2, 1, 5 - φ * (180 / Real.pi), 1.1, 0.9, 0, 0, 0, 0, [345]⟩⟩]
  gen := [⟨b0, 1, ⟨p0, 0, 50, -50, 1, 100, 10, 0, 0, 0, 0, []⟩⟩, ⟨b1, 1, ⟨p1, 0, 50, -50, 1, 100, 10, 0, 0, 0, 0, []⟩⟩]
  branch := [⟨9, 2, 1, ⟨0.01, 0.1, 0.02, 100, 0, 0, f, 0, -f, 0, 0, 0, 0, 0, [-30, 30]⟩⟩]
  areas := none
  gencost := some [⟨2, 2, [100, 0]⟩, ⟨2, 2, [1, 0]⟩]
  A := some ⟨true, [[0, 0], [0, 0], [1, 0], [0, 1], [0, -1]]⟩
  N := some ⟨true, [[0], [0], [0], [0], [1]]⟩
  order := none

/-- The output in the first row of the generator table is at most 20 MW, that in the second at most the user variable `z`, which is between 0 and 1 and costs `50 z + z²`. -/
def usrIn : UserIn := ⟨[], [((0.2 : ℝ) : EReal), ((0 : ℝ) : EReal)], [], [((0 : ℝ) : EReal)], [((1 : ℝ) : EReal)], [50], some ⟨1, 1, fun _ _ => 2⟩, []⟩

def usrθ (φ : ℝ) (n : ℕ) : ℝ := if n = 9 then 5 * (Real.pi / 180) else if n = 2 then 5 * (Real.pi / 180) - φ else 0

section
variable (b0 b1 : ℕ) (hb : b0 = 9 ∧ b1 = 2 ∨ b0 = 2 ∧ b1 = 9) (φ p0 p1 f : ℝ)

include hb in
theorem usr_wf : WF (usrCase b0 b1 φ p0 p1 f) where
  busNodup := by simp [usrCase]
  typValid := by simp [usrCase]
  someOn := ⟨_, List.mem_cons_self, by decide⟩
  genRef := by rcases hb with ⟨rfl, rfl⟩ | ⟨rfl, rfl⟩ <;> simp [usrCase, Index.HasBus]
  fRef := by simp [usrCase, Index.HasBus]
  tRef := by simp [usrCase, Index.HasBus]
  areaRef := by simp [usrCase]
  costRows := by simp [usrCase]
  aCols := by simp [usrCase, Index.minCols, Index.isDC]
  nCols := by simp [usrCase, Index.minCols, Index.isDC]
  notInternal := by simp [usrCase]

theorem usr_con (n : ℕ) : Connected (usrCase b0 b1 φ p0 p1 f) n ↔ n = 9 ∨ n = 2 := by
  simp only [Connected, usrCase, List.mem_cons, List.not_mem_nil, or_false]
  constructor
  · rintro ⟨b, rfl | rfl, rfl, h⟩ <;> simp
  · rintro (rfl | rfl)
    · exact ⟨_, Or.inl rfl, rfl, by decide⟩
    · exact ⟨_, Or.inr rfl, rfl, by simp⟩

theorem usr_plain : DcPlain 100 (usrCase b0 b1 0 p0 p1 f) where
  pos := by norm_num
  bus := by
    have h5 := small_angle
    simp only [usrCase, List.mem_cons, List.not_mem_nil, or_false, forall_eq_or_imp, forall_eq, zero_mul, sub_zero]
    refine ⟨fun _ => ⟨h5, by norm_num⟩, fun _ => ⟨h5, ?_⟩⟩
    rw [abs_of_pos] <;> norm_num
  gen := by
    simp only [usrCase, List.mem_cons, List.not_mem_nil, or_false, forall_eq_or_imp, forall_eq]
    norm_num
  branch := by simp [usrCase]
  shift := by simp [usrCase]

theorem usr_dc : DcInputs 100 (usrCase b0 b1 0 p0 p1 f) := (usr_plain b0 b1 p0 p1 f).inputs

theorem usr_ang : AngInputs exE (usrCase b0 b1 φ p0 p1 f) := by
  have hpi := Real.pi_pos
  have hpi' := Real.pi_le_four
  unfold AngInputs
  simp only [usrCase, List.mem_cons, List.not_mem_nil, or_false, forall_eq, exE]
  refine fun _ => ⟨?_, ?_, ?_⟩
  · simp only [List.getD_cons_zero, abs_lt]
    constructor <;> linarith
  · simp only [List.getD_cons_succ, List.getD_cons_zero, abs_lt]
    constructor <;> linarith
  · intro _ _; norm_num

include hb in
theorem usr_gens (i : ℕ) : i ∈ onGens (usrCase b0 b1 φ p0 p1 f) ↔ i = 0 ∨ i = 1 := by
  simp only [onGens, Finset.mem_filter, Finset.mem_range, GenInService, usr_con]
  have hl : (usrCase b0 b1 φ p0 p1 f).gen.length = 2 := rfl
  rw [hl]
  constructor
  · rintro ⟨h, -⟩; omega
  · rintro (rfl | rfl)
    · refine ⟨by decide, _, rfl, ?_⟩
      rcases hb with ⟨rfl, rfl⟩ | ⟨rfl, rfl⟩ <;> simp
    · refine ⟨by decide, _, rfl, ?_⟩
      rcases hb with ⟨rfl, rfl⟩ | ⟨rfl, rfl⟩ <;> simp

theorem usr_buses (i : ℕ) : i ∈ onBuses (usrCase b0 b1 φ p0 p1 f) ↔ i = 0 ∨ i = 1 := by
  simp only [onBuses, Finset.mem_filter, Finset.mem_range]
  have hl : (usrCase b0 b1 φ p0 p1 f).bus.length = 2 := rfl
  rw [hl]
  constructor
  · rintro ⟨h, -⟩; omega
  · rintro (rfl | rfl)
    · exact ⟨by decide, _, rfl, by simp⟩
    · exact ⟨by decide, _, rfl, by simp⟩

include hb in
theorem usr_sets : onGens (usrCase b0 b1 φ p0 p1 f) = {0, 1} ∧ onBuses (usrCase b0 b1 φ p0 p1 f) = {0, 1} := by
  constructor <;> ext i
  · rw [usr_gens b0 b1 hb]; simp
  · rw [usr_buses]; simp

include hb in
theorem usr_costs : EconCosts (usrCase b0 b1 φ p0 p1 f) where
  table := rfl
  ok := by
    intro i hi
    rw [usr_gens b0 b1 hb] at hi
    rcases hi with rfl | rfl
    · exact Or.inr ⟨⟨rfl, by simp [costAt, usrCase], by simp [costAt, usrCase]⟩, Or.inl rfl⟩
    · exact Or.inr ⟨⟨rfl, by simp [costAt, usrCase], by simp [costAt, usrCase]⟩, Or.inl rfl⟩
  big := by
    intro i hi hm k hk
    rw [usr_gens b0 b1 hb] at hi
    rcases hi with rfl | rfl <;> exact absurd hm (by simp [costAt, usrCase])

include hb in
theorem usr_inputs : UserInputs (usrCase b0 b1 φ p0 p1 f) usrIn := by
  obtain ⟨e1, e2⟩ := usr_sets b0 b1 hb φ p0 p1 f
  have hA : colsOf (usrCase b0 b1 φ p0 p1 f).A = [[0, 0], [0, 0], [1, 0], [0, 1], [0, -1]] := rfl
  have hN : colsOf (usrCase b0 b1 φ p0 p1 f).N = [[0], [0], [0], [0], [1]] := rfl
  have hn : nUser (onBuses (usrCase b0 b1 φ p0 p1 f)).card (onGens (usrCase b0 b1 φ p0 p1 f)).card (colsOf (usrCase b0 b1 φ p0 p1 f).A) = 1 := by
    rw [e1, e2, hA]; simp [nUser, rowsOf]
  refine ⟨⟨?_, ?_, ?_, ?_, ?_, ?_⟩, Or.inl rfl, Or.inr rfl, ?_, ?_, ?_, ?_⟩
  · intro a h; simp [usrCase] at h; rw [← h]
  · intro a h; simp [usrCase] at h; rw [← h]
  · intro _; rw [hA, hN]; simp [rowsOf]
  · intro _; rw [hN]; simp [rowsOf, usrIn]
  · intro _; rw [hN]; exact ⟨_, rfl, rfl, rfl⟩
  · intro _; exact Or.inl rfl
  · rw [hn]; exact Or.inr rfl
  · rw [hn]; exact Or.inr rfl
  · intro i hi
    rw [show lowAt usrIn.l i = ⊥ from rfl]
    refine sane_bot ?_
    have hi' : i < 2 := hi
    interval_cases i
    · exact EReal.coe_ne_bot 0.2
    · exact EReal.coe_ne_bot 0
  · rw [hn]
    intro k hk
    interval_cases k
    have e1 : lowAt usrIn.zl 0 = ((0 : ℝ) : EReal) := rfl
    have e2 : uppAt usrIn.zu 0 = ((1 : ℝ) : EReal) := rfl
    rw [e1, e2]
    refine ⟨by exact_mod_cast zero_le_one, EReal.coe_ne_bot _, EReal.coe_ne_top _, fun _ => ⟨?_, ?_⟩⟩
    · exact EReal.coe_lt_coe_iff.2 (by norm_num)
    · exact EReal.coe_lt_coe_iff.2 (by norm_num)

theorem usr_convex : UserConvex (usrCase b0 b1 φ p0 p1 f) usrIn where
  symm := by
    intro h e
    simp [usrIn] at e
    simp [← e]
  psd := by
    intro h e w
    simp [usrIn] at e
    have hN : rowsOf (colsOf (usrCase b0 b1 φ p0 p1 f).N) = 1 := rfl
    rw [hN]
    simp [← e]
    nlinarith [sq_nonneg (w 0)]

include hb in
/-- The dispatch with 20 MW from the first generator is within all limits, whichever bus the first generator is at. -/
theorem usr_feasible (q0 q1 g : ℝ) : ∀ φ p0 p1 f : ℝ, φ = f / 1000 → p0 + p1 = 91 → 10 ≤ p0 → 10 ≤ p1 → p0 ≤ 100 → p1 ≤ 100 → f = (if b0 = 9 then p0 else p1) → f ≤ 100 → 0 < f →
    DcFeasible 100 exE (usrCase b0 b1 0 q0 q1 g) (usrCase b0 b1 φ p0 p1 f) (usrθ φ) := by
  intro φ p0 p1 f hφ h91 h1 h2 h3 h4 hf hf1 hf0
  refine ⟨?_, ?_, ?_, ?_, ?_, ?_, ?_, ?_, ?_, ?_, ?_, ?_⟩
  · simp [usrCase, busInput]
  · simp [usrCase, genInput]
  · simp [usrCase, branchInput]
  · have := Real.pi_pos
    simp only [usrCase, List.mem_cons, List.not_mem_nil, or_false, forall_eq_or_imp, forall_eq, usrθ]
    refine ⟨by simp, ?_⟩
    simp only [show ¬ (2 : ℕ) = 9 by decide, if_false, if_true]
    field_simp
  · simp only [BranchInService, usr_con]
    simp only [usrCase, List.mem_cons, List.not_mem_nil, or_false, forall_eq]
    intro _
    norm_num [dcFlow, asBranch, usrθ, hφ]
    ring
  · rcases hb with ⟨rfl, rfl⟩ | ⟨rfl, rfl⟩
    all_goals
      simp only [usrCase, List.mem_cons, List.not_mem_nil, or_false, forall_eq_or_imp, forall_eq]
      refine ⟨fun _ => ?_, fun _ => ?_⟩ <;> norm_num [dcBalance, genAt, fromAt, toAt, List.filter_cons] at hf ⊢ <;> linarith
  · simp only [usrCase, List.mem_cons, List.not_mem_nil, or_false, forall_eq_or_imp, forall_eq]
    exact ⟨fun _ => ⟨h1, h3⟩, fun _ => ⟨h2, h4⟩⟩
  · simp only [usrCase, List.mem_cons, List.not_mem_nil, or_false, forall_eq]
    intro _ _ _
    rw [abs_of_pos hf0]; exact hf1
  · intro i b b0 h1 h2 h3
    match i with
    | 0 =>
      simp only [usrCase, List.getElem?_cons_zero, Option.some.injEq] at h1 h2
      rw [← h1, ← h2]
    | 1 =>
      simp only [usrCase, List.getElem?_cons_succ, List.getElem?_cons_zero, Option.some.injEq] at h1
      rw [← h1] at h3
      simp at h3
    | n + 2 => simp [usrCase] at h1
  · intro _
    have hpi := Real.two_le_pi
    simp only [BranchInService, usr_con]
    simp only [usrCase, List.mem_cons, List.not_mem_nil, or_false, forall_eq]
    refine fun _ _ => ⟨fun _ => ?_, fun _ => ?_⟩
    · norm_num [exE, usrθ]
      linarith
    · norm_num [exE, usrθ]
      linarith
  · simp only [GenInService, usr_con]
    rcases hb with ⟨rfl, rfl⟩ | ⟨rfl, rfl⟩
    all_goals
      simp only [usrCase, List.mem_cons, List.not_mem_nil, or_false, forall_eq_or_imp, forall_eq]
      norm_num
  · simp only [BranchInService, usr_con]
    simp only [usrCase, List.mem_cons, List.not_mem_nil, or_false, forall_eq]
    norm_num

theorem usr_rowValue (t : Index.Case Tables) (i0 i1 : ℕ) (z : List ℝ) : ∀ i < 2, rowValue 100 t [0, 1] [i0, i1] z (colsOf (usrCase b0 b1 φ p0 p1 f).A) i =
    if i = 0 then pgAt t i0 / 100 else pgAt t i1 / 100 - z.getD 0 0 := by
  intro i hi
  have hA : colsOf (usrCase b0 b1 φ p0 p1 f).A = [[0, 0], [0, 0], [1, 0], [0, 1], [0, -1]] := rfl
  rw [hA]
  unfold rowValue
  interval_cases i <;> simp [Finset.sum_range_succ, colValue, dcValue]
  ring

theorem usr_cost (t : Index.Case Tables) (i0 i1 : ℕ) (z : List ℝ) : userCost 100 (usrCase b0 b1 φ p0 p1 f) usrIn [0, 1] [i0, i1] t z = z.getD 0 0 ^ 2 + 50 * z.getD 0 0 := by
  have hN : colsOf (usrCase b0 b1 φ p0 p1 f).N = [[0], [0], [0], [0], [1]] := rfl
  have hr : rowValue 100 t [0, 1] [i0, i1] z [[0], [0], [0], [0], [1]] 0 = z.getD 0 0 := by
    unfold rowValue
    simp [Finset.sum_range_succ, colValue, dcValue]
  unfold userCost
  rw [hN]
  simp only [rowsOf, List.headD_cons, List.length_cons, List.length_nil]
  simp [usrIn, hr]
  ring

theorem usr_genCost (P : ℝ) : genCost (usrCase b0 b1 φ p0 p1 f) 0 P = 100 * P ∧ genCost (usrCase b0 b1 φ p0 p1 f) 1 P = P := by
  constructor <;> simp [genCost, costAt, usrCase, rowVal, rowPoly, Finset.sum_range_succ]

theorem usr_userFeasible_at (i0 i1 : ℕ) (z : ℝ) (t : Index.Case Tables) (h0 : pgAt t i0 ≤ 20) (h1 : pgAt t i1 / 100 ≤ z) (hz0 : 0 ≤ z) (hz : z ≤ 1) :
    UserFeasible 100 (usrCase b0 b1 φ p0 p1 f) usrIn [0, 1] [i0, i1] t [z] := by
  refine ⟨rfl, ?_, ?_⟩
  · intro i hi
    have hi' : i < 2 := hi
    rw [usr_rowValue b0 b1 φ p0 p1 f t i0 i1 [z] i hi']
    refine ⟨bot_le, ?_⟩
    interval_cases i
    · have : uppAt usrIn.u 0 = ((0.2 : ℝ) : EReal) := rfl
      rw [this]
      refine EReal.coe_le_coe_iff.2 ?_
      simp only [if_true]
      linarith
    · have : uppAt usrIn.u 1 = ((0 : ℝ) : EReal) := rfl
      rw [this]
      refine EReal.coe_le_coe_iff.2 ?_
      simpa using h1
  · intro k hk
    have hk' : k < 1 := hk
    interval_cases k
    exact ⟨EReal.coe_le_coe_iff.2 hz0, EReal.coe_le_coe_iff.2 hz⟩

theorem usr_userFeasible (z : ℝ) (t : Index.Case Tables) (h0 : pgAt t 0 ≤ 20) (h1 : pgAt t 1 / 100 ≤ z) (hz0 : 0 ≤ z) (hz : z ≤ 1) :
    UserFeasible 100 (usrCase b0 b1 φ p0 p1 f) usrIn [0, 1] [0, 1] t [z] := usr_userFeasible_at b0 b1 φ p0 p1 f 0 1 z t h0 h1 hz0 hz

end

/-- With the first generator at bus 2 and the second at bus 9 the code applies the columns of the outputs in the reverse order. -/
theorem usr_order {φ p0 p1 f : ℝ} {bs gs : List ℕ} (R : RowOrder (usrCase 2 9 φ p0 p1 f) bs gs) : bs = [0, 1] ∧ gs = [1, 0] := by
  have hb : (2 : ℕ) = 9 ∧ (9 : ℕ) = 2 ∨ (2 : ℕ) = 2 ∧ (9 : ℕ) = 9 := Or.inr ⟨rfl, rfl⟩
  have two : ∀ l : List ℕ, l.Nodup → (∀ i, i ∈ l ↔ i = 0 ∨ i = 1) → l = [0, 1] ∨ l = [1, 0] := by
    intro l hl hm
    have : l.Perm [0, 1] := (List.perm_ext_iff_of_nodup hl (by simp)).2 fun i => by rw [hm]; simp
    obtain ⟨a, b, rfl⟩ := List.length_eq_two.1 this.length_eq
    have h0 := (hm a).1 (by simp)
    have h1 := (hm b).1 (by simp)
    have h2 : a ≠ b := by simpa using hl
    rcases h0 with rfl | rfl <;> rcases h1 with rfl | rfl <;> simp_all
  constructor
  · rcases two bs (R.busOrder.imp fun h => h.ne) (fun i => by rw [R.bus, usr_buses]) with h | h
    · exact h
    · have := R.busOrder
      rw [h] at this
      simp at this
  · rcases two gs R.genNodup (fun i => by rw [R.gen, usr_gens 2 9 hb]) with h | h
    · have := R.genOrder
      rw [h] at this
      have := (List.pairwise_cons.1 this).1 1 (by simp) _ _ 1 0 _ _ rfl rfl rfl rfl rfl rfl
      omega
    · exact h

/-- A run on the swapped case: the second generator is held below 20 MW instead of the first. -/
theorem usr_swapped {srt : List ℕ → List ℕ} (hs : IsArgsort srt) (x0 : ∀ (_ : Index.Case Tables) (m : OpfModel.Model), Fin m.var.total → ℝ) (o : Opt) (solve : AnySolver) (hc : 0 < o.costMult) (hft : 0 ≤ o.feastol) (hct : 0 ≤ o.comptol) {ret : Ret}
    {out : UserOut} (hrun : opfDcUser srt 100 { exE with x0 := x0 } usrIn o solve (usrCase 2 9 0 0 0 0) = some (ret, out)) (hok : ret.success = true) (htol : ret.tol ≤ 1 / 100) :
    67 < pgAt ret.tables 0 ∧ 8 < pgAt ret.tables 1 ∧ 0 < out.z.getD 0 0 ∧ ret.f = 100 * pgAt ret.tables 0 + pgAt ret.tables 1 + (out.z.getD 0 0 ^ 2 + 50 * out.z.getD 0 0) := by
  have hb : (2 : ℕ) = 9 ∧ (9 : ℕ) = 2 ∨ (2 : ℕ) = 2 ∧ (9 : ℕ) = 9 := Or.inr ⟨rfl, rfl⟩
  have hwf := usr_wf 2 9 hb 0 0 0 0
  have hin := usr_inputs 2 9 hb 0 0 0 0
  have hgood := user_wellposed hs hwf (usr_dc 2 9 0 0 0) { exE with x0 := x0 } (usr_ang 2 9 0 0 0 0) hin
  have hcost := usr_costs 2 9 hb 0 0 0 0
  have hpos : (0 : ℝ) < 100 := by norm_num
  have hst : ∀ l ∈ (usrCase 2 9 0 0 0 0).branch, l.status = 0 ∨ l.status = 1 := by simp [usrCase]
  obtain ⟨bs, gs, R, ha⟩ := C109_applied hs hpos hwf hcost.table hin.shape hgood hrun hok
  obtain ⟨rfl, rfl⟩ := usr_order R
  have htab := C109_tables hrun
  obtain ⟨hbal, hlim, -, -⟩ := C86_dc hs hpos hwf hgood htab hok
  obtain ⟨ib, ig, il, -, -⟩ := C86_dc_inputs hs hwf htab
  obtain ⟨x0, x1, eb⟩ : ∃ x0 x1, ret.tables.bus = [x0, x1] := List.length_eq_two.1 (by simpa [usrCase] using congrArg List.length ib)
  obtain ⟨g0, g1, eg⟩ : ∃ g0 g1, ret.tables.gen = [g0, g1] := List.length_eq_two.1 (by simpa [usrCase] using congrArg List.length ig)
  obtain ⟨l0, el⟩ : ∃ l0, ret.tables.branch = [l0] := List.length_eq_one_iff.1 (by simpa [usrCase] using congrArg List.length il)
  simp only [eb, usrCase, List.map_cons, List.map_nil, busInput, List.cons.injEq, BusRow.mk.injEq, BusD.mk.injEq, and_true] at ib
  simp only [eg, usrCase, List.map_cons, List.map_nil, genInput, List.cons.injEq, GenRow.mk.injEq, GenD.mk.injEq, and_true] at ig
  simp only [el, usrCase, List.map_cons, List.map_nil, branchInput, List.cons.injEq, BranchRow.mk.injEq, BrD.mk.injEq, and_true] at il
  obtain ⟨⟨n0, t0, d0, -, s0, -⟩, n1, t1, d1, -, s1, -⟩ := ib
  obtain ⟨⟨gb0, gs0, -, -, -, -, -, -, pm0, -⟩, gb1, gs1, -, -, -, -, -, -, pm1, -⟩ := ig
  obtain ⟨lf, lt, ls, -⟩ := il
  have hcon : ∀ n, n = 9 ∨ n = 2 → Connected ret.tables n := by
    rintro n (rfl | rfl)
    · exact ⟨x0, by simp [eb], n0, by rw [t0]; decide⟩
    · exact ⟨x1, by simp [eb], n1, by rw [t1]; decide⟩
  have hlon : BranchInService ret.tables l0 := ⟨by rw [ls]; decide, hcon _ (Or.inl lf), hcon _ (Or.inr lt)⟩
  obtain ⟨-, hpt, -⟩ := C86_dc_flows hs hwf hgood htab hst (fun n => if n = 9 then x0.data.VA * (Real.pi / 180) else x1.data.VA * (Real.pi / 180))
    (by
      rw [eb]
      intro b hb
      simp only [List.mem_cons, List.not_mem_nil, or_false] at hb
      rcases hb with rfl | rfl
      · simp [n0]
      · simp [n1]) l0 (by simp [el]) hlon
  have b0 := hbal x0 (by simp [eb]) (by rw [t0]; decide)
  have b1 := hbal x1 (by simp [eb]) (by rw [t1]; decide)
  have lim1 := (hlim g1 (by simp [eg]) ⟨by rw [gs1]; decide, hcon _ (Or.inl gb1)⟩).2 (by rw [pm1]; norm_num)
  have e0 : pgAt ret.tables 0 = g0.data.PG := by simp [pgAt, eg]
  have e1 : pgAt ret.tables 1 = g1.data.PG := by simp [pgAt, eg]
  have c0 : dcBalance ret.tables x0 = g1.data.PG - l0.data.PF := by
    simp [dcBalance, genAt, fromAt, toAt, eg, el, gb0, gb1, lf, lt, n0, d0, s0]
  have c1 : dcBalance ret.tables x1 = g0.data.PG - 90 - 1 - l0.data.PT := by
    simp [dcBalance, genAt, fromAt, toAt, eg, el, gb0, gb1, lf, lt, n1, d1, s1]
  rw [c0, abs_lt] at b0
  rw [c1, abs_lt, hpt] at b1
  have r0 := (ha.rows 0 (by decide)).1
  have r1 := (ha.rows 1 (by decide)).1
  rw [usr_rowValue 2 9 0 0 0 0 ret.tables 1 0 out.z 0 (by decide), show uppAt usrIn.u 0 = ((0.2 : ℝ) : EReal) from rfl, ← EReal.coe_add, EReal.coe_lt_coe_iff, EReal.coe_lt_coe_iff,
    if_pos rfl, e1] at r0
  rw [usr_rowValue 2 9 0 0 0 0 ret.tables 1 0 out.z 1 (by decide), show uppAt usrIn.u 1 = ((0 : ℝ) : EReal) from rfl, ← EReal.coe_add, EReal.coe_lt_coe_iff, EReal.coe_lt_coe_iff,
    if_neg (by decide), e0] at r1
  have r0' := r0 (by norm_num)
  have r1' := r1 (by norm_num)
  obtain ⟨bs, gs, y, R', -, hf, -⟩ := C110_applied hs hpos hwf hcost hc hft hct hin.shape hgood hrun hok hst (usr_convex 2 9 0 0 0 0)
  have hpwl : pwlGens (usrCase 2 9 0 0 0 0) = ∅ := by
    unfold pwlGens
    rw [(usr_sets 2 9 hb 0 0 0 0).1]
    ext i
    simp only [Finset.mem_filter, Finset.mem_insert, Finset.mem_singleton, Finset.notMem_empty, iff_false]
    rintro ⟨rfl | rfl, h, -⟩ <;> simp [costAt, usrCase] at h
  rw [hpwl, (usr_sets 2 9 hb 0 0 0 0).1, ha.cost, usr_cost] at hf
  simp only [Finset.sdiff_empty, Finset.sum_empty, add_zero] at hf
  rw [Finset.sum_pair (by decide), (usr_genCost 2 9 0 0 0 0 _).1, (usr_genCost 2 9 0 0 0 0 _).2] at hf
  rw [e0, e1] at hf ⊢
  rw [pm1] at lim1
  refine ⟨?_, ?_, ?_, hf⟩ <;> linarith [b0.1, b0.2, b1.1, b1.2]

/-- The intended dispatch on the swapped case: 20 MW from the first generator, 71 MW from the second. -/
theorem usr_intended : DcFeasible 100 exE (usrCase 2 9 0 0 0 0) (usrCase 2 9 0.071 20 71 71) (usrθ 0.071) ∧
    UserFeasible 100 (usrCase 2 9 0 0 0 0) usrIn (List.range 2) (List.range 2) (usrCase 2 9 0.071 20 71 71) [0.71] := by
  have hb : (2 : ℕ) = 9 ∧ (9 : ℕ) = 2 ∨ (2 : ℕ) = 2 ∧ (9 : ℕ) = 9 := Or.inr ⟨rfl, rfl⟩
  refine ⟨usr_feasible 2 9 hb 0 0 0 _ _ _ _ (by norm_num) (by norm_num) (by norm_num) (by norm_num) (by norm_num) (by norm_num) (by norm_num) (by norm_num) (by norm_num), ?_⟩
  refine usr_userFeasible 2 9 0 0 0 0 0.71 _ ?_ ?_ ?_ ?_ <;> norm_num [pgAt, usrCase]

/-- What the code does with the swapped case it also can do at any tolerance above rounding: 71 MW from the first generator, 20 MW from the second is accepted. -/
theorem usr_accepted {srt : List ℕ → List ℕ} (hs : IsArgsort srt) (solve : AnySolver) (δ : ℝ) (hδ : 1 / 2 ^ 52 < δ) :
    ∃ x0 o ret out, 0 < o.costMult ∧ 0 ≤ o.feastol ∧ 0 ≤ o.comptol ∧ opfDcUser srt 100 { exE with x0 := x0 } usrIn o solve (usrCase 2 9 0 0 0 0) = some (ret, out) ∧ ret.success = true ∧
      ret.tol = δ := by
  have hb : (2 : ℕ) = 9 ∧ (9 : ℕ) = 2 ∨ (2 : ℕ) = 2 ∧ (9 : ℕ) = 9 := Or.inr ⟨rfl, rfl⟩
  obtain ⟨bs, gs, R, hacc⟩ := C109_accepts hs (by norm_num : (0 : ℝ) < 100) (usr_wf 2 9 hb 0 0 0 0) (usr_dc 2 9 0 0 0) exE (usr_ang 2 9 0 0 0 0) (usr_costs 2 9 hb 0 0 0 0)
    (by simp [usrCase]) (usr_inputs 2 9 hb 0 0 0 0) solve
  obtain ⟨rfl, rfl⟩ := usr_order R
  obtain ⟨x0, o, ret, out, h1, h2, -, h4, h5, h6, h7, -⟩ := hacc (usrCase 2 9 0.02 71 20 20) (usrθ 0.02) [0.71]
    (usr_feasible 2 9 hb 0 0 0 _ _ _ _ (by norm_num) (by norm_num) (by norm_num) (by norm_num) (by norm_num) (by norm_num) (by norm_num) (by norm_num) (by norm_num))
    (by refine usr_userFeasible_at 2 9 0 0 0 0 1 0 0.71 _ ?_ ?_ ?_ ?_ <;> norm_num [pgAt, usrCase]) δ hδ
  exact ⟨x0, o, ret, out, h1, h2.le, h4.le, h5, h6, h7⟩

/-- **C109 fails** for generators that are not listed in the order of their buses: with a feasible problem, in documented form, every successful run with tolerance at most 0.01 returns
more than 67 MW in a row of the generator table the user limits to 20 MW. -/
theorem C109_negation : ∃ (c : Index.Case Tables) (U : UserIn), WF c ∧ DcInputs 100 c ∧ AngInputs exE c ∧ EconCosts c ∧ UserInputs c U ∧ UserConvex c U ∧
    (∀ b ∈ c.bus, b.typ ≠ 4) ∧ (∀ g ∈ c.gen, GenInService c g) ∧
    (∃ t θ z, DcFeasible 100 exE c t θ ∧ UserFeasible 100 c U (List.range c.bus.length) (List.range c.gen.length) t z) ∧
    ∀ srt, IsArgsort srt → ∀ solve : AnySolver,
      (∀ δ : ℝ, 1 / 2 ^ 52 < δ → ∃ x0 o ret out, 0 < o.costMult ∧ 0 ≤ o.feastol ∧ 0 ≤ o.comptol ∧ opfDcUser srt 100 { exE with x0 := x0 } U o solve c = some (ret, out) ∧
        ret.success = true ∧ ret.tol = δ) ∧
      ∀ x0 (o : Opt), 0 < o.costMult → 0 ≤ o.feastol → 0 ≤ o.comptol → ∀ ret out, opfDcUser srt 100 { exE with x0 := x0 } U o solve c = some (ret, out) →
      ret.success = true → ret.tol ≤ 1 / 100 →
      uppAt U.u 0 = ((0.2 : ℝ) : EReal) ∧ 0.67 < rowValue 100 ret.tables (List.range c.bus.length) (List.range c.gen.length) out.z (colsOf c.A) 0 := by
  have hb : (2 : ℕ) = 9 ∧ (9 : ℕ) = 2 ∨ (2 : ℕ) = 2 ∧ (9 : ℕ) = 9 := Or.inr ⟨rfl, rfl⟩
  refine ⟨usrCase 2 9 0 0 0 0, usrIn, usr_wf 2 9 hb 0 0 0 0, usr_dc 2 9 0 0 0, usr_ang 2 9 0 0 0 0, usr_costs 2 9 hb 0 0 0 0, usr_inputs 2 9 hb 0 0 0 0, usr_convex 2 9 0 0 0 0,
    by simp [usrCase], ?_, ⟨_, _, _, usr_intended⟩, ?_⟩
  · simp only [GenInService, usr_con]
    simp [usrCase]
  · intro srt hs solve
    refine ⟨fun δ hδ => usr_accepted hs solve δ hδ, ?_⟩
    intro x0 o hc hft hct ret out hrun hok htol
    obtain ⟨h0, -⟩ := usr_swapped hs x0 o solve hc hft hct hrun hok htol
    refine ⟨rfl, ?_⟩
    have e := usr_rowValue 2 9 0 0 0 0 ret.tables 0 1 out.z 0 (by decide)
    rw [if_pos rfl] at e
    show 0.67 < rowValue 100 ret.tables [0, 1] [0, 1] out.z _ 0
    rw [e]
    linarith

/-- **C110 fails** likewise: there is a dispatch with user variables that meets all limits and user constraints and costs over 4000 $/h less than the objective that every successful
run with tolerance at most 0.01 reports. -/
theorem C110_negation : ∃ (c : Index.Case Tables) (U : UserIn), WF c ∧ DcInputs 100 c ∧ AngInputs exE c ∧ EconCosts c ∧ UserInputs c U ∧ UserConvex c U ∧
    (∀ b ∈ c.bus, b.typ ≠ 4) ∧ (∀ g ∈ c.gen, GenInService c g) ∧
    ∃ t θ z, DcFeasible 100 exE c t θ ∧ UserFeasible 100 c U (List.range c.bus.length) (List.range c.gen.length) t z ∧
    ∀ srt, IsArgsort srt → ∀ solve : AnySolver,
      (∀ δ : ℝ, 1 / 2 ^ 52 < δ → ∃ x0 o ret out, 0 < o.costMult ∧ 0 ≤ o.feastol ∧ 0 ≤ o.comptol ∧ opfDcUser srt 100 { exE with x0 := x0 } U o solve c = some (ret, out) ∧
        ret.success = true ∧ ret.tol = δ) ∧
      ∀ x0 (o : Opt), 0 < o.costMult → 0 ≤ o.feastol → 0 ≤ o.comptol → ∀ ret out, opfDcUser srt 100 { exE with x0 := x0 } U o solve c = some (ret, out) →
      ret.success = true → ret.tol ≤ 1 / 100 →
      dispatchCost c t + userCost 100 c U (List.range c.bus.length) (List.range c.gen.length) t z + 4000 < ret.f := by
  have hb : (2 : ℕ) = 9 ∧ (9 : ℕ) = 2 ∨ (2 : ℕ) = 2 ∧ (9 : ℕ) = 9 := Or.inr ⟨rfl, rfl⟩
  refine ⟨usrCase 2 9 0 0 0 0, usrIn, usr_wf 2 9 hb 0 0 0 0, usr_dc 2 9 0 0 0, usr_ang 2 9 0 0 0 0, usr_costs 2 9 hb 0 0 0 0, usr_inputs 2 9 hb 0 0 0 0, usr_convex 2 9 0 0 0 0,
    by simp [usrCase], ?_, _, _, _, usr_intended.1, usr_intended.2, ?_⟩
  · simp only [GenInService, usr_con]
    simp [usrCase]
  · intro srt hs solve
    refine ⟨fun δ hδ => usr_accepted hs solve δ hδ, ?_⟩
    intro x0 o hc hft hct ret out hrun hok htol
    obtain ⟨h0, h1, hz, hf⟩ := usr_swapped hs x0 o solve hc hft hct hrun hok htol
    have e1 : userCost 100 (usrCase 2 9 0 0 0 0) usrIn [0, 1] [0, 1] (usrCase 2 9 0.071 20 71 71) [0.71] = _ := usr_cost 2 9 0 0 0 0 _ 0 1 [0.71]
    have e2 : dispatchCost (usrCase 2 9 0 0 0 0) (usrCase 2 9 0.071 20 71 71) = 100 * 20 + 71 := by
      unfold dispatchCost
      rw [(usr_sets 2 9 hb 0 0 0 0).1, Finset.sum_pair (by decide), (usr_genCost 2 9 0 0 0 0 _).1, (usr_genCost 2 9 0 0 0 0 _).2]
      simp [pgAt, usrCase]
    show _ + userCost 100 (usrCase 2 9 0 0 0 0) usrIn [0, 1] [0, 1] _ _ + 4000 < _
    rw [e1, e2, hf]
    simp only [List.getD_cons_zero]
    nlinarith [sq_nonneg (out.z.getD 0 0)]

/-- The hypotheses of C109 and C110 hold on an example with everything in the order of the buses, a user variable, user constraints and user costs: a successful run, and another dispatch
that meets the user constraints. -/
example : ∃ o ret out, IsArgsort Index.stableArgsort ∧ WF (usrCase 9 2 0 0 0 0) ∧ EconCosts (usrCase 9 2 0 0 0 0) ∧ (∀ l ∈ (usrCase 9 2 0 0 0 0).branch, l.status = 0 ∨ l.status = 1) ∧
    0 < o.costMult ∧ 0 ≤ o.feastol ∧ 0 ≤ o.comptol ∧
    UserShape (onBuses (usrCase 9 2 0 0 0 0)).card (onGens (usrCase 9 2 0 0 0 0)).card (usrCase 9 2 0 0 0 0) usrIn ∧ UserConvex (usrCase 9 2 0 0 0 0) usrIn ∧
    (∀ c' d, Index.ext2int Index.stableArgsort (usrCase 9 2 0 0 0 0) = some c' → readCase 100 c' = some d → Good (dcOps d ++ (userSetup 100 exE usrIn).extra d c')) ∧
    InOrder Index.stableArgsort (usrCase 9 2 0 0 0 0) ∧
    opfDcUser Index.stableArgsort 100 exE usrIn o (fun _ _ _ _ => none) (usrCase 9 2 0 0 0 0) = some (ret, out) ∧ ret.success = true ∧
    DcFeasible 100 exE (usrCase 9 2 0 0 0 0) (usrCase 9 2 0.02 20 71 20) (usrθ 0.02) ∧
    UserFeasible 100 (usrCase 9 2 0 0 0 0) usrIn (List.range 2) (List.range 2) (usrCase 9 2 0.02 20 71 20) [0.71] := by
  have hb : (9 : ℕ) = 9 ∧ (2 : ℕ) = 2 ∨ (9 : ℕ) = 2 ∧ (2 : ℕ) = 9 := Or.inl ⟨rfl, rfl⟩
  have hs := Index.stableArgsort_isArgsort
  have hwf := usr_wf 9 2 hb 0 0 0 0
  have hin := usr_inputs 9 2 hb 0 0 0 0
  have hdc := usr_dc 9 2 0 0 0
  have hang := usr_ang 9 2 0 0 0 0
  obtain ⟨o, ret, out, h1, h2, -, h3, h4, h5⟩ := (C109_completes hs hwf hdc exE hang hin).2 (fun _ _ _ _ => none)
  refine ⟨o, ret, out, hs, hwf, usr_costs 9 2 hb 0 0 0 0, by simp [usrCase], h1, h2.le, h3.le, hin.shape, usr_convex 9 2 0 0 0 0, user_wellposed hs hwf hdc exE hang hin,
    ⟨by simp [usrCase], by simp [usrCase], ?_⟩, h4, h5, usr_feasible 9 2 hb 0 0 0 _ _ _ _ (by norm_num) (by norm_num) (by norm_num) (by norm_num) (by norm_num) (by norm_num) (by norm_num) (by norm_num)
      (by norm_num), ?_⟩
  · intro i j gi gj p q bi bj hij e1 e2 e3 e4 e5 e6
    have hj : j < 2 := (List.getElem?_eq_some_iff.1 e2).1
    have hp : p < 2 := (List.getElem?_eq_some_iff.1 e3).1
    have hq : q < 2 := (List.getElem?_eq_some_iff.1 e4).1
    obtain rfl : i = 0 := by omega
    obtain rfl : j = 1 := by omega
    interval_cases p <;> interval_cases q <;> simp [usrCase] at e1 e2 e3 e4 <;> subst e1 e2 e3 e4 <;> simp at e5 e6 ⊢
  · refine usr_userFeasible 9 2 0 0 0 0 0.71 _ ?_ ?_ ?_ ?_ <;> norm_num [pgAt, usrCase]

/-- The hypotheses of `C109_dense`. -/
example : (∃ a, ({ usrCase 9 2 0 0 0 0 with A := some ⟨false, [[0], [0], [1], [0]]⟩ } : Index.Case Tables).A = some a ∧ a.sparse = false ∧ rowsOf a.cols ≠ 0) ∧
    ∀ x ∈ ([[0], [0], [1], [0]] : List (List ℝ)), ∀ y ∈ ([[0], [0], [1], [0]] : List (List ℝ)), x.length = y.length := by
  refine ⟨⟨_, rfl, rfl, by simp [rowsOf]⟩, ?_⟩
  simp

end

end Verif.Opf
