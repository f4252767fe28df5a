import Verif.Solvers.Lemmas

/-!
# C30, C31, C32: the AC power flow solvers
-/

open Matrix ComplexConjugate

namespace Verif.Solvers

set_option linter.unusedSectionVars false

noncomputable section

variable {B : Type*} [Fintype B] [DecidableEq B]

/-- Specification: every active mismatch at PV and PQ buses and every reactive mismatch at PQ buses is below `tol`. -/
def Solved (Y : Matrix B B ℂ) (S : B → ℂ) (pv pq : List B) (tol : ℝ) (V : B → ℂ) : Prop :=
  (∀ b, b ∈ pv ∨ b ∈ pq → |(V b * conj (∑ j, Y b j * V j) - S b).re| < tol) ∧
  (∀ b, b ∈ pq → |(V b * conj (∑ j, Y b j * V j) - S b).im| < tol)

theorem newtonOk_iff (Y : Matrix B B ℂ) (S : B → ℂ) (pv pq : List B) (tol : ℝ) (V : B → ℂ) (hne : ¬ (pv = [] ∧ pq = [])) :
    newtonOk Y S pv pq tol (some V) ↔ Solved Y S pv pq tol V := by
  show normInf (Fvec Y S pv pq V) < tol ↔ _
  rw [normInf_lt, Fvec_lt]
  constructor
  · rintro ⟨-, h1, h2⟩
    exact ⟨fun b hb => h1 b (List.mem_append.2 hb), h2⟩
  · rintro ⟨h1, h2⟩
    refine ⟨?_, fun b hb => h1 b (List.mem_append.1 hb), h2⟩
    have : ∃ b, b ∈ pv ∨ b ∈ pq := by
      by_contra hc
      push Not at hc
      exact hne ⟨List.eq_nil_iff_forall_not_mem.2 fun b => (hc b).1, List.eq_nil_iff_forall_not_mem.2 fun b => (hc b).2⟩
    obtain ⟨b, hb⟩ := this
    exact lt_of_le_of_lt (abs_nonneg _) (h1 b hb)

/-- **C30.** Whatever the linear solver returns: if `newtonpf` reports convergence the returned voltages are finite and solve the power flow
within tolerance, otherwise `PF_MAX_IT` iterations were made and the returned voltages do not; never more than `PF_MAX_IT` iterations are made;
voltages at buses that are neither PV nor PQ (reference buses) are those given, and magnitudes of all buses that are not PQ are those given. -/
theorem C30 (lin : LinSolver B) (Y : Matrix B B ℂ) (S V0 : B → ℂ) (pv pq : List B) (tol : ℝ) (maxIt : Nat) (r : Res B)
    (h : newtonpf lin Y S V0 pv pq tol maxIt = some r) :
    (r.converged = true → ∃ V, r.V = some V ∧ Solved Y S pv pq tol V) ∧
    (r.converged = false → r.i = maxIt ∧ ∀ V, r.V = some V → ¬ Solved Y S pv pq tol V) ∧
    r.i ≤ maxIt ∧
    (∀ V, r.V = some V → ∀ b, b ∉ pv → b ∉ pq → V b = V0 b) ∧
    (∀ V, r.V = some V → ∀ b, b ∉ pq → ‖V b‖ = ‖V0 b‖) := by
  unfold newtonpf at h
  by_cases hne : pv = [] ∧ pq = []
  · simp [hne] at h
  rw [if_neg hne] at h
  injection h with h
  obtain ⟨k, hk, he, -, hn⟩ := loop_spec (newtonOk Y S pv pq tol) (fun V => V.bind (newtonStep lin Y S pv pq)) maxIt 0 (some V0)
  rw [he] at h
  subst h
  have hinv := iterate_inv (fun V : Option (B → ℂ) => V.bind (newtonStep lin Y S pv pq))
    (fun W => ∀ V, W = some V → (∀ b, b ∉ pv → b ∉ pq → V b = V0 b) ∧ ∀ b, b ∉ pq → ‖V b‖ = ‖V0 b‖)
    (by
      intro W hW V hV
      simp only [Option.bind_eq_some_iff, newtonStep, Option.map_eq_some_iff] at hV
      obtain ⟨W', hW', x, -, rfl⟩ := hV
      obtain ⟨h1, h2⟩ := hW W' hW'
      exact ⟨fun b hb hb' => by rw [newtonUpdate_frame pv pq W' x b hb hb', h1 b hb hb'],
        fun b hb => by rw [newtonUpdate_norm pv pq W' x b hb, h2 b hb]⟩)
    (some V0) (by
      intro V hV
      injection hV with hV
      subst hV
      exact ⟨fun _ _ _ => rfl, fun _ _ => rfl⟩) k
  dsimp only
  refine ⟨fun hc => ?_, fun hc => ?_, by omega, fun V hV => (hinv V hV).1, fun V hV => (hinv V hV).2⟩
  · simp only [decide_eq_true_eq] at hc
    cases hs : (fun V : Option (B → ℂ) => V.bind (newtonStep lin Y S pv pq))^[k] (some V0) with
    | none => rw [hs] at hc; exact hc.elim
    | some V => rw [hs] at hc; exact ⟨V, rfl, (newtonOk_iff Y S pv pq tol V hne).1 hc⟩
  · simp only [decide_eq_false_iff_not] at hc
    refine ⟨by rw [hn hc]; omega, fun V hV hs => hc ?_⟩
    rw [hV]
    exact (newtonOk_iff Y S pv pq tol V hne).2 hs

/-- The call fails only when there is no PV and no PQ bus. -/
theorem C30_raises (lin : LinSolver B) (Y : Matrix B B ℂ) (S V0 : B → ℂ) (pv pq : List B) (tol : ℝ) (maxIt : Nat) :
    newtonpf lin Y S V0 pv pq tol maxIt = none ↔ pv = [] ∧ pq = [] := by
  unfold newtonpf
  by_cases h : pv = [] ∧ pq = []
  · simp [h]
  · simp [h]

/-- A start that already solves the power flow is returned unchanged without any iteration. -/
theorem C30_start (lin : LinSolver B) (Y : Matrix B B ℂ) (S V0 : B → ℂ) (pv pq : List B) (tol : ℝ) (maxIt : Nat) (hne : ¬ (pv = [] ∧ pq = []))
    (h : Solved Y S pv pq tol V0) : newtonpf lin Y S V0 pv pq tol maxIt = some ⟨some V0, true, 0⟩ := by
  have hok := (newtonOk_iff Y S pv pq tol V0 hne).2 h
  unfold newtonpf
  rw [if_neg hne]
  cases maxIt with
  | zero => simp [loop, hok]
  | succ n => simp [loop, hok]

/-- Non-vacuity: one reference bus and one PQ bus, admittance matrix zero, load zero: converged at the start. -/
example : newtonpf (B := Fin 2) (fun _ _ _ => none) 0 0 (fun _ => 1) [] [1] 1 10 = some ⟨some fun _ => 1, true, 0⟩ := by
  apply C30_start
  · simp
  · constructor <;> simp

/-! ## C31 -/

/-- **C31.** If `gausspf` reports convergence the returned voltages are finite and solve the power flow (for the injections as given, with active
mismatches at PV and PQ buses and reactive mismatches at PQ buses) within tolerance, otherwise the limit of sweeps was reached; never more sweeps
than the limit; voltages at buses neither PV nor PQ are those given; magnitudes at PV buses (that are not also listed as PQ) are those given. -/
theorem C31 (Y : Matrix B B ℂ) (S V0 : B → ℂ) (pv pq : List B) (hd : ∀ b ∈ pq, b ∉ pv) (tol : ℝ) (maxIt : Nat) (r : Res B) (S' : B → ℂ)
    (h : gausspf Y S V0 pv pq tol maxIt = some (r, S')) :
    (r.converged = true → ∃ V, r.V = some V ∧ Solved Y S pv pq tol V) ∧
    (r.converged = false → r.i = maxIt ∧ ∀ V, r.V = some V → ¬ Solved Y S pv pq tol V) ∧
    r.i ≤ maxIt ∧
    (∀ V, r.V = some V → ∀ b, b ∉ pv → b ∉ pq → V b = V0 b) ∧
    (∀ V, r.V = some V → ∀ b ∈ pv, ‖V b‖ = ‖V0 b‖) := by
  unfold gausspf at h
  by_cases hne : pv = [] ∧ pq = []
  · simp [hne] at h
  rw [if_neg hne] at h
  injection h with h
  obtain ⟨k, hk, he, -, hn⟩ := loop_spec (fun st : GS B => newtonOk Y st.S pv pq tol st.V) (gaussStep Y (fun b => ‖V0 b‖) pv pq) maxIt 0 ⟨some V0, S⟩
  rw [he] at h
  injection h with h h'
  subst h
  have hfr := iterate_inv (gaussStep Y (fun b => ‖V0 b‖) pv pq) (Frame pv pq V0 S) (gaussStep_frame Y _ pv pq V0 S) ⟨some V0, S⟩
    ⟨fun V hV b _ _ => by injection hV with hV; rw [← hV], fun _ => rfl, fun _ _ => rfl⟩ k
  have hnm := iterate_inv (gaussStep Y (fun b => ‖V0 b‖) pv pq) (fun st => ∀ V, st.V = some V → ∀ b ∈ pv, ‖V b‖ = ‖V0 b‖)
    (fun st _ V hV b hb => gaussStep_norm Y _ (fun b => norm_nonneg _) pv pq st V hV b hb) ⟨some V0, S⟩
    (fun V hV b _ => by injection hV with hV; rw [← hV]) k
  dsimp only at *
  generalize (gaussStep Y (fun b => ‖V0 b‖) pv pq)^[k] ⟨some V0, S⟩ = st at *
  have hsolved : ∀ V, newtonOk Y st.S pv pq tol (some V) ↔ Solved Y S pv pq tol V := by
    intro V
    rw [newtonOk_iff Y st.S pv pq tol V hne]
    unfold Solved
    simp only [Complex.sub_re, Complex.sub_im, hfr.re]
    constructor
    · rintro ⟨h1, h2⟩
      exact ⟨h1, fun b hb => by rw [← hfr.im b (hd b hb)]; exact h2 b hb⟩
    · rintro ⟨h1, h2⟩
      exact ⟨h1, fun b hb => by rw [hfr.im b (hd b hb)]; exact h2 b hb⟩
  refine ⟨fun hc => ?_, fun hc => ?_, by omega, hfr.volt, hnm⟩
  · simp only [decide_eq_true_eq] at hc
    cases hs : st.V with
    | none => rw [hs] at hc; exact hc.elim
    | some V => rw [hs] at hc; exact ⟨V, rfl, (hsolved V).1 hc⟩
  · simp only [decide_eq_false_iff_not] at hc
    refine ⟨by rw [hn hc]; omega, fun V hV hs => hc ?_⟩
    rw [hV]
    exact (hsolved V).2 hs

/-- What the caller sees of the mutated `Sbus`: only imaginary parts at PV buses can have changed. -/
theorem C31_Sbus (Y : Matrix B B ℂ) (S V0 : B → ℂ) (pv pq : List B) (tol : ℝ) (maxIt : Nat) (r : Res B) (S' : B → ℂ)
    (h : gausspf Y S V0 pv pq tol maxIt = some (r, S')) (b : B) : (S' b).re = (S b).re ∧ (b ∉ pv → S' b = S b) := by
  unfold gausspf at h
  by_cases hne : pv = [] ∧ pq = []
  · simp [hne] at h
  rw [if_neg hne] at h
  injection h with h
  obtain ⟨k, hk, he, -, hn⟩ := loop_spec (fun st : GS B => newtonOk Y st.S pv pq tol st.V) (gaussStep Y (fun b => ‖V0 b‖) pv pq) maxIt 0 ⟨some V0, S⟩
  rw [he] at h
  injection h with h h'
  have hfr := iterate_inv (gaussStep Y (fun b => ‖V0 b‖) pv pq) (Frame pv pq V0 S) (gaussStep_frame Y _ pv pq V0 S) ⟨some V0, S⟩
    ⟨fun V hV b _ _ => by injection hV with hV; rw [← hV], fun _ => rfl, fun _ _ => rfl⟩ k
  subst h'
  exact ⟨hfr.re b, fun hb => Complex.ext (hfr.re b) (hfr.im b hb)⟩

/-- After the update of a bus its equation holds for the new voltage: `(Y V_new)_k = conj(S_k / V_old_k)`. -/
theorem C31_update (Y : Matrix B B ℂ) (S V V' : B → ℂ) (k : B) (h : gaussBus Y S V k = some V') :
    ∑ j, Y k j * V' j = conj (S k / V k) ∧ ∀ b, b ≠ k → V' b = V b := by
  refine ⟨?_, gaussBus_frame Y S V V' k h⟩
  unfold gaussBus at h
  split at h
  · exact absurd h (by simp)
  · rename_i hne
    push Not at hne
    injection h with h
    subst h
    have h1 : ∀ (W : B → ℂ), ∑ j, Y k j * W j = Y k k * W k + ∑ j ∈ Finset.univ.erase k, Y k j * W j := by
      intro W; exact (Finset.add_sum_erase Finset.univ (fun j => Y k j * W j) (Finset.mem_univ k)).symm
    have h2 : (Y *ᵥ V) k = ∑ j, Y k j * V j := rfl
    rw [h1, Function.update_self, h2, h1 V]
    have h3 : ∑ j ∈ Finset.univ.erase k, Y k j * Function.update V k
        (V k + (conj (S k / V k) - (Y k k * V k + ∑ j ∈ Finset.univ.erase k, Y k j * V j)) / Y k k) j = ∑ j ∈ Finset.univ.erase k, Y k j * V j :=
      Finset.sum_congr rfl fun j hj => by rw [Function.update_of_ne (Finset.ne_of_mem_erase hj)]
    rw [h3, mul_add, mul_div_cancel₀ _ hne.2]
    ring

/-- Non-vacuity of C31: the run on a trivial network. -/
example : ∃ r S', gausspf (B := Fin 2) 0 0 (fun _ => 1) [] [1] 1 10 = some (r, S') ∧ r.converged = true := by
  refine ⟨_, _, rfl, ?_⟩
  have hok : newtonOk (B := Fin 2) 0 0 [] [1] 1 (some fun _ => 1) := by
    rw [newtonOk_iff _ _ _ _ _ _ (by simp)]
    constructor <;> simp
  simp [loop, hok]

/-! ## C32 -/

/-- Specification: the normalised mismatches of the fast decoupled method are below `tol` (and well defined). -/
def SolvedNorm (Y : Matrix B B ℂ) (S : B → ℂ) (pv pq : List B) (tol : ℝ) (V : B → ℂ) : Prop :=
  (∀ b, b ∈ pv ∨ b ∈ pq → V b ≠ 0 ∧ |(V b * conj (∑ j, Y b j * V j) - S b).re| / ‖V b‖ < tol) ∧
  (∀ b, b ∈ pq → |(V b * conj (∑ j, Y b j * V j) - S b).im| / ‖V b‖ < tol)

theorem fdOk_iff (Y : Matrix B B ℂ) (S : B → ℂ) (pv pq : List B) (tol : ℝ) (Va Vm : B → ℝ) (hne : pq ≠ []) :
    fdOk Y S pv pq tol (some (Va, Vm)) ↔ SolvedNorm Y S pv pq tol (polar Vm Va) := by
  unfold fdOk SolvedNorm
  dsimp only
  rw [normInf_lt, normInf_lt]
  have hnz : ∀ b, polar Vm Va b ≠ 0 ↔ Vm b ≠ 0 := fun b => by
    rw [← norm_ne_zero_iff, polar_norm, abs_ne_zero]
  simp only [List.mem_append, List.mem_map, forall_exists_index, and_imp, forall_apply_eq_imp_iff₂, Complex.div_ofReal_re, Complex.div_ofReal_im, abs_div,
    polar_norm, hnz]
  constructor
  · rintro ⟨h0, ⟨-, h1⟩, -, h2⟩
    exact ⟨fun b hb => ⟨h0 b hb, h1 b hb⟩, h2⟩
  · rintro ⟨h1, h2⟩
    obtain ⟨b, hb⟩ := List.exists_mem_of_ne_nil pq hne
    have htol : 0 < tol := lt_of_le_of_lt (div_nonneg (abs_nonneg _) (abs_nonneg _)) (h2 b hb)
    exact ⟨fun b hb => (h1 b hb).1, ⟨htol, fun b hb => (h1 b hb).2⟩, htol, h2⟩

/-- **C32.** Whatever the two triangular solvers return: if `fdpf` reports convergence the normalised active and reactive mismatches of the returned
voltages are below tolerance, otherwise the limit was reached and they are not; never more iterations than the limit; only angles at PV and PQ buses
and magnitudes at PQ buses change. -/
theorem C32 (Y : Matrix B B ℂ) (S V0 : B → ℂ) (okB : Bool) (solveP solveQ : BSolver) (pv pq : List B) (tol : ℝ) (maxIt : Nat) (r : Res B)
    (h : fdpf Y S V0 okB solveP solveQ pv pq tol maxIt = some r) :
    (r.converged = true → ∃ V, r.V = some V ∧ SolvedNorm Y S pv pq tol V) ∧
    (r.converged = false → r.i = maxIt ∧ ∀ V, r.V = some V → ¬ SolvedNorm Y S pv pq tol V) ∧
    r.i ≤ maxIt ∧
    (∀ V, r.V = some V → ∀ b, b ∉ pv → b ∉ pq → V b = V0 b) ∧
    (∀ V, r.V = some V → ∀ b, b ∉ pq → ‖V b‖ = ‖V0 b‖) := by
  unfold fdpf at h
  by_cases hne : pq = []
  · simp [hne] at h
  rw [if_neg hne] at h
  cases okB with
  | false => simp at h
  | true =>
    rw [if_neg (by simp)] at h
    have hpol : polar (fun b => ‖V0 b‖) (fun b => (V0 b).arg) = V0 := funext (polar_arg V0)
    by_cases hok : fdOk Y S pv pq tol (some (fun b => (V0 b).arg, fun b => ‖V0 b‖))
    · simp only [hok, decide_true, if_true, Option.some.injEq] at h
      subst h
      rw [fdOk_iff Y S pv pq tol _ _ hne, hpol] at hok
      refine ⟨fun _ => ⟨V0, rfl, hok⟩, fun hc => absurd hc (by simp), Nat.zero_le _, ?_, ?_⟩
      · intro V hV b _ _; injection hV with hV; rw [← hV]
      · intro V hV b _; injection hV with hV; rw [← hV]
    · simp only [hok, decide_false, Bool.false_eq_true, if_false, Option.some.injEq] at h
      have hsp := fdLoop_spec (fdOk Y S pv pq tol) (pHalf Y S pv pq solveP) (qHalf Y S pv pq solveQ) (FdFrame pv pq V0)
        (pHalf_frame Y S pv pq solveP V0) (qHalf_frame Y S pv pq solveQ V0) maxIt 0 (some (fun b => (V0 b).arg, fun b => ‖V0 b‖))
        (by
          intro s hs
          injection hs with hs
          subst hs
          exact ⟨fun _ _ _ => rfl, fun _ _ => rfl⟩)
      dsimp only at hsp
      generalize fdLoop (fdOk Y S pv pq tol) (pHalf Y S pv pq solveP) (qHalf Y S pv pq solveQ) maxIt 0
        (some (fun b => (V0 b).arg, fun b => ‖V0 b‖)) = q at *
      obtain ⟨st, c, i⟩ := q
      dsimp only at *
      subst h
      obtain ⟨hfr, hc, -, hi, hnc⟩ := hsp
      refine ⟨?_, ?_, by show i ≤ maxIt; omega, ?_, ?_⟩
      · intro hct
        have := hc hct
        cases st with
        | none => exact this.elim
        | some s => exact ⟨_, rfl, (fdOk_iff Y S pv pq tol s.1 s.2 hne).1 this⟩
      · intro hcf
        obtain ⟨h1, h2⟩ := hnc hcf
        refine ⟨by show i = maxIt; omega, fun V hV hs => h2 hok ?_⟩
        cases st with
        | none => simp at hV
        | some s =>
          simp only [Option.map_some, Option.some.injEq] at hV
          subst hV
          exact (fdOk_iff Y S pv pq tol s.1 s.2 hne).2 hs
      · intro V hV b hb hb'
        cases st with
        | none => simp at hV
        | some s =>
          simp only [Option.map_some, Option.some.injEq] at hV
          subst hV
          obtain ⟨h1, h2⟩ := hfr s rfl
          rw [← polar_arg V0 b]
          unfold polar
          rw [h1 b hb hb', h2 b hb']
      · intro V hV b hb
        cases st with
        | none => simp at hV
        | some s =>
          simp only [Option.map_some, Option.some.injEq] at hV
          subst hV
          rw [polar_norm, (hfr s rfl).2 b hb, abs_norm]

/-- `fdpf` raises whenever there is no PQ bus, although such a power flow has a solution to find (the PV angles). -/
theorem C32_raises (Y : Matrix B B ℂ) (S V0 : B → ℂ) (okB : Bool) (solveP solveQ : BSolver) (pv : List B) (tol : ℝ) (maxIt : Nat) :
    fdpf Y S V0 okB solveP solveQ pv [] tol maxIt = none := by
  simp [fdpf]

/-- Non-vacuity of C32: the run on a trivial network. -/
example : ∃ r, fdpf (B := Fin 2) 0 0 (fun _ => 1) true (fun _ => none) (fun _ => none) [] [1] 1 10 = some r ∧ r.converged = true := by
  have hok : fdOk (B := Fin 2) 0 0 [] [1] 1 (some (fun _ => (1 : ℂ).arg, fun _ => ‖(1 : ℂ)‖)) := by
    rw [fdOk_iff _ _ _ _ _ _ _ (by simp)]
    constructor <;> simp [polar]
  refine ⟨⟨some fun _ => 1, true, 0⟩, ?_, rfl⟩
  simp only [fdpf, hok]
  simp

end

end Verif.Solvers
