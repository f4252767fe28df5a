import Verif.Cpf.Trace
import Verif.Cpf.Predictor
import Mathlib.Tactic.FinCases

/-!
# Non-vacuity of C61-C63, and a trace that steps past its target
-/

open Matrix ComplexConjugate

namespace Verif.Cpf

open Verif.Solvers

noncomputable section

/-- A reference bus and a PV bus joined by a unit reactance; the transfer is at the reference bus only. -/
def exNet : Net (Fin 2) where
  Y := !![-Complex.I, Complex.I; Complex.I, -Complex.I]
  S := 0
  X := fun b => if b = 0 then 1 else 0
  pv := [1]
  pq := []
  lin := fun _ _ _ => some [0, 1]
  tol := 1 / 10 ^ 8
  maxIt := 10

def exV : Fin 2 → ℂ := fun _ => 1
def exZ : Tan (Fin 2) := ⟨0, 0, 1⟩

/-- The linear solver solves the systems that arise. -/
theorem ex_lin (dV : List ℝ) (h : dV.length = 1) :
    (jacAug exNet.Y exNet.X exNet.pv exNet.pq exV dV 1).map (fun row => (List.zipWith (· * ·) row [0, 1]).sum) = [0, 1] := by
  match dV, h with
  | [d], _ => simp [jacAug, jacobian, dFdlam, exNet]

theorem ex_onCurve (lam : ℝ) : OnCurve exNet.Y exNet.S exNet.X exNet.pv exNet.pq exNet.tol (exV, lam) := by
  constructor
  · intro b hb
    have : b = 1 := by simpa [exNet] using hb
    subst this
    simp [exNet, exV, Fin.sum_univ_two]
  · intro b hb
    simp [exNet] at hb

theorem ex_predictor (lam step : ℝ) (prv : Pt (Fin 2)) (par : Par) :
    predictor exNet (exV, lam) step exZ prv par = some ((exV, lam + step), exZ) := by
  have h1 : setTan exZ exNet.pv exNet.pq [0, 1] = exZ := by
    unfold setTan exZ
    simp only [exNet, Tan.mk.injEq]
    refine ⟨?_, ?_, ?_⟩
    · funext b
      fin_cases b <;> simp [setAt, List.lookup]
    · funext b; simp [setAt]
    · simp
  have h2 : exZ.norm = 1 := by simp [Tan.norm, exZ]
  have h3 : exZ.unit = some exZ := by
    unfold Tan.unit
    rw [h2]
    simp [exZ]
    rfl
  unfold predictor
  have hlin : ∀ (W : Fin 2 → ℂ) J F, exNet.lin W J F = some [0, 1] := fun _ _ _ => rfl
  simp only [hlin, Option.bind_eq_bind, Option.bind_some, h1, h3, Option.pure_def, Option.some.injEq, Prod.mk.injEq, and_true]
  unfold advance
  refine Prod.ext ?_ (by simp [exZ])
  funext b
  have := polar_arg exV b
  fin_cases b <;> simp [polar, addAt, exNet, exZ, exV, List.lookup]

theorem ex_corrector (lam step : ℝ) (h : 0 ≤ step) (par : Par) :
    corrector exNet ⟨par, step, exZ, (exV, lam)⟩ (some (exV, lam + step)) = (some (exV, lam + step), true, 0) := by
  have hok : corrOk exNet ⟨par, step, exZ, (exV, lam)⟩ (some (exV, lam + step)) := by
    rw [corrOk_iff]
    refine ⟨ex_onCurve _, ?_⟩
    cases par <;> simp [distance, required, exZ, exNet, abs_of_nonneg h]
  unfold corrector
  show loop _ _ 10 0 _ = _
  unfold loop
  simp [hok]

def exSt (lam lamprv : ℝ) (c : Ctl) (k : Nat) (h : List (Entry (Fin 2))) : St (Fin 2) := ⟨(exV, lam), (exV, lamprv), exZ, c, k, h⟩

theorem ex_pass (stopAt : StopAt) (o : Adapt) (lam lamprv step : ℝ) (h : 0 ≤ step) (c : Ctl) (hc : c.step = some step) (k : Nat) (hist : List (Entry (Fin 2))) :
    pass exNet stopAt o (exSt lam lamprv c k hist) =
      match stopOrGo stopAt (lam + step) lam step c with
      | none => .done (exSt (lam + step) lam c (k + 1) (hist ++ [⟨(exV, lam + step), (exV, lam + step)⟩]))
      | some c' => .next (exSt (lam + step) lam (adaptCtl o exNet.pv exNet.pq (exV, lam + step) (exV, lam + step) c') (k + 1)
          (hist ++ [⟨(exV, lam + step), (exV, lam + step)⟩])) := by
  unfold pass exSt
  simp only [hc, ex_predictor]
  unfold correct
  simp only [ex_corrector lam step h]
  unfold accept
  simp only
  split <;> rename_i heq <;> simp only [heq]

theorem ex_newton : newtonpf exNet.lin exNet.Y exNet.S exV exNet.pv exNet.pq exNet.tol exNet.maxIt = some ⟨some exV, true, 0⟩ := by
  apply C30_start
  · simp [exNet]
  · have := ex_onCurve 0
    unfold OnCurve at this
    simpa using this

theorem ex_X : exNet.X ≠ 0 := by
  intro h
  have := congrFun h 0
  simp [exNet] at this

theorem ex_run (stopAt : StopAt) (o : Adapt) (c : Ctl) (fuel : Nat) :
    runcpf exNet stopAt o c exV fuel = some ((trace exNet stopAt o fuel (exSt 0 0 c 0 [⟨(exV, 0), (exV, 0)⟩])).map report) := by
  unfold runcpf
  rw [ex_newton]
  simp [ex_X, start, exSt, exZ]

/-- Non-vacuity of C61: the corrector converges. -/
example (lam : ℝ) : ∃ p i, corrector exNet ⟨.pseudo, 1 / 20, exZ, (exV, lam)⟩ (some (exV, lam + 1 / 20)) = (some p, true, i) :=
  ⟨_, _, ex_corrector lam (1 / 20) (by norm_num) .pseudo⟩

/-- Non-vacuity of C62: the hypotheses hold at a point of the example. -/
example (lam : ℝ) : HasDerivAt (fun t : ℝ => cpfP .arc (1 / 20) exZ (line exV (fun _ => 1) (fun _ => 0) t) (lam + 1 + t * 1) exV lam [1] [])
    ((List.zipWith (· * ·) (dPdV .arc exZ exV exV [1] []) (coords [1] [] (fun _ => 1) (fun _ => 0))).sum + dPdlam .arc exZ (lam + 1) lam * 1) 0 :=
  C62_derivative_partial .arc (1 / 20) exZ (exV, lam + 1) (exV, lam) [1] [] (Or.inr (by simp)) (by simp [exV]) _ _ 1

/-- Non-vacuity of C72: the hypotheses hold for the example. -/
example (lam : ℝ) : HasDerivAt (fun t : ℝ => (misL exNet.Y exNet.S exNet.X (line exV exZ.a exZ.m t) (lam + t * exZ.l) 1).re) 0 0 :=
  (C72 exNet (exV, lam) (1 / 20) exZ (exV, lam) .natural (by simp [exNet]) (by simp [exNet]) ⟨fun _ _ => rfl, fun _ _ => rfl⟩ _ _
    (ex_predictor lam (1 / 20) _ _) (by
      intro J F x hx
      have hx : x = [0, 1] := (Option.some.inj hx).symm
      subst hx
      refine ⟨rfl, ?_⟩
      have hd : dPdlam .natural exZ lam lam = 1 := by simp [dPdlam]
      show (jacAug _ _ _ _ _ _ (dPdlam .natural exZ lam lam)).map _ = _
      rw [hd, ex_lin _ (by simp [dPdV, exNet])]
      simp [F, exNet])).2.2.1 1 (Or.inl (by simp [exNet]))

/-- Non-vacuity of C63: two steps of 0.05 to the target 0.1. -/
example : ∃ r, runcpf exNet (.lam (1 / 10)) ⟨1 / 1000, 1 / 10000, 1 / 5⟩ ⟨some (1 / 20), .pseudo, false⟩ exV 2 = some (some r)
    ∧ r.success = true ∧ r.iterations = 2 := by
  rw [ex_run]
  unfold trace
  rw [ex_pass _ _ _ _ (1 / 20) (by norm_num) _ rfl]
  have h1 : stopOrGo (.lam (1 / 10)) (0 + 1 / 20) 0 (1 / 20) ⟨some (1 / 20), .pseudo, false⟩ = some ⟨some (1 / 20), .pseudo, false⟩ := by
    unfold stopOrGo
    norm_num [abs_of_pos]
  simp only [h1]
  unfold trace
  have h2 : adaptCtl ⟨1 / 1000, 1 / 10000, 1 / 5⟩ exNet.pv exNet.pq (exV, 0 + 1 / 20) (exV, 0 + 1 / 20) ⟨some (1 / 20), .pseudo, false⟩
      = ⟨some (1 / 20), .pseudo, false⟩ := rfl
  rw [h2, ex_pass _ _ _ _ (1 / 20) (by norm_num) _ rfl]
  have h3 : stopOrGo (.lam (1 / 10)) (0 + 1 / 20 + 1 / 20) (0 + 1 / 20) (1 / 20) ⟨some (1 / 20), .pseudo, false⟩ = none := by
    unfold stopOrGo
    norm_num
  simp only [h3]
  exact ⟨_, rfl, rfl, rfl⟩

/-- **C63, negation, reached.** With the default step adaptation options a trace to the target 0.1 steps past it and reports failure, although the
target point is on the curve and the linear solver is exact (`ex_lin`). -/
theorem C63_overshoot_witness :
    OnCurve exNet.Y exNet.S exNet.X exNet.pv exNet.pq exNet.tol (exV, 1 / 10) ∧
    ∃ r, runcpf exNet (.lam (1 / 10)) ⟨1 / 1000, 1 / 10000, 1 / 5⟩ ⟨some (1 / 20), .pseudo, true⟩ exV 3 = some (some r) ∧ r.success = false := by
  refine ⟨ex_onCurve _, ?_⟩
  rw [ex_run]
  unfold trace
  rw [ex_pass _ _ _ _ (1 / 20) (by norm_num) _ rfl]
  have h1 : stopOrGo (.lam (1 / 10)) (0 + 1 / 20) 0 (1 / 20) ⟨some (1 / 20), .pseudo, true⟩ = some ⟨some (1 / 20), .pseudo, true⟩ := by
    unfold stopOrGo
    norm_num [abs_of_pos]
  simp only [h1]
  have h2 : adaptCtl ⟨1 / 1000, 1 / 10000, 1 / 5⟩ exNet.pv exNet.pq (exV, 0 + 1 / 20) (exV, 0 + 1 / 20) ⟨some (1 / 20), .pseudo, true⟩
      = ⟨some (1 / 5), .pseudo, true⟩ := by
    have herr : cpfError exNet.pv exNet.pq (exV, 0 + 1 / 20) (exV, 0 + 1 / 20) = 0 := by
      simp [cpfError, normInf, exNet]
    unfold adaptCtl
    rw [if_pos rfl, herr]
    have : adaptStep ⟨1 / 1000, 1 / 10000, 1 / 5⟩ 0 (1 / 20) = some (1 / 5) := by
      unfold adaptStep fdiv
      norm_num
    simp only [Option.bind_some, this]
  rw [h2]
  unfold trace
  have hp := ex_pass (.lam (1 / 10)) ⟨1 / 1000, 1 / 10000, 1 / 5⟩ (0 + 1 / 20) 0 (1 / 5) (by norm_num) ⟨some (1 / 5), .pseudo, true⟩ rfl 1
    ([⟨(exV, 0), (exV, 0)⟩] ++ [⟨(exV, 0 + 1 / 20), (exV, 0 + 1 / 20)⟩])
  have h3 : stopOrGo (.lam (1 / 10)) (0 + 1 / 20 + 1 / 5) (0 + 1 / 20) (1 / 5) ⟨some (1 / 5), .pseudo, true⟩
      = some ⟨some (1 / 10 - (0 + 1 / 20 + 1 / 5)), .natural, false⟩ := by
    unfold stopOrGo
    norm_num [abs_of_neg]
  simp only [h3] at hp
  obtain ⟨k, i, p, hf⟩ := C63_overshoot_negation exNet _ _ _ (1 / 10) (by simp [exNet]) (by
    intro x hx
    have : x = 1 / 5 := by simpa [exSt] using hx.symm
    rw [this]; norm_num) hp (by simp only [exSt]; norm_num) 0
  simp only [Nat.zero_add] at hp hf ⊢
  rw [hp]
  simp only [hf]
  exact ⟨_, rfl, rfl⟩

end

end Verif.Cpf
