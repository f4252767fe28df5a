import Mathlib.Logic.Function.Iterate
import Mathlib.Algebra.Order.Group.Abs
import Mathlib.Tactic.Linarith
import Mathlib.Tactic.Ring
import Verif.Solvers.Model

/-!
# Lemmas on the power flow solvers
-/

open Matrix ComplexConjugate

namespace Verif.Solvers

set_option linter.unusedSectionVars false

noncomputable section

variable {B : Type*} [Fintype B] [DecidableEq B]

theorem normInf_nonneg (F : List ℝ) : 0 ≤ normInf F := by
  induction F with
  | nil => exact le_refl _
  | cons x F ih => exact le_trans ih (le_max_right _ _)

theorem normInf_lt {F : List ℝ} {tol : ℝ} : normInf F < tol ↔ 0 < tol ∧ ∀ x ∈ F, |x| < tol := by
  induction F with
  | nil => simp [normInf]
  | cons x F ih =>
    have h : normInf (x :: F) = max |x| (normInf F) := rfl
    rw [h, max_lt_iff, ih]
    simp only [List.mem_cons, forall_eq_or_imp]
    tauto

theorem lookup_none {α β : Type*} [DecidableEq α] (l : List (α × β)) (a : α) (h : a ∉ l.map Prod.fst) : l.lookup a = none := by
  induction l with
  | nil => rfl
  | cons p l ih =>
    simp only [List.map_cons, List.mem_cons, not_or] at h
    have hb : (a == p.1) = false := by simpa using h.1
    rw [List.lookup_cons, hb, ih h.2]

theorem addAt_of_not_mem (x : B → ℝ) (idx : List B) (d : List ℝ) (b : B) (h : b ∉ idx) : addAt x idx d b = x b := by
  unfold addAt
  rw [lookup_none]
  intro hb
  apply h
  simp only [List.mem_map, List.mem_reverse] at hb
  obtain ⟨⟨b', e⟩, hm, rfl⟩ := hb
  exact (List.of_mem_zip hm).1

theorem polar_arg (V : B → ℂ) (b : B) : polar (fun b => ‖V b‖) (fun b => (V b).arg) b = V b := by
  unfold polar
  rw [mul_comm Complex.I]
  exact Complex.norm_mul_exp_arg_mul_I (V b)

theorem polar_norm (Vm Va : B → ℝ) (b : B) : ‖polar Vm Va b‖ = |Vm b| := by
  unfold polar
  rw [norm_mul, mul_comm Complex.I, Complex.norm_exp_ofReal_mul_I, mul_one, Complex.norm_real, Real.norm_eq_abs]

/-- What a solver loop does: it stops after the first state that is `ok`, or after `n` steps. -/
theorem loop_spec {σ : Type*} (ok : σ → Prop) (step : σ → σ) (n i : Nat) (s : σ) :
    ∃ k, k ≤ n ∧ loop ok step n i s = (step^[k] s, @decide (ok (step^[k] s)) (Classical.dec _), i + k) ∧
      (∀ j < k, ¬ ok (step^[j] s)) ∧ (¬ ok (step^[k] s) → k = n) := by
  induction n generalizing i s with
  | zero => exact ⟨0, le_refl _, rfl, fun j hj => absurd hj (Nat.not_lt_zero _), fun _ => rfl⟩
  | succ n ih =>
    by_cases h : ok s
    · refine ⟨0, Nat.zero_le _, ?_, fun j hj => absurd hj (Nat.not_lt_zero _), fun hn => absurd h hn⟩
      simp [loop, h]
    · obtain ⟨k, hk, he, hj, hn⟩ := ih (i + 1) (step s)
      refine ⟨k + 1, Nat.succ_le_succ hk, ?_, ?_, ?_⟩
      · have hstep : loop ok step (n + 1) i s = loop ok step n (i + 1) (step s) := by
          rw [loop]; simp [h]
        rw [hstep, he, Nat.add_assoc, Nat.add_comm 1 k]
        rfl
      · intro j hj'
        cases j with
        | zero => exact h
        | succ j => exact hj j (Nat.lt_of_succ_lt_succ hj')
      · intro hk'
        rw [hn hk']

theorem iterate_inv {σ : Type*} (step : σ → σ) (P : σ → Prop) (hP : ∀ s, P s → P (step s)) (s : σ) (hs : P s) (k : Nat) : P (step^[k] s) := by
  induction k with
  | zero => exact hs
  | succ k ih => rw [Function.iterate_succ_apply']; exact hP _ ih

/-! ## Newton -/

theorem newtonUpdate_frame (pv pq : List B) (V : B → ℂ) (x : List ℝ) (b : B) (h : b ∉ pv) (h' : b ∉ pq) : newtonUpdate pv pq V x b = V b := by
  conv_rhs => rw [← polar_arg V b]
  unfold newtonUpdate polar
  by_cases hv : pv.length ≠ 0 <;> by_cases hq : pq.length ≠ 0 <;>
    simp [hv, hq, addAt_of_not_mem _ _ _ b h, addAt_of_not_mem _ _ _ b h']

theorem newtonUpdate_norm (pv pq : List B) (V : B → ℂ) (x : List ℝ) (b : B) (h' : b ∉ pq) : ‖newtonUpdate pv pq V x b‖ = ‖V b‖ := by
  unfold newtonUpdate
  rw [polar_norm]
  by_cases hq : pq.length ≠ 0 <;> simp [hq, addAt_of_not_mem _ _ _ b h']

theorem Fvec_lt (Y : Matrix B B ℂ) (S : B → ℂ) (pv pq : List B) (V : B → ℂ) (tol : ℝ) :
    (∀ x ∈ Fvec Y S pv pq V, |x| < tol) ↔ (∀ b ∈ pv ++ pq, |(mis Y S V b).re| < tol) ∧ ∀ b ∈ pq, |(mis Y S V b).im| < tol := by
  simp only [Fvec, List.mem_append, List.mem_map]
  constructor
  · intro h
    refine ⟨fun b hb => ?_, fun b hb => h _ (Or.inr ⟨b, hb, rfl⟩)⟩
    rcases hb with hb | hb
    · exact h _ (Or.inl (Or.inl ⟨b, hb, rfl⟩))
    · exact h _ (Or.inl (Or.inr ⟨b, hb, rfl⟩))
  · rintro ⟨h1, h2⟩ x ((⟨b, hb, rfl⟩ | ⟨b, hb, rfl⟩) | ⟨b, hb, rfl⟩)
    · exact h1 b (Or.inl hb)
    · exact h1 b (Or.inr hb)
    · exact h2 b hb

/-! ## Gauss-Seidel -/

theorem gaussBus_frame (Y : Matrix B B ℂ) (S V V' : B → ℂ) (k : B) (h : gaussBus Y S V k = some V') (b : B) (hb : b ≠ k) : V' b = V b := by
  unfold gaussBus at h
  split at h
  · exact absurd h (by simp)
  · injection h with h
    rw [← h, Function.update_of_ne hb]

/-- The part of the state no sweep changes. -/
structure Frame (pv pq : List B) (V0 S0 : B → ℂ) (st : GS B) : Prop where
  volt : ∀ V, st.V = some V → ∀ b, b ∉ pv → b ∉ pq → V b = V0 b
  re : ∀ b, (st.S b).re = (S0 b).re
  im : ∀ b, b ∉ pv → (st.S b).im = (S0 b).im

theorem gaussPQ_frame (Y : Matrix B B ℂ) (pv pq : List B) (V0 S0 : B → ℂ) (st : GS B) (k : B) (hk : k ∈ pq) (h : Frame pv pq V0 S0 st) :
    Frame pv pq V0 S0 (gaussPQ Y st k) := by
  refine ⟨fun V hV b hb hb' => ?_, h.re, h.im⟩
  simp only [gaussPQ, Option.bind_eq_some_iff] at hV
  obtain ⟨W, hW, hV⟩ := hV
  rw [gaussBus_frame Y st.S W V k hV b (fun e => hb' (e ▸ hk))]
  exact h.volt W hW b hb hb'

theorem setQ_re (Y : Matrix B B ℂ) (S V : B → ℂ) (k b : B) : (setQ Y S V k b).re = (S b).re := by
  unfold setQ
  by_cases h : b = k
  · subst h; simp
  · rw [Function.update_of_ne h]

theorem gaussPV_frame (Y : Matrix B B ℂ) (pv pq : List B) (V0 S0 : B → ℂ) (st : GS B) (k : B) (hk : k ∈ pv) (h : Frame pv pq V0 S0 st) :
    Frame pv pq V0 S0 (gaussPV Y st k) := by
  unfold gaussPV
  split
  · exact h
  · rename_i W hW
    refine ⟨fun V hV b hb hb' => ?_, fun b => ?_, fun b hb => ?_⟩
    · rw [gaussBus_frame Y _ W V k hV b (fun e => hb (e ▸ hk))]
      exact h.volt W hW b hb hb'
    · show (setQ Y st.S W k b).re = _
      rw [setQ_re, h.re]
    · show (setQ Y st.S W k b).im = _
      unfold setQ
      have hne : b ≠ k := fun e => hb (e ▸ hk)
      rw [Function.update_of_ne hne, h.im b hb]

theorem foldl_inv {α β : Type*} (f : α → β → α) (P : α → Prop) (l : List β) (h : ∀ a, ∀ b ∈ l, P a → P (f a b)) (a : α) (ha : P a) :
    P (l.foldl f a) := by
  induction l generalizing a with
  | nil => exact ha
  | cons b l ih =>
    exact ih (fun a c hc => h a c (List.mem_cons_of_mem _ hc)) (f a b) (h a b List.mem_cons_self ha)

theorem renorm_spec (Vm : B → ℝ) (pv : List B) (V V' : B → ℂ) (h : renorm Vm pv V = some V') :
    (∀ k ∈ pv, V k ≠ 0) ∧ ∀ b, V' b = if b ∈ pv then (Vm b : ℂ) * V b / (‖V b‖ : ℂ) else V b := by
  unfold renorm at h
  split at h
  · exact absurd h (by simp)
  · rename_i hn
    injection h with h
    exact ⟨fun k hk h0 => hn ⟨k, hk, h0⟩, fun b => by rw [← h]⟩

theorem gaussStep_frame (Y : Matrix B B ℂ) (Vm : B → ℝ) (pv pq : List B) (V0 S0 : B → ℂ) (st : GS B) (h : Frame pv pq V0 S0 st) :
    Frame pv pq V0 S0 (gaussStep Y Vm pv pq st) := by
  have h1 := foldl_inv (gaussPQ Y) (Frame pv pq V0 S0) pq (fun a b hb ha => gaussPQ_frame Y pv pq V0 S0 a b hb ha) st h
  have h2 := foldl_inv (gaussPV Y) (Frame pv pq V0 S0) pv (fun a b hb ha => gaussPV_frame Y pv pq V0 S0 a b hb ha) _ h1
  refine ⟨fun V hV b hb hb' => ?_, h2.re, h2.im⟩
  simp only [gaussStep, Option.bind_eq_some_iff] at hV
  obtain ⟨W, hW, hV⟩ := hV
  rw [(renorm_spec Vm pv W V hV).2 b, if_neg hb]
  exact h2.volt W hW b hb hb'

theorem gaussStep_norm (Y : Matrix B B ℂ) (Vm : B → ℝ) (hVm : ∀ b, 0 ≤ Vm b) (pv pq : List B) (st : GS B) (V : B → ℂ)
    (hV : (gaussStep Y Vm pv pq st).V = some V) (b : B) (hb : b ∈ pv) : ‖V b‖ = Vm b := by
  simp only [gaussStep, Option.bind_eq_some_iff] at hV
  obtain ⟨W, hW, hV⟩ := hV
  obtain ⟨h0, h1⟩ := renorm_spec Vm pv W V hV
  rw [h1 b, if_pos hb, norm_div, norm_mul, Complex.norm_real, Complex.norm_real, norm_norm, Real.norm_of_nonneg (hVm b),
    mul_div_assoc, div_self (norm_ne_zero_iff.2 (h0 b hb)), mul_one]

/-! ## Fast decoupled -/

theorem fdLoop_spec (ok : FD B → Prop) (pStep qStep : FD B → FD B) (P : FD B → Prop) (hp : ∀ s, P s → P (pStep s)) (hq : ∀ s, P s → P (qStep s))
    (n i : Nat) (s : FD B) (hs : P s) :
    let r := fdLoop ok pStep qStep n i s
    P r.1 ∧ (r.2.1 = true → ok r.1) ∧ i ≤ r.2.2 ∧ r.2.2 ≤ i + n ∧ (r.2.1 = false → r.2.2 = i + n ∧ (¬ ok s → ¬ ok r.1)) := by
  induction n generalizing i s with
  | zero => exact ⟨hs, fun h => absurd h (by simp [fdLoop]), le_refl _, le_refl _, fun _ => ⟨rfl, id⟩⟩
  | succ n ih =>
    by_cases h1 : ok (pStep s)
    · have : fdLoop ok pStep qStep (n + 1) i s = (pStep s, true, i + 1) := by simp [fdLoop, h1]
      rw [this]
      exact ⟨hp s hs, fun _ => h1, Nat.le_succ _, by show i + 1 ≤ i + (n + 1); omega, fun h => absurd h (by simp)⟩
    · by_cases h2 : ok (qStep (pStep s))
      · have : fdLoop ok pStep qStep (n + 1) i s = (qStep (pStep s), true, i + 1) := by simp [fdLoop, h1, h2]
        rw [this]
        exact ⟨hq _ (hp s hs), fun _ => h2, Nat.le_succ _, by show i + 1 ≤ i + (n + 1); omega, fun h => absurd h (by simp)⟩
      · have : fdLoop ok pStep qStep (n + 1) i s = fdLoop ok pStep qStep n (i + 1) (qStep (pStep s)) := by
          rw [fdLoop]; simp [h1, h2]
        rw [this]
        obtain ⟨a, b, c, d, e⟩ := ih (i + 1) (qStep (pStep s)) (hq _ (hp s hs))
        refine ⟨a, b, by omega, by omega, fun h => ⟨?_, fun _ => (e h).2 h2⟩⟩
        have := (e h).1
        omega

/-- The part of the state no half-iteration changes. -/
def FdFrame (pv pq : List B) (V0 : B → ℂ) (st : FD B) : Prop :=
  ∀ s, st = some s → (∀ b, b ∉ pv → b ∉ pq → s.1 b = (V0 b).arg) ∧ ∀ b, b ∉ pq → s.2 b = ‖V0 b‖

theorem pHalf_frame (Y : Matrix B B ℂ) (S : B → ℂ) (pv pq : List B) (solve : BSolver) (V0 : B → ℂ) (st : FD B) (h : FdFrame pv pq V0 st) :
    FdFrame pv pq V0 (pHalf Y S pv pq solve st) := by
  intro s hs
  simp only [pHalf, Option.bind_eq_some_iff] at hs
  obtain ⟨t, ht, hs⟩ := hs
  split at hs
  · exact absurd hs (by simp)
  · simp only [Option.map_eq_some_iff] at hs
    obtain ⟨x, -, rfl⟩ := hs
    refine ⟨fun b hb hb' => ?_, (h t ht).2⟩
    show addAt t.1 _ _ b = _
    rw [addAt_of_not_mem _ _ _ _ (by simp [hb, hb'])]
    exact (h t ht).1 b hb hb'

theorem qHalf_frame (Y : Matrix B B ℂ) (S : B → ℂ) (pv pq : List B) (solve : BSolver) (V0 : B → ℂ) (st : FD B) (h : FdFrame pv pq V0 st) :
    FdFrame pv pq V0 (qHalf Y S pv pq solve st) := by
  intro s hs
  simp only [qHalf, Option.bind_eq_some_iff] at hs
  obtain ⟨t, ht, hs⟩ := hs
  split at hs
  · exact absurd hs (by simp)
  · simp only [Option.map_eq_some_iff] at hs
    obtain ⟨x, -, rfl⟩ := hs
    refine ⟨(h t ht).1, fun b hb => ?_⟩
    show addAt t.2 _ _ b = _
    rw [addAt_of_not_mem _ _ _ _ hb]
    exact (h t ht).2 b hb

end

end Verif.Solvers
