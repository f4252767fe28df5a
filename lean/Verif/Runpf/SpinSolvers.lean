import Verif.Runpf.ScaleLemmas

/-! Lemmas for C138: solvers when all voltages are turned by the same angle. -/

namespace Verif.Solvers

open Matrix ComplexConjugate

variable {B : Type} [Fintype B] [DecidableEq B]

noncomputable section

/-- All voltages times the same number. -/
def spin (u : ℂ) (V : B → ℂ) : B → ℂ := fun b => u * V b

section
variable {u : ℂ} (hu : ‖u‖ = 1)

theorem mul_conj_one (hu : ‖u‖ = 1) : u * conj u = 1 := by rw [Complex.mul_conj, Complex.normSq_eq_norm_sq, hu]; norm_num

theorem ne_of_norm (hu : ‖u‖ = 1) : u ≠ 0 := by
  rintro rfl
  simp at hu

omit [DecidableEq B] in
theorem mulVec_spin (Y : Matrix B B ℂ) (V : B → ℂ) (b : B) : (Y *ᵥ spin u V) b = u * (Y *ᵥ V) b := by
  show (∑ j, Y b j * (u * V j)) = u * ∑ j, Y b j * V j
  rw [Finset.mul_sum]
  exact Finset.sum_congr rfl fun j _ => by ring

include hu

omit [DecidableEq B] in
theorem power_spin (Y : Matrix B B ℂ) (V : B → ℂ) (b : B) : spin u V b * conj ((Y *ᵥ spin u V) b) = V b * conj ((Y *ᵥ V) b) := by
  rw [mulVec_spin, map_mul, spin]
  linear_combination (V b * conj ((Y *ᵥ V) b)) * mul_conj_one hu

omit [DecidableEq B] in
theorem mis_spin (Y : Matrix B B ℂ) (S V : B → ℂ) (b : B) : mis Y S (spin u V) b = mis Y S V b := by
  unfold mis
  rw [power_spin hu]

omit [DecidableEq B] in
theorem Fvec_spin (Y : Matrix B B ℂ) (S : B → ℂ) (pv pq : List B) (V : B → ℂ) : Fvec Y S pv pq (spin u V) = Fvec Y S pv pq V := by
  unfold Fvec
  simp only [mis_spin hu]

omit [Fintype B] [DecidableEq B] in
theorem norm_spin (V : B → ℂ) (b : B) : ‖spin u V b‖ = ‖V b‖ := by rw [spin, norm_mul, hu, one_mul]

theorem dVa_spin (Y : Matrix B B ℂ) (V : B → ℂ) (i j : B) : Derivs.dSbus_dVa Y (spin u V) i j = Derivs.dSbus_dVa Y V i j := by
  have h1 := mul_conj_one hu
  unfold Derivs.dSbus_dVa
  simp only [Matrix.smul_mul, Matrix.smul_apply, Matrix.diagonal_mul, Matrix.map_apply, Matrix.sub_apply, Matrix.mul_diagonal, Matrix.diagonal_apply, mulVec_spin, smul_eq_mul]
  simp only [spin]
  split_ifs <;> simp only [map_sub, map_mul, map_zero]
  · linear_combination (Complex.I * V i * (conj ((Y *ᵥ V) i) - conj (Y i j) * conj (V j))) * h1
  · linear_combination (-(Complex.I * V i * conj (Y i j) * conj (V j))) * h1

omit [Fintype B] [DecidableEq B] in
theorem Vnorm_spin (V : B → ℂ) (b : B) : Derivs.Vnorm (spin u V) b = u * Derivs.Vnorm V b := by
  unfold Derivs.Vnorm
  rw [norm_spin hu, spin, mul_div_assoc]

theorem dVm_spin (Y : Matrix B B ℂ) (V : B → ℂ) (i j : B) : Derivs.dSbus_dVm Y (spin u V) i j = Derivs.dSbus_dVm Y V i j := by
  have h1 := mul_conj_one hu
  unfold Derivs.dSbus_dVm
  simp only [Matrix.add_apply, Matrix.diagonal_mul, Matrix.map_apply, Matrix.mul_diagonal, Matrix.diagonal_apply, mulVec_spin, Vnorm_spin hu]
  simp only [spin]
  split_ifs <;> simp only [map_mul, map_zero]
  · linear_combination (V i * conj (Y i j) * conj (Derivs.Vnorm V j) + conj ((Y *ᵥ V) i) * Derivs.Vnorm V j) * h1
  · linear_combination (V i * conj (Y i j) * conj (Derivs.Vnorm V j)) * h1

theorem jacobian_spin (Y : Matrix B B ℂ) (pv pq : List B) (V : B → ℂ) : jacobian Y pv pq (spin u V) = jacobian Y pv pq V := by
  unfold jacobian
  simp only [dVa_spin hu, dVm_spin hu]

omit [DecidableEq B] in
theorem newtonOk_spin (Y : Matrix B B ℂ) (S : B → ℂ) (pv pq : List B) (tol : ℝ) (V : Option (B → ℂ)) : newtonOk Y S pv pq tol (V.map (spin u)) ↔ newtonOk Y S pv pq tol V := by
  cases V with
  | none => rfl
  | some V =>
    show normInf (Fvec Y S pv pq (spin u V)) < tol ↔ normInf (Fvec Y S pv pq V) < tol
    rw [Fvec_spin hu]

theorem exp_arg_spin (V : B → ℂ) (b : B) (hb : V b ≠ 0) : Complex.exp (Complex.I * ((spin u V b).arg : ℂ)) = u * Complex.exp (Complex.I * ((V b).arg : ℂ)) := by
  have hn : (‖V b‖ : ℂ) ≠ 0 := by exact_mod_cast norm_ne_zero_iff.2 hb
  have e1 := Complex.norm_mul_exp_arg_mul_I (V b)
  have e2 := Complex.norm_mul_exp_arg_mul_I (spin u V b)
  rw [norm_spin hu] at e2
  refine mul_left_cancel₀ hn ?_
  rw [mul_comm Complex.I, mul_comm Complex.I, e2, mul_left_comm, e1, spin]


omit hu [Fintype B] in
/-- What is added. -/
theorem addAt_add (x : B → ℝ) (idx : List B) (d : List ℝ) (b : B) : addAt x idx d b = x b + ((idx.zip d).reverse.lookup b).getD 0 := by
  unfold addAt
  cases (idx.zip d).reverse.lookup b <;> simp

theorem newtonUpdate_spin (pv pq : List B) (V : B → ℂ) (x : List ℝ) (hV : ∀ b ∈ pq, V b ≠ 0) : newtonUpdate pv pq (spin u V) x = spin u (newtonUpdate pv pq V x) := by
  obtain ⟨da, dm, e, hm⟩ : ∃ da dm : B → ℝ, (∀ W : B → ℂ, newtonUpdate pv pq W x = polar (fun b => ‖W b‖ + dm b) (fun b => (W b).arg + da b)) ∧ ∀ b, b ∉ pq → dm b = 0 := by
    refine ⟨fun b => (if pv.length ≠ 0 then ((pv.zip ((x.map fun e => -1 * e).take pv.length)).reverse.lookup b).getD 0 else 0) +
      (if pq.length ≠ 0 then ((pq.zip (((x.map fun e => -1 * e).drop pv.length).take pq.length)).reverse.lookup b).getD 0 else 0),
      fun b => if pq.length ≠ 0 then ((pq.zip (((x.map fun e => -1 * e).drop (pv.length + pq.length)).take pq.length)).reverse.lookup b).getD 0 else 0, fun W => ?_, fun b hb => ?_⟩
    · unfold newtonUpdate
      simp only
      congr 1
      · funext b
        split_ifs <;> simp only [addAt_add, add_zero]
      · funext b
        split_ifs <;> simp only [addAt_add, add_zero, zero_add, add_assoc]
    · dsimp only
      split_ifs
      · have := addAt_of_not_mem (fun _ => (0 : ℝ)) pq (((x.map fun e => -1 * e).drop (pv.length + pq.length)).take pq.length) b hb
        rw [addAt_add, zero_add] at this
        exact this
      · rfl
  rw [e, e]
  funext b
  simp only [polar, spin]
  by_cases hb : V b = 0
  · have : b ∉ pq := fun h => hV b h hb
    rw [hm b this]
    simp [hb]
  · have h1 := exp_arg_spin hu V b hb
    have h2 := norm_spin hu V b
    simp only [spin] at h1 h2
    rw [h2]
    push_cast
    rw [mul_add, Complex.exp_add, h1, mul_add, Complex.exp_add]
    ring

/-- The Newton step of turned voltages, for a solver that gives up on a matrix with a column of zeros. -/
theorem newtonStep_spin (lin : LinSolver B) (hlin : ∀ V J F, lin (spin u V) J F = lin V J F) (hsing : ∀ V J F (k : ℕ), J ≠ [] → (∀ r ∈ J, r.length = J.length ∧ r[k]? = some (0 : ℝ)) → lin V J F = none)
    (Y : Matrix B B ℂ) (S : B → ℂ) (pv pq : List B) (V : B → ℂ) : newtonStep lin Y S pv pq (spin u V) = (newtonStep lin Y S pv pq V).map (spin u) := by
  unfold newtonStep
  rw [jacobian_spin hu, Fvec_spin hu, hlin, Option.map_map]
  by_cases hz : ∃ b ∈ pq, V b = 0
  · obtain ⟨b, hb, h0⟩ := hz
    obtain ⟨k, hk⟩ := List.getElem?_of_mem (List.mem_append_right pv hb)
    have hcol : ∀ i, Derivs.dSbus_dVa Y V i b = 0 := by
      intro i
      unfold Derivs.dSbus_dVa
      simp only [Matrix.smul_mul, Matrix.smul_apply, Matrix.diagonal_mul, Matrix.map_apply, Matrix.sub_apply, Matrix.mul_diagonal, Matrix.diagonal_apply, smul_eq_mul, h0]
      split_ifs with h
      · rw [h, h0]; simp
      · simp
    rw [hsing V _ _ k]
    · rfl
    · unfold jacobian
      have : pv ++ pq ≠ [] := fun h => by rw [h] at hk; simp at hk
      simpa using fun h1 h2 => this (by rw [h1, h2]; rfl)
    · intro r hr
      have hlt : k < (pv ++ pq).length := (List.getElem?_eq_some_iff.1 hk).1
      unfold jacobian at hr
      rw [List.mem_append, List.mem_map, List.mem_map] at hr
      have hl : (jacobian Y pv pq V).length = (pv ++ pq).length + pq.length := by unfold jacobian; simp only [List.length_append, List.length_map]
      rcases hr with ⟨i, -, rfl⟩ | ⟨i, -, rfl⟩
      · refine ⟨by rw [hl]; simp only [List.length_append, List.length_map], ?_⟩
        rw [List.getElem?_append_left (by simpa using hlt), List.getElem?_map, hk]
        simp [hcol]
      · refine ⟨by rw [hl]; simp only [List.length_append, List.length_map], ?_⟩
        rw [List.getElem?_append_left (by simpa using hlt), List.getElem?_map, hk]
        simp [hcol]
  · push Not at hz
    congr 1
    funext x
    exact newtonUpdate_spin hu pv pq V x hz

theorem newtonpf_spin (lin : LinSolver B) (hlin : ∀ V J F, lin (spin u V) J F = lin V J F) (hsing : ∀ V J F (k : ℕ), J ≠ [] → (∀ r ∈ J, r.length = J.length ∧ r[k]? = some (0 : ℝ)) → lin V J F = none)
    (Y : Matrix B B ℂ) (S V0 : B → ℂ) (pv pq : List B) (tol : ℝ) (n : ℕ) :
    newtonpf lin Y S (spin u V0) pv pq tol n = (newtonpf lin Y S V0 pv pq tol n).map fun r => ⟨r.V.map (spin u), r.converged, r.i⟩ := by
  unfold newtonpf
  split_ifs
  · rfl
  · have h := loop_map (Option.map (spin u)) (ok := newtonOk Y S pv pq tol) (ok' := newtonOk Y S pv pq tol) (step := fun V => V.bind (newtonStep lin Y S pv pq))
      (step' := fun V => V.bind (newtonStep lin Y S pv pq)) (fun V => newtonOk_spin hu Y S pv pq tol V)
      (fun V => by cases V with
        | none => rfl
        | some V => exact newtonStep_spin hu lin hlin hsing Y S pv pq V) n 0 (some V0)
    rw [Option.map_some] at h
    rw [h]
    rfl

/-! ### Gauss-Seidel -/

/-- The state of Gauss-Seidel with turned voltages. -/
def GS.spin (u : ℂ) (st : GS B) : GS B := ⟨st.V.map (Solvers.spin u), st.S⟩

theorem gaussBus_spin (Y : Matrix B B ℂ) (S V : B → ℂ) (k : B) : gaussBus Y S (spin u V) k = (gaussBus Y S V k).map (spin u) := by
  have hu0 := ne_of_norm hu
  have hc : conj u⁻¹ = u := by
    have := mul_conj_one hu
    have h2 : conj u ≠ 0 := by simpa using hu0
    rw [map_inv₀]
    refine (eq_inv_of_mul_eq_one_left ?_).symm
    exact this
  unfold gaussBus
  simp only [spin, mul_eq_zero, hu0, false_or]
  split_ifs
  · rfl
  · rw [Option.map_some]
    congr 1
    have hY : (Y *ᵥ spin u V) k = u * (Y *ᵥ V) k := mulVec_spin Y V k
    have hcj : conj (S k / (u * V k)) = u * conj (S k / V k) := by
      rw [show S k / (u * V k) = u⁻¹ * (S k / V k) by rw [mul_comm u, div_mul_eq_div_div, div_eq_mul_inv (S k / V k), mul_comm], map_mul, hc]
    funext b
    by_cases hb : b = k
    · subst hb
      simp only [spin, Function.update_self] at hY ⊢
      rw [hcj]
      erw [hY]
      ring
    · simp only [spin, Function.update_of_ne hb]

theorem gaussPQ_spin (Y : Matrix B B ℂ) (st : GS B) (k : B) : gaussPQ Y (st.spin u) k = (gaussPQ Y st k).spin u := by
  unfold gaussPQ GS.spin
  cases st.V with
  | none => rfl
  | some V =>
    simp only [Option.map_some, Option.bind_some]
    rw [gaussBus_spin hu]

theorem gaussPV_spin (Y : Matrix B B ℂ) (st : GS B) (k : B) : gaussPV Y (st.spin u) k = (gaussPV Y st k).spin u := by
  unfold gaussPV
  cases hV : st.V with
  | none => simp only [GS.spin, hV, Option.map_none]
  | some V =>
    simp only [GS.spin, hV, Option.map_some]
    unfold gaussPVat
    have : setQ Y st.S (Solvers.spin u V) k = setQ Y st.S V k := by unfold setQ; rw [power_spin hu]
    rw [this, gaussBus_spin hu]

theorem gaussStep_spin (Y : Matrix B B ℂ) (Vm : B → ℝ) (pv pq : List B) (st : GS B) : gaussStep Y Vm pv pq (st.spin u) = (gaussStep Y Vm pv pq st).spin u := by
  have h1 : ∀ (l : List B) (st : GS B), l.foldl (gaussPQ Y) (st.spin u) = (l.foldl (gaussPQ Y) st).spin u := by
    intro l
    induction l with
    | nil => intro st; rfl
    | cons x l ih => intro st; rw [List.foldl_cons, List.foldl_cons, gaussPQ_spin hu, ih]
  have h2 : ∀ (l : List B) (st : GS B), l.foldl (gaussPV Y) (st.spin u) = (l.foldl (gaussPV Y) st).spin u := by
    intro l
    induction l with
    | nil => intro st; rfl
    | cons x l ih => intro st; rw [List.foldl_cons, List.foldl_cons, gaussPV_spin hu, ih]
  have h3 : ∀ V : B → ℂ, renorm Vm pv (Solvers.spin u V) = (renorm Vm pv V).map (Solvers.spin u) := by
    intro V
    have hn : ∀ b, ‖u * V b‖ = ‖V b‖ := fun b => norm_spin hu V b
    unfold renorm
    simp only [Solvers.spin, mul_eq_zero, ne_of_norm hu, false_or, hn]
    split_ifs
    · rfl
    · rw [Option.map_some]
      congr 1
      funext b
      show (if b ∈ pv then _ else _) = u * (if b ∈ pv then _ else _)
      split_ifs <;> ring
  unfold gaussStep
  simp only [h1, h2]
  simp only [GS.spin]
  congr 1
  cases (List.foldl (gaussPV Y) (List.foldl (gaussPQ Y) st pq) pv).V with
  | none => rfl
  | some V => exact h3 V

theorem gausspf_spin (Y : Matrix B B ℂ) (S V0 : B → ℂ) (pv pq : List B) (tol : ℝ) (n : ℕ) :
    (gausspf Y S (spin u V0) pv pq tol n).map Prod.fst = ((gausspf Y S V0 pv pq tol n).map Prod.fst).map fun r => ⟨r.V.map (spin u), r.converged, r.i⟩ := by
  unfold gausspf
  split_ifs
  · rfl
  · have hs : (⟨some (spin u V0), S⟩ : GS B) = GS.spin u ⟨some V0, S⟩ := rfl
    have hn : (fun b => ‖spin u V0 b‖) = fun b => ‖V0 b‖ := funext (norm_spin hu V0)
    rw [hn, hs, loop_map (GS.spin u) (ok := fun st : GS B => newtonOk Y st.S pv pq tol st.V) (step := gaussStep Y (fun b => ‖V0 b‖) pv pq)
      (fun s => newtonOk_spin hu Y s.S pv pq tol s.V) (fun s => gaussStep_spin hu Y _ pv pq s)]
    rfl

/-! ### Fast decoupled -/

/-- The same magnitudes, the angles turned (where there is a voltage). -/
def Spun (u : ℂ) (s s' : (B → ℝ) × (B → ℝ)) : Prop := s'.2 = s.2 ∧ ∀ b, s.2 b = 0 ∨ Complex.exp (Complex.I * (s'.1 b : ℂ)) = u * Complex.exp (Complex.I * (s.1 b : ℂ))

omit hu [Fintype B] [DecidableEq B] in
theorem Spun.polar {s s' : (B → ℝ) × (B → ℝ)} (h : Spun u s s') : Solvers.polar s'.2 s'.1 = spin u (Solvers.polar s.2 s.1) := by
  funext b
  simp only [Solvers.polar, spin, h.1]
  rcases h.2 b with h0 | h0
  · simp [h0]
  · rw [h0]; ring

omit [DecidableEq B] in
theorem fdOk_spin (Y : Matrix B B ℂ) (S : B → ℂ) (pv pq : List B) (tol : ℝ) {s s' : FD B} (h : Option.Rel (Spun u) s s') : fdOk Y S pv pq tol s' ↔ fdOk Y S pv pq tol s := by
  cases h with
  | none => rfl
  | some h =>
    rename_i s s'
    obtain ⟨Va, Vm⟩ := s
    obtain ⟨Va', Vm'⟩ := s'
    have hp := h.polar
    have h1 : Vm' = Vm := h.1
    subst h1
    unfold fdOk
    simp only at hp ⊢
    rw [hp]
    simp only [mis_spin hu]

theorem pHalf_spin (Y : Matrix B B ℂ) (S : B → ℂ) (pv pq : List B) (solve : BSolver) {s s' : FD B} (h : Option.Rel (Spun u) s s') :
    Option.Rel (Spun u) (pHalf Y S pv pq solve s) (pHalf Y S pv pq solve s') := by
  cases h with
  | none => exact .none
  | some h =>
    rename_i s s'
    obtain ⟨Va, Vm⟩ := s
    obtain ⟨Va', Vm'⟩ := s'
    have hp := h.polar
    obtain ⟨h1, h2⟩ := h
    have h1 : Vm' = Vm := h1
    subst h1
    unfold pHalf
    simp only [Option.bind_some] at hp ⊢
    rw [hp]
    simp only [mis_spin hu]
    split_ifs
    · exact .none
    · cases solve ((pv ++ pq).map fun b => (mis Y S (Solvers.polar Vm' Va) b / (Vm' b : ℂ)).re) with
      | none => exact .none
      | some x =>
        refine .some ⟨rfl, fun b => ?_⟩
        simp only [addAt_add]
        refine (h2 b).imp id fun h => ?_
        simp only at h
        push_cast
        rw [mul_add, Complex.exp_add, h, mul_add, Complex.exp_add]
        ring

theorem qHalf_spin (Y : Matrix B B ℂ) (S : B → ℂ) (pv pq : List B) (solve : BSolver) {s s' : FD B} (h : Option.Rel (Spun u) s s') :
    Option.Rel (Spun u) (qHalf Y S pv pq solve s) (qHalf Y S pv pq solve s') := by
  cases h with
  | none => exact .none
  | some h =>
    rename_i s s'
    obtain ⟨Va, Vm⟩ := s
    obtain ⟨Va', Vm'⟩ := s'
    have hp := h.polar
    obtain ⟨h1, h2⟩ := h
    have h1 : Vm' = Vm := h1
    subst h1
    unfold qHalf
    simp only [Option.bind_some] at hp ⊢
    rw [hp]
    simp only [mis_spin hu]
    split_ifs with hz
    · exact .none
    · cases solve (pq.map fun b => (mis Y S (Solvers.polar Vm' Va) b / (Vm' b : ℂ)).im) with
      | none => exact .none
      | some x =>
        refine .some ⟨rfl, fun b => ?_⟩
        by_cases hb : b ∈ pq
        · refine Or.inr ((h2 b).resolve_left fun h0 => hz ⟨b, List.mem_append_right _ hb, h0⟩)
        · simp only [addAt_of_not_mem _ _ _ _ hb]
          exact h2 b

omit hu [Fintype B] [DecidableEq B] in
theorem fdLoop_rel {R : FD B → FD B → Prop} {ok : FD B → Prop} {p q : FD B → FD B} (hok : ∀ s s', R s s' → (ok s' ↔ ok s)) (hp : ∀ s s', R s s' → R (p s) (p s'))
    (hq : ∀ s s', R s s' → R (q s) (q s')) (n : ℕ) : ∀ i s s', R s s' → R (fdLoop ok p q n i s).1 (fdLoop ok p q n i s').1 ∧ (fdLoop ok p q n i s').2 = (fdLoop ok p q n i s).2 := by
  have hd : ∀ s s', R s s' → @decide (ok s') (Classical.dec _) = @decide (ok s) (Classical.dec _) := fun s s' h => decide_eq_decide.2 (hok s s' h)
  induction n with
  | zero => intro i s s' h; exact ⟨h, rfl⟩
  | succ n ih =>
    intro i s s' h
    unfold fdLoop
    rw [hd _ _ (hp _ _ h), hd _ _ (hq _ _ (hp _ _ h))]
    split_ifs
    · exact ⟨hp _ _ h, rfl⟩
    · exact ⟨hq _ _ (hp _ _ h), rfl⟩
    · exact ih _ _ _ (hq _ _ (hp _ _ h))

theorem fdpf_spin (Y : Matrix B B ℂ) (S V0 : B → ℂ) (okB : Bool) (P Q : BSolver) (pv pq : List B) (tol : ℝ) (n : ℕ) :
    fdpf Y S (spin u V0) okB P Q pv pq tol n = (fdpf Y S V0 okB P Q pv pq tol n).map fun r => ⟨r.V.map (spin u), r.converged, r.i⟩ := by
  have h0 : Option.Rel (Spun u) (some (fun b => (V0 b).arg, fun b => ‖V0 b‖)) (some (fun b => (spin u V0 b).arg, fun b => ‖spin u V0 b‖)) := by
    refine .some ⟨funext (norm_spin hu V0), fun b => ?_⟩
    by_cases hb : V0 b = 0
    · exact Or.inl (by simp [hb])
    · exact Or.inr (exp_arg_spin hu V0 b hb)
  have hd : @decide (fdOk Y S pv pq tol (some (fun b => (spin u V0 b).arg, fun b => ‖spin u V0 b‖))) (Classical.dec _) = @decide (fdOk Y S pv pq tol (some (fun b => (V0 b).arg, fun b => ‖V0 b‖))) (Classical.dec _) :=
    decide_eq_decide.2 (fdOk_spin hu Y S pv pq tol h0)
  unfold fdpf
  split_ifs with h1 h2
  · rfl
  · rfl
  · simp only
    rw [hd]
    split_ifs
    · rfl
    · obtain ⟨k1, k2⟩ := fdLoop_rel (R := Option.Rel (Spun u)) (fun s s' h => fdOk_spin hu Y S pv pq tol h) (fun s s' h => pHalf_spin hu Y S pv pq P h)
        (fun s s' h => qHalf_spin hu Y S pv pq Q h) n 0 _ _ h0
      rw [k2, Option.map_some]
      congr 2
      revert k1
      generalize (fdLoop (fdOk Y S pv pq tol) (pHalf Y S pv pq P) (qHalf Y S pv pq Q) n 0 (some (fun b => (V0 b).arg, fun b => ‖V0 b‖))).1 = a
      generalize (fdLoop (fdOk Y S pv pq tol) (pHalf Y S pv pq P) (qHalf Y S pv pq Q) n 0 (some (fun b => (spin u V0 b).arg, fun b => ‖spin u V0 b‖))).1 = a'
      intro k1
      cases k1 with
      | none => rfl
      | some h =>
        simp only [Option.map_some]
        rw [h.polar]

end

end

end Verif.Solvers
