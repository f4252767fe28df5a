import Verif.Runpf.AgainCore

/-! Lemmas for C139: the injections that solvers use. -/

namespace Verif.Solvers

open Matrix ComplexConjugate

variable {B : Type} [Fintype B] [DecidableEq B]

noncomputable section

/-- The same active power at PV buses and the same complex power at PQ buses. -/
structure SameInj (pv pq : List B) (S S' : B → ℂ) : Prop where
  pv : ∀ b ∈ pv, (S' b).re = (S b).re
  pq : ∀ b ∈ pq, S' b = S b

variable {pv pq : List B} {S S' : B → ℂ}

omit [DecidableEq B] in
theorem SameInj.re (h : SameInj pv pq S S') (Y : Matrix B B ℂ) (V : B → ℂ) {b : B} (hb : b ∈ pv ++ pq) : (mis Y S' V b).re = (mis Y S V b).re := by
  unfold mis
  rw [Complex.sub_re, Complex.sub_re]
  rcases List.mem_append.1 hb with hb | hb
  · rw [h.pv b hb]
  · rw [h.pq b hb]

omit [DecidableEq B] in
theorem SameInj.im (h : SameInj pv pq S S') (Y : Matrix B B ℂ) (V : B → ℂ) {b : B} (hb : b ∈ pq) : (mis Y S' V b).im = (mis Y S V b).im := by
  unfold mis
  rw [h.pq b hb]

omit [DecidableEq B] in
theorem SameInj.fvec (h : SameInj pv pq S S') (Y : Matrix B B ℂ) : Fvec Y S' pv pq = Fvec Y S pv pq := by
  funext V
  unfold Fvec
  congr 1
  · congr 1
    · exact List.map_congr_left fun b hb => h.re Y V (List.mem_append_left _ hb)
    · exact List.map_congr_left fun b hb => h.re Y V (List.mem_append_right _ hb)
  · exact List.map_congr_left fun b hb => h.im Y V hb

omit [DecidableEq B] in
theorem SameInj.ok (h : SameInj pv pq S S') (Y : Matrix B B ℂ) (tol : ℝ) : newtonOk Y S' pv pq tol = newtonOk Y S pv pq tol := by
  funext V
  cases V with
  | none => rfl
  | some V => simp only [newtonOk, h.fvec]

theorem SameInj.newton (h : SameInj pv pq S S') (lin : LinSolver B) (Y : Matrix B B ℂ) (V0 : B → ℂ) (tol : ℝ) (n : ℕ) :
    newtonpf lin Y S' V0 pv pq tol n = newtonpf lin Y S V0 pv pq tol n := by
  have : newtonStep lin Y S' pv pq = newtonStep lin Y S pv pq := by
    funext V
    unfold newtonStep
    rw [h.fvec]
  unfold newtonpf
  rw [h.ok, this]

theorem SameInj.fd (h : SameInj pv pq S S') (Y : Matrix B B ℂ) (V0 : B → ℂ) (okB : Bool) (sP sQ : BSolver) (tol : ℝ) (n : ℕ) :
    fdpf Y S' V0 okB sP sQ pv pq tol n = fdpf Y S V0 okB sP sQ pv pq tol n := by
  have hP : ∀ Va Vm : B → ℝ, ((pv ++ pq).map fun b => (mis Y S' (polar Vm Va) b / (Vm b : ℂ)).re) = (pv ++ pq).map fun b => (mis Y S (polar Vm Va) b / (Vm b : ℂ)).re := fun Va Vm =>
    List.map_congr_left fun b hb => by rw [Complex.div_ofReal_re, Complex.div_ofReal_re, h.re Y _ hb]
  have hQ : ∀ Va Vm : B → ℝ, (pq.map fun b => (mis Y S' (polar Vm Va) b / (Vm b : ℂ)).im) = pq.map fun b => (mis Y S (polar Vm Va) b / (Vm b : ℂ)).im := fun Va Vm =>
    List.map_congr_left fun b hb => by rw [Complex.div_ofReal_im, Complex.div_ofReal_im, h.im Y _ hb]
  have h1 : fdOk Y S' pv pq tol = fdOk Y S pv pq tol := by
    funext s
    cases s with
    | none => rfl
    | some s => simp only [fdOk, hP, hQ]
  have h2 : pHalf Y S' pv pq sP = pHalf Y S pv pq sP := by
    funext s
    unfold pHalf
    simp only [hP]
  have h3 : qHalf Y S' pv pq sQ = qHalf Y S pv pq sQ := by
    funext s
    unfold qHalf
    simp only [hQ]
  unfold fdpf
  rw [h1, h2, h3]

/-! ### Gauss-Seidel -/

/-- The same voltages, and injections that are the same where it matters. -/
def SameGS (pv pq : List B) (s s' : GS B) : Prop := s'.V = s.V ∧ SameInj pv pq s.S s'.S

theorem gaussBus_congr {Y : Matrix B B ℂ} {V : B → ℂ} {k : B} (h : S' k = S k) : gaussBus Y S' V k = gaussBus Y S V k := by
  unfold gaussBus
  rw [h]

theorem sameGS_pq (Y : Matrix B B ℂ) {s s' : GS B} (h : SameGS pv pq s s') {k : B} (hk : k ∈ pq) : SameGS pv pq (gaussPQ Y s k) (gaussPQ Y s' k) := by
  refine ⟨?_, h.2⟩
  unfold gaussPQ
  simp only [h.1, gaussBus_congr (h.2.pq k hk)]

theorem sameGS_pv (Y : Matrix B B ℂ) {s s' : GS B} (h : SameGS pv pq s s') {k : B} (hk : k ∈ pv) : SameGS pv pq (gaussPV Y s k) (gaussPV Y s' k) := by
  unfold gaussPV
  rw [h.1]
  cases hV : s.V with
  | none => exact h
  | some V =>
    have e : setQ Y s'.S V k k = setQ Y s.S V k k := by
      unfold setQ
      rw [Function.update_self, Function.update_self, h.2.pv k hk]
    have hne : ∀ b, b ≠ k → setQ Y s'.S V k b = s'.S b ∧ setQ Y s.S V k b = s.S b := fun b hb => ⟨Function.update_of_ne hb _ _, Function.update_of_ne hb _ _⟩
    refine ⟨gaussBus_congr e, fun b hb => ?_, fun b hb => ?_⟩
    · show (setQ Y s'.S V k b).re = (setQ Y s.S V k b).re
      by_cases hbk : b = k
      · rw [hbk, e]
      · rw [(hne b hbk).1, (hne b hbk).2, h.2.pv b hb]
    · show setQ Y s'.S V k b = setQ Y s.S V k b
      by_cases hbk : b = k
      · rw [hbk, e]
      · rw [(hne b hbk).1, (hne b hbk).2, h.2.pq b hb]

theorem sameGS_step (Y : Matrix B B ℂ) (Vm : B → ℝ) {s s' : GS B} (h : SameGS pv pq s s') : SameGS pv pq (gaussStep Y Vm pv pq s) (gaussStep Y Vm pv pq s') := by
  have h1 : ∀ (l : List B) (s s' : GS B), (∀ k ∈ l, k ∈ pq) → SameGS pv pq s s' → SameGS pv pq (l.foldl (gaussPQ Y) s) (l.foldl (gaussPQ Y) s') := by
    intro l
    induction l with
    | nil => intro s s' _ h; exact h
    | cons x l ih => intro s s' hl h; exact ih _ _ (fun k hk => hl k (List.mem_cons_of_mem _ hk)) (sameGS_pq Y h (hl x List.mem_cons_self))
  have h2 : ∀ (l : List B) (s s' : GS B), (∀ k ∈ l, k ∈ pv) → SameGS pv pq s s' → SameGS pv pq (l.foldl (gaussPV Y) s) (l.foldl (gaussPV Y) s') := by
    intro l
    induction l with
    | nil => intro s s' _ h; exact h
    | cons x l ih => intro s s' hl h; exact ih _ _ (fun k hk => hl k (List.mem_cons_of_mem _ hk)) (sameGS_pv Y h (hl x List.mem_cons_self))
  have h3 := h2 pv _ _ (fun _ hk => hk) (h1 pq _ _ (fun _ hk => hk) h)
  unfold gaussStep
  refine ⟨?_, h3.2⟩
  simp only [h3.1]

theorem SameInj.gauss (h : SameInj pv pq S S') (Y : Matrix B B ℂ) (V0 : B → ℂ) (tol : ℝ) (n : ℕ) :
    (gausspf Y S' V0 pv pq tol n).map Prod.fst = (gausspf Y S V0 pv pq tol n).map Prod.fst := by
  have key : ∀ (n i : ℕ) (s s' : GS B), SameGS pv pq s s' →
      let r := loop (fun st : GS B => newtonOk Y st.S pv pq tol st.V) (gaussStep Y (fun b => ‖V0 b‖) pv pq) n i s
      let r' := loop (fun st : GS B => newtonOk Y st.S pv pq tol st.V) (gaussStep Y (fun b => ‖V0 b‖) pv pq) n i s'
      r'.1.V = r.1.V ∧ r'.2 = r.2 := by
    intro n
    induction n with
    | zero =>
      intro i s s' h
      have e : newtonOk Y s'.S pv pq tol s'.V ↔ newtonOk Y s.S pv pq tol s.V := by rw [h.1, h.2.ok]
      exact ⟨h.1, Prod.ext (decide_eq_decide.2 e) rfl⟩
    | succ n ih =>
      intro i s s' h
      have e : newtonOk Y s'.S pv pq tol s'.V ↔ newtonOk Y s.S pv pq tol s.V := by rw [h.1, h.2.ok]
      by_cases hk : newtonOk Y s.S pv pq tol s.V
      · simp only [loop, e.2 hk, hk, decide_true, if_true]
        exact ⟨h.1, trivial⟩
      · have hk' : ¬ newtonOk Y s'.S pv pq tol s'.V := fun x => hk (e.1 x)
        simp only [loop, hk', hk, decide_false, Bool.false_eq_true, if_false]
        exact ih (i + 1) _ _ (sameGS_step Y _ h)
  obtain ⟨k1, k2⟩ := key n 0 ⟨some V0, S⟩ ⟨some V0, S'⟩ ⟨rfl, h⟩
  unfold gausspf
  split_ifs
  · rfl
  · simp only [Option.map_some]
    rw [k1, k2]

end

end Verif.Solvers

namespace Verif.Runpf

open Verif.Network Verif.Pfsoln Verif.Solvers

variable {nb nl ng : ℕ}

noncomputable section

theorem pick_same (o : PfOpt) (lib : PfLib) (p : Case (Fin nb) (Fin nl) ng) {S S' : Fin nb → ℂ} (h : SameInj p.pv p.pq S S') (V0 : Fin nb → ℂ) :
    pickSolver o lib p S' V0 = pickSolver o lib p S V0 := by
  unfold pickSolver
  split_ifs
  · exact h.newton _ _ _ _ _
  · exact h.fd _ _ _ _ _ _ _
  · exact h.gauss _ _ _ _
  · rfl

/-- The slack generators' own entries of `PG` are not used where one is alone. -/
theorem newPG_congr (base : ℝ) (bus : Fin nb → Bus) (gen : Fin ng → GenQ (Fin nb)) (Y : Matrix (Fin nb) (Fin nb) ℂ) (V : Fin nb → ℂ) :
    ∀ (ref : List (Fin nb)) (PG PG' : Fin ng → ℝ), (∀ g, PG' g = PG g ∨ (gen g).bus ∈ ref ∧ refgen gen (gen g).bus = [g]) →
      newPG base bus gen Y V ref PG' = newPG base bus gen Y V ref PG
  | [], PG, PG', h => by
    have : PG' = PG := funext fun g => (h g).elim id fun k => absurd k.1 (by simp)
    rw [this]
  | r :: rs, PG, PG', h => by
    unfold newPG slackStep
    have hon : ∀ g ∈ refgen gen r, (gen g).bus = r := fun g hg => by
      have := (List.mem_filter.1 hg).2
      simpa using this
    cases hr : refgen gen r with
    | nil => rfl
    | cons g rest =>
      rw [hr] at hon
      have hrest : rest.map PG' = rest.map PG := List.map_congr_left fun x hx => (h x).elim id fun k => by
        have hx' := hon x (List.mem_cons_of_mem _ hx)
        have k2 := k.2
        rw [hx', hr] at k2
        rw [List.cons.injEq] at k2
        rw [k2.2] at hx
        simp at hx
      simp only [Option.bind_some, hrest]
      refine newPG_congr base bus gen Y V rs _ _ fun x => ?_
      by_cases hx : x = g
      · left
        rw [hx, Function.update_self, Function.update_self]
      · rw [Function.update_of_ne hx, Function.update_of_ne hx]
        refine (h x).imp id fun k => ⟨(List.mem_cons.1 k.1).resolve_left fun e => hx ?_, k.2⟩
        have k2 := k.2
        rw [e, hr] at k2
        exact (List.cons.inj k2).1.symm

theorem runAC_guess (o : PfOpt) (lib : PfLib) (p : Case (Fin nb) (Fin nl) ng) (VM : Fin nb → ℝ) (PG QG : Fin ng → ℝ) (href : ∀ b, b ∈ p.pv ∨ b ∈ p.pq → b ∉ p.ref)
    (hVM : ∀ b, VM b = p.VM b ∨ setters p b ≠ [] ∧ 0 < p.VM b ∧ 0 < VM b) (hPG : ∀ g, PG g = (p.gen g).PG ∨ (p.gen g).bus ∈ p.ref ∧ refgen p.gen (p.gen g).bus = [g])
    (hQG : ∀ g, QG g = (p.gen g).QG ∨ (p.gen g).bus ∉ p.pq) :
    runAC o.EPS o.viol o.qlim (pickSolver o lib (stored p VM p.VA PG QG)) (stored p VM p.VA PG QG) = runAC o.EPS o.viol o.qlim (pickSolver o lib p) p := by
  set p2 := stored p VM p.VA PG QG with hp2
  have hon : onList p2.gen = onList p.gen := rfl
  have hset : ∀ b, setters p2 b = setters p b := fun b => rfl
  have hV : initialV p2 = initialV p := by
    have hfl : ∀ b, flat p2 b = flat p b ∨ setters p b ≠ [] ∧ 0 < p.VM b ∧ 0 < VM b := fun b => (hVM b).imp (fun e => by simp only [flat, hp2, stored, e]) id
    have hne : ∀ (x : ℝ) (a : ℝ), 0 < x → (x : ℂ) * Complex.exp (Complex.I * (a : ℂ)) ≠ 0 := fun x a hx => mul_ne_zero (by exact_mod_cast hx.ne') (Complex.exp_ne_zero _)
    have hno : ∀ (x : ℝ) (a : ℝ), 0 < x → ‖(x : ℂ) * Complex.exp (Complex.I * (a : ℂ))‖ = x := fun x a hx => by
      rw [norm_mul, mul_comm Complex.I, Complex.norm_exp_ofReal_mul_I, Complex.norm_real, Real.norm_eq_abs, abs_of_pos hx, mul_one]
    have hz : ∀ b, flat p2 b = 0 ↔ flat p b = 0 := by
      intro b
      rcases hfl b with e | ⟨-, h1, h2⟩
      · rw [e]
      · exact iff_of_false (hne _ _ h2) (hne _ _ h1)
    unfold initialV
    simp only [hset, hz]
    split_ifs
    · rfl
    · congr 1
      funext b
      cases hl : (setters p b).getLast? with
      | none =>
        rcases hfl b with e | ⟨h0, -⟩
        · exact e
        · exact absurd (List.getLast?_eq_none_iff.1 hl) h0
      | some g =>
        rcases hfl b with e | ⟨-, h1, h2⟩
        · simp only [e]; rfl
        · have e1 : ‖flat p2 b‖ = VM b := hno _ _ h2
          have e2 : ‖flat p b‖ = p.VM b := hno _ _ h1
          show ((p.VG g / ‖flat p2 b‖ : ℝ) : ℂ) * flat p2 b = ((p.VG g / ‖flat p b‖ : ℝ) : ℂ) * flat p b
          rw [e1, e2]
          show ((p.VG g / VM b : ℝ) : ℂ) * ((VM b : ℂ) * _) = ((p.VG g / p.VM b : ℝ) : ℂ) * ((p.VM b : ℂ) * _)
          have c1 : (p.VM b : ℂ) ≠ 0 := by exact_mod_cast h1.ne'
          have c2 : (VM b : ℂ) ≠ 0 := by exact_mod_cast h2.ne'
          rw [Complex.ofReal_div, Complex.ofReal_div, ← mul_assoc, div_mul_cancel₀ _ c2, ← mul_assoc, div_mul_cancel₀ _ c1]
          rfl
  have hS : SameInj p.pv p.pq (makeSbus p.baseMVA p.bus fun g => (p.gen g).toGen) (makeSbus p.baseMVA p.bus fun g => (p2.gen g).toGen) := by
    have hre : ∀ b, b ∈ p.pv ∨ b ∈ p.pq → (makeSbus p.baseMVA p.bus (fun g => (p2.gen g).toGen) b).re = (makeSbus p.baseMVA p.bus (fun g => (p.gen g).toGen) b).re := by
      intro b hb
      rw [sbus_re, sbus_re]
      congr 2
      refine Finset.sum_congr rfl fun g hg => ?_
      have hgb : (p.gen g).bus = b := (Finset.mem_filter.1 hg).2.2
      exact (hPG g).elim id fun k => absurd (hgb ▸ k.1) (href b hb)
    refine ⟨fun b hb => hre b (Or.inl hb), fun b hb => Complex.ext (hre b (Or.inr hb)) ?_⟩
    rw [sbus_im, sbus_im]
    congr 2
    refine Finset.sum_congr rfl fun g hg => ?_
    have hgb : (p.gen g).bus = b := (Finset.mem_filter.1 hg).2.2
    exact (hQG g).elim id fun k => absurd (hgb ▸ hb) k
  have hfin : finish o.EPS o.viol o.qlim p2 = finish o.EPS o.viol o.qlim p := by
    funext r
    unfold finish
    have hsol : ∀ V s, solution o.EPS p2 V s = solution o.EPS p V s := by
      intro V s
      have e1 : newPG p.baseMVA p.bus p2.gen (Ybus p.baseMVA p.bus p.branch) V p.ref (fun g => (p2.gen g).PG) = newPG p.baseMVA p.bus p.gen (Ybus p.baseMVA p.bus p.branch) V p.ref fun g => (p.gen g).PG := by
        have e0 : ∀ (l : List (Fin nb)) (X : Fin ng → ℝ), newPG p.baseMVA p.bus p2.gen (Ybus p.baseMVA p.bus p.branch) V l X = newPG p.baseMVA p.bus p.gen (Ybus p.baseMVA p.bus p.branch) V l X := by
          intro l
          induction l with
          | nil => intro X; rfl
          | cons r l ih =>
            intro X
            unfold newPG
            rw [funext ih]
            rfl
        rw [e0]
        exact newPG_congr _ _ _ _ _ _ _ _ hPG
      unfold solution
      show Option.map _ (newPG p.baseMVA p.bus p2.gen (Ybus p.baseMVA p.bus p.branch) V p.ref (fun g => (p2.gen g).PG)) = _
      rw [e1]
      rfl
    cases r.V with
    | none => rfl
    | some V => simp only [hsol]; rfl
  unfold runAC
  rw [hV]
  cases initialV p with
  | none => rfl
  | some V0 =>
    show ((pickSolver o lib p (makeSbus p.baseMVA p.bus fun g => (p2.gen g).toGen) V0).bind _) = _
    rw [pick_same o lib p hS V0, hfin]

end

end Verif.Runpf
