import Verif.Runpf.ScaleSpec
import Verif.Runpf.TurnLemmas

/-! Lemmas for C137: network matrices and solvers in per unit of another base. -/

namespace Verif.Network

open Matrix ComplexConjugate

variable {B L L' : Type} [Fintype B] [Fintype L] [Fintype L'] [DecidableEq B] [DecidableEq L] [DecidableEq L']

/-- A branch in per unit of another base. -/
structure Rebased (k : ℝ) (a b : Branch B) : Prop where
  f : b.f = a.f
  t : b.t = a.t
  r : b.r = k * a.r
  x : b.x = k * a.x
  bc : b.b = a.b / k
  tap : tapRatio b = tapRatio a
  shift : b.shift = a.shift
  stat : b.stat = a.stat

section
variable {k : ℝ} {a b : Branch B} (h : Rebased k a b)
include h

omit [Fintype B] [DecidableEq B] in
theorem Rebased.Ys : Network.Ys b = (k : ℂ)⁻¹ * Network.Ys a := by
  unfold Network.Ys
  rw [h.stat, h.r, h.x]
  push_cast
  rw [show (k : ℂ) * (a.r : ℂ) + Complex.I * ((k : ℂ) * (a.x : ℂ)) = k * ((a.r : ℂ) + Complex.I * a.x) by ring, mul_comm (k : ℂ), div_mul_eq_div_div]
  ring

omit [Fintype B] [DecidableEq B] in
theorem Rebased.ctap : Network.ctap b = Network.ctap a := by
  unfold Network.ctap
  rw [h.tap, h.shift]

omit [Fintype B] [DecidableEq B] in
theorem Rebased.Ytt : Network.Ytt b = (k : ℂ)⁻¹ * Network.Ytt a := by
  unfold Network.Ytt Network.Bc
  rw [h.Ys, h.stat, h.bc]
  push_cast
  ring

omit [Fintype B] [DecidableEq B] in
theorem Rebased.Yff : Network.Yff b = (k : ℂ)⁻¹ * Network.Yff a := by
  unfold Network.Yff
  rw [h.Ytt, h.ctap]
  ring

omit [Fintype B] [DecidableEq B] in
theorem Rebased.Yft : Network.Yft b = (k : ℂ)⁻¹ * Network.Yft a := by
  unfold Network.Yft
  rw [h.Ys, h.ctap]
  ring

omit [Fintype B] [DecidableEq B] in
theorem Rebased.Ytf : Network.Ytf b = (k : ℂ)⁻¹ * Network.Ytf a := by
  unfold Network.Ytf
  rw [h.Ys, h.ctap]
  ring

omit [Fintype B] [DecidableEq B] in
theorem Rebased.bdc : Network.bdc b = k⁻¹ * Network.bdc a := by
  unfold Network.bdc
  rw [h.stat, h.x, h.tap, div_mul_eq_div_div]
  ring

end

section
variable {k : ℝ} {b1 : L → Branch B} {b2 : L' → Branch B} (e : L ≃ L') (h : ∀ l, Rebased k (b1 l) (b2 (e l)))
include h

theorem Ybus_rebase (base : ℝ) (bus : B → Bus) (i j : B) : Ybus (k * base) bus b2 i j = (k : ℂ)⁻¹ * Ybus base bus b1 i j := by
  rw [Ybus_apply, Ybus_apply, ← Finset.sum_add_distrib, ← Finset.sum_add_distrib, ← Equiv.sum_comp e, mul_add, Finset.mul_sum]
  congr 1
  · refine Finset.sum_congr rfl fun l _ => ?_
    rw [(h l).f, (h l).t, (h l).Yff, (h l).Ytt, (h l).Yft, (h l).Ytf]
    split_ifs <;> ring
  · unfold Ysh
    split_ifs
    · push_cast
      rw [mul_comm (k : ℂ), div_mul_eq_div_div]
      ring
    · ring

theorem Bp_rebase (base : ℝ) (bus : B → Bus) (alg : ℕ) (i j : B) : Bp (k * base) bus b2 alg i j = k⁻¹ * Bp base bus b1 alg i j := by
  unfold Bp
  rw [Ybus_rebase (b1 := fun l => { b1 l with b := 0, tap := 1, r := if alg = 2 then 0 else (b1 l).r })
    (b2 := fun l => { b2 l with b := 0, tap := 1, r := if alg = 2 then 0 else (b2 l).r }) e, ← Complex.ofReal_inv, Complex.im_ofReal_mul]
  · exact mul_left_comm _ _ _
  · intro l
    refine ⟨(h l).f, (h l).t, ?_, (h l).x, ?_, rfl, (h l).shift, (h l).stat⟩
    · simp only [(h l).r]; split_ifs <;> simp
    · simp

theorem Bpp_rebase (base : ℝ) (bus : B → Bus) (alg : ℕ) (i j : B) : Bpp (k * base) bus b2 alg i j = k⁻¹ * Bpp base bus b1 alg i j := by
  unfold Bpp
  rw [Ybus_rebase (b1 := fun l => { b1 l with shift := 0, r := if alg = 3 then 0 else (b1 l).r })
    (b2 := fun l => { b2 l with shift := 0, r := if alg = 3 then 0 else (b2 l).r }) e, ← Complex.ofReal_inv, Complex.im_ofReal_mul]
  · exact mul_left_comm _ _ _
  · intro l
    refine ⟨(h l).f, (h l).t, ?_, (h l).x, (h l).bc, (h l).tap, rfl, (h l).stat⟩
    simp only [(h l).r]; split_ifs <;> simp

theorem Pbusinj_rebase (i : B) : Pbusinj b2 i = k⁻¹ * Pbusinj b1 i := by
  unfold Pbusinj
  rw [CftT_mulVec, CftT_mulVec, ← Finset.sum_sub_distrib, ← Finset.sum_sub_distrib, ← Equiv.sum_comp e, Finset.mul_sum]
  refine Finset.sum_congr rfl fun l _ => ?_
  unfold Pfinj
  rw [(h l).f, (h l).t, (h l).bdc, (h l).shift]
  split_ifs <;> ring

theorem Bbus_rebase_mulVec (θ : B → ℝ) (i : B) : (Bbus b2 *ᵥ θ) i = k⁻¹ * (Bbus b1 *ᵥ θ) i := by
  unfold Bbus
  rw [← Matrix.mulVec_mulVec, ← Matrix.mulVec_mulVec, CftT_mulVec, CftT_mulVec, ← Finset.sum_sub_distrib, ← Finset.sum_sub_distrib, ← Equiv.sum_comp e, Finset.mul_sum]
  refine Finset.sum_congr rfl fun l _ => ?_
  rw [Bf_mulVec, Bf_mulVec, (h l).f, (h l).t, (h l).bdc]
  split_ifs <;> ring

theorem Bbus_rebase (i j : B) : Bbus b2 i j = k⁻¹ * Bbus b1 i j := by
  have := Bbus_rebase_mulVec e h (Pi.single j 1) i
  simpa using this

end

omit [Fintype B] in
theorem makeSbus_rebase {G : Type} [Fintype G] [DecidableEq G] (k base : ℝ) (bus : B → Bus) (gen : G → Gen B) (i : B) : makeSbus (k * base) bus gen i = (k : ℂ)⁻¹ * makeSbus base bus gen i := by
  unfold makeSbus
  push_cast
  rw [mul_comm (k : ℂ), div_mul_eq_div_div]
  ring

end Verif.Network

namespace Verif.Solvers

open Matrix ComplexConjugate

variable {B : Type} [Fintype B] [DecidableEq B]

noncomputable section

section
variable {a : ℝ} (ha : 0 < a) {Y Y' : Matrix B B ℂ} (hY : ∀ i j, Y' i j = (a : ℂ) * Y i j)
include hY

omit [DecidableEq B] in
theorem mulVec_scale (V : B → ℂ) (i : B) : (Y' *ᵥ V) i = (a : ℂ) * (Y *ᵥ V) i := by
  show (∑ j, Y' i j * V j) = (a : ℂ) * ∑ j, Y i j * V j
  rw [Finset.mul_sum]
  exact Finset.sum_congr rfl fun j _ => by rw [hY, mul_assoc]

omit [DecidableEq B] in
theorem mis_scale {S S' : B → ℂ} (hS : ∀ i, S' i = (a : ℂ) * S i) (V : B → ℂ) (b : B) : mis Y' S' V b = (a : ℂ) * mis Y S V b := by
  unfold mis
  rw [mulVec_scale hY, hS, map_mul, Complex.conj_ofReal]
  ring

omit [DecidableEq B] in
theorem Fvec_scale {S S' : B → ℂ} (hS : ∀ i, S' i = (a : ℂ) * S i) (pv pq : List B) (V : B → ℂ) : Fvec Y' S' pv pq V = (Fvec Y S pv pq V).map (a * ·) := by
  unfold Fvec
  simp only [mis_scale hY hS, List.map_append, List.map_map, Complex.re_ofReal_mul, Complex.im_ofReal_mul]
  rfl

omit hY [Fintype B] [DecidableEq B] in
include ha in
theorem normInf_scale (F : List ℝ) : normInf (F.map (a * ·)) = a * normInf F := by
  unfold normInf
  induction F with
  | nil => simp
  | cons x F ih =>
    simp only [List.map_cons, List.foldr_cons, ih]
    rw [abs_mul, abs_of_pos ha, ← mul_max_of_nonneg _ _ ha.le]

theorem dVa_scale (V : B → ℂ) (i j : B) : Derivs.dSbus_dVa Y' V i j = (a : ℂ) * Derivs.dSbus_dVa Y V i j := by
  unfold Derivs.dSbus_dVa
  simp only [Matrix.smul_mul, Matrix.smul_apply, Matrix.diagonal_mul, Matrix.map_apply, Matrix.sub_apply, Matrix.mul_diagonal, Matrix.diagonal_apply, mulVec_scale hY, hY, smul_eq_mul]
  split_ifs <;> simp only [map_sub, map_mul, Complex.conj_ofReal, map_zero] <;> ring

theorem dVm_scale (V : B → ℂ) (i j : B) : Derivs.dSbus_dVm Y' V i j = (a : ℂ) * Derivs.dSbus_dVm Y V i j := by
  unfold Derivs.dSbus_dVm
  simp only [Matrix.add_apply, Matrix.diagonal_mul, Matrix.map_apply, Matrix.mul_diagonal, Matrix.diagonal_apply, mulVec_scale hY, hY]
  split_ifs <;> simp only [map_mul, Complex.conj_ofReal, map_zero] <;> ring

theorem jacobian_scale (pv pq : List B) (V : B → ℂ) : jacobian Y' pv pq V = (jacobian Y pv pq V).map fun r => r.map (a * ·) := by
  unfold jacobian
  simp only [dVa_scale hY, dVm_scale hY, List.map_append, List.map_map, Complex.re_ofReal_mul, Complex.im_ofReal_mul, Function.comp_def]

include ha

omit [DecidableEq B] in
theorem newtonOk_scale {S S' : B → ℂ} (hS : ∀ i, S' i = (a : ℂ) * S i) (pv pq : List B) (tol : ℝ) (V : Option (B → ℂ)) :
    newtonOk Y' S' pv pq (a * tol) V ↔ newtonOk Y S pv pq tol V := by
  cases V with
  | none => rfl
  | some V =>
    show normInf (Fvec Y' S' pv pq V) < a * tol ↔ normInf (Fvec Y S pv pq V) < tol
    rw [Fvec_scale hY hS, normInf_scale ha]
    exact mul_lt_mul_iff_right₀ ha

theorem newtonpf_scale {S S' : B → ℂ} (hS : ∀ i, S' i = (a : ℂ) * S i) (lin : LinSolver B)
    (hlin : ∀ V J F, lin V (J.map fun r => r.map (a * ·)) (F.map (a * ·)) = lin V J F) (V0 : B → ℂ) (pv pq : List B) (tol : ℝ) (n : ℕ) :
    newtonpf lin Y' S' V0 pv pq (a * tol) n = newtonpf lin Y S V0 pv pq tol n := by
  have h1 : newtonOk Y' S' pv pq (a * tol) = newtonOk Y S pv pq tol := funext fun V => propext (newtonOk_scale ha hY hS pv pq tol V)
  have h2 : newtonStep lin Y' S' pv pq = newtonStep lin Y S pv pq := by
    funext V
    unfold newtonStep
    rw [jacobian_scale hY, Fvec_scale hY hS, hlin]
  unfold newtonpf
  rw [h1, h2]

omit [DecidableEq B] in
theorem fdOk_scale {S S' : B → ℂ} (hS : ∀ i, S' i = (a : ℂ) * S i) (pv pq : List B) (tol : ℝ) (s : FD B) : fdOk Y' S' pv pq (a * tol) s ↔ fdOk Y S pv pq tol s := by
  cases s with
  | none => rfl
  | some s =>
    obtain ⟨Va, Vm⟩ := s
    unfold fdOk
    simp only [mis_scale hY hS, mul_div_assoc, Complex.re_ofReal_mul, Complex.im_ofReal_mul]
    have e : ∀ (l : List B) (f : B → ℝ), l.map (fun b => a * f b) = (l.map f).map (a * ·) := fun l f => by rw [List.map_map]; rfl
    rw [e _ fun b => (mis Y S (polar Vm Va) b / (Vm b : ℂ)).re, e _ fun b => (mis Y S (polar Vm Va) b / (Vm b : ℂ)).im, normInf_scale ha, normInf_scale ha,
      mul_lt_mul_iff_right₀ ha, mul_lt_mul_iff_right₀ ha]

theorem fdpf_scale {S S' : B → ℂ} (hS : ∀ i, S' i = (a : ℂ) * S i) (ok : Bool) {P P' Q Q' : BSolver} (hP : ∀ F, P' (F.map (a * ·)) = P F) (hQ : ∀ F, Q' (F.map (a * ·)) = Q F)
    (V0 : B → ℂ) (pv pq : List B) (tol : ℝ) (n : ℕ) : fdpf Y' S' V0 ok P' Q' pv pq (a * tol) n = fdpf Y S V0 ok P Q pv pq tol n := by
  have e : ∀ (l : List B) (f : B → ℝ), l.map (fun b => a * f b) = (l.map f).map (a * ·) := fun l f => by rw [List.map_map]; rfl
  have h1 : fdOk Y' S' pv pq (a * tol) = fdOk Y S pv pq tol := funext fun V => propext (fdOk_scale ha hY hS pv pq tol V)
  have h2 : pHalf Y' S' pv pq P' = pHalf Y S pv pq P := by
    funext s
    unfold pHalf
    simp only [mis_scale hY hS, mul_div_assoc, Complex.re_ofReal_mul]
    congr 1
    funext t
    rw [e _ fun b => (mis Y S (polar t.2 t.1) b / (t.2 b : ℂ)).re, hP]
  have h3 : qHalf Y' S' pv pq Q' = qHalf Y S pv pq Q := by
    funext s
    unfold qHalf
    simp only [mis_scale hY hS, mul_div_assoc, Complex.im_ofReal_mul]
    congr 1
    funext t
    rw [e _ fun b => (mis Y S (polar t.2 t.1) b / (t.2 b : ℂ)).im, hQ]
  unfold fdpf
  rw [h1, h2, h3]

/-- The state of Gauss-Seidel with other injections. -/
def GS.scale (a : ℝ) (st : GS B) : GS B := ⟨st.V, fun b => (a : ℂ) * st.S b⟩

theorem gaussBus_scale {S S' : B → ℂ} {k : B} (hS : S' k = (a : ℂ) * S k) (V : B → ℂ) : gaussBus Y' S' V k = gaussBus Y S V k := by
  have ha' : (a : ℂ) ≠ 0 := by exact_mod_cast ha.ne'
  unfold gaussBus
  rw [hY]
  simp only [mul_eq_zero, ha', false_or]
  split_ifs with h0
  · rfl
  · rw [mulVec_scale hY, hS, mul_div_assoc, map_mul, Complex.conj_ofReal, ← mul_sub, mul_div_mul_left _ _ ha']

theorem gaussPQ_scale (st : GS B) (k : B) : gaussPQ Y' (st.scale a) k = (gaussPQ Y st k).scale a := by
  unfold gaussPQ GS.scale
  simp only
  congr 2
  funext V
  exact gaussBus_scale ha hY rfl V

omit ha in
theorem setQ_scale (S V : B → ℂ) (k : B) : setQ Y' (fun b => (a : ℂ) * S b) V k = fun b => (a : ℂ) * setQ Y S V k b := by
  unfold setQ
  funext b
  by_cases hb : b = k
  · subst hb
    simp only [Function.update_self]
    rw [mulVec_scale hY, map_mul, Complex.conj_ofReal, ← mul_assoc, mul_comm (V b), mul_assoc, Complex.re_ofReal_mul, Complex.im_ofReal_mul]
    push_cast
    ring
  · simp only [Function.update_of_ne hb]

theorem gaussPV_scale (st : GS B) (k : B) : gaussPV Y' (st.scale a) k = (gaussPV Y st k).scale a := by
  unfold gaussPV
  cases hV : st.V with
  | none => simp only [GS.scale, hV]
  | some V =>
    simp only [GS.scale, hV]
    unfold gaussPVat
    rw [setQ_scale hY]
    simp only
    congr 1
    exact gaussBus_scale ha hY rfl V

theorem gaussStep_scale (Vm : B → ℝ) (pv pq : List B) (st : GS B) : gaussStep Y' Vm pv pq (st.scale a) = (gaussStep Y Vm pv pq st).scale a := by
  have h1 : ∀ (l : List B) (st : GS B), l.foldl (gaussPQ Y') (st.scale a) = (l.foldl (gaussPQ Y) st).scale a := by
    intro l
    induction l with
    | nil => intro st; rfl
    | cons x l ih => intro st; rw [List.foldl_cons, List.foldl_cons, gaussPQ_scale ha hY, ih]
  have h2 : ∀ (l : List B) (st : GS B), l.foldl (gaussPV Y') (st.scale a) = (l.foldl (gaussPV Y) st).scale a := by
    intro l
    induction l with
    | nil => intro st; rfl
    | cons x l ih => intro st; rw [List.foldl_cons, List.foldl_cons, gaussPV_scale ha hY, ih]
  unfold gaussStep
  simp only [h1, h2]
  rfl

omit [Fintype B] [DecidableEq B] ha hY in
theorem loop_map {σ τ : Type} (g : σ → τ) {ok : σ → Prop} {ok' : τ → Prop} {step : σ → σ} {step' : τ → τ} (h1 : ∀ s, ok' (g s) ↔ ok s) (h2 : ∀ s, step' (g s) = g (step s)) (n : ℕ) :
    ∀ i s, loop ok' step' n i (g s) = (g (loop ok step n i s).1, (loop ok step n i s).2) := by
  have hd : ∀ s, @decide (ok' (g s)) (Classical.dec _) = @decide (ok s) (Classical.dec _) := fun s => decide_eq_decide.2 (h1 s)
  induction n with
  | zero => intro i s; unfold loop; rw [hd]
  | succ n ih =>
    intro i s
    unfold loop
    rw [hd, h2]
    split_ifs
    · rfl
    · exact ih _ _

theorem gausspf_scale {S S' : B → ℂ} (hS : ∀ i, S' i = (a : ℂ) * S i) (V0 : B → ℂ) (pv pq : List B) (tol : ℝ) (n : ℕ) :
    (gausspf Y' S' V0 pv pq (a * tol) n).map Prod.fst = (gausspf Y S V0 pv pq tol n).map Prod.fst := by
  unfold gausspf
  split_ifs
  · rfl
  · have hs : (⟨some V0, S'⟩ : GS B) = GS.scale a ⟨some V0, S⟩ := by unfold GS.scale; simp only [GS.mk.injEq, true_and]; exact funext hS
    rw [hs, loop_map (GS.scale a) (ok := fun st : GS B => newtonOk Y st.S pv pq tol st.V) (step := gaussStep Y (fun b => ‖V0 b‖) pv pq)
      (fun s => newtonOk_scale ha hY (fun i => rfl) pv pq tol s.V) (fun s => gaussStep_scale ha hY _ pv pq s)]
    rfl

end

end

end Verif.Solvers

namespace Verif.Runpf

open Verif.Network Verif.Pfsoln Verif.Solvers
open Matrix ComplexConjugate
open Verif.Index (BusRow GenRow BranchRow IsArgsort WF GenInService BranchInService Connected orderOf posOf)
open Verif.Opf (Tables BusD GenD BrD Upd write zeroOff readCase bridge_at)

noncomputable section

section
variable {B L L' : Type} [Fintype B] [Fintype L] [Fintype L'] [DecidableEq B] [DecidableEq L] [DecidableEq L'] {ng : ℕ}

/-- The case with another base. -/
def withBase (p : Case B L ng) (base : ℝ) : Case B L ng := { p with baseMVA := base }

variable {k : ℝ} (hk : 0 < k) (p : Case B L ng) {br : L' → Branch B} (e : L ≃ L') (h : ∀ l, Rebased k (p.branch l) (br (e l)))
include hk h

omit hk in
theorem Sinj_rebase (V : B → ℂ) (b : B) : Sinj (Ybus (k * p.baseMVA) p.bus br) V b = ((k⁻¹ : ℝ) : ℂ) * Sinj (Ybus p.baseMVA p.bus p.branch) V b := by
  unfold Sinj
  rw [mulVec_scale (a := k⁻¹) (Y := Ybus p.baseMVA p.bus p.branch) (fun i j => by rw [Ybus_rebase e h, Complex.ofReal_inv]), map_mul, Complex.conj_ofReal]
  ring

theorem slackStep_rebase (V : B → ℂ) (PG : Fin ng → ℝ) (r : B) :
    slackStep (k * p.baseMVA) p.bus p.gen (Ybus (k * p.baseMVA) p.bus br) V PG r = slackStep p.baseMVA p.bus p.gen (Ybus p.baseMVA p.bus p.branch) V PG r := by
  unfold slackStep
  rw [Sinj_rebase p e h, Complex.re_ofReal_mul, show k⁻¹ * (Sinj (Ybus p.baseMVA p.bus p.branch) V r).re * (k * p.baseMVA) = (Sinj (Ybus p.baseMVA p.bus p.branch) V r).re * p.baseMVA by
    field_simp]

theorem newPG_rebase (V : B → ℂ) (l : List B) : ∀ PG : Fin ng → ℝ,
    newPG (k * p.baseMVA) p.bus p.gen (Ybus (k * p.baseMVA) p.bus br) V l PG = newPG p.baseMVA p.bus p.gen (Ybus p.baseMVA p.bus p.branch) V l PG := by
  induction l with
  | nil => intro PG; rfl
  | cons r l ih =>
    intro PG
    unfold newPG
    rw [slackStep_rebase hk p e h]
    congr 1
    exact funext ih

theorem newQG_rebase (EPS : ℝ) (V : B → ℂ) :
    newQG EPS (k * p.baseMVA) p.bus p.gen (Ybus (k * p.baseMVA) p.bus br) V = newQG EPS p.baseMVA p.bus p.gen (Ybus p.baseMVA p.bus p.branch) V := by
  have : qTotal (k * p.baseMVA) p.bus (Ybus (k * p.baseMVA) p.bus br) V = qTotal p.baseMVA p.bus (Ybus p.baseMVA p.bus p.branch) V := by
    funext b
    unfold qTotal
    rw [Sinj_rebase p e h, Complex.im_ofReal_mul, show k⁻¹ * (Sinj (Ybus p.baseMVA p.bus p.branch) V b).im * (k * p.baseMVA) = (Sinj (Ybus p.baseMVA p.bus p.branch) V b).im * p.baseMVA by
      field_simp]
  funext g
  unfold newQG
  rw [this]

/-- A run on the other base: the solver gets the scaled injections. -/
theorem runAC_rebase (EPS viol : ℝ) (qlim : Bool) {s s' : Solver B}
    (hs : ∀ V0, s' (makeSbus (k * p.baseMVA) p.bus fun g => (p.gen g).toGen) V0 = s (makeSbus p.baseMVA p.bus fun g => (p.gen g).toGen) V0) :
    runAC EPS viol qlim s' (withBase (withBranch p br) (k * p.baseMVA)) = (runAC EPS viol qlim s p).map (reflowR (k * p.baseMVA) br) := by
  unfold runAC
  rw [show initialV (withBase (withBranch p br) (k * p.baseMVA)) = initialV p from rfl]
  cases initialV p with
  | none => rfl
  | some V0 =>
  simp only
  rw [show s' (makeSbus (withBase (withBranch p br) (k * p.baseMVA)).baseMVA (withBase (withBranch p br) (k * p.baseMVA)).bus
    (fun g => ((withBase (withBranch p br) (k * p.baseMVA)).gen g).toGen)) V0 = _ from hs V0]
  cases s (makeSbus p.baseMVA p.bus fun g => (p.gen g).toGen) V0 with
  | none => rfl
  | some r =>
  simp only [Option.bind_some]
  unfold finish
  cases r.V with
  | none => rfl
  | some V =>
  simp only
  have hsol : solution EPS (withBase (withBranch p br) (k * p.baseMVA)) V r.converged = (solution EPS p V r.converged).map (reflow (k * p.baseMVA) br) := by
    unfold solution
    show (newPG (k * p.baseMVA) p.bus p.gen (Ybus (k * p.baseMVA) p.bus br) V p.ref fun g => (p.gen g).PG).map (fun PG => Out.mk V _ _ PG
      (newQG EPS (k * p.baseMVA) p.bus p.gen (Ybus (k * p.baseMVA) p.bus br) V) _ _ _) = _
    rw [newPG_rebase hk p e h, newQG_rebase hk p e h]
    cases newPG p.baseMVA p.bus p.gen (Ybus p.baseMVA p.bus p.branch) V p.ref fun g => (p.gen g).PG with
    | none => rfl
    | some PG => rfl
  rw [hsol]
  cases solution EPS p V r.converged with
  | none => rfl
  | some o =>
  simp only [Option.map_some, Option.bind_some]
  rw [show violation viol (withBase (withBranch p br) (k * p.baseMVA)) (reflow (k * p.baseMVA) br o) = violation viol p o from rfl]
  split <;> rfl

theorem brFrom_rebase (V : B → ℂ) (l : L) : brFrom (k * p.baseMVA) br (Yf br) V (e l) = brFrom p.baseMVA p.branch (Yf p.branch) V l := by
  have hk' : (k : ℂ) ≠ 0 := by exact_mod_cast hk.ne'
  unfold brFrom
  rw [Yf_mulVec, Yf_mulVec, (h l).stat, (h l).f, (h l).t, (h l).Yff, (h l).Yft]
  split_ifs
  · rfl
  · simp only [map_add, map_mul, map_inv₀, Complex.conj_ofReal, Complex.ofReal_mul]
    field_simp

theorem brTo_rebase (V : B → ℂ) (l : L) : brTo (k * p.baseMVA) br (Yt br) V (e l) = brTo p.baseMVA p.branch (Yt p.branch) V l := by
  have hk' : (k : ℂ) ≠ 0 := by exact_mod_cast hk.ne'
  unfold brTo
  rw [Yt_mulVec, Yt_mulVec, (h l).stat, (h l).f, (h l).t, (h l).Ytf, (h l).Ytt]
  split_ifs
  · rfl
  · simp only [map_add, map_mul, map_inv₀, Complex.conj_ofReal, Complex.ofReal_mul]
    field_simp

theorem dcPF_rebase (Va : B → ℝ) (l : L) : dcPF (k * p.baseMVA) br Va (e l) = dcPF p.baseMVA p.branch Va l := by
  unfold dcPF Pfinj
  rw [Bf_mulVec, Bf_mulVec, (h l).f, (h l).t, (h l).bdc, (h l).shift]
  field_simp

omit hk in
theorem dcPbus_rebase (i : B) : dcPbus (k * p.baseMVA) p.bus p.gen br i = k⁻¹ * dcPbus p.baseMVA p.bus p.gen p.branch i := by
  unfold dcPbus
  rw [makeSbus_rebase, Pbusinj_rebase e h, ← Complex.ofReal_inv, Complex.re_ofReal_mul, mul_comm k, div_mul_eq_div_div]
  ring

theorem dcPG_rebase (Va : B → ℝ) : dcPG (k * p.baseMVA) p.bus p.gen br p.ref Va = dcPG p.baseMVA p.bus p.gen p.branch p.ref Va := by
  unfold dcPG
  split_ifs
  · rfl
  · congr 1
    funext g
    rw [Bbus_rebase_mulVec e h, dcPbus_rebase p e h,
      show (k⁻¹ * (Bbus p.branch *ᵥ Va) (p.gen g).bus - k⁻¹ * dcPbus p.baseMVA p.bus p.gen p.branch (p.gen g).bus) * (k * p.baseMVA) =
        ((Bbus p.branch *ᵥ Va) (p.gen g).bus - dcPbus p.baseMVA p.bus p.gen p.branch (p.gen g).bus) * p.baseMVA by field_simp]

end

/-! ### Tables -/

theorem rebase_wf {k : ℝ} {c : Index.Case Tables} (w : WF c) : WF (rebase k c) where
  busNodup := w.busNodup
  typValid := w.typValid
  someOn := w.someOn
  genRef := w.genRef
  fRef := by
    intro l hl
    obtain ⟨l', h, rfl⟩ := List.mem_map.1 hl
    exact w.fRef l' h
  tRef := by
    intro l hl
    obtain ⟨l', h, rfl⟩ := List.mem_map.1 hl
    exact w.tRef l' h
  areaRef := w.areaRef
  costRows := w.costRows
  aCols := w.aCols
  nCols := w.nCols
  notInternal := w.notInternal

theorem rebase_mask (k : ℝ) (c : Index.Case Tables) : (rebase k c).branch.map (Index.brK (rebase k c).bus) = c.branch.map (Index.brK c.bus) := by
  show (c.branch.map (rebaseRow k)).map _ = _
  rw [List.map_map]
  rfl

theorem rebase_brI (k : ℝ) (c : Index.Case Tables) : Index.brI (rebase k c) = (Index.brI c).map (rebaseRow k) := by
  unfold Index.brI
  show ((((c.branch.map (rebaseRow k)).filter _).map _).map _) = _
  rw [List.filter_map, List.map_map, List.map_map, List.map_map, List.map_map]
  rfl

theorem rebase_internal {k : ℝ} {c : Index.Case Tables} {srt : List ℕ → List ℕ} (hs : IsArgsort srt) (w : WF c) {c' : Index.Case Tables} (he : Index.ext2int srt c = some c') :
    c'.branch = Index.brI c ∧ ∃ ar gc A N o, Index.ext2int srt (rebase k c) = some { c' with branch := Index.brI (rebase k c), areas := ar, gencost := gc, A := A, N := N, order := o } := by
  obtain ⟨gen, gc, A, N, h1, h2, -⟩ := Index.ext2int_result hs w
  obtain ⟨gen2, gc2, A2, N2, k1, k2, k3, k4, k5⟩ := Index.ext2int_result hs (rebase_wf (k := k) w)
  rw [he] at h1
  cases h1
  have hg : Index.genU (rebase k c) = Index.genU c := rfl
  rw [hg, h2] at k2
  cases k2
  refine ⟨rfl, (Index.areas' (rebase k c)).map (fun _ => Index.arI (rebase k c)), gc2, A2, N2, some (Index.orderOf srt (rebase k c)), ?_⟩
  rw [k1]
  rfl

theorem readPf_base (b1 b2 : ℝ) (c : Index.Case Tables) : readPf b2 c = (readPf b1 c).map (fun p => withBase p b2) := by
  unfold readPf readCase
  split
  · simp only [Option.bind_eq_bind, Option.bind_some]
    cases Bustypes.bustypes (c.bus.map (·.typ)) (c.gen.map fun g => ⟨g.bus, g.status⟩) with
    | none => rfl
    | some t => rfl
  · rfl

section
variable {srt : List ℕ → List ℕ} (hs : IsArgsort srt) {base k : ℝ} {c : Index.Case Tables} (w : WF c)
  {c' : Index.Case Tables} (he1 : Index.ext2int srt c = some c') (hbr : c'.branch = Index.brI c) {ar gc A N o}
  (he2 : Index.ext2int srt (rebase k c) = some { c' with branch := Index.brI (rebase k c), areas := ar, gencost := gc, A := A, N := N, order := o })
  {d : Opf.Case c'.bus.length c'.gen.length c'.branch.length} (hd : readCase base c' = some d)
  {d2 : Opf.Case c'.bus.length c'.gen.length (Index.brI (rebase k c)).length}
  (hd2 : readCase base { c' with branch := Index.brI (rebase k c), areas := ar, gencost := gc, A := A, N := N, order := o } = some d2)
  (e : c'.branch.length = (Index.brI (rebase k c)).length)

include hbr hd hd2 in
/-- The internal branches of the two cases. -/
theorem rebase_rows (l : Fin c'.branch.length) : Rebased k (d.branch l) (d2.branch (finCongr e l)) := by
  obtain ⟨-, -, hf1, hf2⟩ := readPf_with hd hd2
  have q : (Index.brI (rebase k c))[finCongr e l] = rebaseRow k c'.branch[l] := by
    have x1 : (Index.brI (rebase k c))[(l : ℕ)]? = some (Index.brI (rebase k c))[finCongr e l] := List.getElem?_eq_getElem (finCongr e l).isLt
    have x2 : c'.branch[(l : ℕ)]? = some c'.branch[l] := List.getElem?_eq_getElem l.isLt
    have y : c'.branch[(l : ℕ)]? = (Index.brI c)[(l : ℕ)]? := congrArg (fun t => t[(l : ℕ)]?) hbr
    have z : (Index.brI (rebase k c))[(l : ℕ)]? = some (rebaseRow k c'.branch[l]) := by rw [rebase_brI, List.getElem?_map, ← y, x2]; rfl
    exact Option.some.inj (x1.symm.trans z)
  obtain ⟨a1, a2, a3, a4, a5, a6, a7, a8⟩ := hf1 l
  obtain ⟨b1, b2, b3, b4, b5, b6, b7, b8⟩ := hf2 (finCongr e l)
  rw [q] at b1 b2 b3 b4 b5 b6 b7 b8
  refine ⟨Fin.ext (b1.trans a1.symm), Fin.ext (b2.trans a2.symm), ?_, ?_, ?_, ?_, b7.trans a7.symm, b8.trans a8.symm⟩
  · rw [b3, a3]; rfl
  · rw [b4, a4]; rfl
  · rw [b5, a5]; rfl
  · unfold tapRatio; rw [b6, a6]; rfl

include hs w he1 he2 hd hd2

/-- The results of the two internal cases, put back. -/
theorem rebase_results (u1 : Upd c'.bus.length c'.gen.length c'.branch.length) (u2 : Upd c'.bus.length c'.gen.length (Index.brI (rebase k c)).length)
    (hub : u2.bus = u1.bus) (hug : u2.gen = u1.gen) (hul : ∀ l x, u2.branch (finCongr e l) (rebaseData k x) = rebaseData k (u1.branch l x))
    {r1 r2 : Index.Case Tables} (hr1 : Index.int2ext (write c' u1) = some r1)
    (hr2 : Index.int2ext (write { c' with branch := Index.brI (rebase k c), areas := ar, gencost := gc, A := A, N := N, order := o } u2) = some r2) :
    (zeroOff pfOff r2).bus = (zeroOff pfOff r1).bus ∧ (zeroOff pfOff r2).gen = (zeroOff pfOff r1).gen ∧
      (zeroOff pfOff r2).branch = (zeroOff pfOff r1).branch.map (rebaseRow k) := by
  obtain ⟨bp1, gp1, lp1, B1, -, -, -, -, -, pb1, pg1, pl1⟩ := bridge_at hs w he1 hd u1 hr1 pfOff
  obtain ⟨bp2, gp2, lp2, B2, -, -, -, -, -, pb2, pg2, pl2⟩ := bridge_at hs (rebase_wf w) he2 hd2 u2 hr2 pfOff
  have ebp : ∀ i, bp2 i = bp1 i := fun i => Option.some.inj ((pb2 i).symm.trans (pb1 i))
  have egp : ∀ i, gp2 i = gp1 i := fun i => Option.some.inj ((pg2 i).symm.trans (pg1 i))
  have elp : ∀ i, lp2 (finCongr e i) = lp1 i := by
    intro i
    have q2 := pl2 (finCongr e i)
    have pl : posOf srt (rebase k c) .branch = posOf srt c .branch := congrArg NumPy.find (rebase_mask k c)
    rw [pl] at q2
    exact Option.some.inj (q2.symm.trans (pl1 i))
  refine ⟨?_, ?_, ?_⟩
  · refine List.ext_getElem? fun i => ?_
    cases hx : c.bus[i]? with
    | none =>
      rw [List.getElem?_eq_none_iff] at hx
      rw [List.getElem?_eq_none_iff.2 (by rw [B2.busLen]; exact hx), List.getElem?_eq_none_iff.2 (by rw [B1.busLen]; exact hx)]
    | some b =>
      have hx2 : (rebase k c).bus[i]? = some b := hx
      by_cases ht : b.typ = 4
      · rw [B1.busOff i b hx ht, B2.busOff i b hx2 ht]
      · obtain ⟨j, rfl⟩ := B1.busOn i b hx ht
        obtain ⟨b', e1, -, e2, -⟩ := B1.bus j
        rw [hx] at e1; cases e1
        obtain ⟨b', e3, -, e4, -⟩ := B2.bus j
        rw [ebp, hx2] at e3; cases e3
        rw [ebp] at e4
        rw [e2, e4, hub]
  · refine List.ext_getElem? fun i => ?_
    cases hx : c.gen[i]? with
    | none =>
      rw [List.getElem?_eq_none_iff] at hx
      rw [List.getElem?_eq_none_iff.2 (by rw [B2.genLen]; exact hx), List.getElem?_eq_none_iff.2 (by rw [B1.genLen]; exact hx)]
    | some g =>
      have hx2 : (rebase k c).gen[i]? = some g := hx
      by_cases hin : GenInService c g
      · obtain ⟨j, rfl⟩ := B1.genOn i g hx hin
        obtain ⟨b', e1, -, e2, -⟩ := B1.gen j
        rw [hx] at e1; cases e1
        obtain ⟨b', e3, -, e4, -⟩ := B2.gen j
        rw [egp, hx2] at e3; cases e3
        rw [egp] at e4
        rw [e2, e4, hug]
      · rw [B1.genOff i g hx hin, B2.genOff i g hx2 hin]
  · refine List.ext_getElem? fun i => ?_
    rw [List.getElem?_map]
    cases hx : c.branch[i]? with
    | none =>
      rw [List.getElem?_eq_none_iff] at hx
      rw [List.getElem?_eq_none_iff.2 (by rw [B2.brLen]; simpa [rebase] using hx), List.getElem?_eq_none_iff.2 (by rw [B1.brLen]; exact hx)]
      rfl
    | some l =>
      have hx2 : (rebase k c).branch[i]? = some (rebaseRow k l) := by
        show (c.branch.map (rebaseRow k))[i]? = _
        rw [List.getElem?_map, hx]; rfl
      by_cases hin : BranchInService c l
      · obtain ⟨j, rfl⟩ := B1.brOn i l hx hin
        obtain ⟨b', e1, -, e2, -⟩ := B1.branch j
        rw [hx] at e1; cases e1
        obtain ⟨b', e3, -, e4, -⟩ := B2.branch (finCongr e j)
        rw [elp, hx2] at e3; cases e3
        rw [elp] at e4
        rw [e2, e4]
        show some { rebaseRow k l with data := u2.branch (finCongr e j) (rebaseData k l.data) } = _
        rw [hul]
        rfl
      · rw [B1.brOff i l hx hin, B2.brOff i (rebaseRow k l) hx2 hin]
        rfl

end

end

end Verif.Runpf
