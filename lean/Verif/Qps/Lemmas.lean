import Verif.Qps.Spec
import Verif.Opf.DcCostProps

/-!
# Lemmas for C124
-/

open Matrix

namespace Verif.Qps

open Verif.Pips Verif.Opf

variable {ω : Type} {m n : ℕ}

theorem fill_bound {k : ℕ} (d : EReal) (b : Key (Arr k)) (i : Fin k) : fill d b i = bound d b i := by
  unfold fill bound Key.get?
  rcases b with _ | _ | (_ | v) <;> simp

theorem linear_nA (p : Prob ω m n) : p.linear.nA = p.nRows := by
  unfold Prob.linear Prob.nRows Key.get?
  cases p.A <;> simp

theorem linear_rows (p : Prob ω m n) {a : Sparse m n} (ha : p.A.get? = some a) (x : Fin n → ℝ) (k : Fin m) :
    ∑ j : Fin n, p.linear.A k j * x j = (a.mat *ᵥ x) k := by
  have : p.A = .val a := by
    cases h : p.A <;> rw [h] at ha <;> simp_all [Key.get?]
  simp only [Prob.linear, this, Matrix.mulVec, dotProduct]
  exact Finset.sum_congr rfl fun j _ => by simp

theorem lt_rows (p : Prob ω m n) {k : ℕ} (hk : k < p.linear.nA) : ∃ a, p.A.get? = some a ∧ k < m := by
  rw [linear_nA, Prob.nRows] at hk
  cases h : p.A.get? with
  | none => simp [h] at hk
  | some a => exact ⟨a, rfl, by simpa [h] using hk⟩

theorem rows_lt (p : Prob ω m n) {a : Sparse m n} (ha : p.A.get? = some a) (k : Fin m) : (k : ℕ) < p.linear.nA := by
  rw [linear_nA, Prob.nRows]; simp [ha]

theorem linear_ok (p : Prob ω m n) (h : p.Sensible) : p.linear.OK n := by
  refine ⟨fun j hj => ?_, fun k hk => ?_⟩
  · have := h.box ⟨j, hj⟩
    rw [← fill_bound, ← fill_bound] at this
    exact this
  · obtain ⟨a, ha, hm⟩ := lt_rows p hk
    have := h.rows a ha ⟨k, hm⟩
    rw [← fill_bound, ← fill_bound] at this
    exact this

theorem meets_feasible (p : Prob ω m n) {H : Matrix (Fin n) (Fin n) ℝ} {c y : Fin n → ℝ} (h : p.Meets y) : Feasible (qp H c) p.linear y := by
  refine ⟨fun e => e.elim0, fun i => i.elim0, fun j => ?_, fun k hk => ?_⟩
  · have := h.box j
    rw [← fill_bound, ← fill_bound] at this
    exact this
  · obtain ⟨a, ha, hm⟩ := lt_rows p hk
    have := h.rows a ha ⟨k, hm⟩
    rw [← fill_bound, ← fill_bound] at this
    have e := linear_rows p ha y ⟨k, hm⟩
    simp only at e
    rw [e]
    exact this

/-- A result comes from `pips`. -/
theorem solveQp_result {solve : AnySolver} {H : Matrix (Fin n) (Fin n) ℝ} {p : Prob PipsOpt m n} {r : Result n (Fin 0) (Fin 0)}
    (h : solveQp solve H p = .result r) : pipsFull (qp H p.cv) p.linear p.options (solve _ _) p.start = some r := by
  unfold solveQp at h
  split at h
  · cases h
  · cases h
  · split_ifs at h
    split at h
    · cases h
    · cases h; assumption

theorem qpsPips_result {solve : AnySolver} {p : Prob PipsOpt m n} {r : Result n (Fin 0) (Fin 0)} (h : qpsPips solve p = .result r) :
    solveQp solve p.Hm p = .result r := by
  unfold qpsPips at h
  unfold Prob.Hm
  cases hH : p.H.get? with
  | some H => rw [hH] at h; exact h
  | none =>
    rw [hH] at h
    simp only at h
    split at h
    · cases h
    · cases h
    · split_ifs at h
      exact h

theorem result_pips {solve : AnySolver} {p : Prob PipsOpt m n} {r : Result n (Fin 0) (Fin 0)} (h : qpsPips solve p = .result r) :
    pipsFull (qp p.Hm p.cv) p.linear p.options (solve _ _) p.start = some r := solveQp_result (qpsPips_result h)

theorem conv_start {X E I : Type} [Fintype X] [Fintype E] [Fintype I] [DecidableEq X] [DecidableEq I] [IsEmpty E] [IsEmpty I] (P : Pips.Problem X E I) (o : Opt)
    (x0 : X → ℝ) (hd : P.df x0 = 0) (h1 : 0 < o.feastol) (h2 : 0 < o.gradtol) (h3 : 0 < o.comptol) (h4 : 0 < o.costtol) : conv P o (init P o x0) := by
  have eE : ∀ v : E → ℝ, ‖v‖ = 0 := fun v => by rw [Subsingleton.elim v 0, norm_zero]
  have eI : ∀ v : I → ℝ, ‖v‖ = 0 := fun v => by rw [Subsingleton.elim v 0, norm_zero]
  refine ⟨?_, ?_, ?_, ?_⟩
  · simpa [feascond, eE, eI, maxh] using h1
  · have : Lx P o (init P o x0).x (init P o x0).lam (init P o x0).mu = 0 := by
      funext j
      have hj : P.df x0 j = 0 := congrFun hd j
      simp [Lx, grad, init, Matrix.mulVec, dotProduct, hj]
    simpa [gradcond, this] using h2
  · simpa [compcond, dotProduct] using h3
  · simpa [costcond, init] using h4

theorem get_ofArg {α : Type} (x : Option α) : (Key.ofArg x).get? = x := by cases x <;> rfl
theorem get_given {α : Type} (x : Option α) : (Key.given x).get? = x := by cases x <;> rfl

theorem qps_sc {av : Dispatch.Avail} {alg : Option ℤ} {sc : Bool} (h : Dispatch.qps av (alg.getD 0) = some (.pips sc)) : sc = decide (alg = some 250) := by
  have key : ∀ i : ℤ, Dispatch.dispatchAlg i = some (.pips sc) → sc = decide (i = 250) := by
    intro i hi
    unfold Dispatch.dispatchAlg at hi
    split_ifs at hi <;> simp_all
  have := key _ h
  rcases alg with _ | i
  · have hne : Dispatch.autoAlg av ≠ 250 := by
      obtain ⟨x, y, z⟩ := av
      cases x <;> cases y <;> cases z <;> simp [Dispatch.autoAlg]
    simp only [Option.getD_none] at this
    simp [this, hne]
  · simp only [Option.getD_some] at this
    rw [this]
    by_cases h0 : i = 0
    · subst h0
      obtain ⟨x, y, z⟩ := av
      cases x <;> cases y <;> cases z <;> simp [Dispatch.autoAlg]
    · simp [h0]

/-- What a call with `H` hands to `qps_pips`. -/
theorem pypower_result {av : Dispatch.Avail} {solve : AnySolver} {k : Call m n} (hk : k.hasH) {r : Result n (Fin 0) (Fin 0)}
    (h : qpsPypower av solve k = .result r) :
    ∃ q : Prob PipsOpt m n, qpsPips solve q = .result r ∧ q.options = k.documented ∧ q.Hm = k.posed.Hm ∧ q.cv = k.posed.cv ∧ q.start = k.posed.start ∧
      q.A.get? = k.posed.A.get? ∧ q.l.get? = k.posed.l.get? ∧ q.u.get? = k.posed.u.get? ∧ q.xmin.get? = k.posed.xmin.get? ∧ q.xmax.get? = k.posed.xmax.get? := by
  unfold qpsPypower at h
  split_ifs at h
  split at h
  · rename_i sc hq
    have hsc := qps_sc hq
    have hres : callPips solve sc k = .result r := by
      cases hc : callPips solve sc k <;> rw [hc] at h <;> cases h
      rfl
    have ho : ∀ a : Args PipsOpt m n, a.opt = some (k.opt.forPips sc) → a.prob.options = k.documented := by
      intro a ha
      rw [hsc] at ha
      unfold Prob.options Args.prob Call.documented
      rw [ha]
      simp only [get_given, Option.getD_some, PipsOpt.full, QOpt.forPips]
      cases h1 : k.opt.pipsOpt <;> cases h2 : k.opt.top.maxIt <;> simp [PipsOpt.empty]
    cases k with
    | args a =>
      refine ⟨_, hres, ho _ rfl, ?_⟩
      simp [Call.posed, Prob.Hm, Prob.cv, Prob.start, Args.prob]
    | dict p =>
      unfold callPips at hres
      simp only at hres
      split at hres
      · rename_i hm
        simp [Call.hasH, hm, Key.present] at hk
      · refine ⟨_, hres, ho _ rfl, ?_⟩
        simp [Call.posed, Prob.Hm, Prob.cv, Prob.start, Args.prob, get_ofArg, get_given]
  · cases h
  · cases h

theorem bound_congr {k : ℕ} {d : EReal} {b b' : Key (Arr k)} (h : b.get? = b'.get?) : bound d b = bound d b' := by
  funext i; unfold bound; rw [h]

end Verif.Qps
