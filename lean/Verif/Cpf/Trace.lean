import Verif.Cpf.Props

/-!
# C63: the tracing loop of the continuation power flow
-/

open Matrix ComplexConjugate

namespace Verif.Cpf

open Verif.Solvers

set_option linter.unusedSectionVars false

noncomputable section

variable {B : Type} [Fintype B] [DecidableEq B]

/-! ## Specification -/

/-- The requested stopping point: back at lambda = 0, past the nose, or at the target (or past the nose before it). -/
def Stop (stopAt : StopAt) (lam lamprv : ℝ) : Prop :=
  match stopAt with
  | .full => |lam| < 1 / 10 ^ 8
  | .nose => lam < lamprv
  | .lam target => lam < lamprv ∨ |target - lam| < 1 / 10 ^ 8

/-- The states at the head of the loop in a trace starting at `s0`. -/
inductive Reach (n : Net B) (stopAt : StopAt) (o : Adapt) (s0 : St B) : St B → Prop
  | start : Reach n stopAt o s0 s0
  | next (s s' : St B) : Reach n stopAt o s0 s → pass n stopAt o s = .next s' → Reach n stopAt o s0 s'

/-- The history is consistent with a state: one entry for the base point and one per step made, the last one is the current point, the one before
the previous point, and every point but the first is on the curve. -/
structure Recorded (n : Net B) (V0 : B → ℂ) (s : St B) : Prop where
  len : s.hist.length = s.k + 1
  base : s.hist[0]? = some ⟨(V0, 0), (V0, 0)⟩
  last : ∃ e, s.hist[s.k]? = some e ∧ e.c = s.cur
  prev : ∃ e, s.hist[s.k - 1]? = some e ∧ e.c = s.prv
  curve : ∀ (j : Nat) (e : Entry B), 0 < j → s.hist[j]? = some e → OnCurve n.Y n.S n.X n.pv n.pq n.tol e.c

/-! ## Step control -/

theorem stopOrGo_none (stopAt : StopAt) (lam lamprv step : ℝ) (c : Ctl) :
    stopOrGo stopAt lam lamprv step c = none ↔ Stop stopAt lam lamprv := by
  cases stopAt with
  | full =>
    unfold stopOrGo Stop
    by_cases h : |lam| < 1 / 10 ^ 8
    · simp only [h, decide_true, if_true]
    · simp only [h, decide_false, Bool.false_eq_true, if_false]
      split <;> simp
  | nose =>
    unfold stopOrGo Stop
    by_cases h : lam < lamprv
    · simp only [h, decide_true, if_true]
    · simp only [h, decide_false, Bool.false_eq_true, if_false]
      simp
  | lam target =>
    unfold stopOrGo Stop
    by_cases h : lam < lamprv
    · simp only [h, decide_true, if_true, true_or]
    · by_cases h2 : |target - lam| < 1 / 10 ^ 8
      · simp only [h, h2, decide_false, Bool.false_eq_true, if_false, decide_true, if_true, or_true]
      · simp only [h, h2, decide_false, Bool.false_eq_true, if_false, or_false]
        split <;> simp

/-- What a passed step is: a prediction, a converged correction, and the bookkeeping. -/
theorem pass_accept (n : Net B) (stopAt : StopAt) (o : Adapt) (s : St B) :
    (∃ k i p, pass n stopAt o s = .fail k i p) ∨
      ∃ step p0 z p, s.ctl.step = some step ∧ predictor n s.cur step s.z s.prv s.ctl.par = some (p0, z)
        ∧ OnCurve n.Y n.S n.X n.pv n.pq n.tol p
        ∧ |distance s.ctl.par z n.pv n.pq p s.cur - required s.ctl.par step| < n.tol
        ∧ pass n stopAt o s = accept n stopAt o s step p0 z p := by
  unfold pass
  cases hs : s.ctl.step with
  | none => exact Or.inl ⟨_, _, _, rfl⟩
  | some step =>
    simp only
    cases hp : predictor n s.cur step s.z s.prv s.ctl.par with
    | none => exact Or.inl ⟨_, _, _, rfl⟩
    | some pz =>
      obtain ⟨p0, z⟩ := pz
      simp only
      unfold correct
      rcases hr : corrector n ⟨s.ctl.par, step, z, s.cur⟩ (some p0) with ⟨r, conv, i⟩
      have hc := C61 n _ p0 r conv i hr
      cases conv with
      | false => left; cases r <;> exact ⟨_, _, _, rfl⟩
      | true =>
        obtain ⟨p, rfl, h1, h2⟩ := hc.1 rfl
        exact Or.inr ⟨step, p0, z, p, rfl, hp, h1, h2, rfl⟩

theorem accept_next (n : Net B) (stopAt : StopAt) (o : Adapt) (s : St B) (step : ℝ) (p0 : Pt B) (z : Tan B) (p : Pt B) (s' : St B)
    (h : accept n stopAt o s step p0 z p = .next s') :
    ∃ c, stopOrGo stopAt p.2 s.cur.2 step s.ctl = some c ∧ s'.ctl = adaptCtl o n.pv n.pq p p0 c ∧ s'.cur = p ∧ s'.prv = s.cur ∧ s'.z = z
      ∧ s'.k = s.k + 1 ∧ s'.hist = s.hist ++ [⟨p0, p⟩] := by
  unfold accept at h
  cases hs : stopOrGo stopAt p.2 s.cur.2 step s.ctl with
  | none => rw [hs] at h; cases h
  | some c => rw [hs] at h; cases h; exact ⟨c, rfl, rfl, rfl, rfl, rfl, rfl, rfl⟩

theorem accept_done (n : Net B) (stopAt : StopAt) (o : Adapt) (s : St B) (step : ℝ) (p0 : Pt B) (z : Tan B) (p : Pt B) (s' : St B)
    (h : accept n stopAt o s step p0 z p = .done s') :
    Stop stopAt p.2 s.cur.2 ∧ s'.cur = p ∧ s'.prv = s.cur ∧ s'.k = s.k + 1 ∧ s'.hist = s.hist ++ [⟨p0, p⟩] := by
  unfold accept at h
  cases hs : stopOrGo stopAt p.2 s.cur.2 step s.ctl with
  | none => rw [hs] at h; cases h; exact ⟨(stopOrGo_none _ _ _ _ _).1 hs, rfl, rfl, rfl, rfl⟩
  | some c => rw [hs] at h; cases h

/-- The adapted step is within the bounds if the step before was. -/
theorem adaptStep_bounds (o : Adapt) (err step : ℝ) (he : 0 ≤ err) (ht : 0 < o.errTol) (h0 : 0 < o.stepMin) (h1 : o.stepMin ≤ step)
    (h2 : step ≤ o.stepMax) : ∃ s, adaptStep o err step = some s ∧ o.stepMin ≤ s ∧ s ≤ o.stepMax := by
  have hp : 0 < step * o.errTol := mul_pos (by linarith) ht
  unfold adaptStep fdiv
  by_cases hz : err = 0
  · subst hz
    refine ⟨o.stepMax, ?_, by linarith, le_refl _⟩
    simp [hp, ht]
  · have hpos : 0 < err := lt_of_le_of_ne he (Ne.symm hz)
    simp only [hz, decide_false, Bool.false_eq_true, if_false, Option.bind_some]
    have hfin : finite ((step * o.errTol / err : ℝ) : EReal) = some (step * o.errTol / err) := by
      unfold finite
      rw [if_neg (by rintro (h | h); exacts [EReal.coe_ne_top _ h, EReal.coe_ne_bot _ h]), EReal.toReal_coe]
    by_cases hlt : err < o.errTol
    · simp only [hlt, decide_true, if_true, EReal.coe_lt_coe_iff]
      have hge : step ≤ step * o.errTol / err := by
        rw [le_div_iff₀ hpos]
        exact mul_le_mul_of_nonneg_left hlt.le (by linarith)
      by_cases hm : o.stepMax < step * o.errTol / err
      · rw [if_pos hm]; exact ⟨_, rfl, by linarith, le_refl _⟩
      · rw [if_neg hm, hfin]; exact ⟨_, rfl, by linarith, by linarith⟩
    · simp only [hlt, decide_false, Bool.false_eq_true, if_false, EReal.coe_lt_coe_iff]
      have hle : step * o.errTol / err ≤ step := by
        rw [div_le_iff₀ hpos]
        exact mul_le_mul_of_nonneg_left (not_lt.1 hlt) (by linarith)
      by_cases hm : step * o.errTol / err < o.stepMin
      · rw [if_pos hm]; exact ⟨_, rfl, le_refl _, by linarith⟩
      · rw [if_neg hm, hfin]; exact ⟨_, rfl, by linarith, by linarith⟩

theorem stopOrGo_some (stopAt : StopAt) (lam lamprv step : ℝ) (c c' : Ctl) (h : stopOrGo stopAt lam lamprv step c = some c') :
    c' = c ∨ (c'.adapt = false ∧ c'.par = .natural ∧
      ((stopAt = .full ∧ lam < lamprv ∧ lam < step ∧ c'.step = some lam)
        ∨ ∃ target, stopAt = .lam target ∧ target < lam + step ∧ c'.step = some (target - lam))) := by
  cases stopAt with
  | full =>
    unfold stopOrGo at h
    simp only at h
    split at h
    · cases h
    · split at h
      · rename_i h1 h2
        have h2 := (@decide_eq_true_iff _ (Classical.dec _)).1 h2
        cases h
        exact Or.inr ⟨rfl, rfl, Or.inl ⟨rfl, h2.1, by linarith [h2.2], rfl⟩⟩
      · cases h; exact Or.inl rfl
  | nose =>
    unfold stopOrGo at h
    simp only at h
    split at h
    · cases h
    · cases h; exact Or.inl rfl
  | lam target =>
    unfold stopOrGo at h
    simp only at h
    split at h
    · cases h
    · split at h
      · cases h
      · split at h
        · rename_i h1
          cases h
          exact Or.inr ⟨rfl, rfl, Or.inr ⟨target, rfl, decide_eq_true_iff.1 h1, rfl⟩⟩
        · cases h; exact Or.inl rfl

/-- **C63, step size.** With a positive error tolerance and `0 < CPF_STEP_MIN <= CPF_STEP <= CPF_STEP_MAX`, at every point of every trace the step
is within the bounds as long as step adaptation is on. -/
theorem C63_step (n : Net B) (stopAt : StopAt) (o : Adapt) (ht : 0 < o.errTol) (h0 : 0 < o.stepMin) (s0 s : St B)
    (hs0 : ∃ x, s0.ctl.step = some x ∧ o.stepMin ≤ x ∧ x ≤ o.stepMax) (h : Reach n stopAt o s0 s) (ha : s.ctl.adapt = true) :
    ∃ x, s.ctl.step = some x ∧ o.stepMin ≤ x ∧ x ≤ o.stepMax := by
  induction h with
  | start => exact hs0
  | next s s' _ hp ih =>
    rcases pass_accept n stopAt o s with ⟨k, i, p, hf⟩ | ⟨step, p0, z, p, hst, -, -, -, hacc⟩
    · rw [hf] at hp; cases hp
    · rw [hacc] at hp
      obtain ⟨c, hc, hctl, -⟩ := accept_next _ _ _ _ _ _ _ _ _ hp
      rcases stopOrGo_some _ _ _ _ _ _ hc with rfl | ⟨hca, -⟩
      · rw [hctl] at ha ⊢
        unfold adaptCtl at ha ⊢
        by_cases hcc : s.ctl.adapt = true
        · rw [if_pos hcc]
          obtain ⟨x, hx, hx1, hx2⟩ := ih hcc
          simp only [hx, Option.bind_some]
          exact adaptStep_bounds o _ x (normInf_nonneg _) ht h0 hx1 hx2
        · rw [if_neg hcc] at ha; exact absurd ha hcc
      · rw [hctl] at ha
        unfold adaptCtl at ha
        rw [if_neg (by simp [hca])] at ha
        rw [hca] at ha; cases ha

/-- **C63, the final steps.** When a pass switches step adaptation off, the next step is a natural one of exactly the remaining distance to the
target (or to lambda = 0), shorter than the step just made. -/
theorem C63_final_step (n : Net B) (stopAt : StopAt) (o : Adapt) (s s' : St B) (hp : pass n stopAt o s = .next s') (ha : s.ctl.adapt = true)
    (ha' : s'.ctl.adapt = false) :
    s'.ctl.par = .natural ∧ ∃ step d, s.ctl.step = some step ∧ s'.ctl.step = some d ∧ d < step
      ∧ ((stopAt = .full ∧ d = s'.cur.2) ∨ ∃ target, stopAt = .lam target ∧ d = target - s'.cur.2) := by
  rcases pass_accept n stopAt o s with ⟨k, i, p, hf⟩ | ⟨step, p0, z, p, hst, -, -, -, hacc⟩
  · rw [hf] at hp; cases hp
  · rw [hacc] at hp
    obtain ⟨c, hc, hctl, hcur, -⟩ := accept_next _ _ _ _ _ _ _ _ _ hp
    rcases stopOrGo_some _ _ _ _ _ _ hc with rfl | ⟨hca, hpar, hd⟩
    · rw [hctl] at ha'
      unfold adaptCtl at ha'
      rw [if_pos ha] at ha'
      simp only at ha'
      rw [ha] at ha'; cases ha'
    · have he : s'.ctl = c := by
        rw [hctl]; unfold adaptCtl; rw [if_neg (by simp [hca])]
      rw [he, hcur]
      refine ⟨hpar, ?_⟩
      rcases hd with ⟨h1, -, h3, h4⟩ | ⟨target, h1, h2, h3⟩
      · exact ⟨step, p.2, hst, h4, h3, Or.inl ⟨h1, rfl⟩⟩
      · exact ⟨step, target - p.2, hst, h3, by linarith, Or.inr ⟨target, h1, rfl⟩⟩

/-! ## History and stopping -/

theorem recorded_step (n : Net B) (V0 : B → ℂ) (s s' : St B) (p0 p : Pt B) (h : Recorded n V0 s) (hc : OnCurve n.Y n.S n.X n.pv n.pq n.tol p)
    (h1 : s'.cur = p) (h2 : s'.prv = s.cur) (h3 : s'.k = s.k + 1) (h4 : s'.hist = s.hist ++ [⟨p0, p⟩]) : Recorded n V0 s' := by
  have hl := h.len
  refine ⟨by rw [h4, h3]; simp [hl], ?_, ?_, ?_, ?_⟩
  · rw [h4, List.getElem?_append_left (by omega)]; exact h.base
  · refine ⟨⟨p0, p⟩, ?_, h1.symm⟩
    rw [h4, h3, List.getElem?_append_right (by omega), hl]; simp
  · obtain ⟨e, he, hec⟩ := h.last
    refine ⟨e, ?_, by rw [h2, hec]⟩
    rw [h4, h3, Nat.add_sub_cancel, List.getElem?_append_left (by omega), he]
  · intro j e hj he
    rw [h4] at he
    by_cases hjl : j < s.hist.length
    · rw [List.getElem?_append_left hjl] at he
      exact h.curve j e hj he
    · rw [List.getElem?_append_right (by omega)] at he
      have : j - s.hist.length = 0 := by
        by_contra hne
        rw [List.getElem?_eq_none (by simp; omega)] at he
        cases he
      rw [this] at he
      cases he
      exact hc

theorem recorded_start (n : Net B) (V0 : B → ℂ) (c : Ctl) : Recorded n V0 (start V0 c) := by
  refine ⟨rfl, rfl, ⟨_, rfl, rfl⟩, ⟨_, rfl, rfl⟩, ?_⟩
  intro j e hj he
  rw [start, List.getElem?_eq_none (by simp; omega)] at he
  cases he

theorem recorded_reach (n : Net B) (stopAt : StopAt) (o : Adapt) (V0 : B → ℂ) (c : Ctl) (s : St B) (h : Reach n stopAt o (start V0 c) s) :
    Recorded n V0 s := by
  induction h with
  | start => exact recorded_start n V0 c
  | next s s' _ hp ih =>
    rcases pass_accept n stopAt o s with ⟨k, i, p, hf⟩ | ⟨step, p0, z, p, -, -, hcurve, -, hacc⟩
    · rw [hf] at hp; cases hp
    · rw [hacc] at hp
      obtain ⟨c, -, -, h1, h2, -, h3, h4⟩ := accept_next _ _ _ _ _ _ _ _ _ hp
      exact recorded_step n V0 s s' p0 p ih hcurve h1 h2 h3 h4

/-- A finished trace is a reached state and its last pass. -/
theorem trace_reach (n : Net B) (stopAt : StopAt) (o : Adapt) (fuel : Nat) (s0 s : St B) (r : Pass B) (hr : Reach n stopAt o s0 s)
    (h : trace n stopAt o fuel s = some r) : ∃ s', Reach n stopAt o s0 s' ∧ pass n stopAt o s' = r ∧ ∀ s'', r ≠ .next s'' := by
  induction fuel generalizing s with
  | zero => cases h
  | succ fuel ih =>
    unfold trace at h
    cases hp : pass n stopAt o s with
    | next s' => rw [hp] at h; exact ih s' (.next s s' hr hp) h
    | done s' =>
      rw [hp] at h
      cases h
      exact ⟨s, hr, hp, fun _ hc => by cases hc⟩
    | fail k i p =>
      rw [hp] at h
      cases h
      exact ⟨s, hr, hp, fun _ hc => by cases hc⟩

/-- **C63, stopping and history.** If the continuation power flow returns with success: the last point satisfies the requested stopping condition;
no earlier one does; the history has `iterations + 1` entries, the first is the base solution at lambda = 0, the last the returned voltages and
lambda; every point after the first is on the curve within tolerance; `max_lam` is the largest lambda recorded. -/
theorem C63 (n : Net B) (stopAt : StopAt) (o : Adapt) (c : Ctl) (V0 : B → ℂ) (fuel : Nat) (r : Report B)
    (h : runcpf n stopAt o c V0 fuel = some (some r)) (hs : r.success = true) :
    ∃ Vb V lam e m, r.hist.length = r.iterations + 1 ∧ 0 < r.iterations
      ∧ r.hist[0]? = some ⟨(Vb, 0), (Vb, 0)⟩ ∧ r.hist[r.iterations]? = some e ∧ e.c = (V, lam) ∧ r.V = some V ∧ r.lam = some lam
      ∧ (∀ (j : Nat) (x y : Entry B), r.hist[j]? = some x → r.hist[j + 1]? = some y →
          OnCurve n.Y n.S n.X n.pv n.pq n.tol y.c ∧ (Stop stopAt y.c.2 x.c.2 ↔ j + 1 = r.iterations))
      ∧ r.maxLam = some m ∧ (∀ x ∈ r.hist, x.c.2 ≤ m) ∧ ∃ x ∈ r.hist, x.c.2 = m := by
  unfold runcpf at h
  cases hn : newtonpf n.lin n.Y n.S V0 n.pv n.pq n.tol n.maxIt with
  | none => rw [hn] at h; cases h
  | some pf =>
    rw [hn] at h
    simp only [Option.bind_eq_bind, Option.bind_some] at h
    split at h
    · cases h
    · cases hV : pf.V with
      | none =>
        rw [hV] at h
        simp only [Option.some.injEq] at h
        rw [← h] at hs
        cases hs
      | some Vb =>
        rw [hV] at h
        simp only [Option.some.injEq] at h
        obtain ⟨q, hq, rfl⟩ := Option.map_eq_some_iff.1 h
        cases q with
        | next s => cases hs
        | fail k i p => cases hs
        | done s =>
          obtain ⟨s', hr, hp, -⟩ := trace_reach n stopAt o fuel _ _ _ .start hq
          -- no stop before
          have hno : ∀ s'', Reach n stopAt o (start Vb c) s'' → ∀ (j : Nat) (x y : Entry B), s''.hist[j]? = some x → s''.hist[j + 1]? = some y →
              ¬ Stop stopAt y.c.2 x.c.2 := by
            intro s'' hr''
            induction hr'' with
            | start =>
              intro j x y hx hy
              rw [start, List.getElem?_eq_none (by simp)] at hy
              cases hy
            | next t t' ht hpt ih =>
              have hrec := recorded_reach n stopAt o Vb c t ht
              rcases pass_accept n stopAt o t with ⟨k, i, p, hf⟩ | ⟨step, p0, z, p, -, -, -, -, hacc⟩
              · rw [hf] at hpt; cases hpt
              · rw [hacc] at hpt
                obtain ⟨c', hc', -, h1, h2, -, h3, h4⟩ := accept_next _ _ _ _ _ _ _ _ _ hpt
                have hns : ¬ Stop stopAt p.2 t.cur.2 := fun hst => by
                  rw [(stopOrGo_none _ _ _ _ _).2 hst] at hc'; cases hc'
                intro j x y hx hy
                rw [h4] at hx hy
                by_cases hj : j + 1 < t.hist.length
                · rw [List.getElem?_append_left hj] at hy
                  rw [List.getElem?_append_left (by omega)] at hx
                  exact ih j x y hx hy
                · have hj1 : j + 1 < (t.hist ++ [(⟨p0, p⟩ : Entry B)]).length := (List.getElem?_eq_some_iff.1 hy).1
                  rw [List.length_append, List.length_singleton] at hj1
                  have hlen := hrec.len
                  have hjk : j = t.k := by omega
                  subst hjk
                  rw [List.getElem?_append_right (by omega), hlen, Nat.sub_self] at hy
                  cases hy
                  rw [List.getElem?_append_left (by omega)] at hx
                  obtain ⟨e, he, hec⟩ := hrec.last
                  rw [hx] at he
                  cases he
                  rw [hec]
                  exact hns
          rcases pass_accept n stopAt o s' with ⟨k, i, p, hf⟩ | ⟨step, p0, z, p, -, -, hcurve, -, hacc⟩
          · rw [hf] at hp; cases hp
          · rw [hacc] at hp
            obtain ⟨hstop, h1, h2, h3, h4⟩ := accept_done _ _ _ _ _ _ _ _ _ hp
            have hrec' := recorded_reach n stopAt o Vb c s' hr
            have hrec := recorded_step n Vb s' s p0 p hrec' hcurve h1 h2 h3 h4
            obtain ⟨e, he, hec⟩ := hrec.last
            have hne : s.hist.map (fun e => e.c.2) ≠ [] := by rw [h4]; simp
            obtain ⟨m, hm⟩ : ∃ m, (s.hist.map fun e => e.c.2).max? = some m := by
              cases hmm : (s.hist.map fun e => e.c.2).max? with
              | none => exact absurd (List.max?_eq_none_iff.1 hmm) hne
              | some m => exact ⟨m, rfl⟩
            refine ⟨Vb, s.cur.1, s.cur.2, e, m, hrec.len, by show 0 < s.k; omega, hrec.base, he, hec, rfl, rfl, ?_, hm, ?_, ?_⟩
            · intro j x y hx hy
              refine ⟨hrec.curve (j + 1) y (by omega) hy, ?_⟩
              show _ ↔ j + 1 = s.k
              have hx' : s.hist[j]? = some x := hx
              have hy' : s.hist[j + 1]? = some y := hy
              have hlen := hrec'.len
              rw [h4] at hx' hy'
              constructor
              · intro hst
                by_contra hjk
                have hj1 : j + 1 < (s'.hist ++ [(⟨p0, p⟩ : Entry B)]).length := (List.getElem?_eq_some_iff.1 hy').1
                rw [List.length_append, List.length_singleton] at hj1
                rw [List.getElem?_append_left (by omega)] at hy' hx'
                exact hno s' hr j x y hx' hy' hst
              · intro hjk
                have hj : j = s'.k := by omega
                subst hj
                rw [List.getElem?_append_right (by omega), hlen, Nat.sub_self] at hy'
                cases hy'
                rw [List.getElem?_append_left (by omega)] at hx'
                obtain ⟨e', he', hec'⟩ := hrec'.last
                rw [hx'] at he'
                cases he'
                rw [hec']
                exact hstop
            · intro x hx
              exact (List.max?_eq_some_iff.1 hm).2 _ (List.mem_map.2 ⟨x, hx, rfl⟩)
            · obtain ⟨x, hx, hxm⟩ := List.mem_map.1 (List.max?_eq_some_iff.1 hm).1
              exact ⟨x, hx, hxm⟩

/-- **C63, arriving.** Once the step has been shortened to end at the target, the next pass ends the trace (or the corrector fails), provided
`PF_TOL` is at most 1e-8. -/
theorem C63_arrives (n : Net B) (o : Adapt) (s : St B) (target : ℝ) (htol : n.tol ≤ 1 / 10 ^ 8)
    (hpar : s.ctl.par = .natural) (hstep : s.ctl.step = some (target - s.cur.2)) (s' : St B) : pass n (.lam target) o s ≠ .next s' := by
  intro hp
  rcases pass_accept n (.lam target) o s with ⟨k, i, p, hf⟩ | ⟨step, p0, z, p, hst, -, -, hd, hacc⟩
  · rw [hf] at hp; cases hp
  · rw [hacc] at hp
    obtain ⟨c, hc, -⟩ := accept_next _ _ _ _ _ _ _ _ _ hp
    rw [hstep] at hst
    cases hst
    rw [hpar] at hd
    simp only [distance, required] at hd
    have hns : ¬ Stop (.lam target) p.2 s.cur.2 := fun hst => by
      rw [(stopOrGo_none _ _ _ _ _).2 hst] at hc; cases hc
    unfold Stop at hns
    simp only [not_or, not_lt] at hns
    rw [abs_of_nonneg (show 0 ≤ p.2 - s.cur.2 by linarith [hns.1])] at hd
    have : |target - p.2| < 1 / 10 ^ 8 := by
      rw [abs_sub_comm]
      refine lt_of_lt_of_le ?_ htol
      calc |p.2 - target| = |p.2 - s.cur.2 - (target - s.cur.2)| := by ring_nf
        _ < n.tol := hd
    linarith [hns.2]

/-- **C63, negation.** A trace to a target lambda that steps past the target by 1e-8 or more can only fail: the next step is negative and no point is
at a negative distance. The call then reports failure although it may have passed the target on the curve. -/
theorem C63_overshoot_negation (n : Net B) (o : Adapt) (s s' : St B) (target : ℝ) (htol : n.tol ≤ 1 / 10 ^ 8)
    (hstep : ∀ x, s.ctl.step = some x → 0 < x) (hp : pass n (.lam target) o s = .next s') (hover : target + 1 / 10 ^ 8 ≤ s'.cur.2) (fuel : Nat) :
    ∃ k i p, trace n (.lam target) o (fuel + 1) s' = some (.fail k i p) := by
  have hf' : ∃ k i p, pass n (.lam target) o s' = .fail k i p := by
    rcases pass_accept n (.lam target) o s with ⟨k, i, p, hf⟩ | ⟨step, p0, z, p, hst, -, -, -, hacc⟩
    · rw [hf] at hp; cases hp
    · rw [hacc] at hp
      obtain ⟨c, hc, hctl, hcur, -⟩ := accept_next _ _ _ _ _ _ _ _ _ hp
      rw [hcur] at hover
      have hpos := hstep step hst
      have hc' : c = ⟨some (target - p.2), .natural, false⟩ := by
        unfold stopOrGo at hc
        simp only at hc
        split at hc
        · cases hc
        · split at hc
          · cases hc
          · split at hc
            · cases hc; rfl
            · rename_i h1
              exact absurd (decide_eq_true_iff.2 (by linarith [show (0 : ℝ) < 1 / 10 ^ 8 by norm_num])) h1
      have hctl' : s'.ctl = ⟨some (target - p.2), .natural, false⟩ := by
        rw [hctl, hc']; rfl
      rcases pass_accept n (.lam target) o s' with hf | ⟨step', p0', z', p', hst', -, -, hd, -⟩
      · exact hf
      · exfalso
        rw [hctl'] at hst' hd
        cases hst'
        simp only [distance, required, hcur] at hd
        have h1 := abs_nonneg (p'.2 - p.2)
        rw [abs_of_nonneg (by linarith [show (0 : ℝ) < 1 / 10 ^ 8 by norm_num])] at hd
        linarith
  obtain ⟨k, i, p, hf⟩ := hf'
  refine ⟨k, i, p, ?_⟩
  unfold trace
  rw [hf]

/-- **C63, negation.** Identical base and target case: the call raises. -/
theorem C63_identical_negation (n : Net B) (stopAt : StopAt) (o : Adapt) (c : Ctl) (V0 : B → ℂ) (fuel : Nat) (h : n.X = 0) :
    runcpf n stopAt o c V0 fuel = none := by
  unfold runcpf
  cases newtonpf n.lin n.Y n.S V0 n.pv n.pq n.tol n.maxIt with
  | none => rfl
  | some r => simp [h]

end

end Verif.Cpf
