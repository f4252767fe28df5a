import Verif.Cpf.Trace

/-!
# Voltages that the continuation power flow does not change
-/

open Matrix ComplexConjugate

namespace Verif.Cpf

open Verif.Solvers

set_option linter.unusedSectionVars false

variable {B : Type} [Fintype B] [DecidableEq B]

/-- Voltages of buses that are neither PV nor PQ, and magnitudes of buses that are not PQ, are those of `V0`. -/
def Kept (pv pq : List B) (V0 V : B → ℂ) : Prop := (∀ b, b ∉ pv → b ∉ pq → V b = V0 b) ∧ ∀ b, b ∉ pq → ‖V b‖ = ‖V0 b‖

theorem Kept.trans {pv pq : List B} {V0 V1 V2 : B → ℂ} (h1 : Kept pv pq V0 V1) (h2 : Kept pv pq V1 V2) : Kept pv pq V0 V2 :=
  ⟨fun b hv hq => (h2.1 b hv hq).trans (h1.1 b hv hq), fun b hq => (h2.2 b hq).trans (h1.2 b hq)⟩

theorem advance_kept (pv pq : List B) (p : Pt B) (step : ℝ) (z : Tan B) : Kept pv pq p.1 (advance pv pq p step z).1 := by
  constructor
  · intro b hv hq
    show polar _ _ b = _
    rw [← polar_arg p.1 b]
    unfold polar
    rw [addAt_of_not_mem _ _ _ b hq, addAt_of_not_mem _ _ _ b (by simp [hv, hq])]
  · intro b hq
    show ‖polar _ _ b‖ = _
    unfold polar
    rw [addAt_of_not_mem _ _ _ b hq, mul_comm Complex.I, norm_mul, Complex.norm_exp_ofReal_mul_I, mul_one, Complex.norm_real, norm_norm]

theorem predictor_kept {n : Net B} {p : Pt B} {step : ℝ} {z : Tan B} {prv : Pt B} {par : Par} {p0 : Pt B} {z' : Tan B}
    (h : predictor n p step z prv par = some (p0, z')) : Kept n.pv n.pq p.1 p0.1 := by
  unfold predictor at h
  simp only [Option.bind_eq_bind, Option.bind_eq_some_iff, Option.pure_def, Option.some.injEq, Prod.mk.injEq] at h
  obtain ⟨x, -, z1, -, h1, -⟩ := h
  rw [← h1]
  exact advance_kept _ _ _ _ _

theorem pass_kept {n : Net B} {stopAt : StopAt} {o : Adapt} {s s' : St B} (hp : pass n stopAt o s = .next s' ∨ pass n stopAt o s = .done s') :
    ∃ p0 p : Pt B, s'.cur = p ∧ s'.hist = s.hist ++ [⟨p0, p⟩] ∧ Kept n.pv n.pq s.cur.1 p0.1 ∧ Kept n.pv n.pq s.cur.1 p.1 := by
  unfold pass at hp
  cases hs : s.ctl.step with
  | none => rw [hs] at hp; simp at hp
  | some step =>
    rw [hs] at hp
    simp only at hp
    cases hpr : predictor n s.cur step s.z s.prv s.ctl.par with
    | none => rw [hpr] at hp; simp at hp
    | some pz =>
      obtain ⟨p0, z⟩ := pz
      rw [hpr] at hp
      simp only at hp
      unfold correct at hp
      rcases hr : corrector n ⟨s.ctl.par, step, z, s.cur⟩ (some p0) with ⟨r, conv, i⟩
      have hc := (C61 n _ p0 r conv i hr).2.2.2
      rw [hr] at hp
      have h0 := predictor_kept hpr
      cases r with
      | none => simp at hp
      | some p =>
        cases conv with
        | false => simp at hp
        | true =>
          simp only at hp
          have h1 : Kept n.pv n.pq p0.1 p.1 := hc p rfl
          rcases hp with hp | hp
          · obtain ⟨-, -, -, e1, -, -, -, e2⟩ := accept_next _ _ _ _ _ _ _ _ _ hp
            exact ⟨p0, p, e1, e2, h0, h0.trans h1⟩
          · obtain ⟨-, e1, -, -, e2⟩ := accept_done _ _ _ _ _ _ _ _ _ hp
            exact ⟨p0, p, e1, e2, h0, h0.trans h1⟩

/-- Every recorded point, predicted or corrected, keeps the voltages. -/
def AllKept (n : Net B) (V0 : B → ℂ) (s : St B) : Prop :=
  Kept n.pv n.pq V0 s.cur.1 ∧ ∀ e ∈ s.hist, Kept n.pv n.pq V0 e.p.1 ∧ Kept n.pv n.pq V0 e.c.1

theorem allKept_step {n : Net B} {stopAt : StopAt} {o : Adapt} {V0 : B → ℂ} {s s' : St B}
    (hp : pass n stopAt o s = .next s' ∨ pass n stopAt o s = .done s') (h : AllKept n V0 s) : AllKept n V0 s' := by
  obtain ⟨p0, p, e1, e2, k1, k2⟩ := pass_kept hp
  refine ⟨by rw [e1]; exact h.1.trans k2, fun e he => ?_⟩
  rw [e2, List.mem_append, List.mem_singleton] at he
  rcases he with he | rfl
  · exact h.2 e he
  · exact ⟨h.1.trans k1, h.1.trans k2⟩

theorem allKept_reach {n : Net B} {stopAt : StopAt} {o : Adapt} {V0 : B → ℂ} {s0 s : St B} (hr : Reach n stopAt o s0 s) (h : AllKept n V0 s0) : AllKept n V0 s := by
  induction hr with
  | start => exact h
  | next s s' _ hp ih => exact allKept_step (Or.inl hp) ih

/-- **C63, controlled voltages.** Along the whole reported curve, predicted or corrected, the voltages of reference buses and the magnitudes of PV buses are
those the run started from. -/
theorem C63_controlled (n : Net B) (stopAt : StopAt) (o : Adapt) (c : Ctl) (V0 : B → ℂ) (fuel : Nat) (r : Report B)
    (h : runcpf n stopAt o c V0 fuel = some (some r)) (hs : r.success = true) :
    (∀ V, r.V = some V → Kept n.pv n.pq V0 V) ∧ ∀ e ∈ r.hist, Kept n.pv n.pq V0 e.p.1 ∧ Kept n.pv n.pq V0 e.c.1 := by
  unfold runcpf at h
  cases hn : newtonpf n.lin n.Y n.S V0 n.pv n.pq n.tol n.maxIt with
  | none => rw [hn] at h; cases h
  | some pf =>
    rw [hn] at h
    simp only [Option.bind_eq_bind, Option.bind_some] at h
    split at h
    · cases h
    · cases hV : pf.V with
      | none =>
        rw [hV] at h
        simp only [Option.some.injEq] at h
        rw [← h] at hs
        cases hs
      | some Vb =>
        rw [hV] at h
        simp only [Option.some.injEq] at h
        obtain ⟨q, hq, rfl⟩ := Option.map_eq_some_iff.1 h
        have hb : Kept n.pv n.pq V0 Vb :=
          ⟨(C30 n.lin n.Y n.S V0 n.pv n.pq n.tol n.maxIt pf hn).2.2.2.1 Vb hV, (C30 n.lin n.Y n.S V0 n.pv n.pq n.tol n.maxIt pf hn).2.2.2.2 Vb hV⟩
        cases q with
        | next s => cases hs
        | fail k i p => cases hs
        | done s =>
          obtain ⟨s', hr, hp, -⟩ := trace_reach n stopAt o fuel _ _ _ .start hq
          have h0 : AllKept n V0 (start Vb c) := ⟨hb, fun e he => by
            simp only [start, List.mem_singleton] at he
            subst he
            exact ⟨hb, hb⟩⟩
          have h1 := allKept_step (Or.inr hp) (allKept_reach hr h0)
          refine ⟨fun V hV => ?_, h1.2⟩
          have : s.cur.1 = V := Option.some_injective _ hV
          rw [← this]
          exact h1.1

end Verif.Cpf
