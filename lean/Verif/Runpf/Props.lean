import Verif.Runpf.Model
import Verif.Pfsoln.Props
import Verif.Solvers.Props

/-!
# C33, C65, C70: the power flow driver
-/

open Matrix ComplexConjugate

namespace Verif.Runpf

open Verif.Network Verif.Pfsoln Verif.Solvers

set_option linter.unusedSectionVars false

variable {B L : Type} [Fintype B] [Fintype L] [DecidableEq B] [DecidableEq L] {ng : Nat}

/-! ## C33 -/

/-- **C33** (partial: the enforcement loop itself never gets past its first violation, see `C33_negation`).  If a power flow with reactive limit enforcement returns,
its result is that of the same power flow without enforcement, and every in-service generator is within its limits (up to `OPF_VIOLATION`). -/
theorem C33_partial (EPS viol : ℝ) (solve : Solver B) (c : Case B L ng) (r : Result B L ng) (h : runAC EPS viol true solve c = some r) :
    runAC EPS viol false solve c = some r ∧
    ∀ o, r = .ok o → ∀ g, (c.gen g).stat > 0 → (c.gen g).QMIN - viol ≤ o.QG g ∧ o.QG g ≤ (c.gen g).QMAX + viol := by
  unfold runAC at *
  cases hV : initialV c with
  | none => rw [hV] at h; injection h with h; subst h; exact ⟨rfl, fun o ho => by cases ho⟩
  | some V0 =>
    rw [hV] at h
    dsimp only at *
    cases hs : solve (makeSbus c.baseMVA c.bus fun g => (c.gen g).toGen) V0 with
    | none => rw [hs] at h; simp at h
    | some q =>
      rw [hs] at h
      simp only [Option.bind_some] at *
      unfold finish at *
      cases hq : q.V with
      | none => rw [hq] at h; injection h with h; subst h; exact ⟨rfl, fun o ho => by cases ho⟩
      | some V =>
        rw [hq] at h
        dsimp only at *
        cases ho : solution EPS c V q.converged with
        | none => rw [ho] at h; simp at h
        | some o =>
          rw [ho] at h
          simp only [Option.bind_some] at *
          by_cases hv : violation viol c o
          · simp [hv] at h
          · simp only [hv, decide_false, and_false, if_false, Bool.false_eq_true, Option.some.injEq] at h ⊢
            refine ⟨h, fun o' ho' g hg => ?_⟩
            rw [← h] at ho'
            injection ho' with ho'
            subst ho'
            unfold violation at hv
            push Not at hv
            obtain ⟨h1, h2⟩ := hv g hg
            exact ⟨h2, h1⟩

/-- **C33, negation.** Whenever the power flow without enforcement ends with some in-service generator outside its limits, the call with enforcement raises:
no generator is ever fixed at its limit. -/
theorem C33_negation (EPS viol : ℝ) (solve : Solver B) (c : Case B L ng) (o : Out B L ng) (h : runAC EPS viol false solve c = some (.ok o))
    (hv : ∃ g, (c.gen g).stat > 0 ∧ (o.QG g > (c.gen g).QMAX + viol ∨ o.QG g < (c.gen g).QMIN - viol)) :
    runAC EPS viol true solve c = none := by
  cases hr : runAC EPS viol true solve c with
  | none => rfl
  | some r =>
    obtain ⟨h1, h2⟩ := C33_partial EPS viol solve c r hr
    rw [h] at h1
    injection h1 with h1
    obtain ⟨g, hg, hq⟩ := hv
    obtain ⟨h3, h4⟩ := h2 o h1.symm g hg
    rcases hq with hq | hq
    · exact absurd h4 (not_le.2 hq)
    · exact absurd h3 (not_le.2 hq)

/-- A two-bus case without branches: bus 0 is the reference with a generator, bus 1 is PQ, no load. -/
noncomputable def exCase (qmax : ℝ) : Case (Fin 2) (Fin 0) 1 :=
  { baseMVA := 1
    bus := fun _ => { GS := 0, BS := 0, PD := 0, QD := 0 }
    VM := fun _ => 1
    VA := fun _ => 0
    gen := fun _ => { bus := 0, PG := 0, QG := 0, stat := 1, QMIN := -5, QMAX := qmax }
    VG := fun _ => 1
    branch := fun l => l.elim0
    ref := [0], pv := [], pq := [1] }

theorem exFlat (q : ℝ) (b : Fin 2) : flat (exCase q) b = 1 := by simp [flat, exCase]

theorem exInitial (q : ℝ) : initialV (exCase q) = some fun _ => 1 := by
  unfold initialV
  rw [if_neg (by simp [exFlat])]
  congr 1
  funext b
  cases h : (setters (exCase q) b).getLast? with
  | none => simp [exFlat]
  | some g => simp [exFlat]; simp [exCase]

theorem exQ (q : ℝ) : newQG 0 1 (exCase q).bus (exCase q).gen (Ybus 1 (exCase q).bus (exCase q).branch) (fun _ => 1) 0 = 0 := by
  have hY : Ybus 1 (exCase q).bus (exCase q).branch = 0 := by
    ext i j
    simp [Ybus, Cf, Ct, coo, Ysh, exCase]
  have hlen : (onList (exCase q).gen).length = 1 := by
    have : onList (exCase q).gen = [0] := by simp [onList, exCase]; rfl
    rw [this]; rfl
  unfold newQG
  rw [hlen, hY]
  simp [qTotal, Sinj, exCase]

theorem exRun (q : ℝ) : ∃ o, runAC 0 0 false (fun _ V => some ⟨some V, true, 0⟩) (exCase q) = some (.ok o) ∧ o.QG 0 = 0 ∧ o.success = true := by
  have hex : ∃ PG', newPG 1 (exCase q).bus (exCase q).gen (Ybus 1 (exCase q).bus (exCase q).branch) (fun _ => 1) [0] (fun g => ((exCase q).gen g).PG) = some PG' := by
    rw [(slackPG 1 (exCase q).bus (exCase q).gen _ (fun _ => 1) [0]).2]
    intro r hr
    rw [List.mem_singleton] at hr
    subst hr
    exact ⟨0, by simp [exCase], rfl⟩
  obtain ⟨PG', hPG⟩ := hex
  have hsol : ∃ o, solution 0 (exCase q) (fun _ => 1) true = some o ∧ o.QG 0 = 0 ∧ o.success = true := by
    unfold solution
    rw [show newPG (exCase q).baseMVA (exCase q).bus (exCase q).gen (Ybus (exCase q).baseMVA (exCase q).bus (exCase q).branch) (fun _ => 1) (exCase q).ref
      (fun g => ((exCase q).gen g).PG) = some PG' from hPG]
    exact ⟨_, rfl, exQ q, rfl⟩
  obtain ⟨o, ho, hQ, hs⟩ := hsol
  refine ⟨o, ?_, hQ, hs⟩
  unfold runAC
  rw [exInitial]
  simp [finish, ho]

/-- Non-vacuity of C33_negation: a converged case whose generator is above its upper limit (0 > -1): with enforcement the call raises. -/
example : runAC 0 0 true (fun _ V => some ⟨some V, true, 0⟩) (exCase (-1)) = none := by
  obtain ⟨o, ho, hq, -⟩ := exRun (-1)
  refine C33_negation 0 0 _ _ o ho ⟨0, by simp [exCase], Or.inl ?_⟩
  rw [hq]
  simp [exCase]

/-! ## C70 -/

/-- **C70.** A successful Newton power flow, from the case tables to the reported tables.  With positive `baseMVA`, reference buses that are neither PV nor PQ, and
nonzero initial magnitudes at generator buses:
the reported magnitudes and angles are those of the voltages; at every reference bus reported generation minus demand equals the power injected into the network;
at every PV and PQ bus (not a reference) it does within `tol * baseMVA`; at every PQ bus the specified reactive injection does within `tol * baseMVA`;
at every bus that is not PQ the reported magnitude is the set point `VG` (absolute value) of the last in-service generator there, or the given magnitude if there is none. -/
theorem C70 (EPS viol tol : ℝ) (maxIt : Nat) (qlim : Bool) (lin : LinSolver B) (c : Case B L ng) (o : Out B L ng) (hb : 0 < c.baseMVA)
    (hrun : runAC EPS viol qlim (fun S V0 => newtonpf lin (Ybus c.baseMVA c.bus c.branch) S V0 c.pv c.pq tol maxIt) c = some (.ok o))
    (hs : o.success = true) :
    (∀ b, o.V b = (o.VM b : ℂ) * Complex.exp (Complex.I * ((o.VA b * Real.pi / 180 : ℝ) : ℂ))) ∧
    (∀ r ∈ c.ref, (∑ g with (c.gen g).stat > 0 ∧ (c.gen g).bus = r, o.PG g) - (c.bus r).PD =
      (o.V r * conj (∑ j, Ybus c.baseMVA c.bus c.branch r j * o.V j)).re * c.baseMVA) ∧
    (∀ b, b ∈ c.pv ∨ b ∈ c.pq → b ∉ c.ref →
      |(o.V b * conj (∑ j, Ybus c.baseMVA c.bus c.branch b j * o.V j)).re * c.baseMVA -
        ((∑ g with (c.gen g).stat > 0 ∧ (c.gen g).bus = b, o.PG g) - (c.bus b).PD)| < tol * c.baseMVA) ∧
    (∀ b ∈ c.pq,
      |(o.V b * conj (∑ j, Ybus c.baseMVA c.bus c.branch b j * o.V j)).im * c.baseMVA -
        ((∑ g with (c.gen g).stat > 0 ∧ (c.gen g).bus = b, (c.gen g).QG) - (c.bus b).QD)| < tol * c.baseMVA) ∧
    (∀ b, b ∉ c.pq → ∀ g, (c.gen g).stat > 0 → (c.gen g).bus = b → (∀ g', g < g' → ¬ ((c.gen g').stat > 0 ∧ (c.gen g').bus = b)) → o.VM b = |c.VG g|) ∧
    (∀ b, b ∉ c.pq → (∀ g, ¬ ((c.gen g).stat > 0 ∧ (c.gen g).bus = b)) → o.VM b = |c.VM b|) := by
  unfold runAC at hrun
  cases hV : initialV c with
  | none => rw [hV] at hrun; simp at hrun
  | some V0 =>
  rw [hV] at hrun
  dsimp only at hrun
  cases hn : newtonpf lin (Ybus c.baseMVA c.bus c.branch) (makeSbus c.baseMVA c.bus fun g => (c.gen g).toGen) V0 c.pv c.pq tol maxIt with
  | none => rw [hn] at hrun; simp at hrun
  | some q =>
  rw [hn] at hrun
  simp only [Option.bind_some] at hrun
  unfold finish at hrun
  cases hq : q.V with
  | none => rw [hq] at hrun; simp at hrun
  | some V =>
  rw [hq] at hrun
  dsimp only at hrun
  cases hPG : newPG c.baseMVA c.bus c.gen (Ybus c.baseMVA c.bus c.branch) V c.ref fun g => (c.gen g).PG with
  | none => simp [solution, hPG] at hrun
  | some PG =>
  simp only [solution, hPG, Option.map_some, Option.bind_some] at hrun
  split at hrun
  · simp at hrun
  injection hrun with hrun
  injection hrun with hrun
  subst hrun
  dsimp only at hs ⊢
  obtain ⟨hconv, -, -, -, hmag⟩ := C30 lin _ _ V0 c.pv c.pq tol maxIt q hn
  obtain ⟨V', hV', hsol⟩ := hconv hs
  rw [hq] at hV'
  injection hV' with hV'
  subst hV'
  obtain ⟨hslack, hother⟩ := (slackPG c.baseMVA c.bus c.gen (Ybus c.baseMVA c.bus c.branch) V c.ref).1 PG hPG
  -- the initial voltages
  have hflat : ∀ b, ‖flat c b‖ = |c.VM b| := by
    intro b
    unfold flat
    rw [norm_mul, mul_comm Complex.I, Complex.norm_exp_ofReal_mul_I, mul_one, Complex.norm_real, Real.norm_eq_abs]
  have hmem : ∀ b g, g ∈ setters c b ↔ ((c.gen g).stat > 0 ∧ (c.gen g).bus = b) ∧ b ∉ c.pq := by
    intro b g
    unfold setters onList
    simp only [List.mem_filter, List.mem_finRange, true_and, decide_eq_true_eq]
    tauto
  unfold initialV at hV
  split at hV
  · simp at hV
  rename_i hnz
  injection hV with hV
  have hbase : ∀ z : ℂ, (z / (c.baseMVA : ℂ)).re = z.re / c.baseMVA ∧ (z / (c.baseMVA : ℂ)).im = z.im / c.baseMVA := fun z =>
    ⟨Complex.div_ofReal_re z _, Complex.div_ofReal_im z _⟩
  have hsbus := fun b => C27_injections c.baseMVA c.bus (fun g => (c.gen g).toGen) b
  have hre : ∀ b, (makeSbus c.baseMVA c.bus (fun g => (c.gen g).toGen) b).re =
      ((∑ g with (c.gen g).stat > 0 ∧ (c.gen g).bus = b, (c.gen g).PG) - (c.bus b).PD) / c.baseMVA := by
    intro b
    rw [hsbus b, (hbase _).1]
    simp
  have him : ∀ b, (makeSbus c.baseMVA c.bus (fun g => (c.gen g).toGen) b).im =
      ((∑ g with (c.gen g).stat > 0 ∧ (c.gen g).bus = b, (c.gen g).QG) - (c.bus b).QD) / c.baseMVA := by
    intro b
    rw [hsbus b, (hbase _).2]
    simp
  refine ⟨?_, ?_, ?_, ?_, ?_, ?_⟩
  · intro b
    have hpi := Real.pi_ne_zero
    have : (V b).arg * 180 / Real.pi * Real.pi / 180 = (V b).arg := by field_simp
    rw [this, mul_comm Complex.I]
    exact (Complex.norm_mul_exp_arg_mul_I (V b)).symm
  · intro r hr
    rw [hslack r hr]
    show (V r * conj (∑ j, Ybus c.baseMVA c.bus c.branch r j * V j)).re * c.baseMVA + _ - _ = _
    ring
  · intro b hbm hbr
    have h1 := hsol.1 b hbm
    rw [Complex.sub_re, hre] at h1
    have hsum : ∑ g with (c.gen g).stat > 0 ∧ (c.gen g).bus = b, PG g = ∑ g with (c.gen g).stat > 0 ∧ (c.gen g).bus = b, (c.gen g).PG := by
      refine Finset.sum_congr rfl fun g hg => ?_
      rw [Finset.mem_filter] at hg
      refine hother g fun r hr hh => ?_
      have : g ∈ refgen c.gen r := List.mem_of_mem_head? hh
      rw [mem_refgen] at this
      exact hbr (by rw [← hg.2.2, this.2]; exact hr)
    rw [hsum]
    have h2 := mul_lt_mul_of_pos_right h1 hb
    rw [← abs_of_pos hb, ← abs_mul, abs_of_pos hb, sub_mul, div_mul_cancel₀ _ hb.ne'] at h2
    exact h2
  · intro b hbm
    have h1 := hsol.2 b hbm
    rw [Complex.sub_im, him] at h1
    have h2 := mul_lt_mul_of_pos_right h1 hb
    rw [← abs_of_pos hb, ← abs_mul, abs_of_pos hb, sub_mul, div_mul_cancel₀ _ hb.ne'] at h2
    exact h2
  · intro b hbq g hg hgb hlast
    rw [hmag V hq b hbq, ← hV]
    have hl : (setters c b).getLast? = some g := by
      have hgm : g ∈ setters c b := (hmem b g).2 ⟨⟨hg, hgb⟩, hbq⟩
      have hsorted : (setters c b).Pairwise (· < ·) := by
        unfold setters onList
        exact ((List.pairwise_lt_finRange ng).filter _).filter _
      cases hcase : (setters c b).getLast? with
      | none => rw [List.getLast?_eq_none_iff] at hcase; rw [hcase] at hgm; simp at hgm
      | some g' =>
        have hg'm : g' ∈ setters c b := List.mem_of_getLast? hcase
        by_contra hne
        have hne' : g ≠ g' := fun e => hne (by rw [e])
        obtain ⟨l, hl⟩ := List.getLast?_eq_some_iff.1 hcase
        rw [hl] at hgm hsorted
        rw [List.mem_append, List.mem_singleton] at hgm
        rcases hgm with hgm | hgm
        · have := (List.pairwise_append.1 hsorted).2.2 g hgm g' (List.mem_singleton.2 rfl)
          exact hlast g' this ((hmem b g').1 hg'm).1
        · exact hne' hgm
    have hn0 : flat c b ≠ 0 := fun h0 => hnz ⟨b, by intro hnil; rw [hnil] at hl; simp at hl, h0⟩
    simp only [hl]
    rw [norm_mul, Complex.norm_real, Real.norm_eq_abs, abs_div, abs_norm, div_mul_cancel₀ _ (norm_ne_zero_iff.2 hn0)]
  · intro b hbq hnone
    rw [hmag V hq b hbq, ← hV]
    have hl : setters c b = [] := by
      rw [List.eq_nil_iff_forall_not_mem]
      intro g hgm
      exact hnone g ((hmem b g).1 hgm).1
    simp only [hl, List.getLast?_nil]
    exact hflat b

/-- Non-vacuity of C70: the two-bus example run with `newtonpf` converges at the start. -/
example : ∃ o, runAC 0 0 false (fun S V0 => newtonpf (fun _ _ _ => none) (Ybus 1 (exCase 1).bus (exCase 1).branch) S V0 (exCase 1).pv (exCase 1).pq 1 10) (exCase 1)
    = some (.ok o) ∧ o.success = true := by
  obtain ⟨o, ho, -, hs⟩ := exRun 1
  refine ⟨o, ?_, hs⟩
  rw [← ho]
  have hY : Ybus 1 (exCase 1).bus (exCase 1).branch = 0 := by
    ext i j
    simp [Ybus, Cf, Ct, coo, Ysh, exCase]
  unfold runAC
  rw [exInitial]
  dsimp only
  rw [C30_start]
  · simp [exCase]
  · rw [hY]
    have hS : makeSbus (exCase 1).baseMVA (exCase 1).bus (fun g => ((exCase 1).gen g).toGen) = 0 := by
      funext b
      rw [C27_injections]
      simp [exCase]
    rw [hS]
    constructor <;> simp

end Verif.Runpf
