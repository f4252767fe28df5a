import Verif.Runpf.Props

/-!
# C70 for every solver, with the branch flows

`C70` (Verif/Runpf/Props) is about Newton's method and the admittance matrix; here the three solvers are treated alike and the balance is that of the reported
flows.
-/

open Matrix ComplexConjugate

namespace Verif.Runpf

open Verif.Network Verif.Pfsoln Verif.Solvers

variable {B L : Type} [Fintype B] [Fintype L] [DecidableEq B] [DecidableEq L] {ng : Nat}

/-- Steps of a run with finite result. -/
theorem runAC_steps {EPS viol : ℝ} {qlim : Bool} {solve : Solver B} {c : Case B L ng} {o : Out B L ng} (hrun : runAC EPS viol qlim solve c = some (.ok o)) :
    ∃ V0 q V PG, initialV c = some V0 ∧ solve (makeSbus c.baseMVA c.bus fun g => (c.gen g).toGen) V0 = some q ∧ q.V = some V ∧
      newPG c.baseMVA c.bus c.gen (Ybus c.baseMVA c.bus c.branch) V c.ref (fun g => (c.gen g).PG) = some PG ∧
      o = { V := V
            VM := fun b => ‖V b‖
            VA := fun b => (V b).arg * 180 / Real.pi
            PG := PG
            QG := newQG EPS c.baseMVA c.bus c.gen (Ybus c.baseMVA c.bus c.branch) V
            Sf := brFrom c.baseMVA c.branch (Yf c.branch) V
            St := brTo c.baseMVA c.branch (Yt c.branch) V
            success := q.converged } := by
  unfold runAC at hrun
  cases hV : initialV c with
  | none => rw [hV] at hrun; simp at hrun
  | some V0 =>
  rw [hV] at hrun
  dsimp only at hrun
  cases hn : solve (makeSbus c.baseMVA c.bus fun g => (c.gen g).toGen) V0 with
  | none => rw [hn] at hrun; simp at hrun
  | some q =>
  rw [hn] at hrun
  simp only [Option.bind_some] at hrun
  unfold finish at hrun
  cases hq : q.V with
  | none => rw [hq] at hrun; simp at hrun
  | some V =>
  rw [hq] at hrun
  dsimp only at hrun
  cases hPG : newPG c.baseMVA c.bus c.gen (Ybus c.baseMVA c.bus c.branch) V c.ref fun g => (c.gen g).PG with
  | none => simp [solution, hPG] at hrun
  | some PG =>
  simp only [solution, hPG, Option.map_some, Option.bind_some] at hrun
  split at hrun
  · simp at hrun
  injection hrun with hrun
  injection hrun with hrun
  exact ⟨V0, q, V, PG, rfl, hn, hq, hPG, hrun.symm⟩

/-- What a solver that reports convergence must guarantee: the mismatches are below `ε`, reference voltages and the magnitudes at buses that are not PQ are untouched. -/
structure Guarantee (solve : Solver B) (Y : Matrix B B ℂ) (pv pq : List B) (ε : (B → ℂ) → B → ℝ) : Prop where
  finite : ∀ S V0 q, solve S V0 = some q → q.converged = true → ∃ V, q.V = some V
  solved : ∀ S V0 q V, solve S V0 = some q → q.V = some V → q.converged = true →
    (∀ b, b ∈ pv ∨ b ∈ pq → |(V b * conj (∑ j, Y b j * V j) - S b).re| < ε V b) ∧ (∀ b ∈ pq, |(V b * conj (∑ j, Y b j * V j) - S b).im| < ε V b)
  ref : ∀ S V0 q V, solve S V0 = some q → q.V = some V → ∀ b, b ∉ pv → b ∉ pq → V b = V0 b
  mag : ∀ S V0 q V, solve S V0 = some q → q.V = some V → ∀ b, b ∉ pq → ‖V b‖ = ‖V0 b‖

theorem newton_guarantee (lin : LinSolver B) (Y : Matrix B B ℂ) (pv pq : List B) (tol : ℝ) (maxIt : ℕ) :
    Guarantee (fun S V0 => newtonpf lin Y S V0 pv pq tol maxIt) Y pv pq fun _ _ => tol where
  finite := fun S V0 q h hc => by
    obtain ⟨V, h1, -⟩ := (C30 lin Y S V0 pv pq tol maxIt q h).1 hc
    exact ⟨V, h1⟩
  solved := fun S V0 q V h hV hc => by
    obtain ⟨V', h1, h2⟩ := (C30 lin Y S V0 pv pq tol maxIt q h).1 hc
    rw [hV] at h1; cases h1
    exact h2
  ref := fun S V0 q V h hV => (C30 lin Y S V0 pv pq tol maxIt q h).2.2.2.1 V hV
  mag := fun S V0 q V h hV => (C30 lin Y S V0 pv pq tol maxIt q h).2.2.2.2 V hV

theorem gauss_guarantee (Y : Matrix B B ℂ) (pv pq : List B) (hd : ∀ b ∈ pq, b ∉ pv) (tol : ℝ) (maxIt : ℕ) :
    Guarantee (fun S V0 => (gausspf Y S V0 pv pq tol maxIt).map Prod.fst) Y pv pq fun _ _ => tol := by
  have key : ∀ {S V0 q}, (gausspf Y S V0 pv pq tol maxIt).map Prod.fst = some q → ∃ S', gausspf Y S V0 pv pq tol maxIt = some (q, S') := by
    intro S V0 q h
    rw [Option.map_eq_some_iff] at h
    obtain ⟨⟨q', S'⟩, h1, rfl⟩ := h
    exact ⟨S', h1⟩
  refine ⟨?_, ?_, ?_, ?_⟩
  · intro S V0 q h hc
    obtain ⟨S', h⟩ := key h
    obtain ⟨V, h1, -⟩ := (C31 Y S V0 pv pq hd tol maxIt q S' h).1 hc
    exact ⟨V, h1⟩
  · intro S V0 q V h hV hc
    obtain ⟨S', h⟩ := key h
    obtain ⟨V', h1, h2⟩ := (C31 Y S V0 pv pq hd tol maxIt q S' h).1 hc
    rw [hV] at h1; cases h1
    exact h2
  · intro S V0 q V h hV
    obtain ⟨S', h⟩ := key h
    exact (C31 Y S V0 pv pq hd tol maxIt q S' h).2.2.2.1 V hV
  · intro S V0 q V h hV b hb
    obtain ⟨S', h⟩ := key h
    by_cases hp : b ∈ pv
    · exact (C31 Y S V0 pv pq hd tol maxIt q S' h).2.2.2.2 V hV b hp
    · rw [(C31 Y S V0 pv pq hd tol maxIt q S' h).2.2.2.1 V hV b hp hb]

theorem fd_guarantee (Y : Matrix B B ℂ) (okB : Bool) (solveP solveQ : BSolver) (pv pq : List B) (tol : ℝ) (maxIt : ℕ) :
    Guarantee (fun S V0 => fdpf Y S V0 okB solveP solveQ pv pq tol maxIt) Y pv pq fun V b => tol * ‖V b‖ where
  finite := fun S V0 q h hc => by
    obtain ⟨V, h1, -⟩ := (C32 Y S V0 okB solveP solveQ pv pq tol maxIt q h).1 hc
    exact ⟨V, h1⟩
  solved := fun S V0 q V h hV hc => by
    obtain ⟨V', h1, h2, h3⟩ := (C32 Y S V0 okB solveP solveQ pv pq tol maxIt q h).1 hc
    rw [hV] at h1; cases h1
    refine ⟨fun b hb => ?_, fun b hb => ?_⟩
    · obtain ⟨h4, h5⟩ := h2 b hb
      rwa [div_lt_iff₀ (norm_pos_iff.2 h4)] at h5
    · have h5 := h3 b hb
      rwa [div_lt_iff₀ (norm_pos_iff.2 (h2 b (Or.inr hb)).1)] at h5
  ref := fun S V0 q V h hV => (C32 Y S V0 okB solveP solveQ pv pq tol maxIt q h).2.2.2.1 V hV
  mag := fun S V0 q V h hV => (C32 Y S V0 okB solveP solveQ pv pq tol maxIt q h).2.2.2.2 V hV

/-- Active and reactive balance of the reported columns at a bus, in MW and MVAr: generation in service − demand − shunt − flows into branches. -/
noncomputable def balP (c : Case B L ng) (o : Out B L ng) (b : B) : ℝ :=
  (∑ g with (c.gen g).stat > 0 ∧ (c.gen g).bus = b, o.PG g) - (c.bus b).PD - (c.bus b).GS * o.VM b ^ 2 -
    (∑ l with (c.branch l).f = b, (o.Sf l).re) - ∑ l with (c.branch l).t = b, (o.St l).re
noncomputable def balQ (c : Case B L ng) (o : Out B L ng) (b : B) : ℝ :=
  (∑ g with (c.gen g).stat > 0 ∧ (c.gen g).bus = b, o.QG g) - (c.bus b).QD + (c.bus b).BS * o.VM b ^ 2 -
    (∑ l with (c.branch l).f = b, (o.Sf l).im) - ∑ l with (c.branch l).t = b, (o.St l).im

theorem flows_split (c : Case B L ng) (hb : c.baseMVA ≠ 0) (V : B → ℂ) (b : B) :
    (Sinj (Ybus c.baseMVA c.bus c.branch) V b).re * c.baseMVA = (∑ l with (c.branch l).f = b, (brFrom c.baseMVA c.branch (Yf c.branch) V l).re) +
      (∑ l with (c.branch l).t = b, (brTo c.baseMVA c.branch (Yt c.branch) V l).re) + (c.bus b).GS * ‖V b‖ ^ 2 ∧
    (Sinj (Ybus c.baseMVA c.bus c.branch) V b).im * c.baseMVA = (∑ l with (c.branch l).f = b, (brFrom c.baseMVA c.branch (Yf c.branch) V l).im) +
      (∑ l with (c.branch l).t = b, (brTo c.baseMVA c.branch (Yt c.branch) V l).im) - (c.bus b).BS * ‖V b‖ ^ 2 := by
  have key := C28_branch_flows c.baseMVA c.bus c.branch V b
  have hsh : V b * conj ((((c.bus b).GS : ℂ) + Complex.I * (c.bus b).BS) / c.baseMVA * V b) * c.baseMVA =
      (((c.bus b).GS : ℂ) - Complex.I * (c.bus b).BS) * ((‖V b‖ ^ 2 : ℝ) : ℂ) := by
    have h1 : V b * conj (V b) = ((‖V b‖ ^ 2 : ℝ) : ℂ) := by
      rw [Complex.mul_conj, Complex.normSq_eq_norm_sq]
    rw [← h1, map_mul, map_div₀, map_add, map_mul, Complex.conj_I, Complex.conj_ofReal, Complex.conj_ofReal, Complex.conj_ofReal]
    have hb' : (c.baseMVA : ℂ) ≠ 0 := by exact_mod_cast hb
    field_simp
    ring
  rw [hsh] at key
  have hre := congrArg Complex.re key
  have him := congrArg Complex.im key
  rw [Complex.re_mul_ofReal, Complex.add_re, Complex.add_re, Complex.re_mul_ofReal, Complex.re_sum, Complex.re_sum] at hre
  rw [Complex.im_mul_ofReal, Complex.add_im, Complex.add_im, Complex.im_mul_ofReal, Complex.im_sum, Complex.im_sum] at him
  constructor
  · rw [hre]; simp
  · rw [him]; simp; ring

/-- **C70, for every solver and with the reported flows.**  After a successful AC power flow: voltages agree with the reported magnitudes and angles; active generation, demand, shunts
and flows balance exactly at reference buses and within the solver's tolerance elsewhere; reactive ones within the tolerance at buses without generators, and elsewhere up to the
`EPS` of the sharing rule; reference voltages and controlled magnitudes are those of the start; the flows are those of the branch model. -/
theorem C70_all {EPS viol : ℝ} {qlim : Bool} {solve : Solver B} {c : Case B L ng} {o : Out B L ng} (hb : 0 < c.baseMVA) {ε : (B → ℂ) → B → ℝ}
    (hG : Guarantee solve (Ybus c.baseMVA c.bus c.branch) c.pv c.pq ε) (hrun : runAC EPS viol qlim solve c = some (.ok o)) (hs : o.success = true) :
    (∀ b, o.V b = (o.VM b : ℂ) * Complex.exp (Complex.I * ((o.VA b * Real.pi / 180 : ℝ) : ℂ)) ∧ o.VM b = ‖o.V b‖) ∧
    (∀ b ∈ c.ref, balP c o b = 0) ∧
    (∀ b, b ∈ c.pv ∨ b ∈ c.pq → b ∉ c.ref → |balP c o b| < ε o.V b * c.baseMVA) ∧
    (∀ b ∈ c.pq, (∀ g, ¬ ((c.gen g).stat > 0 ∧ (c.gen g).bus = b)) → |balQ c o b| < ε o.V b * c.baseMVA) ∧
    (∀ b, (∃ g, (c.gen g).stat > 0 ∧ (c.gen g).bus = b) →
      let lo := ∑ g with (c.gen g).stat > 0 ∧ (c.gen g).bus = b, (c.gen g).QMIN
      let hi := ∑ g with (c.gen g).stat > 0 ∧ (c.gen g).bus = b, (c.gen g).QMAX
      let need := (∑ g with (c.gen g).stat > 0 ∧ (c.gen g).bus = b, o.QG g) - balQ c o b
      balQ c o b = 0 ∨ lo ≠ hi ∧ balQ c o b = (lo - need) * (1 - (hi - lo) / (hi - lo + EPS))) := by
  obtain ⟨V0, q, V, PG, hV, hn, hq, hPG, rfl⟩ := runAC_steps hrun
  dsimp only at hs ⊢
  obtain ⟨s1, s2⟩ := hG.solved _ V0 q V hn hq hs
  obtain ⟨hslack, hother⟩ := (slackPG c.baseMVA c.bus c.gen (Ybus c.baseMVA c.bus c.branch) V c.ref).1 PG hPG
  have hbase : ∀ z : ℂ, (z / (c.baseMVA : ℂ)).re = z.re / c.baseMVA ∧ (z / (c.baseMVA : ℂ)).im = z.im / c.baseMVA := fun z =>
    ⟨Complex.div_ofReal_re z _, Complex.div_ofReal_im z _⟩
  have hsbus := fun b => C27_injections c.baseMVA c.bus (fun g => (c.gen g).toGen) b
  have hre : ∀ b, (makeSbus c.baseMVA c.bus (fun g => (c.gen g).toGen) b).re =
      ((∑ g with (c.gen g).stat > 0 ∧ (c.gen g).bus = b, (c.gen g).PG) - (c.bus b).PD) / c.baseMVA := by
    intro b
    rw [hsbus b, (hbase _).1]
    simp
  have him : ∀ b, (makeSbus c.baseMVA c.bus (fun g => (c.gen g).toGen) b).im =
      ((∑ g with (c.gen g).stat > 0 ∧ (c.gen g).bus = b, (c.gen g).QG) - (c.bus b).QD) / c.baseMVA := by
    intro b
    rw [hsbus b, (hbase _).2]
    simp
  have hfl := fun b => flows_split c hb.ne' V b
  have hSi : ∀ b, V b * conj (∑ j, Ybus c.baseMVA c.bus c.branch b j * V j) = Sinj (Ybus c.baseMVA c.bus c.branch) V b := fun b => rfl
  refine ⟨?_, ?_, ?_, ?_, ?_⟩
  · intro b
    have hpi := Real.pi_ne_zero
    have : (V b).arg * 180 / Real.pi * Real.pi / 180 = (V b).arg := by field_simp
    rw [this, mul_comm Complex.I]
    exact ⟨(Complex.norm_mul_exp_arg_mul_I (V b)).symm, rfl⟩
  · intro b hbr
    have h1 := hslack b hbr
    have h2 := (hfl b).1
    have h3 : (V b * conj ((Ybus c.baseMVA c.bus c.branch *ᵥ V) b)).re = (Sinj (Ybus c.baseMVA c.bus c.branch) V b).re := rfl
    rw [h3] at h1
    unfold balP
    dsimp only
    rw [h1]
    linarith
  · intro b hbm hbr
    have h1 := s1 b hbm
    rw [hSi, Complex.sub_re, hre] at h1
    have hsum : ∑ g with (c.gen g).stat > 0 ∧ (c.gen g).bus = b, PG g = ∑ g with (c.gen g).stat > 0 ∧ (c.gen g).bus = b, (c.gen g).PG := by
      refine Finset.sum_congr rfl fun g hg => ?_
      rw [Finset.mem_filter] at hg
      refine hother g fun r hr hh => ?_
      have : g ∈ refgen c.gen r := List.mem_of_mem_head? hh
      rw [mem_refgen] at this
      exact hbr (by rw [← hg.2.2, this.2]; exact hr)
    have h2 := mul_lt_mul_of_pos_right h1 hb
    rw [← abs_of_pos hb, ← abs_mul, abs_of_pos hb, sub_mul, div_mul_cancel₀ _ hb.ne', abs_sub_comm, (hfl b).1] at h2
    unfold balP
    dsimp only
    rw [hsum]
    refine lt_of_eq_of_lt ?_ h2
    congr 1
    ring
  · intro b hbm hno
    have h1 := s2 b hbm
    rw [hSi, Complex.sub_im, him] at h1
    have h2 := mul_lt_mul_of_pos_right h1 hb
    rw [← abs_of_pos hb, ← abs_mul, abs_of_pos hb, sub_mul, div_mul_cancel₀ _ hb.ne', abs_sub_comm, (hfl b).2] at h2
    have hz : ∀ F : Fin ng → ℝ, ∑ g with (c.gen g).stat > 0 ∧ (c.gen g).bus = b, F g = 0 := by
      intro F
      rw [Finset.filter_false_of_mem fun g _ => hno g, Finset.sum_empty]
    unfold balQ
    dsimp only
    rw [hz] at h2 ⊢
    refine lt_of_eq_of_lt ?_ h2
    congr 1
    ring
  · intro b hgen
    set lo := ∑ g with (c.gen g).stat > 0 ∧ (c.gen g).bus = b, (c.gen g).QMIN with hlo
    set hi := ∑ g with (c.gen g).stat > 0 ∧ (c.gen g).bus = b, (c.gen g).QMAX with hhi
    obtain ⟨h1, h2, h3⟩ := (reactiveOn EPS c.baseMVA c.bus c.gen (Ybus c.baseMVA c.bus c.branch) V).2 b hgen
    have hQ : (V b * conj ((Ybus c.baseMVA c.bus c.branch *ᵥ V) b)).im * c.baseMVA = _ := (hfl b).2
    set o : Out B L ng := ⟨V, fun b => ‖V b‖, fun b => (V b).arg * 180 / Real.pi, PG, newQG EPS c.baseMVA c.bus c.gen (Ybus c.baseMVA c.bus c.branch) V,
      brFrom c.baseMVA c.branch (Yf c.branch) V, brTo c.baseMVA c.branch (Yt c.branch) V, q.converged⟩ with ho
    have hbal : ∀ T, (∑ g with (c.gen g).stat > 0 ∧ (c.gen g).bus = b, newQG EPS c.baseMVA c.bus c.gen (Ybus c.baseMVA c.bus c.branch) V g) = T →
        balQ c o b = T - ((V b * conj ((Ybus c.baseMVA c.bus c.branch *ᵥ V) b)).im * c.baseMVA + (c.bus b).QD) := by
      intro T hT
      unfold balQ
      rw [ho]
      dsimp only
      rw [hT, hQ]
      ring
    by_cases hl : (onList c.gen).length ≤ 1
    · left
      exact (hbal _ (h1 hl)).trans (sub_self _)
    · by_cases he : lo = hi
      · left
        exact (hbal _ (h2 (by omega) he).1).trans (sub_self _)
      · right
        refine ⟨he, ?_⟩
        have hT := (h3 (by omega) he).1
        have hneed : (∑ g with (c.gen g).stat > 0 ∧ (c.gen g).bus = b, newQG EPS c.baseMVA c.bus c.gen (Ybus c.baseMVA c.bus c.branch) V g) - balQ c o b = (V b * conj ((Ybus c.baseMVA c.bus c.branch *ᵥ V) b)).im * c.baseMVA + (c.bus b).QD := by
          have := hbal _ rfl
          rw [this]
          ring
        rw [hneed, hbal _ hT]
        ring

omit [Fintype L] [DecidableEq L] in
/-- Voltages at the start: at a controlled bus with a generator in service the set point of one of them, in the direction of the given angle. -/
theorem initialV_at {c : Case B L ng} {V0 : B → ℂ} (hV : initialV c = some V0) (b : B) (hbq : b ∉ c.pq) (hg : ∃ g, (c.gen g).stat > 0 ∧ (c.gen g).bus = b) :
    ∃ g, (c.gen g).stat > 0 ∧ (c.gen g).bus = b ∧ ‖V0 b‖ = |c.VG g| ∧
      (0 < c.VM b → V0 b = (c.VG g : ℂ) * Complex.exp (Complex.I * ((Real.pi / 180 * c.VA b : ℝ) : ℂ))) := by
  have hmem : ∀ g, g ∈ setters c b ↔ ((c.gen g).stat > 0 ∧ (c.gen g).bus = b) ∧ b ∉ c.pq := by
    intro g
    unfold setters onList
    simp only [List.mem_filter, List.mem_finRange, true_and, decide_eq_true_eq]
    tauto
  unfold initialV at hV
  split at hV
  · simp at hV
  rename_i hnz
  injection hV with hV
  obtain ⟨g0, hg0⟩ := hg
  cases hl : (setters c b).getLast? with
  | none =>
    rw [List.getLast?_eq_none_iff] at hl
    have := (hmem g0).2 ⟨hg0, hbq⟩
    rw [hl] at this
    simp at this
  | some g =>
    have hgm := (hmem g).1 (List.mem_of_getLast? hl)
    have hn0 : flat c b ≠ 0 := fun h0 => hnz ⟨b, by intro hnil; rw [hnil] at hl; simp at hl, h0⟩
    refine ⟨g, hgm.1.1, hgm.1.2, ?_, ?_⟩
    · rw [← hV]
      simp only [hl]
      rw [norm_mul, Complex.norm_real, Real.norm_eq_abs, abs_div, abs_norm, div_mul_cancel₀ _ (norm_ne_zero_iff.2 hn0)]
    · intro hpos
      rw [← hV]
      simp only [hl]
      have hfl : ‖flat c b‖ = c.VM b := by
        unfold flat
        rw [norm_mul, mul_comm Complex.I, Complex.norm_exp_ofReal_mul_I, mul_one, Complex.norm_real, Real.norm_eq_abs, abs_of_pos hpos]
      rw [hfl]
      unfold flat
      have : (c.VM b : ℂ) ≠ 0 := by exact_mod_cast hpos.ne'
      push_cast
      field_simp

/-- At a bus that is not PQ and has a generator in service the reported magnitude is the set point of one of these; at a reference bus the angle is the given one too. -/
theorem C70_setpoints {EPS viol : ℝ} {qlim : Bool} {solve : Solver B} {c : Case B L ng} {o : Out B L ng} {ε : (B → ℂ) → B → ℝ}
    (hG : Guarantee solve (Ybus c.baseMVA c.bus c.branch) c.pv c.pq ε) (hrun : runAC EPS viol qlim solve c = some (.ok o)) (b : B) (hbq : b ∉ c.pq)
    (hg : ∃ g, (c.gen g).stat > 0 ∧ (c.gen g).bus = b) :
    ∃ g, (c.gen g).stat > 0 ∧ (c.gen g).bus = b ∧ o.VM b = |c.VG g| ∧
      (b ∉ c.pv → 0 < c.VM b → o.V b = (c.VG g : ℂ) * Complex.exp (Complex.I * ((Real.pi / 180 * c.VA b : ℝ) : ℂ))) := by
  obtain ⟨V0, q, V, PG, hV, hn, hq, hPG, rfl⟩ := runAC_steps hrun
  obtain ⟨g, h1, h2, h3, h4⟩ := initialV_at hV b hbq hg
  refine ⟨g, h1, h2, ?_, fun hp hpos => ?_⟩
  · rw [← h3]
    exact hG.mag _ _ _ _ hn hq b hbq
  · rw [← h4 hpos]
    exact hG.ref _ _ _ _ hn hq b hp hbq

/-- Flows are those of the branch model at the reported voltages; branches out of service carry nothing. -/
theorem C70_flows {EPS viol : ℝ} {qlim : Bool} {solve : Solver B} {c : Case B L ng} {o : Out B L ng} (hrun : runAC EPS viol qlim solve c = some (.ok o)) (l : L) :
    ((c.branch l).stat = 0 → o.Sf l = 0 ∧ o.St l = 0) ∧
    (InService (c.branch l) → ((c.branch l).r : ℂ) + Complex.I * (c.branch l).x ≠ 0 → ∃ If It : ℂ,
      PiModel (c.branch l) (o.V (c.branch l).f) (o.V (c.branch l).t) If It ∧ o.Sf l = o.V (c.branch l).f * conj If * c.baseMVA ∧
        o.St l = o.V (c.branch l).t * conj It * c.baseMVA) := by
  obtain ⟨V0, q, V, PG, hV, hn, hq, hPG, rfl⟩ := runAC_steps hrun
  dsimp only
  constructor
  · intro h
    simp [brFrom, brTo, h]
  · intro hs hz
    have h1 : (c.branch l).stat ≠ 0 := by
      unfold InService at hs
      rw [hs]; norm_num
    refine ⟨_, _, (C22_kirchhoff c.baseMVA c.bus c.branch V).1 l hs hz, ?_, ?_⟩
    · simp [brFrom, h1]
    · simp [brTo, h1]

/-- A run whose voltages are not finite is not reported as a success. -/
theorem C70_no_false_success {EPS viol : ℝ} {qlim : Bool} {solve : Solver B} {c : Case B L ng} {ε : (B → ℂ) → B → ℝ}
    (hG : Guarantee solve (Ybus c.baseMVA c.bus c.branch) c.pv c.pq ε) {s : Bool} (hrun : runAC EPS viol qlim solve c = some (.nan s)) : s = false := by
  unfold runAC at hrun
  cases hV : initialV c with
  | none =>
    rw [hV] at hrun
    injection hrun with hrun
    injection hrun with hrun
    exact hrun.symm
  | some V0 =>
  rw [hV] at hrun
  dsimp only at hrun
  cases hn : solve (makeSbus c.baseMVA c.bus fun g => (c.gen g).toGen) V0 with
  | none => rw [hn] at hrun; simp at hrun
  | some q =>
  rw [hn] at hrun
  simp only [Option.bind_some] at hrun
  unfold finish at hrun
  cases hq : q.V with
  | none =>
    rw [hq] at hrun
    injection hrun with hrun
    injection hrun with hrun
    by_contra hne
    obtain ⟨V, h⟩ := hG.finite _ _ _ hn (by rw [hrun]; simpa using hne)
    rw [hq] at h
    cases h
  | some V =>
    rw [hq] at hrun
    simp only [Option.bind_eq_some_iff] at hrun
    obtain ⟨o, -, h⟩ := hrun
    split at h <;> simp at h

end Verif.Runpf
