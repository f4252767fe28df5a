import Verif.Runpf.TableProps

/-! Lemmas: a solver started at a solution stops at once; the result update leaves its own results alone. -/

namespace Verif.Runpf

open Matrix ComplexConjugate
open Verif.Network Verif.Pfsoln Verif.Solvers

variable {nb nl ng : ℕ}

/-- The internal case with the results of a run stored in it. -/
def stored (c : Case (Fin nb) (Fin nl) ng) (VM VA : Fin nb → ℝ) (PG QG : Fin ng → ℝ) : Case (Fin nb) (Fin nl) ng :=
  { c with VM := VM, VA := VA, gen := fun k => { c.gen k with PG := PG k, QG := QG k } }

theorem loop_ok {σ : Type} {ok : σ → Prop} (step : σ → σ) (n i : ℕ) {s : σ} (h : ok s) : loop ok step n i s = (s, true, i) := by
  cases n <;> simp [loop, h]

/-- Started at a point that passes the convergence test, every algorithm returns it. -/
theorem pick_stop (o : PfOpt) (lib : PfLib) (p : Case (Fin nb) (Fin nl) ng) (S V : Fin nb → ℂ) (m mf mg : ℕ) {S0 V0 : Fin nb → ℂ} {q : Res (Fin nb)}
    (h0 : pickSolver o lib p S0 V0 = some q)
    (hre : ∀ b, b ∈ p.pv ∨ b ∈ p.pq → |(mis (Ybus p.baseMVA p.bus p.branch) S V b).re| < tolAt o ‖V b‖)
    (him : ∀ b ∈ p.pq, |(mis (Ybus p.baseMVA p.bus p.branch) S V b).im| < tolAt o ‖V b‖) :
    pickSolver { o with maxIt := m, maxItFd := mf, maxItGs := mg } lib p S V = some ⟨some V, true, 0⟩ := by
  have htol : ∀ {tol : ℝ}, ¬ (p.pv = [] ∧ p.pq = []) → (∀ b, b ∈ p.pv ∨ b ∈ p.pq → |(mis (Ybus p.baseMVA p.bus p.branch) S V b).re| < tol) → 0 < tol := by
    intro tol hne h
    rcases not_and_or.1 hne with hne | hne <;> obtain ⟨b, hb⟩ := List.exists_mem_of_ne_nil _ hne
    · exact (abs_nonneg _).trans_lt (h b (Or.inl hb))
    · exact (abs_nonneg _).trans_lt (h b (Or.inr hb))
  have hnew : ∀ {tol : ℝ}, ¬ (p.pv = [] ∧ p.pq = []) → (∀ b, b ∈ p.pv ∨ b ∈ p.pq → |(mis (Ybus p.baseMVA p.bus p.branch) S V b).re| < tol) →
      (∀ b ∈ p.pq, |(mis (Ybus p.baseMVA p.bus p.branch) S V b).im| < tol) → newtonOk (Ybus p.baseMVA p.bus p.branch) S p.pv p.pq tol (some V) := by
    intro tol hne h1 h2
    refine normInf_lt.2 ⟨htol hne h1, fun x hx => ?_⟩
    simp only [Fvec, List.mem_append, List.mem_map] at hx
    rcases hx with (⟨b, hb, rfl⟩ | ⟨b, hb, rfl⟩) | ⟨b, hb, rfl⟩
    · exact h1 b (Or.inl hb)
    · exact h1 b (Or.inr hb)
    · exact h2 b hb
  unfold pickSolver at h0 ⊢
  unfold tolAt at hre him
  dsimp only at h0 ⊢
  by_cases h1 : o.alg = 1
  · simp only [h1, if_true, show ¬ ((1 : Int) = 2 ∨ (1 : Int) = 3) by decide, if_false] at h0 hre him ⊢
    unfold newtonpf at h0 ⊢
    split at h0
    · simp at h0
    rename_i hne
    rw [if_neg hne]
    dsimp only
    rw [loop_ok _ _ _ (hnew hne hre him)]
  · by_cases h2 : o.alg = 2 ∨ o.alg = 3
    · simp only [h1, if_false, h2, if_true] at h0 hre him ⊢
      unfold fdpf at h0 ⊢
      split at h0
      · simp at h0
      rename_i hne
      split at h0
      · simp at h0
      rename_i hok
      rw [if_neg hne, if_neg hok]
      dsimp only
      have hpol : polar (fun b => ‖V b‖) (fun b => (V b).arg) = V := funext (polar_arg V)
      have hz : ∀ b, b ∈ p.pv ∨ b ∈ p.pq → 0 < ‖V b‖ := by
        intro b hb
        rcases (norm_nonneg (V b)).lt_or_eq with h | h
        · exact h
        · have := hre b hb
          rw [← h, mul_zero] at this
          exact absurd this (not_lt.2 (abs_nonneg _))
      have hdiv : ∀ (z : ℂ) b, (z / ((‖V b‖ : ℝ) : ℂ)).re = z.re / ‖V b‖ ∧ (z / ((‖V b‖ : ℝ) : ℂ)).im = z.im / ‖V b‖ := fun z b =>
        ⟨Complex.div_ofReal_re z _, Complex.div_ofReal_im z _⟩
      have hpos : 0 < o.tol := by
        obtain ⟨b, hb⟩ := List.exists_mem_of_ne_nil _ hne
        have h3 := (abs_nonneg _).trans_lt (hre b (Or.inr hb))
        exact (mul_pos_iff_of_pos_right (hz b (Or.inr hb))).1 h3
      rw [if_pos]
      have : fdOk (Ybus p.baseMVA p.bus p.branch) S p.pv p.pq o.tol (some (fun b => (V b).arg, fun b => ‖V b‖)) := by
        refine ⟨fun b hb => (hz b (List.mem_append.1 hb)).ne', normInf_lt.2 ⟨hpos, fun x hx => ?_⟩, normInf_lt.2 ⟨hpos, fun x hx => ?_⟩⟩
        · obtain ⟨b, hb, rfl⟩ := List.mem_map.1 hx
          have hb := List.mem_append.1 hb
          rw [hpol, (hdiv _ b).1, abs_div, abs_norm, div_lt_iff₀ (hz b hb)]
          exact hre b hb
        · obtain ⟨b, hb, rfl⟩ := List.mem_map.1 hx
          rw [hpol, (hdiv _ b).2, abs_div, abs_norm, div_lt_iff₀ (hz b (Or.inr hb))]
          exact him b hb
      simpa using this
    · by_cases h4 : o.alg = 4
      · simp only [h4, show ¬ ((4 : Int) = 1) by decide, if_false, show ¬ ((4 : Int) = 2 ∨ (4 : Int) = 3) by decide, if_true] at h0 hre him ⊢
        unfold gausspf at h0 ⊢
        split at h0
        · simp at h0
        rename_i hne
        rw [if_neg hne]
        dsimp only
        rw [loop_ok _ _ _ (s := (⟨some V, S⟩ : GS (Fin nb))) (hnew hne hre him)]
        rfl
      · simp only [h1, h2, h4, if_false] at h0
        simp at h0

/-- The slack update leaves outputs alone that already meet the requirement at every reference bus. -/
theorem newPG_fixed (baseMVA : ℝ) (bus : Fin nb → Bus) (gen : Fin ng → GenQ (Fin nb)) (Y : Matrix (Fin nb) (Fin nb) ℂ) (V : Fin nb → ℂ) (PG : Fin ng → ℝ) :
    ∀ ref : List (Fin nb), (∀ r ∈ ref, refgen gen r ≠ [] ∧ atBus gen PG r = (Sinj Y V r).re * baseMVA + (bus r).PD) →
      newPG baseMVA bus gen Y V ref PG = some PG
  | [], _ => rfl
  | r :: rs, h => by
    obtain ⟨h1, h2⟩ := h r List.mem_cons_self
    have hs : slackStep baseMVA bus gen Y V PG r = some PG := by
      unfold slackStep
      rw [atBus_eq_list] at h2
      cases hr : refgen gen r with
      | nil => exact absurd hr h1
      | cons g rest =>
        rw [hr, List.map_cons, List.sum_cons] at h2
        dsimp only
        rw [← h2, add_sub_cancel_right, Function.update_eq_self]
    rw [newPG, hs]
    exact newPG_fixed baseMVA bus gen Y V PG rs fun r hr => h r (List.mem_cons_of_mem _ hr)

theorem newPG_refgen {baseMVA : ℝ} {bus : Fin nb → Bus} {gen : Fin ng → GenQ (Fin nb)} {Y : Matrix (Fin nb) (Fin nb) ℂ} {V : Fin nb → ℂ} :
    ∀ {ref : List (Fin nb)} {PG PG' : Fin ng → ℝ}, newPG baseMVA bus gen Y V ref PG = some PG' → ∀ r ∈ ref, refgen gen r ≠ []
  | [], _, _, _, r, hr => by simp at hr
  | a :: rs, PG, PG', h, r, hr => by
    rw [newPG] at h
    obtain ⟨PG1, h1, h2⟩ := Option.bind_eq_some_iff.1 h
    rcases List.mem_cons.1 hr with rfl | hr
    · intro h0
      unfold slackStep at h1
      rw [h0] at h1
      simp at h1
    · exact newPG_refgen h2 r hr

theorem sbus_re (base : ℝ) (bus : Fin nb → Bus) (gen : Fin ng → GenQ (Fin nb)) (b : Fin nb) :
    (makeSbus base bus (fun g => (gen g).toGen) b).re = (atBus gen (fun g => (gen g).PG) b - (bus b).PD) / base := by
  rw [C27_injections, Complex.div_ofReal_re]
  simp [atBus]

theorem sbus_im (base : ℝ) (bus : Fin nb → Bus) (gen : Fin ng → GenQ (Fin nb)) (b : Fin nb) :
    (makeSbus base bus (fun g => (gen g).toGen) b).im = (atBus gen (fun g => (gen g).QG) b - (bus b).QD) / base := by
  rw [C27_injections, Complex.div_ofReal_im]
  simp [atBus]

/-- **Core of C130 (AC).**  The results of a successful run, stored in the case, are the start and the result of the next run. -/
theorem runAC_again {o : PfOpt} {lib : PfLib} {p : Case (Fin nb) (Fin nl) ng} {s : Out (Fin nb) (Fin nl) ng}
    (hrun : runAC o.EPS o.viol o.qlim (pickSolver o lib p) p = some (.ok s)) (hok : s.success = true)
    (hdis : ∀ b ∈ p.pq, b ∉ p.pv) (href : ∀ b, b ∈ p.pv ∨ b ∈ p.pq → b ∉ p.ref)
    (hVG : ∀ g, (p.gen g).stat > 0 → 0 < p.VG g) (hPQ : ∀ g, (p.gen g).stat > 0 → (p.gen g).bus ∉ p.pq) (m mf mg : ℕ) :
    runAC o.EPS o.viol o.qlim (pickSolver { o with maxIt := m, maxItFd := mf, maxItGs := mg } lib (stored p s.VM s.VA s.PG s.QG)) (stored p s.VM s.VA s.PG s.QG) = some (.ok s) := by
  have hG := pick_guarantee o lib p hdis
  obtain ⟨V0, q, V, PG, hV, hn, hq, hPG, rfl⟩ := runAC_steps hrun
  dsimp only at hok ⊢
  set p2 := stored p (fun b => ‖V b‖) (fun b => (V b).arg * 180 / Real.pi) PG (newQG o.EPS p.baseMVA p.bus p.gen (Ybus p.baseMVA p.bus p.branch) V) with hp2
  obtain ⟨s1, s2⟩ := newPG_spec _ _ _ _ _ _ _ _ hPG
  obtain ⟨m1, m2⟩ := hG.solved _ V0 q V hn hq hok
  have hflat : flat p2 = V := by
    funext b
    have : Real.pi / 180 * ((V b).arg * 180 / Real.pi) = (V b).arg := by
      have := Real.pi_ne_zero
      field_simp
    show ((‖V b‖ : ℝ) : ℂ) * Complex.exp (Complex.I * ((Real.pi / 180 * ((V b).arg * 180 / Real.pi) : ℝ) : ℂ)) = V b
    rw [this, mul_comm Complex.I]
    exact Complex.norm_mul_exp_arg_mul_I (V b)
  have hset : setters p2 = setters p := rfl
  have hmem : ∀ b g, g ∈ setters p b → (p.gen g).stat > 0 ∧ (p.gen g).bus = b ∧ b ∉ p.pq := by
    intro b g hg
    unfold setters onList at hg
    simp only [List.mem_filter, List.mem_finRange, true_and, decide_eq_true_eq] at hg
    tauto
  -- magnitudes at controlled buses are the set points
  have hmag : ∀ b g, (setters p b).getLast? = some g → ‖V b‖ = p.VG g := by
    intro b g hg
    obtain ⟨g1, g2, g3⟩ := hmem b g (List.mem_of_getLast? hg)
    rw [hG.mag _ _ _ _ hn hq b g3]
    unfold initialV at hV
    split at hV
    · simp at hV
    rename_i hnz
    injection hV with hV
    have hn0 : flat p b ≠ 0 := fun h0 => hnz ⟨b, by intro hnil; rw [hnil] at hg; simp at hg, h0⟩
    rw [← hV]
    simp only [hg]
    rw [norm_mul, Complex.norm_real, Real.norm_eq_abs, abs_div, abs_norm, div_mul_cancel₀ _ (norm_ne_zero_iff.2 hn0), abs_of_pos (hVG g g1)]
  have hinit : initialV p2 = some V := by
    unfold initialV
    rw [if_neg, hset, hflat]
    · congr 1
      funext b
      cases hl : (setters p b).getLast? with
      | none => rfl
      | some g =>
        dsimp only
        have hpos := hVG g (hmem b g (List.mem_of_getLast? hl)).1
        show ((p.VG g / ‖V b‖ : ℝ) : ℂ) * V b = V b
        rw [hmag b g hl, div_self hpos.ne']
        simp
    · rw [hset, hflat]
      rintro ⟨b, hne, hz⟩
      obtain ⟨g, hg⟩ := Option.isSome_iff_exists.1 (List.getLast?_isSome.2 hne)
      have := hmag b g hg
      rw [hz, norm_zero] at this
      exact (hVG g (hmem b g (List.mem_of_getLast? hg)).1).ne this
  -- the injections at the buses tested are those of the first run
  have hPGeq : ∀ b, b ∉ p.ref → atBus p.gen PG b = atBus p.gen (fun g => (p.gen g).PG) b := by
    intro b hb
    refine atBus_congr _ _ _ _ fun g h1 h2 => s2 g fun r hr hh => ?_
    have := (mem_refgen p.gen r g).1 (List.mem_of_head? hh)
    exact hb (h2 ▸ this.2 ▸ hr)
  have hre : ∀ b, b ∉ p.ref → (makeSbus p2.baseMVA p2.bus (fun g => (p2.gen g).toGen) b).re = (makeSbus p.baseMVA p.bus (fun g => (p.gen g).toGen) b).re := by
    intro b hb
    rw [sbus_re, sbus_re]
    show (atBus p.gen PG b - _) / _ = _
    rw [hPGeq b hb]
    rfl
  have him : ∀ b ∈ p.pq, (makeSbus p2.baseMVA p2.bus (fun g => (p2.gen g).toGen) b).im = (makeSbus p.baseMVA p.bus (fun g => (p.gen g).toGen) b).im := by
    intro b hb
    rw [sbus_im, sbus_im]
    have : ∀ F F' : Fin ng → ℝ, atBus p.gen F b = atBus p.gen F' b := fun F F' => atBus_congr _ _ _ _ fun g h1 h2 => absurd (h2 ▸ hb) (hPQ g h1)
    show (atBus p.gen _ b - _) / _ = _
    rw [this _ fun g => (p.gen g).QG]
    rfl
  have hstop : pickSolver { o with maxIt := m, maxItFd := mf, maxItGs := mg } lib p2 (makeSbus p2.baseMVA p2.bus fun g => (p2.gen g).toGen) V = some ⟨some V, true, 0⟩ := by
    refine pick_stop o lib p _ V m mf mg hn (fun b hb => ?_) fun b hb => ?_
    · have h1 := m1 b hb
      unfold mis
      rw [Complex.sub_re] at h1 ⊢
      rw [hre b (href b hb)]
      exact h1
    · have h1 := m2 b hb
      unfold mis
      rw [Complex.sub_im] at h1 ⊢
      rw [him b hb]
      exact h1
  have hPG2 : newPG p2.baseMVA p2.bus p2.gen (Ybus p2.baseMVA p2.bus p2.branch) V p2.ref (fun g => (p2.gen g).PG) = some PG := by
    refine newPG_fixed _ _ _ _ _ _ _ fun r hr => ⟨?_, s1 r (Or.inl hr)⟩
    exact newPG_refgen hPG r hr
  unfold runAC
  rw [hinit]
  dsimp only
  rw [hstop]
  simp only [Option.bind_some]
  unfold finish
  dsimp only
  have hsol : solution o.EPS p2 V true = some ⟨V, fun b => ‖V b‖, fun b => (V b).arg * 180 / Real.pi, PG, newQG o.EPS p.baseMVA p.bus p.gen (Ybus p.baseMVA p.bus p.branch) V,
      brFrom p.baseMVA p.branch (Yf p.branch) V, brTo p.baseMVA p.branch (Yt p.branch) V, true⟩ := by
    unfold solution
    rw [hPG2]
    rfl
  rw [hsol]
  simp only [Option.bind_some]
  rw [hok]
  -- reactive limits
  have hviol : ¬ (o.qlim = true ∧ violation o.viol p ⟨V, fun b => ‖V b‖, fun b => (V b).arg * 180 / Real.pi, PG, newQG o.EPS p.baseMVA p.bus p.gen (Ybus p.baseMVA p.bus p.branch) V,
      brFrom p.baseMVA p.branch (Yf p.branch) V, brTo p.baseMVA p.branch (Yt p.branch) V, true⟩) := by
    intro hvi
    unfold runAC at hrun
    rw [hV] at hrun
    dsimp only at hrun
    rw [hn] at hrun
    simp only [Option.bind_some] at hrun
    unfold finish at hrun
    rw [hq] at hrun
    dsimp only at hrun
    simp only [solution, hPG, Option.map_some, Option.bind_some, hok] at hrun
    rw [if_pos] at hrun
    · simp at hrun
    · simpa using hvi
  rw [if_neg]
  rintro ⟨h1, h2⟩
  exact hviol ⟨h1, @of_decide_eq_true _ (Classical.dec _) h2⟩

/-- A DC power flow reads injections at the other buses and angles at reference buses. -/
theorem dcpf_congr {isRef : Fin nb → Prop} [DecidablePred isRef]
    {solve : Matrix {i : Fin nb // ¬ isRef i} {i : Fin nb // ¬ isRef i} ℝ → ({i : Fin nb // ¬ isRef i} → ℝ) → ({i : Fin nb // ¬ isRef i} → ℝ)}
    (Bm : Matrix (Fin nb) (Fin nb) ℝ) {P P' V V' : Fin nb → ℝ} (hP : ∀ i, ¬ isRef i → P i = P' i) (hV : ∀ i, isRef i → V i = V' i) :
    dcpf isRef solve Bm P V = dcpf isRef solve Bm P' V' := by
  have : (fun i : {i : Fin nb // ¬ isRef i} => P i.1 - ∑ r : {r : Fin nb // isRef r}, Bm i.1 r.1 * V r.1) =
      fun i => P' i.1 - ∑ r : {r : Fin nb // isRef r}, Bm i.1 r.1 * V' r.1 := by
    funext i
    rw [hP i.1 i.2]
    congr 1
    exact Finset.sum_congr rfl fun r _ => by rw [hV r.1 r.2]
  unfold dcpf
  rw [this]
  funext i
  by_cases hi : isRef i
  · simp only [hi, not_true, dif_neg, not_false_eq_true]
    exact hV i hi
  · simp only [hi, not_false_eq_true, dif_pos]

/-- **Core of C130 (DC).**  The results of a DC run, stored in the case, are the results of the next run; whatever the linear solver is. -/
theorem dc_again {lib : DcLib} {p : Case (Fin nb) (Fin nl) ng} (hb : p.baseMVA ≠ 0) {Va : Fin nb → ℝ} {PG : Fin ng → ℝ} (VM : Fin nb → ℝ)
    (hVa : Va = dcpf (· ∈ p.ref) lib (Bbus p.branch) (dcPbus p.baseMVA p.bus p.gen p.branch) fun k => p.VA k * (Real.pi / 180))
    (hPG : dcPG p.baseMVA p.bus p.gen p.branch p.ref Va = some PG) :
    let p2 := stored p VM (fun k => Va k * (180 / Real.pi)) PG (fun k => (p.gen k).QG)
    dcpf (· ∈ p2.ref) lib (Bbus p2.branch) (dcPbus p2.baseMVA p2.bus p2.gen p2.branch) (fun k => p2.VA k * (Real.pi / 180)) = Va ∧
    dcPG p2.baseMVA p2.bus p2.gen p2.branch p2.ref Va = some PG := by
  intro p2
  unfold dcPG at hPG
  split at hPG
  · simp at hPG
  rename_i hne
  injection hPG with hPG
  have hat : ∀ i, atBus p.gen PG i = atBus p.gen (fun g => (p.gen g).PG) i +
      if i ∈ p.ref then ((Bbus p.branch *ᵥ Va) i - dcPbus p.baseMVA p.bus p.gen p.branch i) * p.baseMVA else 0 := by
    intro i
    by_cases hi : i ∈ p.ref
    · rw [if_pos hi, atBus_eq_list, atBus_eq_list]
      cases hr : refgen p.gen i with
      | nil => exact absurd ⟨i, hi, hr⟩ hne
      | cons g rest =>
        have hnd := refgen_nodup p.gen i
        have hg := (mem_refgen p.gen i g).1 (by rw [hr]; exact List.mem_cons_self)
        rw [hr] at hnd
        have hrest : rest.map PG = rest.map fun g => (p.gen g).PG := by
          apply List.map_congr_left
          intro k hk
          have hkg : k ≠ g := by rintro rfl; exact (List.nodup_cons.1 hnd).1 hk
          have hkb := (mem_refgen p.gen i k).1 (by rw [hr]; exact List.mem_cons_of_mem _ hk)
          rw [← hPG]
          dsimp only
          rw [if_neg]
          rintro ⟨-, h2⟩
          rw [hkb.2, hr] at h2
          exact hkg (Option.some_injective _ h2).symm
        have hg0 : PG g = (p.gen g).PG + ((Bbus p.branch *ᵥ Va) i - dcPbus p.baseMVA p.bus p.gen p.branch i) * p.baseMVA := by
          rw [← hPG]
          dsimp only
          rw [hg.2, if_pos ⟨hi, by rw [hr]; rfl⟩]
        rw [List.map_cons, List.map_cons, List.sum_cons, List.sum_cons, hrest, hg0]
        ring
    · rw [if_neg hi, add_zero]
      refine atBus_congr _ _ _ _ fun g _ h2 => ?_
      rw [← hPG]
      dsimp only
      rw [if_neg]
      rintro ⟨h3, -⟩
      exact hi (h2 ▸ h3)
  have hP : ∀ i, dcPbus p2.baseMVA p2.bus p2.gen p2.branch i = if i ∈ p.ref then (Bbus p.branch *ᵥ Va) i else dcPbus p.baseMVA p.bus p.gen p.branch i := by
    intro i
    have h1 : dcPbus p2.baseMVA p2.bus p2.gen p2.branch i = (atBus p.gen PG i - (p.bus i).PD) / p.baseMVA - Pbusinj p.branch i - (p.bus i).GS / p.baseMVA := by
      unfold dcPbus
      rw [sbus_re]
      rfl
    have h2 : dcPbus p.baseMVA p.bus p.gen p.branch i = (atBus p.gen (fun g => (p.gen g).PG) i - (p.bus i).PD) / p.baseMVA - Pbusinj p.branch i - (p.bus i).GS / p.baseMVA := by
      unfold dcPbus
      rw [sbus_re]
    rw [h1, hat i]
    split
    · rw [h2]
      field_simp
      ring
    · rw [h2, add_zero]
  constructor
  · have hVA : (fun k => p2.VA k * (Real.pi / 180)) = Va := by
      funext k
      show Va k * (180 / Real.pi) * (Real.pi / 180) = Va k
      have := Real.pi_ne_zero
      field_simp
    rw [hVA]
    have href : ∀ r, r ∈ p.ref → Va r = p.VA r * (Real.pi / 180) := by
      intro r hr
      rw [hVa]
      simp [dcpf, hr]
    refine (dcpf_congr _ (fun i hi => ?_) fun r hr => ?_).trans hVa.symm
    · exact (hP i).trans (if_neg hi)
    · exact href r hr
  · unfold dcPG
    rw [if_neg (show ¬ ∃ r ∈ p2.ref, refgen p2.gen r = [] from hne)]
    congr 1
    funext g
    split
    · rename_i hg
      rw [hP, if_pos (show (p2.gen g).bus ∈ p.ref from hg.1)]
      show PG g + _ = _
      have : (Bbus p2.branch *ᵥ Va) (p2.gen g).bus = (Bbus p.branch *ᵥ Va) (p2.gen g).bus := rfl
      rw [this, sub_self, zero_mul, add_zero]
    · rfl

end Verif.Runpf
