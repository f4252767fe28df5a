import Verif.Network.Props
import Verif.Pfsoln.Model

/-!
# Properties of the power flow result update and of the DC power flow (C28, C29)
-/

set_option linter.unusedSectionVars false

namespace Verif.Pfsoln
open Matrix Complex ComplexConjugate Verif.Network

variable {B L : Type} [Fintype B] [Fintype L] [DecidableEq B] [DecidableEq L] {ng : Nat}

theorem mem_refgen (gen : Fin ng → GenQ B) (r : B) (g : Fin ng) : g ∈ refgen gen r ↔ (gen g).stat > 0 ∧ (gen g).bus = r := by
  simp [refgen, onList, and_comm]

theorem refgen_nodup (gen : Fin ng → GenQ B) (r : B) : (refgen gen r).Nodup :=
  ((List.nodup_finRange ng).filter _).filter _

theorem atBus_eq_list (gen : Fin ng → GenQ B) (F : Fin ng → ℝ) (r : B) : atBus gen F r = ((refgen gen r).map F).sum := by
  unfold atBus
  rw [← List.sum_toFinset F (refgen_nodup gen r)]
  apply Finset.sum_congr
  · ext g; simp [mem_refgen]
  · intros; rfl

theorem atBus_congr (gen : Fin ng → GenQ B) (F F' : Fin ng → ℝ) (r : B)
    (h : ∀ g, (gen g).stat > 0 → (gen g).bus = r → F g = F' g) : atBus gen F r = atBus gen F' r :=
  Finset.sum_congr rfl fun g hg => h g (Finset.mem_filter.1 hg).2.1 (Finset.mem_filter.1 hg).2.2

theorem atBus_const (gen : Fin ng → GenQ B) (c : ℝ) (r : B) : atBus gen (fun _ => c) r = atBus gen (fun _ => 1) r * c := by
  unfold atBus; rw [Finset.sum_mul]; simp

theorem slackStep_spec (baseMVA : ℝ) (bus : B → Bus) (gen : Fin ng → GenQ B) (Y : Matrix B B ℂ) (V : B → ℂ) (PG PG' : Fin ng → ℝ) (r : B)
    (h : slackStep baseMVA bus gen Y V PG r = some PG') :
    atBus gen PG' r = (Sinj Y V r).re * baseMVA + (bus r).PD ∧ (∀ g, (refgen gen r).head? ≠ some g → PG' g = PG g) := by
  unfold slackStep at h
  have hnd := refgen_nodup gen r
  rw [atBus_eq_list]
  cases hr : refgen gen r with
  | nil => rw [hr] at h; simp at h
  | cons g rest =>
    rw [hr] at h hnd
    simp only [Option.some.injEq] at h
    subst h
    constructor
    · have : rest.map (Function.update PG g ((Sinj Y V r).re * baseMVA + (bus r).PD - (rest.map PG).sum)) = rest.map PG := by
        apply List.map_congr_left
        intro k hk
        have : k ≠ g := by rintro rfl; exact (List.nodup_cons.1 hnd).1 hk
        rw [Function.update_of_ne this]
      rw [List.map_cons, List.sum_cons, this, Function.update_self]; ring
    · intro k hk
      have : k ≠ g := by rintro rfl; simp at hk
      rw [Function.update_of_ne this]

theorem newPG_spec (baseMVA : ℝ) (bus : B → Bus) (gen : Fin ng → GenQ B) (Y : Matrix B B ℂ) (V : B → ℂ) :
    ∀ (ref : List B) (PG PG' : Fin ng → ℝ), newPG baseMVA bus gen Y V ref PG = some PG' →
      (∀ r, (r ∈ ref ∨ atBus gen PG r = (Sinj Y V r).re * baseMVA + (bus r).PD) →
        atBus gen PG' r = (Sinj Y V r).re * baseMVA + (bus r).PD) ∧
      (∀ g, (∀ r ∈ ref, (refgen gen r).head? ≠ some g) → PG' g = PG g) := by
  intro ref
  induction ref with
  | nil =>
    intro PG PG' h
    simp only [newPG, Option.some.injEq] at h
    subst h
    refine ⟨?_, fun g _ => rfl⟩
    rintro r (h | h)
    · simp at h
    · exact h
  | cons r rs ih =>
    intro PG PG' h
    simp only [newPG] at h
    cases hs : slackStep baseMVA bus gen Y V PG r with
    | none => rw [hs] at h; simp at h
    | some PG1 =>
      rw [hs] at h
      obtain ⟨s1, s2⟩ := slackStep_spec baseMVA bus gen Y V PG PG1 r hs
      obtain ⟨i1, i2⟩ := ih PG1 PG' h
      constructor
      · intro q hq
        apply i1
        by_cases hqr : q = r
        · subst hqr; exact Or.inr s1
        · rcases hq with hq | hq
          · rcases List.mem_cons.1 hq with hq | hq
            · exact absurd hq hqr
            · exact Or.inl hq
          · right
            rw [← hq]
            unfold atBus
            apply Finset.sum_congr rfl
            intro g hg
            apply s2
            intro hh
            have := (mem_refgen gen r g).1 (List.mem_of_head? hh)
            exact hqr ((Finset.mem_filter.1 hg).2.2.symm.trans this.2)
      · intro g hg
        rw [i2 g (fun q hq => hg q (List.mem_cons_of_mem _ hq)), s2 g (hg r (by simp))]

/-- `C28_slack` in terms of `refgen`. -/
theorem slackPG (baseMVA : ℝ) (bus : B → Bus) (gen : Fin ng → GenQ B) (Y : Matrix B B ℂ) (V : B → ℂ) (ref : List B) :
    (∀ PG', newPG baseMVA bus gen Y V ref (fun g => (gen g).PG) = some PG' →
      (∀ r ∈ ref, ∑ g with (gen g).stat > 0 ∧ (gen g).bus = r, PG' g = (V r * conj ((Y *ᵥ V) r)).re * baseMVA + (bus r).PD) ∧
      (∀ g, (∀ r ∈ ref, (refgen gen r).head? ≠ some g) → PG' g = (gen g).PG)) ∧
    ((∃ PG', newPG baseMVA bus gen Y V ref (fun g => (gen g).PG) = some PG') ↔ ∀ r ∈ ref, ∃ g, (gen g).stat > 0 ∧ (gen g).bus = r) := by
  refine ⟨?_, ?_⟩
  · intro PG' h
    obtain ⟨h1, h2⟩ := newPG_spec baseMVA bus gen Y V ref _ PG' h
    exact ⟨fun r hr => h1 r (Or.inl hr), h2⟩
  · generalize (fun g => (gen g).PG) = PG
    induction ref generalizing PG with
    | nil => simp [newPG]
    | cons r rs ih =>
      have hex : (∃ g, (gen g).stat > 0 ∧ (gen g).bus = r) ↔ refgen gen r ≠ [] := by
        constructor
        · rintro ⟨g, hg⟩ hnil
          have := (mem_refgen gen r g).2 hg
          rw [hnil] at this; simp at this
        · intro hne
          obtain ⟨g, hg⟩ := List.exists_mem_of_ne_nil _ hne
          exact ⟨g, (mem_refgen gen r g).1 hg⟩
      simp only [List.forall_mem_cons, hex, newPG]
      cases hr : refgen gen r with
      | nil => simp [slackStep, hr]
      | cons g rest =>
        simp only [slackStep, hr, Option.bind_some]
        rw [ih]
        simp

theorem head_refgen (gen : Fin ng → GenQ B) (r : B) (g : Fin ng) :
    (refgen gen r).head? = some g ↔ ((gen g).stat > 0 ∧ (gen g).bus = r) ∧ ∀ h < g, ¬ ((gen h).stat > 0 ∧ (gen h).bus = r) := by
  rw [refgen, onList, List.filter_filter, List.head?_filter, List.find?_eq_some_iff_getElem]
  constructor
  · rintro ⟨h1, i, hi, rfl, h2⟩
    refine ⟨by simpa [and_comm] using h1, fun h hh => ?_⟩
    have hlt : (h : ℕ) < i := by rw [Fin.lt_def] at hh; simpa using hh
    simpa [and_comm, imp_iff_not_or] using h2 h hlt
  · rintro ⟨h1, h2⟩
    refine ⟨by simpa [and_comm] using h1, g, by simp, by simp, fun j hj => ?_⟩
    simpa [and_comm, imp_iff_not_or] using h2 ⟨j, by omega⟩ hj

/-- **C28** (active power).  After the update, the active outputs of the in-service generators at every reference bus sum to the power injected into
the network there plus the local demand; only the first in-service generator of each reference bus changes.  The update fails exactly when some
reference bus has no generator in service. -/
theorem C28_slack (baseMVA : ℝ) (bus : B → Bus) (gen : Fin ng → GenQ B) (Y : Matrix B B ℂ) (V : B → ℂ) (ref : List B) :
    (∀ PG', newPG baseMVA bus gen Y V ref (fun g => (gen g).PG) = some PG' →
      (∀ r ∈ ref, ∑ g with (gen g).stat > 0 ∧ (gen g).bus = r, PG' g = (V r * conj ((Y *ᵥ V) r)).re * baseMVA + (bus r).PD) ∧
      (∀ g, PG' g ≠ (gen g).PG → (gen g).stat > 0 ∧ (gen g).bus ∈ ref ∧ ∀ h < g, (gen h).stat > 0 → (gen h).bus ≠ (gen g).bus)) ∧
    ((∃ PG', newPG baseMVA bus gen Y V ref (fun g => (gen g).PG) = some PG') ↔ ∀ r ∈ ref, ∃ g, (gen g).stat > 0 ∧ (gen g).bus = r) := by
  obtain ⟨h1, h2⟩ := slackPG baseMVA bus gen Y V ref
  refine ⟨fun PG' h => ⟨(h1 PG' h).1, fun g hg => ?_⟩, h2⟩
  by_contra hn
  refine hg ((h1 PG' h).2 g fun r hr hh => hn ?_)
  obtain ⟨⟨h3, rfl⟩, h4⟩ := (head_refgen gen r g).1 hh
  exact ⟨h3, hr, fun h hlt hs hb => h4 h hlt ⟨hs, hb⟩⟩

/-- `C28_reactive_partial` in terms of `onList`. -/
theorem reactiveOn (EPS baseMVA : ℝ) (bus : B → Bus) (gen : Fin ng → GenQ B) (Y : Matrix B B ℂ) (V : B → ℂ) :
    (∀ g, ¬ (gen g).stat > 0 → newQG EPS baseMVA bus gen Y V g = 0) ∧
    ∀ b, (∃ g, (gen g).stat > 0 ∧ (gen g).bus = b) →
      let q := (V b * conj ((Y *ᵥ V) b)).im * baseMVA + (bus b).QD
      let lo := ∑ g with (gen g).stat > 0 ∧ (gen g).bus = b, (gen g).QMIN
      let hi := ∑ g with (gen g).stat > 0 ∧ (gen g).bus = b, (gen g).QMAX
      let total := ∑ g with (gen g).stat > 0 ∧ (gen g).bus = b, newQG EPS baseMVA bus gen Y V g
      ((onList gen).length ≤ 1 → total = q) ∧
      (1 < (onList gen).length → lo = hi →
        total = q ∧ ∀ g h, (gen g).stat > 0 → (gen g).bus = b → (gen h).stat > 0 → (gen h).bus = b →
          newQG EPS baseMVA bus gen Y V g = newQG EPS baseMVA bus gen Y V h) ∧
      (1 < (onList gen).length → lo ≠ hi →
        total = lo + (q - lo) * ((hi - lo) / (hi - lo + EPS)) ∧
        ∀ g, (gen g).stat > 0 → (gen g).bus = b →
          newQG EPS baseMVA bus gen Y V g = (gen g).QMIN + (q - lo) / (hi - lo + EPS) * ((gen g).QMAX - (gen g).QMIN)) := by
  refine ⟨fun g hg => by simp [newQG, hg], ?_⟩
  rintro b ⟨g0, hg0, hb0⟩
  intro q lo hi total
  have hq : q = qTotal baseMVA bus Y V b := rfl
  have hlo : lo = atBus gen (fun h => (gen h).QMIN) b := rfl
  have hhi : hi = atBus gen (fun h => (gen h).QMAX) b := rfl
  have hne : (refgen gen b) ≠ [] := by
    intro hnil
    have := (mem_refgen gen b g0).2 ⟨hg0, hb0⟩
    rw [hnil] at this; simp at this
  have hcnt : atBus gen (fun _ => 1) b = ((refgen gen b).length : ℝ) := by rw [atBus_eq_list]; simp
  have hcnt0 : atBus gen (fun _ => 1) b ≠ 0 := by
    rw [hcnt]; exact_mod_cast (by simpa using hne : (refgen gen b).length ≠ 0)
  have hshare : atBus gen (fun h => qTotal baseMVA bus Y V (gen h).bus / atBus gen (fun _ => 1) (gen h).bus) b = q := by
    rw [atBus_congr gen _ (fun _ => q / atBus gen (fun _ => 1) b) b (fun g _ h2 => by simp only [h2, hq]), atBus_const,
      mul_div_cancel₀ _ hcnt0]
  refine ⟨?_, ?_, ?_⟩
  · intro hl
    have hval : ∀ g, (gen g).stat > 0 → (gen g).bus = b → newQG EPS baseMVA bus gen Y V g = q := by
      intro g h1 h2
      unfold newQG
      rw [if_pos h1]
      simp only
      rw [if_neg (by omega), h2, hq]
    have hone : (refgen gen b).length = 1 := by
      have h1 : (refgen gen b).length ≤ (onList gen).length := List.length_filter_le _ _
      have h2 : (refgen gen b).length ≠ 0 := by simpa using hne
      omega
    change atBus gen _ b = q
    rw [atBus_eq_list]
    obtain ⟨g, hg⟩ := List.length_eq_one_iff.1 hone
    have hm : (gen g).stat > 0 ∧ (gen g).bus = b := (mem_refgen gen b g).1 (by rw [hg]; simp)
    rw [hg]; simp [hval g hm.1 hm.2]
  · intro hl heq
    have hval : ∀ g, (gen g).stat > 0 → (gen g).bus = b → newQG EPS baseMVA bus gen Y V g = q / atBus gen (fun _ => 1) b := by
      intro g h1 h2
      unfold newQG
      rw [if_pos h1]
      simp only
      rw [if_pos hl, h2, ← hlo, ← hhi, if_pos heq, hq]
    constructor
    · rw [← hshare]
      exact atBus_congr gen _ _ b (fun g h1 h2 => by simp only [hval g h1 h2, h2, hq])
    · intro g h a1 a2 b1 b2
      rw [hval g a1 a2, hval h b1 b2]
  · intro hl hneq
    have hval : ∀ g, (gen g).stat > 0 → (gen g).bus = b →
        newQG EPS baseMVA bus gen Y V g = (gen g).QMIN + (q - lo) / (hi - lo + EPS) * ((gen g).QMAX - (gen g).QMIN) := by
      intro g h1 h2
      unfold newQG
      rw [if_pos h1]
      simp only
      rw [if_pos hl, h2, ← hlo, ← hhi, if_neg hneq, hshare]
    refine ⟨?_, hval⟩
    have : total = ∑ g with (gen g).stat > 0 ∧ (gen g).bus = b,
        ((gen g).QMIN + (q - lo) / (hi - lo + EPS) * ((gen g).QMAX - (gen g).QMIN)) := by
      apply Finset.sum_congr rfl
      intro g hg
      have hm := (Finset.mem_filter.1 hg).2
      exact hval g hm.1 hm.2
    rw [this, Finset.sum_add_distrib, ← Finset.mul_sum, Finset.sum_sub_distrib]
    change lo + (q - lo) / (hi - lo + EPS) * (hi - lo) = _
    ring

theorem onList_length (gen : Fin ng → GenQ B) : (onList gen).length = (Finset.univ.filter fun g => (gen g).stat > 0).card := by
  rw [← List.toFinset_card_of_nodup (l := onList gen) ((List.nodup_finRange ng).filter _)]
  congr 1
  ext g
  simp [onList]

/-- **C28** (reactive power), partial.  Let `b` be a bus with generators in service and let `q` be the reactive power its generators must produce
(network injection plus local demand).  Out-of-service generators get 0.  If only one generator is in service in the whole system it gets `q`.  Otherwise,
with equal total limits the generators share `q` equally, and with distinct total limits each one is at the same fraction of its own range and the shares
add up to `q` scaled by `R/(R+EPS)` about the lower limit, `R` being the total range.
Partial: because of the `EPS` in the denominator the shares do not add up to `q` exactly (`C28_negation`); they do in the limit `EPS = 0`. -/
theorem C28_reactive_partial (EPS baseMVA : ℝ) (bus : B → Bus) (gen : Fin ng → GenQ B) (Y : Matrix B B ℂ) (V : B → ℂ) :
    (∀ g, ¬ (gen g).stat > 0 → newQG EPS baseMVA bus gen Y V g = 0) ∧
    ∀ b, (∃ g, (gen g).stat > 0 ∧ (gen g).bus = b) →
      let q := (V b * conj ((Y *ᵥ V) b)).im * baseMVA + (bus b).QD
      let lo := ∑ g with (gen g).stat > 0 ∧ (gen g).bus = b, (gen g).QMIN
      let hi := ∑ g with (gen g).stat > 0 ∧ (gen g).bus = b, (gen g).QMAX
      let total := ∑ g with (gen g).stat > 0 ∧ (gen g).bus = b, newQG EPS baseMVA bus gen Y V g
      ((Finset.univ.filter fun g => (gen g).stat > 0).card ≤ 1 → total = q) ∧
      (1 < (Finset.univ.filter fun g => (gen g).stat > 0).card → lo = hi →
        total = q ∧ ∀ g h, (gen g).stat > 0 → (gen g).bus = b → (gen h).stat > 0 → (gen h).bus = b →
          newQG EPS baseMVA bus gen Y V g = newQG EPS baseMVA bus gen Y V h) ∧
      (1 < (Finset.univ.filter fun g => (gen g).stat > 0).card → lo ≠ hi →
        total = lo + (q - lo) * ((hi - lo) / (hi - lo + EPS)) ∧
        ∀ g, (gen g).stat > 0 → (gen g).bus = b →
          newQG EPS baseMVA bus gen Y V g = (gen g).QMIN + (q - lo) / (hi - lo + EPS) * ((gen g).QMAX - (gen g).QMIN)) := by
  simp only [← onList_length]
  exact reactiveOn EPS baseMVA bus gen Y V

/-- **C28** in exact arithmetic (`EPS = 0`): the shares of every bus with a generator in service add up to what the bus needs. -/
theorem C28_reactive_exact (baseMVA : ℝ) (bus : B → Bus) (gen : Fin ng → GenQ B) (Y : Matrix B B ℂ) (V : B → ℂ) (b : B)
    (hb : ∃ g, (gen g).stat > 0 ∧ (gen g).bus = b) :
    ∑ g with (gen g).stat > 0 ∧ (gen g).bus = b, newQG 0 baseMVA bus gen Y V g = (V b * conj ((Y *ᵥ V) b)).im * baseMVA + (bus b).QD := by
  obtain ⟨h1, h2, h3⟩ := (reactiveOn 0 baseMVA bus gen Y V).2 b hb
  by_cases hl : (onList gen).length ≤ 1
  · exact h1 hl
  · by_cases he : (∑ g with (gen g).stat > 0 ∧ (gen g).bus = b, (gen g).QMIN) = ∑ g with (gen g).stat > 0 ∧ (gen g).bus = b, (gen g).QMAX
    · exact (h2 (by omega) he).1
    · rw [(h3 (by omega) he).1, add_zero, div_self (by intro h; exact he (by linarith))]; ring

/-- **C28 is false** as an exact statement: with a positive `EPS`, whenever the total range of a bus is positive and the requirement is not exactly at
the total lower limit, the shares miss the requirement. -/
theorem C28_negation (EPS baseMVA : ℝ) (hE : 0 < EPS) (bus : B → Bus) (gen : Fin ng → GenQ B) (Y : Matrix B B ℂ) (V : B → ℂ) (b : B)
    (hb : ∃ g, (gen g).stat > 0 ∧ (gen g).bus = b) (hon : 1 < (Finset.univ.filter fun g => (gen g).stat > 0).card)
    (hr : (∑ g with (gen g).stat > 0 ∧ (gen g).bus = b, (gen g).QMIN) < ∑ g with (gen g).stat > 0 ∧ (gen g).bus = b, (gen g).QMAX)
    (hq : (V b * conj ((Y *ᵥ V) b)).im * baseMVA + (bus b).QD ≠ ∑ g with (gen g).stat > 0 ∧ (gen g).bus = b, (gen g).QMIN) :
    ∑ g with (gen g).stat > 0 ∧ (gen g).bus = b, newQG EPS baseMVA bus gen Y V g ≠ (V b * conj ((Y *ᵥ V) b)).im * baseMVA + (bus b).QD := by
  obtain ⟨_, _, h3⟩ := (reactiveOn EPS baseMVA bus gen Y V).2 b hb
  rw [(h3 (by rw [onList_length]; exact hon) (ne_of_lt hr)).1]
  intro h
  set lo := ∑ g with (gen g).stat > 0 ∧ (gen g).bus = b, (gen g).QMIN
  set hi := ∑ g with (gen g).stat > 0 ∧ (gen g).bus = b, (gen g).QMAX
  set q := (V b * conj ((Y *ᵥ V) b)).im * baseMVA + (bus b).QD
  have hd : hi - lo + EPS ≠ 0 := by linarith
  have h1 : (q - lo) * ((hi - lo) / (hi - lo + EPS)) = q - lo := by linarith
  have h2 : (hi - lo) / (hi - lo + EPS) = 1 := by
    have hql : q - lo ≠ 0 := sub_ne_zero.2 hq
    exact mul_left_cancel₀ hql (by rw [h1, mul_one])
  rw [div_eq_one_iff_eq hd] at h2
  linarith

/-- **C28** (branch flows): an in-service branch reports the power entering at its two ends, an out-of-service branch zero; over the network the
injections equal the branch powers plus the shunt consumption. -/
theorem C28_branch_flows (baseMVA : ℝ) (bus : B → Bus) (branch : L → Branch B) (V : B → ℂ) (i : B) :
    Sinj (Ybus baseMVA bus branch) V i * baseMVA =
      (∑ l with (branch l).f = i, brFrom baseMVA branch (Yf branch) V l) + (∑ l with (branch l).t = i, brTo baseMVA branch (Yt branch) V l) +
      V i * conj ((((bus i).GS : ℂ) + I * (bus i).BS) / baseMVA * V i) * baseMVA := by
  obtain ⟨_, hoff, hk⟩ := C22_kirchhoff baseMVA bus branch V
  rw [Sinj, hk i, map_add, map_add, map_sum, map_sum]
  have h1 : ∑ l with (branch l).f = i, brFrom baseMVA branch (Yf branch) V l =
      ∑ l with (branch l).f = i, V i * conj ((Yf branch *ᵥ V) l) * baseMVA := by
    apply Finset.sum_congr rfl
    intro l hl
    rw [brFrom, (Finset.mem_filter.1 hl).2]
    split
    · rename_i h; rw [(hoff l h).1]; simp
    · rfl
  have h2 : ∑ l with (branch l).t = i, brTo baseMVA branch (Yt branch) V l =
      ∑ l with (branch l).t = i, V i * conj ((Yt branch *ᵥ V) l) * baseMVA := by
    apply Finset.sum_congr rfl
    intro l hl
    rw [brTo, (Finset.mem_filter.1 hl).2]
    split
    · rename_i h; rw [(hoff l h).2]; simp
    · rfl
  rw [h1, h2, ← Finset.sum_mul, ← Finset.sum_mul, ← Finset.mul_sum, ← Finset.mul_sum]
  ring

-- Non-vacuity of C28: two generators at bus 0, the first is the slack generator.
noncomputable def exGen : Fin 2 → GenQ (Fin 1) := fun _ => { bus := 0, PG := 1, QG := 0, stat := 1, QMIN := 0, QMAX := 1 }

example : (∃ g, (exGen g).stat > 0 ∧ (exGen g).bus = 0) ∧ 1 < (onList exGen).length ∧
    (∑ g with (exGen g).stat > 0 ∧ (exGen g).bus = 0, (exGen g).QMIN) < ∑ g with (exGen g).stat > 0 ∧ (exGen g).bus = 0, (exGen g).QMAX := by
  refine ⟨⟨0, by simp [exGen]⟩, by simp [onList, exGen], by simp [exGen]⟩

/-! ### C29 -/

/-- **C29.** If the linear solver returns a solution, the DC power flow keeps the reference angles and balances every other bus; after the slack
update the in-service generation minus demand and shunt consumption at *every* bus equals the flows leaving minus arriving, and total generation
equals total demand plus shunts. -/
theorem C29_dc (baseMVA : ℝ) (hb : baseMVA ≠ 0) (bus : B → Bus) (gen : Fin ng → GenQ B) (branch : L → Branch B) (ref : List B)
    (solve : Matrix {i : B // ¬ i ∈ ref} {i : B // ¬ i ∈ ref} ℝ → ({i : B // ¬ i ∈ ref} → ℝ) → ({i : B // ¬ i ∈ ref} → ℝ)) (Va0 : B → ℝ)
    (hsolve : ∀ b, (Matrix.of fun i j : {i : B // ¬ i ∈ ref} => Bbus branch i.1 j.1) *ᵥ solve (fun i j => Bbus branch i.1 j.1) b = b)
    (PG' : Fin ng → ℝ) :
    let Va := dcpf (· ∈ ref) solve (Bbus branch) (dcPbus baseMVA bus gen branch) Va0
    (∀ r ∈ ref, Va r = Va0 r) ∧
    (∀ i, i ∉ ref → (Bbus branch *ᵥ Va) i = dcPbus baseMVA bus gen branch i) ∧
    (dcPG baseMVA bus gen branch ref Va = some PG' →
      (∀ i, (∑ g with (gen g).stat > 0 ∧ (gen g).bus = i, PG' g) - (bus i).PD - (bus i).GS =
        (∑ l with (branch l).f = i, dcPF baseMVA branch Va l) - ∑ l with (branch l).t = i, dcPF baseMVA branch Va l) ∧
      ∑ g with (gen g).stat > 0, PG' g = (∑ i, (bus i).PD) + ∑ i, (bus i).GS) := by
  intro Va
  have hVaref : ∀ r ∈ ref, Va r = Va0 r := by intro r hr; simp [Va, dcpf, hr]
  have hbal : ∀ i, i ∉ ref → (Bbus branch *ᵥ Va) i = dcPbus baseMVA bus gen branch i := by
    intro i hi
    set rhs : {i : B // ¬ i ∈ ref} → ℝ := fun i => dcPbus baseMVA bus gen branch i.1 - ∑ r : {r : B // r ∈ ref}, Bbus branch i.1 r.1 * Va0 r.1 with hrhs
    have h := congrFun (hsolve rhs) ⟨i, hi⟩
    have e : (Bbus branch *ᵥ Va) i = (∑ j : {j : B // ¬ j ∈ ref}, Bbus branch i j.1 * Va j.1) +
        ∑ r : {r : B // r ∈ ref}, Bbus branch i r.1 * Va r.1 := by
      simp only [Matrix.mulVec, dotProduct]
      rw [← Finset.sum_subtype (Finset.univ.filter fun j => ¬ j ∈ ref) (by simp) (fun j => Bbus branch i j * Va j),
        ← Finset.sum_subtype (Finset.univ.filter fun j => j ∈ ref) (by simp) (fun j => Bbus branch i j * Va j), add_comm]
      exact (Finset.sum_filter_add_sum_filter_not _ _ _).symm
    have e2 : ∀ j : {j : B // ¬ j ∈ ref}, Va j.1 = solve (fun i j => Bbus branch i.1 j.1) rhs j := by
      intro j; simp only [Va, dcpf, hrhs]; rw [dif_pos j.2]; congr! 3; exact Finset.sum_congr (by ext; simp) (fun _ _ => rfl)
    have e3 : ∀ r : {r : B // r ∈ ref}, Va r.1 = Va0 r.1 := fun r => hVaref r.1 r.2
    rw [e]
    simp only [e2, e3]
    have h' : ∑ j : {j : B // ¬ j ∈ ref}, Bbus branch i j.1 * solve (fun i j => Bbus branch i.1 j.1) rhs j = rhs ⟨i, hi⟩ := h
    rw [h', hrhs]; ring
  refine ⟨hVaref, hbal, ?_⟩
  intro hPG
  -- injections in MW
  have hS : ∀ i, (makeSbus baseMVA bus (fun g => (gen g).toGen) i).re = (atBus gen (fun g => (gen g).PG) i - (bus i).PD) / baseMVA := by
    intro i
    rw [C27_injections, Complex.div_ofReal_re, Complex.sub_re, Complex.re_sum]
    simp [atBus]
  have hflow : ∀ i, ((Bbus branch *ᵥ Va) i + Pbusinj branch i) * baseMVA =
      (∑ l with (branch l).f = i, dcPF baseMVA branch Va l) - ∑ l with (branch l).t = i, dcPF baseMVA branch Va l := by
    intro i
    rw [Bbus_mulVec, Pbusinj, ← Pi.add_apply, ← Matrix.mulVec_add, CftT_mulVec, sub_mul, Finset.sum_mul, Finset.sum_mul,
      Finset.sum_filter, Finset.sum_filter]
    congr 1 <;> (apply Finset.sum_congr rfl; intro l _; split <;> simp [dcPF])
  unfold dcPG at hPG
  split at hPG
  · simp at hPG
  · rename_i hgen
    rw [Option.some.injEq] at hPG
    have hsum : ∀ i, atBus gen PG' i = atBus gen (fun g => (gen g).PG) i +
        ((Bbus branch *ᵥ Va) i - dcPbus baseMVA bus gen branch i) * baseMVA := by
      intro i
      by_cases hi : i ∈ ref
      · have hne : refgen gen i ≠ [] := fun h => hgen ⟨i, hi, h⟩
        rw [atBus_eq_list, atBus_eq_list, ← hPG]
        have hnd := refgen_nodup gen i
        have hmem := mem_refgen gen i
        cases hr : refgen gen i with
        | nil => exact absurd hr hne
        | cons g rest =>
          rw [hr] at hnd
          have hbus : ∀ h ∈ g :: rest, (gen h).bus = i := by
            intro h hh; rw [← hr] at hh; exact ((hmem h).1 hh).2
          simp only [List.map_cons, List.sum_cons]
          have hhead : (gen g).bus ∈ ref ∧ (refgen gen (gen g).bus).head? = some g := by
            rw [hbus g (by simp), hr]; exact ⟨hi, rfl⟩
          rw [if_pos hhead]
          have hrest : rest.map (fun g => if (gen g).bus ∈ ref ∧ (refgen gen (gen g).bus).head? = some g then
              (gen g).PG + ((Bbus branch *ᵥ Va) (gen g).bus - dcPbus baseMVA bus gen branch (gen g).bus) * baseMVA
              else (gen g).PG) = rest.map (fun g => (gen g).PG) := by
            apply List.map_congr_left
            intro h hh
            rw [if_neg]
            rintro ⟨_, h2⟩
            rw [hbus h (List.mem_cons_of_mem _ hh), hr] at h2
            simp only [List.head?_cons, Option.some.injEq] at h2
            subst h2
            exact (List.nodup_cons.1 hnd).1 hh
          rw [hrest, hbus g (by simp)]; ring
      · rw [hbal i hi, sub_self, zero_mul, add_zero]
        unfold atBus
        apply Finset.sum_congr rfl
        intro g hg
        rw [← hPG]
        simp only
        rw [if_neg]
        rintro ⟨h1, _⟩
        rw [(Finset.mem_filter.1 hg).2.2] at h1
        exact hi h1
    have hbus : ∀ i, (∑ g with (gen g).stat > 0 ∧ (gen g).bus = i, PG' g) - (bus i).PD - (bus i).GS =
        ((Bbus branch *ᵥ Va) i + Pbusinj branch i) * baseMVA := by
      intro i
      have := hsum i
      rw [show (∑ g with (gen g).stat > 0 ∧ (gen g).bus = i, PG' g) = atBus gen PG' i from rfl, this, dcPbus, hS]
      field_simp
      ring
    refine ⟨fun i => by rw [hbus, hflow], ?_⟩
    have htot : ∑ i, ((Bbus branch *ᵥ Va) i + Pbusinj branch i) * baseMVA = 0 := by
      rw [← Finset.sum_mul]
      have : ∑ i, ((Bbus branch *ᵥ Va) i + Pbusinj branch i) = 0 := by
        rw [Bbus_mulVec, Pbusinj]
        simp only [← Pi.add_apply, ← Matrix.mulVec_add]
        exact sum_CftT branch _
      rw [this, zero_mul]
    have hg : ∑ g with (gen g).stat > 0, PG' g = ∑ i, ∑ g with (gen g).stat > 0 ∧ (gen g).bus = i, PG' g := by
      rw [← Finset.sum_fiberwise (Finset.univ.filter fun g => (gen g).stat > 0) (fun g => (gen g).bus)]
      apply Finset.sum_congr rfl
      intro i _
      rw [Finset.filter_filter]
    have h2 := Finset.sum_congr (rfl : (Finset.univ : Finset B) = Finset.univ) (fun i (_ : i ∈ Finset.univ) => hbus i)
    rw [htot, Finset.sum_sub_distrib, Finset.sum_sub_distrib, ← hg] at h2
    linarith


-- Non-vacuity of C29: two buses joined by two parallel lines, reference bus 0 with two generators, bus 1 unknown.
noncomputable def exGen2 : Fin 2 → GenQ (Fin 2) := fun _ => { bus := 0, PG := 1, QG := 0, stat := 1, QMIN := 0, QMAX := 1 }
noncomputable def exBus2 : Fin 2 → Bus := fun _ => { GS := 1, BS := 0, PD := 2, QD := 0 }
noncomputable def exSolve2 (A : Matrix {i : Fin 2 // ¬ i ∈ ([0] : List (Fin 2))} {i : Fin 2 // ¬ i ∈ ([0] : List (Fin 2))} ℝ)
    (b : {i : Fin 2 // ¬ i ∈ ([0] : List (Fin 2))} → ℝ) : {i : Fin 2 // ¬ i ∈ ([0] : List (Fin 2))} → ℝ := fun i => b i / A i i

example (b : {i : Fin 2 // ¬ i ∈ ([0] : List (Fin 2))} → ℝ) :
    (Matrix.of fun i j : {i : Fin 2 // ¬ i ∈ ([0] : List (Fin 2))} => Bbus exBranch i.1 j.1) *ᵥ
      exSolve2 (fun i j => Bbus exBranch i.1 j.1) b = b := by
  have hb : Bbus exBranch 1 1 = 2 := by
    simp [Bbus, Matrix.mul_apply, Bf_apply, Cft_apply, exBranch, bdc, tapRatio]
  funext ⟨i, hi⟩
  have hi1 : i = 1 := by
    have : i ≠ 0 := by simpa using hi
    omega
  subst hi1
  simp only [Matrix.mulVec, dotProduct]
  rw [Finset.sum_eq_single (⟨1, hi⟩ : {i : Fin 2 // ¬ i ∈ ([0] : List (Fin 2))})]
  · simp only [Matrix.of_apply, exSolve2, hb]; field_simp
  · rintro ⟨j, hj⟩ _ h
    have : j ≠ 0 := by simpa using hj
    exact absurd (Subtype.ext (by omega : j = 1)) h
  · intro h; exact absurd (Finset.mem_univ _) h

example (Va : Fin 2 → ℝ) : ∃ PG', dcPG 100 exBus2 exGen2 exBranch [0] Va = some PG' := by
  have : ¬ ∃ r ∈ ([0] : List (Fin 2)), refgen exGen2 r = [] := by
    rintro ⟨r, hr, h⟩
    have : (0 : Fin 2) ∈ refgen exGen2 r := (mem_refgen exGen2 r 0).2 ⟨by simp [exGen2], by simp at hr; simp [exGen2, hr]⟩
    rw [h] at this; simp at this
  exact ⟨_, by rw [dcPG, if_neg this]⟩

end Verif.Pfsoln
