import Verif.Bustypes.Model
import Verif.NumPyLemmas

/-! # C10: bus classification -/

namespace Verif.Bustypes
open Verif.NumPy

/-- Specification vocabulary: a bus has a generator in service. -/
def HasGen (gens : List Gen) (i : Nat) : Prop := ∃ g ∈ gens, g.bus = i ∧ 0 < g.status

/-- Bus `i` has type `t` (1 PQ, 2 PV, 3 REF). -/
def HasType (types : List Int) (i : Nat) (t : Int) : Prop := types[i]? = some t

theorem gensOn_ne (gens : List Gen) (i : Nat) : gensOn gens i ≠ 0 ↔ HasGen gens i := by
  unfold gensOn HasGen
  rw [Ne, List.length_eq_zero_iff, List.filter_eq_nil_iff]
  simp

theorem mem_mask (types : List Int) (gens : List Gen) (p : Int → Bool → Bool) (i : Nat) :
    i ∈ find (List.zipWith p types ((List.range types.length).map (fun i => gensOn gens i != 0))) ↔
      ∃ t, HasType types i t ∧ p t (gensOn gens i != 0) = true := by
  rw [mem_find, List.getElem?_zipWith]
  unfold HasType
  cases ht : types[i]? with
  | none => simp
  | some t =>
    have hlt : i < types.length := (List.getElem?_eq_some_iff.1 ht).1
    simp [List.getElem?_map, List.getElem?_range hlt]

/-- **C10**, successful calls. -/
theorem C10_classification {types : List Int} {gens : List Gen} {ref pv pq : List Nat}
    (h : bustypes types gens = some (ref, pv, pq)) :
    -- there is a reference bus
    ref ≠ [] ∧
    -- the three lists are disjoint, in increasing order without repetition, and contain only buses of the table
    (∀ i, ¬ (i ∈ ref ∧ i ∈ pv) ∧ ¬ (i ∈ ref ∧ i ∈ pq) ∧ ¬ (i ∈ pv ∧ i ∈ pq)) ∧
    (ref.Pairwise (· < ·) ∧ pv.Pairwise (· < ·) ∧ pq.Pairwise (· < ·)) ∧
    (∀ i, i ∈ ref ∨ i ∈ pv ∨ i ∈ pq → i < types.length) ∧
    -- every bus of type PQ, PV or REF is in one of them
    (∀ i t, HasType types i t → t = 1 ∨ t = 2 ∨ t = 3 → i ∈ ref ∨ i ∈ pv ∨ i ∈ pq) ∧
    -- a bus is PQ iff it is declared PQ or has no generator in service
    (∀ i, i ∈ pq ↔ i < types.length ∧ (HasType types i 1 ∨ ¬ HasGen gens i)) ∧
    -- if some declared reference has a generator in service, ref/pv are exactly the declared ones with generators
    ((∃ i, HasType types i 3 ∧ HasGen gens i) →
      (∀ i, i ∈ ref ↔ HasType types i 3 ∧ HasGen gens i) ∧ (∀ i, i ∈ pv ↔ HasType types i 2 ∧ HasGen gens i)) ∧
    -- otherwise the first PV bus with a generator in service is the (only) reference, and the others stay PV
    ((¬ ∃ i, HasType types i 3 ∧ HasGen gens i) →
      ∃ r, ref = [r] ∧ HasType types r 2 ∧ HasGen gens r ∧ (∀ j, HasType types j 2 → HasGen gens j → r ≤ j) ∧
        (∀ i, i ∈ pv ↔ HasType types i 2 ∧ HasGen gens i ∧ i ≠ r)) := by
  unfold bustypes at h
  split at h
  · simp at h
  · generalize hst : (List.range types.length).map (fun i => gensOn gens i != 0) = st at h
    have mref : ∀ i, i ∈ find (List.zipWith (fun t s => t == 3 && s) types st) ↔ HasType types i 3 ∧ HasGen gens i := by
      intro i
      rw [← hst, mem_mask, ← gensOn_ne]
      constructor
      · rintro ⟨t, ht, hp⟩; simp at hp; exact ⟨hp.1 ▸ ht, hp.2⟩
      · rintro ⟨h1, h2⟩; exact ⟨3, h1, by simp [h2]⟩
    have mpv : ∀ i, i ∈ find (List.zipWith (fun t s => t == 2 && s) types st) ↔ HasType types i 2 ∧ HasGen gens i := by
      intro i
      rw [← hst, mem_mask, ← gensOn_ne]
      constructor
      · rintro ⟨t, ht, hp⟩; simp at hp; exact ⟨hp.1 ▸ ht, hp.2⟩
      · rintro ⟨h1, h2⟩; exact ⟨2, h1, by simp [h2]⟩
    have mpq : ∀ i, i ∈ find (List.zipWith (fun t s => t == 1 || !s) types st) ↔
        i < types.length ∧ (HasType types i 1 ∨ ¬ HasGen gens i) := by
      intro i
      rw [← hst, mem_mask, ← gensOn_ne]
      constructor
      · rintro ⟨t, ht, hp⟩
        refine ⟨(List.getElem?_eq_some_iff.1 ht).1, ?_⟩
        simp at hp
        rcases hp with hp | hp
        · exact Or.inl (hp ▸ ht)
        · exact Or.inr (by simp [hp])
      · rintro ⟨hlt, h2⟩
        refine ⟨types[i], List.getElem?_eq_getElem hlt, ?_⟩
        rcases h2 with h2 | h2
        · have : types[i] = 1 := by
            have := h2; unfold HasType at this; rw [List.getElem?_eq_getElem hlt] at this; simpa using this
          simp [this]
        · simp at h2; simp [h2]
    have uniq : ∀ {i s t}, HasType types i s → HasType types i t → s = t := by
      intro i s t h1 h2
      unfold HasType at h1 h2
      rw [h1] at h2; simpa using h2
    have lt : ∀ {i t}, HasType types i t → i < types.length := fun h => (List.getElem?_eq_some_iff.1 h).1
    by_cases hr : find (List.zipWith (fun t s => t == 3 && s) types st) = []
    · simp only [hr, if_true] at h
      have hno : ¬ ∃ i, HasType types i 3 ∧ HasGen gens i := by
        rintro ⟨i, hi⟩
        have := (mref i).2 hi
        rw [hr] at this; simp at this
      cases hpv : find (List.zipWith (fun t s => t == 2 && s) types st) with
      | nil => simp [hpv] at h
      | cons p ps =>
        simp only [hpv, Option.some.injEq, Prod.mk.injEq] at h
        obtain ⟨rfl, rfl, rfl⟩ := h
        have hsort := find_pairwise (List.zipWith (fun t s => t == 2 && s) types st)
        rw [hpv, List.pairwise_cons] at hsort
        have mp := (mpv p).1 (by rw [hpv]; simp)
        have mps : ∀ i, i ∈ ps ↔ HasType types i 2 ∧ HasGen gens i ∧ i ≠ p := by
          intro i
          constructor
          · intro hi
            have := (mpv i).1 (by rw [hpv]; simp [hi])
            exact ⟨this.1, this.2, by have := hsort.1 i hi; omega⟩
          · rintro ⟨h1, h2, h3⟩
            have := (mpv i).2 ⟨h1, h2⟩
            rw [hpv] at this
            rcases List.mem_cons.1 this with h | h
            · exact absurd h h3
            · exact h
        refine ⟨by simp, ?_, ⟨by simp, hsort.2, find_pairwise _⟩, ?_, ?_, mpq, fun hh => absurd hh hno, ?_⟩
        · intro i
          refine ⟨?_, ?_, ?_⟩
          · rintro ⟨h1, h2⟩
            have h1 : i = p := by simpa using h1
            exact ((mps i).1 h2).2.2 h1
          · rintro ⟨h1, h2⟩
            have h1 : i = p := by simpa using h1
            subst h1
            rcases ((mpq i).1 h2).2 with h | h
            · have := uniq h mp.1; omega
            · exact h mp.2
          · rintro ⟨h1, h2⟩
            have h1 := (mps i).1 h1
            rcases ((mpq i).1 h2).2 with h | h
            · have := uniq h h1.1; omega
            · exact h h1.2.1
        · intro i hi
          rcases hi with hi | hi | hi
          · have hi : i = p := by simpa using hi
            exact hi ▸ lt mp.1
          · exact lt ((mps i).1 hi).1
          · exact ((mpq i).1 hi).1
        · intro i t ht h3
          by_cases hg : HasGen gens i
          · rcases h3 with rfl | rfl | rfl
            · exact Or.inr (Or.inr ((mpq i).2 ⟨lt ht, Or.inl ht⟩))
            · by_cases hip : i = p
              · left; simp [hip]
              · exact Or.inr (Or.inl ((mps i).2 ⟨ht, hg, hip⟩))
            · exact absurd ⟨i, ht, hg⟩ hno
          · exact Or.inr (Or.inr ((mpq i).2 ⟨lt ht, Or.inr hg⟩))
        · intro _
          refine ⟨p, rfl, mp.1, mp.2, ?_, mps⟩
          intro j h1 h2
          have := (mpv j).2 ⟨h1, h2⟩
          rw [hpv] at this
          rcases List.mem_cons.1 this with h | h
          · omega
          · have := hsort.1 j h; omega
    · simp only [hr, if_false, Option.some.injEq, Prod.mk.injEq] at h
      obtain ⟨rfl, rfl, rfl⟩ := h
      refine ⟨hr, ?_, ⟨find_pairwise _, find_pairwise _, find_pairwise _⟩, ?_, ?_, mpq, fun _ => ⟨mref, mpv⟩, ?_⟩
      · intro i
        refine ⟨?_, ?_, ?_⟩
        · rintro ⟨h1, h2⟩
          have := uniq ((mref i).1 h1).1 ((mpv i).1 h2).1; omega
        · rintro ⟨h1, h2⟩
          have h1 := (mref i).1 h1
          rcases ((mpq i).1 h2).2 with h | h
          · have := uniq h h1.1; omega
          · exact h h1.2
        · rintro ⟨h1, h2⟩
          have h1 := (mpv i).1 h1
          rcases ((mpq i).1 h2).2 with h | h
          · have := uniq h h1.1; omega
          · exact h h1.2
      · intro i hi
        rcases hi with hi | hi | hi
        · exact lt ((mref i).1 hi).1
        · exact lt ((mpv i).1 hi).1
        · exact ((mpq i).1 hi).1
      · intro i t ht h3
        by_cases hg : HasGen gens i
        · rcases h3 with rfl | rfl | rfl
          · exact Or.inr (Or.inr ((mpq i).2 ⟨lt ht, Or.inl ht⟩))
          · exact Or.inr (Or.inl ((mpv i).2 ⟨ht, hg⟩))
          · exact Or.inl ((mref i).2 ⟨ht, hg⟩)
        · exact Or.inr (Or.inr ((mpq i).2 ⟨lt ht, Or.inr hg⟩))
      · intro hno
        exfalso
        obtain ⟨i, hi⟩ := List.exists_mem_of_ne_nil _ hr
        exact hno ⟨i, (mref i).1 hi⟩

/-- **C10**, failing calls: the call fails exactly when a generator refers to a bus outside the table, or when no REF or PV bus has
a generator in service. -/
theorem C10_failure (types : List Int) (gens : List Gen) :
    bustypes types gens = none ↔
      (∃ g ∈ gens, types.length ≤ g.bus) ∨ (∀ i, HasType types i 2 ∨ HasType types i 3 → ¬ HasGen gens i) := by
  constructor
  · intro h
    apply Classical.byContradiction; intro hc
    rw [not_or, Classical.not_forall] at hc
    obtain ⟨h1, i, hi⟩ := hc
    rw [Classical.not_imp, Classical.not_not] at hi
    unfold bustypes at h
    have hany : gens.any (fun g => decide (types.length ≤ g.bus)) = false := by
      rw [List.any_eq_false]
      intro g hg hh
      exact h1 ⟨g, hg, by simpa using hh⟩
    simp only [hany, Bool.false_eq_true, if_false] at h
    have hgi := (gensOn_ne gens i).2 hi.2
    split at h
    · rename_i hr
      split at h
      · rename_i hpv
        rcases hi.1 with ht | ht
        · have : i ∈ find (List.zipWith (fun t s => t == 2 && s) types
              ((List.range types.length).map (fun i => gensOn gens i != 0))) :=
            (mem_mask types gens (fun t s => t == 2 && s) i).2 ⟨2, ht, by simp [hgi]⟩
          rw [hpv] at this; simp at this
        · have : i ∈ find (List.zipWith (fun t s => t == 3 && s) types
              ((List.range types.length).map (fun i => gensOn gens i != 0))) :=
            (mem_mask types gens (fun t s => t == 3 && s) i).2 ⟨3, ht, by simp [hgi]⟩
          rw [hr] at this; simp at this
      · simp at h
    · simp at h
  · intro h
    cases hb : bustypes types gens with
    | none => rfl
    | some r =>
      exfalso
      obtain ⟨ref, pv, pq⟩ := r
      obtain ⟨hne, _, _, _, _, _, h7, h8⟩ := C10_classification hb
      rcases h with ⟨g, hg, hl⟩ | h
      · unfold bustypes at hb
        have : gens.any (fun g => decide (types.length ≤ g.bus)) = true := by
          rw [List.any_eq_true]; exact ⟨g, hg, by simpa using hl⟩
        simp [this] at hb
      · by_cases hd : ∃ i, HasType types i 3 ∧ HasGen gens i
        · obtain ⟨i, h1, h2⟩ := hd
          exact h i (Or.inr h1) h2
        · obtain ⟨r, _, h1, h2, _⟩ := h8 hd
          exact h r (Or.inl h1) h2

/-- Non-vacuity: REF bus 0 has only an off generator, so PV bus 1 takes over; bus 3 (PV) without generator becomes PQ. -/
example : bustypes [3, 2, 1, 2, 2] [⟨0, 0⟩, ⟨1, 1⟩, ⟨4, 1⟩] = some ([1], [4], [0, 2, 3]) := by decide

example : bustypes [3, 1] [⟨1, 1⟩] = none := by decide

end Verif.Bustypes
