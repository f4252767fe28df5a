import Verif.Printpf.Spec
import Verif.NumPyLemmas

/-!
# The list of area numbers: C92 of `properties.jsonl`
-/

namespace Verif.Printpf

open Verif.Opf (Tables BusD GenD BrD)
open Verif.Index (BusRow)
open Verif.NumPy (find findFrom gather)

/-- Entries that differ from the one before. -/
def runs : ℤ → List ℤ → List ℤ
  | _, [] => []
  | x, y :: ys => if y - x != 0 then y :: runs y ys else runs y ys

theorem gather_runs (s : List ℤ) : ∀ (xs : List ℤ) (k : ℕ) (x : ℤ), s.drop k = x :: xs →
    gather s ((findFrom k (List.zipWith (fun x y => y - x != 0) (x :: xs) xs)).map (· + 1)) = some (runs x xs) := by
  intro xs
  induction xs with
  | nil => intro k x _; rfl
  | cons y ys ih =>
    intro k x h
    have h1 : s.drop (k + 1) = y :: ys := by rw [← List.drop_drop, h]; rfl
    have h2 : s[k + 1]? = some y := by
      have := congrArg (·[0]?) h1
      simpa using this
    have e := ih (k + 1) y h1
    simp only [List.zipWith_cons_cons, findFrom]
    by_cases hd : (y - x != 0) = true
    · rw [if_pos hd]
      simp only [List.map_cons, gather, h2]
      rw [e]
      simp [runs, hd]
    · rw [if_neg hd, e]
      simp [runs, hd]

theorem runs_spec : ∀ (xs : List ℤ) (x : ℤ), (x :: xs).Pairwise (· ≤ ·) →
    (x :: runs x xs).Pairwise (· < ·) ∧ ∀ a, a ∈ x :: runs x xs ↔ a ∈ x :: xs := by
  intro xs
  induction xs with
  | nil => intro x _; simp [runs]
  | cons y ys ih =>
    intro x h
    have hy := ih y (List.pairwise_cons.1 h).2
    have hxy : x ≤ y := (List.pairwise_cons.1 h).1 y (by simp)
    by_cases hd : (y - x != 0) = true
    · have hlt : x < y := by
        rcases lt_or_eq_of_le hxy with h1 | h1
        · exact h1
        · subst h1; simp at hd
      simp only [runs, if_pos hd]
      refine ⟨List.pairwise_cons.2 ⟨fun a ha => ?_, hy.1⟩, fun a => ?_⟩
      · rcases List.mem_cons.1 ha with rfl | ha
        · exact hlt
        · exact hlt.trans ((List.pairwise_cons.1 hy.1).1 a ha)
      · have := hy.2 a
        simp only [List.mem_cons] at this ⊢
        rw [this]
    · have he : y = x := by
        simp at hd
        omega
      subst he
      simp only [runs, if_neg hd]
      refine ⟨hy.1, fun a => ?_⟩
      have := hy.2 a
      simp only [List.mem_cons] at this ⊢
      rw [this]; tauto

variable {area : List ℝ → ℤ} {t : Index.Case Tables}

/-- What the expression computes. -/
theorem sAreas_eq {x y : ℤ} {l : List ℤ} (h : (t.bus.map (areaOf area)).insertionSort (· ≤ ·) = x :: y :: l) : sAreas area t = some (y :: runs x (y :: l)) := by
  unfold sAreas
  simp only [h]
  have e := gather_runs (x :: y :: l) (y :: l) 0 x rfl
  simp only [gather]
  rw [show find (List.zipWith (fun x y => y - x != 0) (x :: y :: l) (x :: y :: l).tail) = findFrom 0 (List.zipWith (fun x y => y - x != 0) (x :: y :: l) (y :: l)) from rfl, e]
  rfl

theorem sort_pairwise (l : List ℤ) : (l.insertionSort (· ≤ ·)).Pairwise (· ≤ ·) := List.pairwise_insertionSort _ l

/-- If the smallest area number is carried by at least two buses, the areas listed are exactly the areas of the buses, each once, in ascending order. -/
theorem sAreas_right (h : ∃ i j : ℕ, i ≠ j ∧ ∃ b b', t.bus[i]? = some b ∧ t.bus[j]? = some b' ∧ area b.data.rest = area b'.data.rest ∧ ∀ c ∈ t.bus, area b.data.rest ≤ area c.data.rest) :
    ∃ l, sAreas area t = some l ∧ l.Pairwise (· < ·) ∧ ∀ a, a ∈ l ↔ ∃ b ∈ t.bus, area b.data.rest = a := by
  obtain ⟨i, j, hij, b, b', hi, hj, he, hmin⟩ := h
  have hperm := List.perm_insertionSort (· ≤ ·) (t.bus.map (areaOf area))
  have hsort := sort_pairwise (t.bus.map (areaOf area))
  set s := (t.bus.map (areaOf area)).insertionSort (· ≤ ·) with hs
  have hc : 2 ≤ s.count (area b.data.rest) := by
    rw [hperm.count_eq, ← List.duplicate_iff_two_le_count]
    rcases lt_or_gt_of_ne hij with h1 | h1
    · rw [List.duplicate_iff_exists_distinct_get]
      have hil : i < (t.bus.map (areaOf area)).length := by simp; exact (List.getElem?_eq_some_iff.1 hi).1
      have hjl : j < (t.bus.map (areaOf area)).length := by simp; exact (List.getElem?_eq_some_iff.1 hj).1
      refine ⟨⟨i, hil⟩, ⟨j, hjl⟩, h1, ?_, ?_⟩
      · obtain ⟨_, e⟩ := List.getElem?_eq_some_iff.1 hi
        simp [areaOf, e]
      · obtain ⟨_, e⟩ := List.getElem?_eq_some_iff.1 hj
        simp [areaOf, e, he]
    · rw [List.duplicate_iff_exists_distinct_get]
      have hil : i < (t.bus.map (areaOf area)).length := by simp; exact (List.getElem?_eq_some_iff.1 hi).1
      have hjl : j < (t.bus.map (areaOf area)).length := by simp; exact (List.getElem?_eq_some_iff.1 hj).1
      refine ⟨⟨j, hjl⟩, ⟨i, hil⟩, h1, ?_, ?_⟩
      · obtain ⟨_, e⟩ := List.getElem?_eq_some_iff.1 hj
        simp [areaOf, e, he]
      · obtain ⟨_, e⟩ := List.getElem?_eq_some_iff.1 hi
        simp [areaOf, e]
  have hmin' : ∀ a ∈ s, area b.data.rest ≤ a := by
    intro a ha
    have := hperm.mem_iff.1 ha
    simp only [List.mem_map] at this
    obtain ⟨c, hc, rfl⟩ := this
    exact hmin c hc
  have hmem : ∀ a, a ∈ s ↔ ∃ b ∈ t.bus, area b.data.rest = a := by
    intro a
    rw [hperm.mem_iff]
    simp [areaOf]
  generalize area b.data.rest = m at *
  match hss : s, hc with
  | [], hc => simp at hc
  | [x], hc => have := List.count_le_length (a := m) (l := [x]); simp at this; omega
  | x :: y :: l, hc =>
    have hx : x = m := by
      by_contra hne
      have hlt : m < x := lt_of_le_of_ne (hmin' x (by simp)) (Ne.symm hne)
      have h0 : (x :: y :: l).count m = 0 := by
        rw [List.count_eq_zero]
        intro hm
        rcases List.mem_cons.1 hm with h1 | h1
        · omega
        · have := (List.pairwise_cons.1 hsort).1 m h1; omega
      omega
    have hy : y = m := by
      by_contra hne
      have hlt : m < y := lt_of_le_of_ne (hmin' y (by simp)) (Ne.symm hne)
      have h0 : (y :: l).count m = 0 := by
        rw [List.count_eq_zero]
        intro hm
        rcases List.mem_cons.1 hm with h1 | h1
        · omega
        · have := (List.pairwise_cons.1 (List.pairwise_cons.1 hsort).2).1 m h1; omega
      rw [List.count_cons] at hc
      split at hc <;> omega
    obtain ⟨r1, r2⟩ := runs_spec (y :: l) x hsort
    have e := sAreas_eq (area := area) (t := t) hs.symm
    have hxy : y = x := hy.trans hx.symm
    rw [hxy] at e r1 r2 hmem
    exact ⟨_, e, r1, fun a => (r2 a).trans (hmem a)⟩

/-- If exactly one bus carries the smallest area number and there is another bus, that area is not listed, and the one after it is listed twice. With a single bus in
the whole table the call raises. -/
theorem sAreas_wrong : (∀ b ∈ t.bus, (∀ c ∈ t.bus, area b.data.rest ≤ area c.data.rest) → (t.bus.filter fun c => area c.data.rest == area b.data.rest).length = 1 → 2 ≤ t.bus.length →
      ∃ l, sAreas area t = some l ∧ area b.data.rest ∉ l ∧ ¬ l.Nodup) ∧
    (t.bus.length ≤ 1 → sAreas area t = none) := by
  have hperm := List.perm_insertionSort (· ≤ ·) (t.bus.map (areaOf area))
  have hsort := sort_pairwise (t.bus.map (areaOf area))
  set s := (t.bus.map (areaOf area)).insertionSort (· ≤ ·) with hs
  have hlen : s.length = t.bus.length := by rw [hperm.length_eq]; simp
  refine ⟨fun b hb hmin hone h2 => ?_, fun h1 => ?_⟩
  · have hmin' : ∀ a ∈ s, area b.data.rest ≤ a := by
      intro a ha
      have := hperm.mem_iff.1 ha
      simp only [List.mem_map] at this
      obtain ⟨c, hc, rfl⟩ := this
      exact hmin c hc
    have hc : s.count (area b.data.rest) = 1 := by
      rw [hperm.count_eq, List.count_eq_countP, List.countP_map, List.countP_eq_length_filter]
      exact hone
    generalize area b.data.rest = m at *
    match hss : s, hlen with
    | [], hl => simp at hl; omega
    | [x], hl => simp at hl; omega
    | x :: y :: l, hl =>
      have hx : x = m := by
        by_contra hne
        have hlt : m < x := lt_of_le_of_ne (hmin' x (by simp)) (Ne.symm hne)
        have h0 : (x :: y :: l).count m = 0 := by
          rw [List.count_eq_zero]
          intro hm
          rcases List.mem_cons.1 hm with h1 | h1
          · omega
          · have := (List.pairwise_cons.1 hsort).1 m h1; omega
        omega
      subst hx
      have h0 : (y :: l).count x = 0 := by
        rw [List.count_cons_self] at hc; omega
      have hxy : y ≠ x := by
        rintro rfl
        simp at h0
      have hlt : x < y := lt_of_le_of_ne (hmin' y (by simp)) (Ne.symm hxy)
      obtain ⟨r1, r2⟩ := runs_spec (y :: l) x hsort
      have e := sAreas_eq (area := area) (t := t) hs.symm
      have hd : (y - x != 0) = true := by simp; omega
      refine ⟨_, e, ?_, ?_⟩
      · intro hm
        rcases List.mem_cons.1 hm with h1 | h1
        · exact hxy h1.symm
        · exact lt_irrefl x ((List.pairwise_cons.1 r1).1 x h1)
      · simp only [runs, if_pos hd]
        intro hn
        exact (List.nodup_cons.1 hn).1 (by simp)
  · unfold sAreas
    rw [← hs]
    have : s[1]? = none := by rw [List.getElem?_eq_none]; omega
    simp only [gather, this]

end Verif.Printpf
