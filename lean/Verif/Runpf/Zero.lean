import Verif.Runpf.Model
import Verif.NumPyLemmas

/-!
# C65: zeroing of out-of-service rows, C71: result columns
-/

namespace Verif.Runpf

open Verif.NumPy

/-- Entry `(i, j)` of a table. -/
def entry (t : List (List ℝ)) (i j : Nat) : Option ℝ := t[i]?.bind fun r => r[j]?

theorem zeroAt_entry {t t' : List (List ℝ)} {rows cols : List Nat} (h : zeroAt t rows cols = some t') (i j : Nat) :
    entry t' i j = (entry t i j).map fun x => if i ∈ rows ∧ j ∈ cols then 0 else x := by
  unfold zeroAt at h
  split at h
  · simp at h
  · injection h with h
    subst h
    unfold entry
    rw [List.getElem?_mapIdx]
    cases t[i]? with
    | none => rfl
    | some r =>
      simp only [Option.map_some, Option.bind_some, List.getElem?_mapIdx]
      cases r[j]? <;> simp

/-- What the zeroing must do: rows marked out of service get zeros in the listed columns, everything else keeps its value. -/
def ZeroesOff (on : List Bool) (cols : List Nat) (t t' : List (List ℝ)) : Prop :=
  ∀ (i j : Nat) (x : ℝ), entry t i j = some x → entry t' i j = some (if on[i]? = some false ∧ j ∈ cols then 0 else x)

theorem zero_step (t : List (List ℝ)) (on : List Bool) (cols : List Nat) (t' : List (List ℝ))
    (h : (if (find (on.map not)).length > 0 then zeroAt t (find (on.map not)) cols else some t) = some t') : ZeroesOff on cols t t' := by
  have hmem : ∀ i, i ∈ find (on.map not) ↔ on[i]? = some false := by
    intro i
    rw [mem_find, List.getElem?_map]
    cases on[i]? with
    | none => simp
    | some b => cases b <;> simp
  intro i j x hx
  split at h
  · rw [zeroAt_entry h, hx, Option.map_some]
    simp only [hmem]
  · rename_i hl
    injection h with h
    subst h
    have hnil : find (on.map not) = [] := List.length_eq_zero_iff.1 (by omega)
    have : ¬ (on[i]? = some false ∧ j ∈ cols) := by
      rw [← hmem, hnil]; simp
    rw [if_neg this, hx]

/-- **C65.** After a power flow (`genOn`, `brOn` are the in-service flags of the external rows, `order.*.status`, see C03) the outputs of
out-of-service generators (columns PG, QG) and the flows of out-of-service branches (PF, QF, PT, QT) are zero in the returned tables and every other entry is
untouched; likewise after an OPF, where also the multipliers of active limits, flow limits and angle limits are zero. -/
theorem C65 (gen branch gen' branch' : List (List ℝ)) (genOn brOn : List Bool) :
    (zeroPf gen branch (find (genOn.map not)) (find (brOn.map not)) = some (gen', branch') →
      ZeroesOff genOn [1, 2] gen gen' ∧ ZeroesOff brOn [13, 14, 15, 16] branch branch') ∧
    (zeroOpf gen branch (find (genOn.map not)) (find (brOn.map not)) = some (gen', branch') →
      ZeroesOff genOn [1, 2, 21, 22] gen gen' ∧ ZeroesOff brOn [13, 14, 15, 16, 17, 18, 19, 20] branch branch') := by
  constructor
  · intro h
    simp only [zeroPf, Option.bind_eq_some_iff, Option.map_eq_some_iff] at h
    obtain ⟨g, hg, b, hb, he⟩ := h
    injection he with h1 h2
    subst h1 h2
    exact ⟨zero_step gen genOn _ g hg, zero_step branch brOn _ b hb⟩
  · intro h
    simp only [zeroOpf, Option.bind_eq_some_iff, Option.map_eq_some_iff] at h
    obtain ⟨g, hg, b, hb, he⟩ := h
    injection he with h1 h2
    subst h1 h2
    exact ⟨zero_step gen genOn _ g hg, zero_step branch brOn _ b hb⟩

theorem find_lt_length (on : List Bool) (i : Nat) (h : i ∈ find (on.map not)) : i < on.length := by
  rw [mem_find, List.getElem?_map] at h
  by_contra hc
  rw [List.getElem?_eq_none (by omega)] at h
  simp at h

/-- The zeroing succeeds on tables with the result columns. -/
theorem C65_defined (gen branch : List (List ℝ)) (genOn brOn : List Bool) (hg : genOn.length = gen.length) (hb : brOn.length = branch.length)
    (hgc : ∀ r ∈ gen, 3 ≤ r.length) (hbc : ∀ r ∈ branch, 17 ≤ r.length) :
    ∃ r, zeroPf gen branch (find (genOn.map not)) (find (brOn.map not)) = some r := by
  have key : ∀ (t : List (List ℝ)) (on : List Bool) (cols : List Nat), on.length = t.length → (∀ r ∈ t, ∀ c ∈ cols, c < r.length) →
      ∃ t', (if (find (on.map not)).length > 0 then zeroAt t (find (on.map not)) cols else some t) = some t' := by
    intro t on cols hl hc
    split
    · unfold zeroAt
      rw [if_neg]
      · exact ⟨_, rfl⟩
      · simp only [Bool.or_eq_true, Bool.and_eq_true, List.any_eq_true, decide_eq_true_eq, not_or, not_and, not_exists]
        refine ⟨fun i hi => ?_, fun _ r hr c hc' => ?_⟩
        · have := find_lt_length on i hi
          omega
        · have := hc r hr c hc'
          omega
    · exact ⟨_, rfl⟩
  obtain ⟨g', hg'⟩ := key gen genOn [1, 2] hg (by
    intro r hr c hc
    have := hgc r hr
    simp at hc
    omega)
  obtain ⟨b', hb'⟩ := key branch brOn [13, 14, 15, 16] hb (by
    intro r hr c hc
    have := hbc r hr
    simp at hc
    omega)
  exact ⟨(g', b'), by simp [zeroPf, hg', hb']⟩

/-- Non-vacuity: one generator in service, one out of service. -/
example : zeroPf [[1, 5, 6], [2, 7, 8]] [] (find ([true, false].map not)) (find ([].map not)) = some ([[1, 5, 6], [2, 0, 0]], []) := by
  simp [zeroPf, zeroAt, find, findFrom]

/-! ## C71 -/

/-- **C71** (partial).  A rectangular branch table with `n` columns, `n ≠ 16`, has all result columns (at least 17) after the driver's padding, the given entries are
kept and the new ones are zero.  Missing: `n = 16` (see `C71_negation`). -/
theorem C71_partial (branch : List (List ℝ)) (n : Nat) (hn : ∀ r ∈ branch, r.length = n) (h16 : n ≠ 16) :
    (addPfCols branch n).length = branch.length ∧
    (∀ r ∈ addPfCols branch n, 17 ≤ r.length) ∧
    (∀ (i j : Nat), j < n → entry (addPfCols branch n) i j = entry branch i j) ∧
    (∀ (i j : Nat) (x : ℝ), n ≤ j → entry (addPfCols branch n) i j = some x → x = 0) := by
  unfold addPfCols
  by_cases h : n < 16
  · rw [if_pos h]
    refine ⟨by simp, ?_, ?_, ?_⟩
    · intro r hr
      rw [List.mem_map] at hr
      obtain ⟨r', hr', rfl⟩ := hr
      rw [List.length_append, List.length_replicate, hn r' hr']
      omega
    · intro i j hj
      unfold entry
      rw [List.getElem?_map]
      cases hi : branch[i]? with
      | none => rfl
      | some r =>
        have hl := hn r (List.mem_of_getElem? hi)
        simp only [Option.map_some, Option.bind_some]
        rw [List.getElem?_append_left (by omega)]
    · intro i j x hj hx
      unfold entry at hx
      rw [List.getElem?_map] at hx
      cases hi : branch[i]? with
      | none => rw [hi] at hx; simp at hx
      | some r =>
        have hl := hn r (List.mem_of_getElem? hi)
        rw [hi] at hx
        simp only [Option.map_some, Option.bind_some] at hx
        rw [List.getElem?_append_right (by omega), List.getElem?_replicate] at hx
        split at hx
        · injection hx with hx; exact hx.symm
        · simp at hx
  · rw [if_neg h]
    refine ⟨rfl, fun r hr => by rw [hn r hr]; omega, fun _ _ _ => rfl, ?_⟩
    intro i j x hj hx
    unfold entry at hx
    cases hi : branch[i]? with
    | none => rw [hi] at hx; simp at hx
    | some r =>
      have hl := hn r (List.mem_of_getElem? hi)
      rw [hi] at hx
      simp only [Option.bind_some] at hx
      rw [List.getElem?_eq_none (by omega)] at hx
      simp at hx

/-- **C71, negation.** A table with exactly 16 columns is not padded, so the column QT (16) does not exist; writing it raises. -/
theorem C71_negation (branch : List (List ℝ)) (hn : ∀ r ∈ branch, r.length = 16) (i : Nat) : entry (addPfCols branch 16) i 16 = none := by
  unfold addPfCols entry
  rw [if_neg (by omega)]
  cases hi : branch[i]? with
  | none => rfl
  | some r =>
    rw [Option.bind_some, List.getElem?_eq_none]
    rw [hn r (List.mem_of_getElem? hi)]

/-- The padding of `opf` has no such gap: afterwards every row has at least `n` columns, given entries are kept, new ones are zero. -/
theorem C71_opf (table : List (List ℝ)) (m n : Nat) (hm : ∀ r ∈ table, r.length = m) :
    (∀ r ∈ padCols table m n, n ≤ r.length) ∧ (∀ (i j : Nat), j < m → entry (padCols table m n) i j = entry table i j) ∧
    (∀ (i j : Nat) (x : ℝ), m ≤ j → entry (padCols table m n) i j = some x → x = 0) := by
  unfold padCols
  by_cases h : m < n
  · rw [if_pos h]
    refine ⟨?_, ?_, ?_⟩
    · intro r hr
      rw [List.mem_map] at hr
      obtain ⟨r', hr', rfl⟩ := hr
      rw [List.length_append, List.length_replicate, hm r' hr']
      omega
    · intro i j hj
      unfold entry
      rw [List.getElem?_map]
      cases hi : table[i]? with
      | none => rfl
      | some r =>
        have hl := hm r (List.mem_of_getElem? hi)
        simp only [Option.map_some, Option.bind_some]
        rw [List.getElem?_append_left (by omega)]
    · intro i j x hj hx
      unfold entry at hx
      rw [List.getElem?_map] at hx
      cases hi : table[i]? with
      | none => rw [hi] at hx; simp at hx
      | some r =>
        have hl := hm r (List.mem_of_getElem? hi)
        rw [hi] at hx
        simp only [Option.map_some, Option.bind_some] at hx
        rw [List.getElem?_append_right (by omega), List.getElem?_replicate] at hx
        split at hx
        · injection hx with hx; exact hx.symm
        · simp at hx
  · rw [if_neg h]
    refine ⟨fun r hr => by rw [hm r hr]; omega, fun _ _ _ => rfl, ?_⟩
    intro i j x hj hx
    unfold entry at hx
    cases hi : table[i]? with
    | none => rw [hi] at hx; simp at hx
    | some r =>
      have hl := hm r (List.mem_of_getElem? hi)
      rw [hi] at hx
      simp only [Option.bind_some] at hx
      rw [List.getElem?_eq_none (by omega)] at hx
      simp at hx

/-- Non-vacuity of C71. -/
example : ∀ r ∈ ([List.replicate 13 0] : List (List ℝ)), r.length = 13 := by simp

end Verif.Runpf
