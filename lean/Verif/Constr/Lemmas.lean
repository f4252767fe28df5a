import Verif.Constr.Model
import Verif.NumPyLemmas

/-! Facts used for the constraint builders. -/

open Verif.NumPy

namespace Verif.Constr

theorem scatter_fill_aux {α β : Type} (pre : List β) (xs : List α) (p : α → Bool) (g : α → β) (d : β) :
    scatter (pre ++ List.replicate xs.length d) (findFrom pre.length (xs.map p)) ((xs.filter p).map g)
      = some (pre ++ xs.map fun x => if p x then g x else d) := by
  induction xs generalizing pre with
  | nil => simp [findFrom, scatter]
  | cons x xs ih =>
    by_cases hp : p x
    · have := ih (pre ++ [g x])
      simp only [List.append_assoc, List.singleton_append, List.length_append, List.length_cons, List.length_nil,
        Nat.zero_add] at this
      simp [findFrom, hp, scatter, List.replicate_succ, this]
    · have := ih (pre ++ [d])
      simp only [List.append_assoc, List.singleton_append, List.length_append, List.length_cons, List.length_nil,
        Nat.zero_add] at this
      simp [findFrom, hp, List.replicate_succ, this]

/-- `r = d * ones(n); k = find(mask); r[k] = values[k]`. -/
theorem scatter_fill {α β : Type} (xs : List α) (p : α → Bool) (g : α → β) (d : β) :
    scatter (List.replicate xs.length d) (find (xs.map p)) ((xs.filter p).map g)
      = some (xs.map fun x => if p x then g x else d) := by
  simpa [find] using scatter_fill_aux [] xs p g d

theorem filter_zip_range' {α : Type} (l : List α) (s i : Nat) (hi : i < l.length) :
    ((List.range' s l.length).zip l).filter (fun e => decide (e.1 = s + i)) = [(s + i, l[i])] := by
  induction l generalizing s i with
  | nil => simp at hi
  | cons a l ih =>
    simp only [List.length_cons, List.range'_succ, List.zip_cons_cons, List.filter_cons]
    cases i with
    | zero =>
      have h0 : ((List.range' (s + 1) l.length).zip l).filter (fun e => decide (e.1 = s)) = [] := by
        rw [List.filter_eq_nil_iff]
        intro e he
        have := (List.of_mem_zip he).1
        have := List.mem_range'_1.1 this
        simp; omega
      simp [h0]
    | succ i =>
      have h1 := ih (s + 1) i (by simpa using hi)
      have e1 : s + 1 + i = s + (i + 1) := by omega
      rw [e1] at h1
      simp [h1]

theorem filter_zip_range {α : Type} (l : List α) (n i : Nat) (hl : l.length = n) (hi : i < n) :
    ((List.range n).zip l).filter (fun e => decide (e.1 = i)) = [(i, l[i]'(by omega))] := by
  subst hl
  have := filter_zip_range' l 0 i hi
  simpa [List.range_eq_range'] using this

/-- A row of a matrix made of two diagonal-like blocks. -/
theorem row_twoBlocks (n : Nat) (c1 c2 : List Nat) (v1 v2 : List ℝ) (h1 : c1.length = n) (h2 : c2.length = n)
    (h3 : v1.length = n) (h4 : v2.length = n) (x : Nat → ℝ) (i : Nat) (hi : i < n) :
    (twoBlocks n c1 c2 v1 v2).row x i
      = v1[i]'(by omega) * x (c1[i]'(by omega)) + v2[i]'(by omega) * x (c2[i]'(by omega)) := by
  unfold twoBlocks Coo.row
  rw [List.zip_append (by omega), List.zip_append (by simp [h1, h3])]
  rw [List.filter_append, filter_zip_range (c1.zip v1) n i (by simp [h1, h3]) hi,
    filter_zip_range (c2.zip v2) n i (by simp [h2, h4]) hi]
  simp

/-- Positions of a mask, listed and gathered. -/
theorem find_row {α : Type} (xs : List α) (p : α → Bool) (k i : Nat) (h : (find (xs.map p))[k]? = some i) :
    ∃ x, xs[i]? = some x ∧ p x = true ∧ (xs.filter p)[k]? = some x := by
  have hm : i ∈ find (xs.map p) := List.mem_of_getElem? h
  rw [mem_find, List.getElem?_map] at hm
  cases hx : xs[i]? with
  | none => simp [hx] at hm
  | some x =>
    have hg := gather_get (gather_find xs p) k
    rw [h] at hg
    refine ⟨x, rfl, by simpa [hx] using hm, ?_⟩
    rw [hg]; simp [hx]

theorem find_pos {α : Type} (xs : List α) (p : α → Bool) (i : Nat) (x : α) (hx : xs[i]? = some x) (hp : p x = true) :
    ∃ k : Nat, (find (xs.map p))[k]? = some i := by
  have : i ∈ find (xs.map p) := by rw [mem_find, List.getElem?_map, hx]; simp [hp]
  exact List.mem_iff_getElem?.1 this

/-- A statement for every listed position is a statement for every flagged row of the table. -/
theorem forall_flagged {α : Type} (xs : List α) (p : α → Bool) (P : Nat → α → Prop) :
    (∀ (k i : Nat) (x : α), (find (xs.map p))[k]? = some i → (xs.filter p)[k]? = some x → P i x)
      ↔ ∀ (i : Nat) (x : α), xs[i]? = some x → p x = true → P i x := by
  constructor
  · intro h i x hx hp
    obtain ⟨k, hk⟩ := find_pos xs p i x hx hp
    obtain ⟨y, hy, -, hky⟩ := find_row xs p k i hk
    have : x = y := Option.some.inj (hx.symm.trans hy)
    subst this
    exact h k i x hk hky
  · intro h k i x hk hkx
    obtain ⟨y, hy, hp, hky⟩ := find_row xs p k i hk
    have : x = y := Option.some.inj (hkx.symm.trans hky)
    subst this
    exact h i x hy hp

end Verif.Constr
