import Verif.Util.Model
import Mathlib.Data.List.Basic
import Mathlib.Tactic.Linarith
import Mathlib.Tactic.Ring

/-!
# C66: linear indices
-/

namespace Verif.Util

/-! ## Specification -/

/-- `i` names row (or column) `k` of `n`, counted from the front, or from the back when negative. -/
def Names (n : Nat) (i : Int) (k : Nat) : Prop := k < n ∧ (i = k ∨ i = (k : Int) - n)

/-! ## Proofs -/

theorem Names.emod {n : Nat} {i : Int} {k : Nat} (h : Names n i k) : i % n = k := by
  obtain ⟨h1, rfl | rfl⟩ := h
  · exact Int.emod_eq_of_lt (by omega) (by omega)
  · have : ((k : Int) - n) % n = (k : Int) % n := by
      rw [Int.sub_emod, Int.emod_self, Int.sub_zero, Int.emod_emod]
    rw [this]
    exact Int.emod_eq_of_lt (by omega) (by omega)

theorem flatten_get {α : Type} (c : Nat) (m : List (List α)) (h : ∀ r ∈ m, r.length = c) (i j : Nat) (hi : i < m.length) (hj : j < c) :
    m.flatten[i * c + j]? = m[i]?.bind fun r => r[j]? := by
  induction m generalizing i with
  | nil => simp at hi
  | cons r m ih =>
    have hr : r.length = c := h r (by simp)
    rw [List.flatten_cons]
    cases i with
    | zero =>
      rw [List.getElem?_append_left (by omega)]
      simp
    | succ i =>
      rw [List.getElem?_append_right (by rw [hr]; calc c ≤ (i + 1) * c := Nat.le_mul_of_pos_left _ (by omega)
                                                _ ≤ _ := Nat.le_add_right _ _)]
      rw [List.getElem?_cons_succ, ← ih (fun r hr => h r (by simp [hr])) i (by simpa using hi), hr]
      congr 1
      rw [Nat.add_mul, Nat.one_mul]; omega

theorem col_get {α : Type} (c : Nat) (m : List (List α)) (h : ∀ r ∈ m, r.length = c) (j : Nat) (hj : j < c) (i : Nat) :
    (col m j)[i]? = m[i]?.bind fun r => r[j]? := by
  induction m generalizing i with
  | nil => simp [col]
  | cons r m ih =>
    have hr : j < r.length := by rw [h r (by simp)]; exact hj
    have : col (r :: m) j = r[j] :: col m j := by
      unfold col
      rw [List.filterMap_cons, List.getElem?_eq_getElem hr]
    rw [this]
    cases i with
    | zero => simp [List.getElem?_eq_getElem hr]
    | succ i => simpa using ih (fun r hr => h r (by simp [hr])) i

theorem col_length {α : Type} (c : Nat) (m : List (List α)) (h : ∀ r ∈ m, r.length = c) (j : Nat) (hj : j < c) : (col m j).length = m.length := by
  induction m with
  | nil => rfl
  | cons r m ih =>
    have hr : j < r.length := by rw [h r (by simp)]; exact hj
    unfold col at ih ⊢
    rw [List.filterMap_cons, List.getElem?_eq_getElem hr, List.length_cons, List.length_cons, ih fun r hr => h r (by simp [hr])]

/-- **C66 (flattening).** Indexing the flattened table with the linear index of a subscript pair gives the entry in the named row and column, row by row and
column by column, counting from the back for negative subscripts; the linear index is in range. -/
theorem C66_flatten {α : Type} (nr nc : Nat) (m : List (List α)) (hm : m.length = nr) (h : ∀ r ∈ m, r.length = nc) (I J : Int) (i j : Nat)
    (hI : Names nr I i) (hJ : Names nc J j) :
    (∃ k : Nat, sub2ind (nr, nc) I J true = k ∧ k < nr * nc ∧ (flattenC m)[k]? = m[i]?.bind fun r => r[j]?)
      ∧ ∃ k : Nat, sub2ind (nr, nc) I J false = k ∧ k < nr * nc ∧ (flattenF nc m)[k]? = m[i]?.bind fun r => r[j]? := by
  have hlt : ∀ a b x y : Nat, x < a → y < b → x * b + y < a * b := by
    intro a b x y hx hy
    calc x * b + y < x * b + b := by omega
      _ = (x + 1) * b := by rw [Nat.add_mul, Nat.one_mul]
      _ ≤ a * b := Nat.mul_le_mul_right _ hx
  constructor
  · refine ⟨i * nc + j, ?_, hlt _ _ _ _ hI.1 hJ.1, flatten_get nc m h i j (by rw [hm]; exact hI.1) hJ.1⟩
    simp only [sub2ind, if_true, hI.emod, hJ.emod]
    push_cast; rfl
  · refine ⟨j * nr + i, ?_, ?_, ?_⟩
    · simp only [sub2ind, Bool.false_eq_true, if_false, hI.emod, hJ.emod]
      push_cast; rfl
    · rw [Nat.mul_comm nr nc]; exact hlt _ _ _ _ hJ.1 hI.1
    · unfold flattenF
      rw [flatten_get nr _ (fun r hr => by
        obtain ⟨k, hk, rfl⟩ := List.mem_map.1 hr
        rw [col_length nc m h k (List.mem_range.1 hk), hm]) j i (by simpa using hJ.1) hI.1, List.getElem?_map, List.getElem?_range hJ.1]
      simp only [Option.map_some, Option.bind_some]
      exact col_get nc m h j hJ.1 i

/-- **C66 (injective).** Two subscript pairs within the shape get the same linear index only if they name the same row and column. -/
theorem C66_injective (nr nc : Nat) (row_major : Bool) (I J I' J' : Int) (i j i' j' : Nat) (hI : Names nr I i) (hJ : Names nc J j)
    (hI' : Names nr I' i') (hJ' : Names nc J' j') (h : sub2ind (nr, nc) I J row_major = sub2ind (nr, nc) I' J' row_major) : i = i' ∧ j = j' := by
  have key : ∀ b x y x' y' : Nat, y < b → y' < b → x * b + y = x' * b + y' → x = x' ∧ y = y' := by
    intro b x y x' y' hy hy' e
    have hb : 0 < b := by omega
    have e1 : (x * b + y) / b = x := by rw [Nat.mul_comm, Nat.mul_add_div hb, Nat.div_eq_of_lt hy, Nat.add_zero]
    have e2 : (x' * b + y') / b = x' := by rw [Nat.mul_comm, Nat.mul_add_div hb, Nat.div_eq_of_lt hy', Nat.add_zero]
    have : x = x' := by rw [← e1, ← e2, e]
    subst this
    exact ⟨rfl, by omega⟩
  cases row_major
  · simp only [sub2ind, Bool.false_eq_true, if_false, hI.emod, hJ.emod, hI'.emod, hJ'.emod] at h
    have := key nr j i j' i' hI.1 hI'.1 (by exact_mod_cast h)
    exact ⟨this.2, this.1⟩
  · simp only [sub2ind, if_true, hI.emod, hJ.emod, hI'.emod, hJ'.emod] at h
    exact key nc i j i' j' hJ.1 hJ'.1 (by exact_mod_cast h)

/-- Non-vacuity: last row, second column of a 2 x 3 table. -/
example : Names 2 (-1) 1 ∧ Names 3 1 1 ∧ sub2ind (2, 3) (-1) 1 true = 4 ∧ sub2ind (2, 3) (-1) 1 false = 3
    ∧ (flattenF 3 [["a", "b", "c"], ["d", "e", "f"]])[3]? = some "e" := by
  refine ⟨⟨by omega, Or.inr (by omega)⟩, ⟨by omega, Or.inl (by omega)⟩, by decide, by decide, by decide⟩

end Verif.Util
