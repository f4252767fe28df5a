import Verif.NumPy

/-! Facts about `find`, `gather`, `scatter`. -/

namespace Verif.NumPy

/-- Replace, in order, the elements of `xs` satisfying `p` by the elements of `vs`. -/
def merge {α : Type _} (p : α → Bool) : List α → List α → List α
  | [], _ => []
  | x :: xs, vs =>
    if p x then
      match vs with
      | v :: vs => v :: merge p xs vs
      | [] => x :: merge p xs []
    else x :: merge p xs vs

theorem gather_append_left {α : Type _} (pre xs : List α) (p : α → Bool) :
    gather (pre ++ xs) (findFrom pre.length (xs.map p)) = some (xs.filter p) := by
  induction xs generalizing pre with
  | nil => simp [findFrom, gather]
  | cons x xs ih =>
    have h := ih (pre ++ [x])
    simp only [List.append_assoc, List.singleton_append, List.length_append, List.length_cons,
      List.length_nil, Nat.zero_add] at h
    by_cases hp : p x
    · simp [findFrom, hp, gather, h]
    · simp [findFrom, hp, h]

theorem gather_find {α : Type _} (xs : List α) (p : α → Bool) :
    gather xs (find (xs.map p)) = some (xs.filter p) := by
  simpa [find] using gather_append_left [] xs p

theorem scatter_append_left {α : Type _} (pre xs : List α) (p : α → Bool) (vs : List α)
    (h : vs.length = (xs.filter p).length) :
    scatter (pre ++ xs) (findFrom pre.length (xs.map p)) vs = some (pre ++ merge p xs vs) := by
  induction xs generalizing pre vs with
  | nil =>
    have : vs = [] := by simpa using h
    subst this; simp [findFrom, scatter, merge]
  | cons x xs ih =>
    by_cases hp : p x
    · cases vs with
      | nil => simp [hp] at h
      | cons v vs =>
        have h' : vs.length = (xs.filter p).length := by simpa [hp] using h
        have := ih (pre ++ [v]) vs h'
        simp only [List.append_assoc, List.singleton_append, List.length_append, List.length_cons,
          List.length_nil, Nat.zero_add] at this
        simp [findFrom, hp, scatter, merge, this]
    · have h' : vs.length = (xs.filter p).length := by simpa [hp] using h
      have := ih (pre ++ [x]) vs h'
      simp only [List.append_assoc, List.singleton_append, List.length_append, List.length_cons,
        List.length_nil, Nat.zero_add] at this
      simp [findFrom, hp, merge, this]

theorem scatter_find {α : Type _} (xs : List α) (p : α → Bool) (vs : List α)
    (h : vs.length = (xs.filter p).length) :
    scatter xs (find (xs.map p)) vs = some (merge p xs vs) := by
  simpa [find] using scatter_append_left [] xs p vs h

/-- Scatter with a mask of the right length given as a list of booleans. -/
theorem scatter_findFrom_bs {α : Type _} (pre xs : List α) (bs : List Bool) (hb : bs.length = xs.length) (vs : List α)
    (h : vs.length = (bs.filter id).length) :
    ∃ r, scatter (pre ++ xs) (findFrom pre.length bs) vs = some (pre ++ r) ∧ r.length = xs.length ∧
      gather (pre ++ r) (findFrom pre.length bs) = some vs ∧
      (∀ i : Nat, bs[i]? = some false → r[i]? = xs[i]?) := by
  induction xs generalizing pre vs bs with
  | nil =>
    have : bs = [] := by simpa using hb
    subst this
    have : vs = [] := by simpa using h
    subst this
    exact ⟨[], by simp [findFrom, scatter], rfl, by simp [findFrom, gather], by simp⟩
  | cons x xs ih =>
    cases bs with
    | nil => simp at hb
    | cons b bs =>
      simp only [List.length_cons, Nat.add_right_cancel_iff] at hb
      cases b with
      | true =>
        cases vs with
        | nil => simp at h
        | cons v vs =>
          obtain ⟨r, h1, h2, h3, h4⟩ := ih (pre ++ [v]) bs hb vs (by simpa using h)
          simp only [List.append_assoc, List.singleton_append, List.length_append, List.length_cons,
            List.length_nil, Nat.zero_add] at h1 h3
          refine ⟨v :: r, ?_, by simp [h2], ?_, ?_⟩
          · simp [findFrom, scatter, h1]
          · simp [findFrom, gather, h3]
          · intro i hi
            cases i with
            | zero => simp at hi
            | succ i => simpa using h4 i (by simpa using hi)
      | false =>
        obtain ⟨r, h1, h2, h3, h4⟩ := ih (pre ++ [x]) bs hb vs (by simpa using h)
        simp only [List.append_assoc, List.singleton_append, List.length_append, List.length_cons,
          List.length_nil, Nat.zero_add] at h1 h3
        refine ⟨x :: r, ?_, by simp [h2], ?_, ?_⟩
        · simp [findFrom, h1]
        · simp [findFrom, h3]
        · intro i hi
          cases i with
          | zero => simp
          | succ i => simpa using h4 i (by simpa using hi)

theorem merge_length {α : Type _} (p : α → Bool) (xs vs : List α) : (merge p xs vs).length = xs.length := by
  induction xs generalizing vs with
  | nil => simp [merge]
  | cons x xs ih =>
    by_cases hp : p x
    · cases vs <;> simp [merge, hp, ih]
    · simp [merge, hp, ih]

theorem merge_map_filter {α : Type _} (p : α → Bool) (f : α → α) (xs : List α) :
    merge p xs ((xs.filter p).map f) = xs.map (fun x => if p x then f x else x) := by
  induction xs with
  | nil => simp [merge]
  | cons x xs ih =>
    by_cases hp : p x
    · simp [merge, hp, ih]
    · simp [merge, hp, ih]

theorem merge_filter {α : Type _} (p : α → Bool) (xs : List α) : merge p xs (xs.filter p) = xs := by
  have := merge_map_filter p id xs
  simpa using this

theorem gather_length {α : Type _} {xs : List α} {idx : List Nat} {r : List α} (h : gather xs idx = some r) :
    r.length = idx.length := by
  induction idx generalizing r with
  | nil => simp [gather] at h; simp [← h]
  | cons i is ih =>
    simp only [gather] at h
    split at h
    · rename_i x r' hx hr
      cases h
      simp [ih hr]
    · simp at h

theorem gather_get {α : Type _} {xs : List α} {idx : List Nat} {r : List α} (h : gather xs idx = some r) (k : Nat) :
    r[k]? = (idx[k]?).bind (fun i => xs[i]?) := by
  induction idx generalizing r k with
  | nil => simp [gather] at h; simp [h]
  | cons i is ih =>
    simp only [gather] at h
    split at h
    · rename_i x r' hx hr
      cases h
      cases k with
      | zero => simp [hx]
      | succ k => simpa using ih hr k
    · simp at h

theorem gather_isSome {α : Type _} (xs : List α) (idx : List Nat) (h : ∀ i ∈ idx, i < xs.length) :
    ∃ r, gather xs idx = some r := by
  induction idx with
  | nil => exact ⟨[], rfl⟩
  | cons i is ih =>
    obtain ⟨r, hr⟩ := ih (fun j hj => h j (List.mem_cons_of_mem _ hj))
    have hi := h i (by simp)
    exact ⟨xs[i] :: r, by simp [gather, hr, List.getElem?_eq_getElem hi]⟩

theorem gather_eq_filterMap {α : Type _} {xs : List α} {idx : List Nat} {r : List α} (h : gather xs idx = some r) :
    r = idx.filterMap (fun i => xs[i]?) := by
  induction idx generalizing r with
  | nil => simp [gather] at h; simp [← h]
  | cons i is ih =>
    simp only [gather] at h
    split at h
    · rename_i x r' hx hr
      cases h
      simp [hx, ih hr]
    · simp at h

theorem gather_range' {α : Type _} (xs : List α) (b n : Nat) (h : b + n ≤ xs.length) :
    gather xs (List.range' b n) = some ((xs.drop b).take n) := by
  induction n generalizing b with
  | zero => simp [gather]
  | succ n ih =>
    have hb : b < xs.length := by omega
    have := ih (b + 1) (by omega)
    rw [List.range'_succ]
    simp only [gather, this, List.getElem?_eq_getElem hb]
    rw [List.drop_eq_getElem_cons hb, List.take_succ_cons]

theorem gather_range {α : Type _} (xs : List α) : gather xs (List.range xs.length) = some xs := by
  rw [List.range_eq_range']
  simpa using gather_range' xs 0 xs.length (by omega)

/-- Indexing twice is indexing with the composed index list. -/
theorem gather_gather {α : Type _} {xs ys : List α} {idx jdx : List Nat} (h : gather xs idx = some ys) :
    gather ys jdx = (gather idx jdx).bind (gather xs) := by
  induction jdx with
  | nil => simp [gather]
  | cons j js ih =>
    simp only [gather]
    have hk := gather_get h j
    cases hi : idx[j]? with
    | none =>
      rw [hi] at hk
      simp only [Option.bind_none] at hk
      simp [hk]
    | some i =>
      rw [hi] at hk
      simp only [Option.bind_some] at hk
      rw [hk, ih]
      cases hg : gather idx js with
      | none => cases hx : xs[i]? <;> simp
      | some is => simp [gather]

theorem gather_map {α β : Type _} (f : α → β) (xs : List α) (idx : List Nat) :
    gather (xs.map f) idx = (gather xs idx).map (·.map f) := by
  induction idx with
  | nil => simp [gather]
  | cons i is ih =>
    simp only [gather, ih, List.getElem?_map]
    cases xs[i]? <;> cases gather xs is <;> simp

theorem mem_findFrom (k : Nat) (bs : List Bool) (i : Nat) :
    i ∈ findFrom k bs ↔ ∃ j, i = k + j ∧ bs[j]? = some true := by
  induction bs generalizing k with
  | nil => simp [findFrom]
  | cons b bs ih =>
    have hr : (∃ j, i = k + j ∧ (b :: bs)[j]? = some true) ↔
        (i = k ∧ b = true) ∨ ∃ j, i = k + 1 + j ∧ bs[j]? = some true := by
      constructor
      · rintro ⟨j, hj, hb⟩
        cases j with
        | zero => left; exact ⟨by omega, by simpa using hb⟩
        | succ j => right; exact ⟨j, by omega, by simpa using hb⟩
      · rintro (⟨h1, h2⟩ | ⟨j, hj, hb⟩)
        · exact ⟨0, by omega, by simp [h2]⟩
        · exact ⟨j + 1, by omega, by simpa using hb⟩
    rw [hr]
    cases b <;> simp [findFrom, ih]

theorem mem_find (bs : List Bool) (i : Nat) : i ∈ find bs ↔ bs[i]? = some true := by
  simp [find, mem_findFrom]

theorem findFrom_pairwise (k : Nat) (bs : List Bool) : (findFrom k bs).Pairwise (· < ·) := by
  induction bs generalizing k with
  | nil => simp [findFrom]
  | cons b bs ih =>
    cases b
    · simpa [findFrom] using ih (k + 1)
    · simp only [findFrom, if_true, List.pairwise_cons]
      refine ⟨?_, ih (k + 1)⟩
      intro i hi
      obtain ⟨j, hj, _⟩ := (mem_findFrom _ _ _).1 hi
      omega

theorem find_pairwise (bs : List Bool) : (find bs).Pairwise (· < ·) := findFrom_pairwise 0 bs

theorem find_nodup (bs : List Bool) : (find bs).Nodup :=
  (find_pairwise bs).imp (fun h => Nat.ne_of_lt h)

theorem findFrom_length (k : Nat) (bs : List Bool) : (findFrom k bs).length = (bs.filter id).length := by
  induction bs generalizing k with
  | nil => rfl
  | cons b bs ih => cases b <;> simp [findFrom, ih]

theorem find_length (bs : List Bool) : (find bs).length = (bs.filter id).length := findFrom_length 0 bs

theorem find_map_length {α : Type _} (p : α → Bool) (xs : List α) : (find (xs.map p)).length = (xs.filter p).length := by
  have := gather_length (gather_find xs p)
  omega

/-- Fancy assignment at the positions of a mask. -/
theorem scatter_mask {α : Type _} (xs : List α) (bs : List Bool) (hb : bs.length = xs.length) (vs : List α)
    (h : vs.length = (find bs).length) :
    ∃ r, scatter xs (find bs) vs = some r ∧ r.length = xs.length ∧
      (∀ (k i : Nat), (find bs)[k]? = some i → r[i]? = vs[k]?) ∧ (∀ i : Nat, i ∉ find bs → r[i]? = xs[i]?) := by
  obtain ⟨r, h1, h2, h3, h4⟩ := scatter_findFrom_bs [] xs bs hb vs (by rw [h, find_length])
  refine ⟨r, by simpa [find] using h1, h2, ?_, ?_⟩
  · intro k i hk
    have := gather_get (by simpa [find] using h3 : gather r (find bs) = some vs) k
    rw [this, hk]; rfl
  · intro i hi
    by_cases hlt : i < bs.length
    · apply h4
      rw [mem_find] at hi
      rw [List.getElem?_eq_getElem hlt] at hi ⊢
      cases hbi : bs[i] with
      | true => rw [hbi] at hi; exact absurd rfl hi
      | false => rfl
    · rw [List.getElem?_eq_none (by omega), List.getElem?_eq_none (by omega)]

/-- Fancy assignment through distinct in-range indices: the written positions hold the values, the others are unchanged. -/
theorem scatter_spec {α : Type _} (xs : List α) (idx : List Nat) (vs : List α) (hn : idx.Nodup)
    (hr : ∀ i ∈ idx, i < xs.length) (hl : vs.length = idx.length) :
    ∃ r, scatter xs idx vs = some r ∧ r.length = xs.length ∧
      (∀ k i : Nat, idx[k]? = some i → r[i]? = vs[k]?) ∧ (∀ i : Nat, i ∉ idx → r[i]? = xs[i]?) := by
  induction idx generalizing xs vs with
  | nil =>
    have : vs = [] := by simpa using hl
    subst this
    exact ⟨xs, rfl, rfl, by simp, by simp⟩
  | cons i is ih =>
    cases vs with
    | nil => simp at hl
    | cons v vs =>
      have hi : i < xs.length := hr i (by simp)
      have hni : i ∉ is := (List.nodup_cons.1 hn).1
      obtain ⟨r, h1, h2, h3, h4⟩ := ih (xs.set i v) vs (List.nodup_cons.1 hn).2
        (fun j hj => by simpa using hr j (List.mem_cons_of_mem _ hj)) (by simpa using hl)
      refine ⟨r, by simp [scatter, hi, h1], by simpa using h2, ?_, ?_⟩
      · intro k j hk
        cases k with
        | zero =>
          simp only [List.getElem?_cons_zero, Option.some.injEq] at hk
          subst hk
          rw [h4 i hni]
          simp [hi]
        | succ k =>
          simp only [List.getElem?_cons_succ] at hk ⊢
          exact h3 k j hk
      · intro j hj
        have hne : j ≠ i := fun h => hj (by simp [h])
        rw [h4 j (fun h => hj (List.mem_cons_of_mem _ h))]
        simp [Ne.symm hne]

end Verif.NumPy
