import Verif.Index.Spec
import Verif.NumPyLemmas

/-! Helper lemmas: closed form of the conversion on well-formed cases. -/

namespace Verif.Index
open Verif.NumPy

theorem statuses_eq {α : Type} (st : α → Option Bool) (p : α → Bool) (xs : List α)
    (h : ∀ x ∈ xs, st x = some (p x)) : statuses st xs = some (xs.map p) := by
  induction xs with
  | nil => rfl
  | cons x xs ih =>
    simp [statuses, h x (by simp), ih (fun y hy => h y (List.mem_cons_of_mem _ hy))]

theorem renumber_eq {α : Type} (arr : List Nat) (get : α → Nat) (set : α → Nat → α) (f : α → Nat) (xs : List α)
    (h : ∀ x ∈ xs, arr[get x]? = some (f x)) :
    renumber arr get set xs = some (xs.map (fun x => set x (f x))) := by
  induction xs with
  | nil => rfl
  | cons x xs ih =>
    simp [renumber, h x (by simp), ih (fun y hy => h y (List.mem_cons_of_mem _ hy))]

theorem renumber_length {α : Type} {arr : List Nat} {get : α → Nat} {set : α → Nat → α} {xs r : List α}
    (h : renumber arr get set xs = some r) : r.length = xs.length := by
  induction xs generalizing r with
  | nil => simp [renumber] at h; simp [h]
  | cons x xs ih =>
    simp only [renumber] at h
    split at h
    · rename_i k r' _ hr
      cases h
      simp [ih hr]
    · simp at h

theorem zipIdx_filter_sum {β : Type} (bus : List (BusRow β)) (h : (bus.map (·.num)).Nodup) (k i : Nat) (b : BusRow β)
    (hb : bus[i]? = some b) :
    (((bus.zipIdx k).filter (fun bi => bi.1.num == b.num)).map (·.2)).sum = k + i := by
  induction bus generalizing k i with
  | nil => simp at hb
  | cons x xs ih =>
    simp only [List.map_cons, List.nodup_cons] at h
    cases i with
    | zero =>
      simp only [List.getElem?_cons_zero, Option.some.injEq] at hb
      subst hb
      have hnone : (xs.zipIdx (k+1)).filter (fun bi => bi.1.num == x.num) = [] := by
        rw [List.filter_eq_nil_iff]
        intro a ha
        have hm : a.1 ∈ xs := by
          have := List.mem_zipIdx ha
          rw [this.2.2]; exact List.getElem_mem _
        intro he
        apply h.1
        rw [List.mem_map]
        exact ⟨a.1, hm, by simpa using he⟩
      simp [List.zipIdx_cons, hnone]
    | succ i =>
      simp only [List.getElem?_cons_succ] at hb
      have hx : ¬ x.num = b.num := by
        intro he
        apply h.1
        rw [List.mem_map]
        exact ⟨b, List.mem_of_getElem? hb, he.symm⟩
      have := ih h.2 (k+1) i hb
      simp only [List.zipIdx_cons]
      rw [List.filter_cons_of_neg (by simpa using hx), this]
      omega

theorem n2i_eq {β : Type} (bus : List (BusRow β)) (h : (bus.map (·.num)).Nodup) (i : Nat) (b : BusRow β)
    (hb : bus[i]? = some b) : n2i bus b.num = some i := by
  have hm : b ∈ bus := List.mem_of_getElem? hb
  have : bus.any (fun b' => b.num ≤ b'.num) = true := by
    rw [List.any_eq_true]
    exact ⟨b, hm, by simp⟩
  unfold n2i
  rw [this]
  simp only [if_true, Option.some.injEq]
  have := zipIdx_filter_sum bus h 0 i b hb
  simpa using this

theorem busStatusAt_eq {β : Type} (bus : List (BusRow β)) (h : (bus.map (·.num)).Nodup) (b : BusRow β)
    (hb : b ∈ bus) : busStatusAt bus b.num = some (b.typ != NONE) := by
  obtain ⟨i, hi⟩ := List.getElem?_of_mem hb
  simp [busStatusAt, n2i_eq bus h i b hi, hi]

/-- Boolean version of `Connected`. -/
def connB {β : Type} (bus : List (BusRow β)) (n : Nat) : Bool := bus.any (fun b => b.num == n && b.typ != NONE)

theorem nodup_num_unique {β : Type} {bus : List (BusRow β)} (h : (bus.map (·.num)).Nodup) {a b : BusRow β}
    (ha : a ∈ bus) (hb : b ∈ bus) (he : a.num = b.num) : a = b := by
  induction bus with
  | nil => simp at ha
  | cons x xs ih =>
    simp only [List.map_cons, List.nodup_cons] at h
    rw [List.mem_cons] at ha hb
    rcases ha with rfl | ha <;> rcases hb with rfl | hb
    · rfl
    · exact absurd (List.mem_map.2 ⟨b, hb, he.symm⟩) h.1
    · exact absurd (List.mem_map.2 ⟨a, ha, he⟩) h.1
    · exact ih h.2 ha hb

theorem busStatusAt_conn {β : Type} (bus : List (BusRow β)) (h : (bus.map (·.num)).Nodup) (n : Nat)
    (hn : ∃ b ∈ bus, b.num = n) : busStatusAt bus n = some (connB bus n) := by
  obtain ⟨b, hb, rfl⟩ := hn
  rw [busStatusAt_eq bus h b hb]
  congr 1
  cases hc : connB bus b.num with
  | true =>
    simp only [connB, List.any_eq_true, Bool.and_eq_true, beq_iff_eq] at hc
    obtain ⟨a, ha, he, ht⟩ := hc
    have := nodup_num_unique h ha hb he
    subst this
    exact ht
  | false =>
    simp only [connB, List.any_eq_false] at hc
    have := hc b hb
    simpa using this

theorem mem_of_conn {β : Type} {bus : List (BusRow β)} {n : Nat} (h : connB bus n = true) :
    ∃ b ∈ bus.filter (fun b => b.typ != NONE), b.num = n := by
  simp only [connB, List.any_eq_true, Bool.and_eq_true, beq_iff_eq] at h
  obtain ⟨b, hb, he, ht⟩ := h
  exact ⟨b, by simp [List.mem_filter, hb, ht], he⟩

/-! ### The `e2i` array -/

theorem foldl_set_length (l : List (Nat × Nat)) (a : List Nat) :
    (l.foldl (fun a p => a.set p.1 p.2) a).length = a.length := by
  induction l generalizing a with
  | nil => rfl
  | cons p l ih => simp [ih]

theorem foldl_set_not_mem (l : List (Nat × Nat)) (a : List Nat) (n : Nat) (h : ∀ p ∈ l, p.1 ≠ n) :
    (l.foldl (fun a p => a.set p.1 p.2) a)[n]? = a[n]? := by
  induction l generalizing a with
  | nil => rfl
  | cons p l ih =>
    have hp : p.1 ≠ n := h p (by simp)
    simp [ih _ (fun q hq => h q (List.mem_cons_of_mem _ hq)), List.getElem?_set_ne hp]

theorem le_foldl_max (l : List Nat) (m : Nat) : m ≤ l.foldl max m ∧ ∀ n ∈ l, n ≤ l.foldl max m := by
  induction l generalizing m with
  | nil => simp
  | cons x l ih =>
    have := ih (max m x)
    refine ⟨?_, ?_⟩
    · simp only [List.foldl_cons]; omega
    · intro n hn
      simp only [List.foldl_cons]
      rcases List.mem_cons.1 hn with rfl | hn
      · omega
      · exact this.2 n hn

theorem e2i_foldl (l : List Nat) (h : l.Nodup) (k : Nat) (a : List Nat) (i n : Nat) (hi : l[i]? = some n)
    (hlen : ∀ m ∈ l, m < a.length) :
    ((l.zipIdx k).foldl (fun a p => a.set p.1 p.2) a)[n]? = some (k + i) := by
  induction l generalizing k a i with
  | nil => simp at hi
  | cons x l ih =>
    rw [List.nodup_cons] at h
    simp only [List.zipIdx_cons, List.foldl_cons]
    cases i with
    | zero =>
      simp only [List.getElem?_cons_zero, Option.some.injEq] at hi
      subst hi
      rw [foldl_set_not_mem]
      · have := hlen x (by simp)
        simp [List.getElem?_set_self this]
      · intro p hp he
        have := List.mem_zipIdx hp
        apply h.1
        rw [← he, this.2.2]
        exact List.getElem_mem _
    | succ i =>
      simp only [List.getElem?_cons_succ] at hi
      rw [ih h.2 (k+1) _ i hi]
      · congr 1; omega
      · intro m hm
        simp only [List.length_set]
        exact hlen m (List.mem_cons_of_mem _ hm)

theorem e2iArray_get (l : List Nat) (h : l.Nodup) (i n : Nat) (hi : l[i]? = some n) :
    (e2iArray l)[n]? = some i := by
  unfold e2iArray
  have := e2i_foldl l h 0 (List.replicate (l.foldl max 0 + 1) 0) i n hi (by
    intro m hm
    have := (le_foldl_max l 0).2 m hm
    simp; omega)
  simpa using this

theorem e2iArray_idxOf (l : List Nat) (h : l.Nodup) (n : Nat) (hn : n ∈ l) :
    (e2iArray l)[n]? = some (l.idxOf n) := by
  apply e2iArray_get l h
  have hlt : l.idxOf n < l.length := List.idxOf_lt_length_iff.2 hn
  rw [List.getElem?_eq_getElem hlt, List.getElem_idxOf hlt]

theorem getElem?_idxOf_self (l : List Nat) (n : Nat) (hn : n ∈ l) : l[l.idxOf n]? = some n := by
  have hlt : l.idxOf n < l.length := List.idxOf_lt_length_iff.2 hn
  rw [List.getElem?_eq_getElem hlt, List.getElem_idxOf hlt]

/-! ### argsort -/

theorem pairwise_le_unique {l m : List Nat} (hl : l.Pairwise (· ≤ ·)) (hm : m.Pairwise (· ≤ ·)) (hp : l.Perm m) :
    l = m := by
  exact hp.eq_of_pairwise (fun a b _ _ h1 h2 => Nat.le_antisymm h1 h2) hl hm

theorem argsort_perm_inverse {srt : List Nat → List Nat} (h : IsArgsort srt) (e : List Nat) (n : Nat)
    (he : e.Perm (List.range n)) : gather e (srt e) = some (List.range n) := by
  have hlen : e.length = n := by simpa using he.length_eq
  have hp := h.perm e
  obtain ⟨r, hr⟩ := gather_isSome e (srt e) (by
    intro i hi
    have := hp.mem_iff.1 hi
    simpa using this)
  rw [hr]
  have hs := h.sorted e
  have hfm := gather_eq_filterMap hr
  rw [← hfm] at hs
  -- r is a permutation of e
  have hpe : r.Perm e := by
    have h1 : ((srt e).filterMap (fun i => e[i]?)).Perm ((List.range e.length).filterMap (fun i => e[i]?)) :=
      hp.filterMap _
    have h2 : (List.range e.length).filterMap (fun i => e[i]?) = e := by
      rw [← gather_eq_filterMap (gather_range e)]
    rw [h2, ← hfm] at h1
    exact h1
  congr 1
  apply pairwise_le_unique hs
  · exact List.pairwise_le_range
  · exact hpe.trans he

theorem argsort_gather {srt : List Nat → List Nat} (h : IsArgsort srt) {α : Type} (xs : List α) (key : α → Nat) :
    ∃ ys, gather xs (srt (xs.map key)) = some ys ∧ ys.Perm xs ∧ (ys.map key).Pairwise (· ≤ ·) ∧
      gather ys (srt (srt (xs.map key))) = some xs := by
  have hp := h.perm (xs.map key)
  rw [List.length_map] at hp
  obtain ⟨ys, hys⟩ := gather_isSome xs (srt (xs.map key)) (by
    intro i hi
    have := hp.mem_iff.1 hi
    simpa using this)
  refine ⟨ys, hys, ?_, ?_, ?_⟩
  · rw [gather_eq_filterMap hys]
    have h1 := hp.filterMap (fun i => xs[i]?)
    rwa [← gather_eq_filterMap (gather_range xs)] at h1
  · have h1 : gather (xs.map key) (srt (xs.map key)) = some (ys.map key) := by
      rw [gather_map, hys]; rfl
    rw [gather_eq_filterMap h1]
    exact h.sorted _
  · rw [gather_gather hys, argsort_perm_inverse h _ _ hp]
    simpa using gather_range xs

end Verif.Index
