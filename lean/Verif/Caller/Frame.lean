import Verif.Caller.Model
import Verif.Loadcase.Props

/-!
# C117: what programs can change
-/

namespace Verif.Caller

open CaseIO Loadcase

theorem deepcopy_keeps {n : ℕ} {h : Heap} (r : ℕ) (hs : Sep n h) (hn : n ≤ h.length) : Sep n (deepcopy h r).1 := by
  intro i d hi hd q hq
  by_cases hlt : i < h.length
  · rw [deepcopy_old hlt] at hd
    exact hs i d hi hd q hq
  · exact hn.trans (deepcopy_sep h r i d (by omega) hd q hq)

theorem append_keeps {n : ℕ} {h t : Heap} (hs : Sep n h) (ht : ∀ d, Obj.dict d ∈ t → ∀ q ∈ d, n ≤ q.2) : Sep n (h ++ t) := by
  intro i d hi hd
  by_cases hlt : i < h.length
  · rw [List.getElem?_append_left hlt] at hd
    exact hs i d hi hd
  · rw [List.getElem?_append_right (by omega)] at hd
    exact ht d (List.mem_of_getElem? hd)

theorem set_keeps {n : ℕ} {h : Heap} {a : ℕ} {o : Obj} (hs : Sep n h) (ho : ∀ d, o = .dict d → ∀ q ∈ d, n ≤ q.2) : Sep n (h.set a o) := by
  intro i d hi hd
  by_cases hia : a = i
  · subst hia
    by_cases hlt : a < h.length
    · rw [List.getElem?_set_self hlt] at hd
      exact ho d (Option.some.inj hd)
    · rw [List.getElem?_eq_none (by rw [List.length_set]; omega)] at hd
      cases hd
  · rw [List.getElem?_set_ne hia] at hd
    exact hs i d hi hd

/-- What a program that was started with new objects only keeps true: the objects before `n` are as in `h0`, it holds none of them, and none can be reached from the others. -/
structure Inv (n : ℕ) (h0 h : Heap) (ls : List ℕ) : Prop where
  sep : Sep n h
  len : n ≤ h.length
  own : ∀ l ∈ ls, n ≤ l
  old : ∀ i < n, h[i]? = h0[i]?

theorem members_own {n : ℕ} {ls : List ℕ} (ho : ∀ l ∈ ls, n ≤ l) : ∀ {es d : List (String × ℕ)}, members ls es = some d → ∀ q ∈ d, n ≤ q.2
  | [], d, hd, q, hq => by cases hd; cases hq
  | e :: es, d, hd, q, hq => by
    obtain ⟨x, hx, hd⟩ := Option.bind_eq_some_iff.1 hd
    obtain ⟨t, ht, hd⟩ := Option.bind_eq_some_iff.1 hd
    cases hd
    rcases List.mem_cons.1 hq with rfl | hq
    · exact ho _ (List.mem_of_getElem? hx)
    · exact members_own ho ht q hq

theorem step_inv {n : ℕ} {h0 h h' : Heap} {ls ls' : List ℕ} (hi : Inv n h0 h ls) (a : Act) (hs : step h ls a = some (h', ls')) : Inv n h0 h' ls' := by
  obtain ⟨i1, i2, i3, i4⟩ := hi
  have push : ∀ {x : ℕ}, n ≤ x → ∀ l ∈ ls ++ [x], n ≤ l := by
    intro x hx l hl
    rcases List.mem_append.1 hl with hl | hl
    · exact i3 l hl
    · rw [List.mem_singleton.1 hl]; exact hx
  cases a with
  | get i k =>
    obtain ⟨a, ha, hs⟩ := Option.bind_eq_some_iff.1 hs
    obtain ⟨b, hb, hs⟩ := Option.bind_eq_some_iff.1 hs
    cases hs
    exact ⟨i1, i2, push (i1.reach (i3 a (List.mem_of_getElem? ha)) (Reach.step hb (Reach.refl b))), i4⟩
  | leaf v =>
    cases hs
    exact ⟨append_keeps i1 (by simp), by rw [List.length_append]; omega, push i2, fun i hi => (List.getElem?_append_left (by omega)).trans (i4 i hi)⟩
  | dict es =>
    obtain ⟨d, hd, hs⟩ := Option.bind_eq_some_iff.1 hs
    cases hs
    refine ⟨append_keeps i1 ?_, by rw [List.length_append]; omega, push i2, fun i hi => (List.getElem?_append_left (by omega)).trans (i4 i hi)⟩
    intro d' hd'
    have := List.mem_singleton.1 hd'
    cases this
    exact members_own i3 hd
  | set i k j =>
    obtain ⟨a, ha, hs⟩ := Option.bind_eq_some_iff.1 hs
    obtain ⟨b, hb, hs⟩ := Option.bind_eq_some_iff.1 hs
    cases hs
    have na := i3 a (List.mem_of_getElem? ha)
    refine ⟨?_, by rw [put_length]; exact i2, i3, fun i hi => (put_other (by omega)).trans (i4 i hi)⟩
    unfold put
    split
    · rename_i d hd
      refine set_keeps i1 fun d' hd' q hq => ?_
      cases hd'
      rcases List.mem_cons.1 hq with rfl | hq
      · exact i3 b (List.mem_of_getElem? hb)
      · exact i1 a d na (entries_iff.1 hd) q (List.mem_of_mem_filter hq)
    · exact i1
  | del i k =>
    obtain ⟨a, ha, hs⟩ := Option.bind_eq_some_iff.1 hs
    obtain ⟨d, hd, hs⟩ := Option.bind_eq_some_iff.1 hs
    cases hs
    have na := i3 a (List.mem_of_getElem? ha)
    refine ⟨set_keeps i1 fun d' hd' q hq => ?_, by rw [List.length_set]; exact i2, i3, fun i hi => (List.getElem?_set_ne (by omega)).trans (i4 i hi)⟩
    cases hd'
    exact i1 a d na (entries_iff.1 hd) q (List.mem_of_mem_filter hq)
  | write i v =>
    obtain ⟨a, ha, hs⟩ := Option.bind_eq_some_iff.1 hs
    obtain ⟨d, hd, hs⟩ := Option.bind_eq_some_iff.1 hs
    cases hs
    have na := i3 a (List.mem_of_getElem? ha)
    exact ⟨set_keeps i1 (fun d' hd' => by cases hd'), by rw [List.length_set]; exact i2, i3, fun i hi => (List.getElem?_set_ne (by omega)).trans (i4 i hi)⟩
  | copy i =>
    obtain ⟨a, ha, hs⟩ := Option.bind_eq_some_iff.1 hs
    cases hs
    have na := i3 a (List.mem_of_getElem? ha)
    exact ⟨deepcopy_keeps a i1 i2, by rw [deepcopy_length]; omega, push (by show n ≤ a + h.length; omega), fun i hi => (deepcopy_old (by omega)).trans (i4 i hi)⟩

theorem run_inv {n : ℕ} {h0 : Heap} : ∀ {h h' : Heap} {ls ls' : List ℕ} (_ : Inv n h0 h ls) (as : List Act), run h ls as = some (h', ls') → Inv n h0 h' ls'
  | h, h', ls, ls', hi, [], hr => by cases hr; exact hi
  | h, h', ls, ls', hi, a :: as, hr => by
    obtain ⟨s, hs, hr⟩ := Option.bind_eq_some_iff.1 hr
    exact run_inv (step_inv hi a hs) as hr

/-- Loading a dictionary keeps the invariant, and the loaded case is new. -/
theorem load_inv (w : World) {n : ℕ} {h0 h h' : Heap} {ls : List ℕ} {r p : ℕ} (hi : Inv n h0 h ls) (hl : loadcase w h (.dict r) = (h', .ok (.obj p))) : Inv n h0 h' (ls ++ [p]) := by
  obtain ⟨i1, i2, i3, i4⟩ := hi
  have e : loadcase w h (.dict r) = finish false (deepcopy h r).1 (deepcopy h r).2 true false false := rfl
  rw [e] at hl
  have l1 : (deepcopy h r).1.length = h.length + h.length := deepcopy_length h r
  have s1 := deepcopy_keeps r i1 i2
  have s2 := deepcopy_keeps (deepcopy h r).2 s1 (by omega)
  have hq : n ≤ (deepcopy (deepcopy h r).1 (deepcopy h r).2).2 := by
    show n ≤ r + h.length + (deepcopy h r).1.length
    omega
  obtain ⟨c1, c2, c3⟩ := convert_sep s2 (by rw [deepcopy_length, l1]; omega) hq
  unfold finish at hl
  split at hl
  · cases hl
  · cases hl
  · split at hl
    · cases hl
    · rename_i h2 hc
      rw [hc] at c1 c2 c3
      cases hl
      refine ⟨c1, c2, fun l hl => ?_, fun i hi => ?_⟩
      · rcases List.mem_append.1 hl with hl | hl
        · exact i3 l hl
        · rw [List.mem_singleton.1 hl]; exact hq
      · exact (c3 i hi).trans ((deepcopy_old (by omega)).trans ((deepcopy_old (by omega)).trans (i4 i hi)))

theorem inv_start (h : Heap) : Inv h.length h h [] :=
  ⟨fun i d hi hd => absurd (List.getElem?_eq_some_iff.1 hd).1 (by omega), le_refl _, fun _ hl => (by cases hl), fun _ _ => rfl⟩

theorem Inv.result {h h' : Heap} {ls : List ℕ} (hi : Inv h.length h h' ls) :
    (∀ i < h.length, h'[i]? = h[i]?) ∧ ∀ l ∈ ls, ∀ x, Reach h' l x → h.length ≤ x :=
  ⟨hi.old, fun l hl _ hx => hi.sep.reach (hi.own l hl) hx⟩

/-- **C117 (power flow).**  Whatever `runpf` does with the case it loaded, no object of the caller is changed, and nothing the caller had can be reached from the results. -/
theorem C117_runpf (w : World) (h : Heap) (r : ℕ) (rest : List Act) {h' : Heap} {ls : List ℕ} (hr : runpf w h (.dict r) rest = some (h', ls)) :
    (∀ i < h.length, h'[i]? = h[i]?) ∧ ∀ l ∈ ls, ∀ x, Reach h' l x → h.length ≤ x := by
  unfold runpf at hr
  split at hr
  · rename_i h1 p hl
    exact (run_inv (load_inv w (inv_start h) hl) rest hr).result
  · cases hr

/-- **C117 (continuation power flow).**  The same of `runcpf` and both its cases, which may be one dictionary or share tables. -/
theorem C117_runcpf (w : World) (h : Heap) (r t : ℕ) (first rest : List Act) {h' : Heap} {ls : List ℕ} (hr : runcpf w h (.dict r) (.dict t) first rest = some (h', ls)) :
    (∀ i < h.length, h'[i]? = h[i]?) ∧ ∀ l ∈ ls, ∀ x, Reach h' l x → h.length ≤ x := by
  unfold runcpf at hr
  split at hr
  · rename_i h1 p hl
    obtain ⟨s, hs, hr⟩ := Option.bind_eq_some_iff.1 hr
    have i1 := run_inv (load_inv w (inv_start h) hl) first hs
    split at hr
    · rename_i h2 q hl2
      exact (run_inv (load_inv w i1 hl2) rest hr).result
    · cases hr
  · cases hr

end Verif.Caller
