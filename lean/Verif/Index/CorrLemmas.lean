import Verif.Index.Closed

/-! The internal case corresponds to the external one (`Corr`), and data conversion follows the same rows. -/

namespace Verif.Index
open Verif.NumPy
variable {P : Payload}

/-- Rows of the external tables that the internal rows come from. -/
def posOf (srt : List Nat → List Nat) (c : Case P) : Ordering → List Nat
  | .bus => find (c.bus.map busK)
  | .gen => (gather (find (c.gen.map (genK c.bus))) (srt ((genU c).map (·.bus)))).getD []
  | .branch => find (c.branch.map (brK c.bus))

def aposOf (c : Case P) : List Nat := find (((areas' c).getD []).map (arK c.bus))

theorem conn_iff (c : Case P) (n : Nat) : connB c.bus n = true ↔ Connected c n := by
  simp [connB, Connected, NONE]

theorem genK_iff (c : Case P) (g : GenRow P.gen) : genK c.bus g = true ↔ GenInService c g := by
  simp [genK, GenInService, conn_iff]

theorem brK_iff (c : Case P) (l : BranchRow P.branch) : brK c.bus l = true ↔ BranchInService c l := by
  simp [brK, BranchInService, conn_iff, and_assoc]

theorem arK_iff (c : Case P) (a : AreaRow P.area) : arK c.bus a = true ↔ AreaInService c a := by
  simp [arK, AreaInService, conn_iff]

theorem busK_iff (b : BusRow P.bus) : busK b = true ↔ b.typ ≠ 4 := by
  simp [busK, NONE]

theorem genU_length (c : Case P) : (genU c).length = (find (c.gen.map (genK c.bus))).length := by
  rw [find_map_length]; simp [genU]

theorem posOf_gen {srt : List Nat → List Nat} (hs : IsArgsort srt) (c : Case P) :
    gather (find (c.gen.map (genK c.bus))) (srt ((genU c).map (·.bus))) = some (posOf srt c .gen) := by
  obtain ⟨r, hr⟩ := gather_isSome (find (c.gen.map (genK c.bus))) (srt ((genU c).map (·.bus))) (by
    intro i hi
    have := (hs.perm _).mem_iff.1 hi
    simpa [genU_length] using this)
  simp [posOf, hr]

theorem mem_of_filter_get {α : Type} {p : α → Bool} {xs : List α} {k : Nat} {x : α} (h : (xs.filter p)[k]? = some x) :
    p x = true := (List.mem_filter.1 (List.mem_of_getElem? h)).2

/-- Position `k` of the filtered list is position `find mask [k]` of the list. -/
theorem filter_get {α : Type} (p : α → Bool) (xs : List α) (k : Nat) :
    (xs.filter p)[k]? = ((find (xs.map p))[k]?).bind (fun i => xs[i]?) := gather_get (gather_find xs p) k

theorem find_map_mem {α : Type} {p : α → Bool} {xs : List α} {i : Nat} {x : α} (hx : xs[i]? = some x) :
    i ∈ find (xs.map p) ↔ p x = true := by
  rw [mem_find, List.getElem?_map, hx]; simp

theorem find_get_some {α : Type} {p : α → Bool} {xs : List α} {k i : Nat} (h : (find (xs.map p))[k]? = some i) :
    ∃ x, xs[i]? = some x ∧ p x = true ∧ (xs.filter p)[k]? = some x := by
  have hm := (mem_find _ _).1 (List.mem_of_getElem? h)
  rw [List.getElem?_map] at hm
  cases hx : xs[i]? with
  | none => rw [hx] at hm; simp at hm
  | some x =>
    rw [hx] at hm
    refine ⟨x, rfl, by simpa using hm, ?_⟩
    rw [filter_get, h]; simpa using hx

theorem intBus_of_conn {c : Case P} (srt : List Nat → List Nat) {n : Nat} (hn : connB c.bus n = true) :
    IntBus c (posOf srt c .bus) ((i2eOf c).idxOf n) n := by
  obtain ⟨b, hb, rfl⟩ := mem_of_conn hn
  have hm : b.num ∈ i2eOf c := List.mem_map.2 ⟨b, hb, rfl⟩
  have hg := getElem?_idxOf_self _ _ hm
  unfold i2eOf at hg
  rw [List.getElem?_map, filter_get] at hg
  simp only [posOf, IntBus]
  generalize hk : List.idxOf b.num (i2eOf c) = k
  have hk' : List.idxOf b.num (List.map (fun x => x.num) (List.filter busK c.bus)) = k := hk
  rw [hk'] at hg
  cases hf : (find (c.bus.map busK))[k]? with
  | none => rw [hf] at hg; simp at hg
  | some i =>
    rw [hf] at hg
    simp only [Option.bind_some] at hg
    cases hx : c.bus[i]? with
    | none => rw [hx] at hg; simp at hg
    | some b' =>
      rw [hx] at hg
      exact ⟨i, b', rfl, hx, by simpa using hg⟩

theorem genI_of {srt : List Nat → List Nat} (hs : IsArgsort srt) (c : Case P) :
    ∃ gs, gather c.gen (posOf srt c .gen) = some gs ∧
      gather (genU c) (srt ((genU c).map (·.bus))) = some (gs.map (fun g => g.setBus ((i2eOf c).idxOf g.bus))) := by
  have h1 := gather_gather (jdx := srt ((genU c).map (·.bus))) (gather_find c.gen (genK c.bus))
  rw [posOf_gen hs c] at h1
  simp only [Option.bind_some] at h1
  obtain ⟨ys, hy, _⟩ := argsort_gather hs (genU c) (·.bus)
  have h2 : gather (genU c) (srt ((genU c).map (·.bus))) =
      (gather (c.gen.filter (genK c.bus)) (srt ((genU c).map (·.bus)))).map
        (·.map (fun g => g.setBus ((i2eOf c).idxOf g.bus))) :=
    gather_map (fun g : GenRow P.gen => g.setBus ((i2eOf c).idxOf g.bus)) (c.gen.filter (genK c.bus)) _
  rw [h2, h1] at hy ⊢
  cases hg : gather c.gen (posOf srt c .gen) with
  | none => rw [hg] at hy; simp at hy
  | some gs => exact ⟨gs, rfl, by simp⟩

theorem posOf_gen_mem {srt : List Nat → List Nat} (hs : IsArgsort srt) (c : Case P) :
    (posOf srt c .gen).Perm (find (c.gen.map (genK c.bus))) := by
  have h := gather_eq_filterMap (posOf_gen hs c)
  rw [h]
  have hp := hs.perm ((genU c).map (·.bus))
  rw [List.length_map, genU_length] at hp
  have h1 := hp.filterMap (fun i => (find (c.gen.map (genK c.bus)))[i]?)
  rwa [← gather_eq_filterMap (gather_range _)] at h1

theorem corr_of {srt : List Nat → List Nat} (hs : IsArgsort srt) {c : Case P} (h : WF c)
    {gen : List (GenRow P.gen)} (hg : gather (genU c) (srt ((genU c).map (·.bus))) = some gen)
    (gencost : Option (List P.cost)) (A N : Option (UserMat P.col)) (o : Option (Order P)) :
    Corr c { bus := busI c, gen := gen, branch := brI c, areas := (areas' c).map (fun _ => arI c),
             gencost := gencost, A := A, N := N, order := o } (posOf srt c) (aposOf c) := by
  obtain ⟨gs, hgs, hgen⟩ := genI_of hs c
  rw [hg] at hgen
  obtain rfl : gen = _ := by simpa using hgen
  constructor
  · simp [busI, posOf, find_map_length]
  · intro k i hk
    obtain ⟨b, hb, hp, hf⟩ := find_get_some hk
    refine ⟨b, hb, ?_⟩
    simp only [busI, List.getElem?_map, hf, Option.map_some]
    congr 1
    simp only [BusRow.setNum]
    congr 1
    have h1 : (i2eOf c)[k]? = some b.num := by simp [i2eOf, hf]
    obtain ⟨hlt, he⟩ := List.getElem?_eq_some_iff.1 h1
    rw [← he]
    exact (i2e_nodup h).idxOf_getElem k hlt
  · intro i b hb
    simp only [posOf]
    rw [find_map_mem hb, busK_iff]
  · exact find_pairwise _
  · have := gather_length hgs
    simp [this]
  · intro k i hk
    have h1 := gather_get hgs k
    rw [hk] at h1
    simp only [Option.bind_some] at h1
    have hi : i ∈ find (c.gen.map (genK c.bus)) := (posOf_gen_mem hs c).mem_iff.1 (List.mem_of_getElem? hk)
    rw [mem_find, List.getElem?_map] at hi
    cases hgi : c.gen[i]? with
    | none => rw [hgi] at hi; simp at hi
    | some g =>
      rw [hgi] at hi h1
      have hgk : genK c.bus g = true := by simpa using hi
      refine ⟨g, (i2eOf c).idxOf g.bus, rfl, by simp [h1, GenRow.setBus], ?_⟩
      apply intBus_of_conn
      simp only [genK, Bool.and_eq_true] at hgk
      exact hgk.2
  · intro i g hgi
    rw [(posOf_gen_mem hs c).mem_iff, find_map_mem hgi, genK_iff]
  · exact (posOf_gen_mem hs c).nodup_iff.2 (find_nodup _)
  · obtain ⟨ys, hy, _, hsort, _⟩ := argsort_gather hs (genU c) (·.bus)
    rw [hg] at hy
    obtain rfl : _ = ys := by simpa using hy
    exact hsort
  · simp [brI, posOf, find_map_length]
  · intro k i hk
    obtain ⟨l, hl, hp, hf⟩ := find_get_some hk
    simp only [brK, Bool.and_eq_true] at hp
    refine ⟨l, _, _, hl, ?_, intBus_of_conn srt hp.1.2, intBus_of_conn srt hp.2⟩
    simp [brI, hf, BranchRow.setF, BranchRow.setT]
  · intro i l hl
    simp only [posOf]
    rw [find_map_mem hl, brK_iff]
  · exact find_pairwise _
  · unfold areas'
    rcases hc : c.areas with _ | _ | ⟨a, as⟩ <;> simp
  · intro as' has'
    simp only [Option.map_eq_some_iff] at has'
    obtain ⟨a, ha, rfl⟩ := has'
    simp [arI, aposOf, find_map_length]
  · intro as as' has has' k i hk
    have hne : (areas' c).getD [] = as := by
      unfold areas'; rw [has]
      cases as <;> simp
    simp only [Option.map_eq_some_iff] at has'
    obtain ⟨a, ha, rfl⟩ := has'
    simp only [aposOf, hne] at hk
    obtain ⟨a, ha, hp, hf⟩ := find_get_some hk
    refine ⟨a, _, ha, ?_, intBus_of_conn srt (n := a.ref) (by simpa [arK] using hp)⟩
    simp [arI, hne, hf, AreaRow.setRef]
  · intro as i a has hi
    have hne : (areas' c).getD [] = as := by
      unfold areas'; rw [has]
      cases as <;> simp
    simp only [aposOf, hne]
    rw [find_map_mem hi, arK_iff]
  · exact find_pairwise _

/-! ### data -/

theorem posOf_range {srt : List Nat → List Nat} (hs : IsArgsort srt) (c : Case P) (s : Ordering) :
    ∀ i ∈ posOf srt c s, i < rows c s := by
  intro i hi
  have key : ∀ {α : Type} (p : α → Bool) (xs : List α), i ∈ find (xs.map p) → i < xs.length := by
    intro α p xs hm
    rw [mem_find] at hm
    obtain ⟨hlt, _⟩ := List.getElem?_eq_some_iff.1 hm
    simpa using hlt
  cases s with
  | bus => exact key _ _ hi
  | gen => exact key _ _ ((posOf_gen_mem hs c).mem_iff.1 hi)
  | branch => exact key _ _ hi

theorem e2iSet_eq {srt : List Nat → List Nat} (hs : IsArgsort srt) (c : Case P) {α : Type} (val : List α) (s : Ordering) :
    e2iSet (orderOf srt c) val s = gather val (posOf srt c s) := by
  cases s with
  | bus => rfl
  | branch => rfl
  | gen =>
    simp only [e2iSet, orderOf]
    rw [posOf_gen hs c]
    rfl

theorem e2iSet_reads {srt : List Nat → List Nat} (hs : IsArgsort srt) (c : Case P) {α : Type} (val : List α) (s : Ordering)
    (hlen : rows c s ≤ val.length) :
    ∃ r, e2iSet (orderOf srt c) val s = some r ∧ ReadsRows (posOf srt c s) val r := by
  obtain ⟨r, hr⟩ := gather_isSome val (posOf srt c s) (fun i hi => Nat.lt_of_lt_of_le (posOf_range hs c s i hi) hlen)
  refine ⟨r, by rw [e2iSet_eq hs, hr], gather_length hr, ?_⟩
  intro k i hk
  rw [gather_get hr k, hk]; rfl

theorem genE2i_inv {srt : List Nat → List Nat} (hs : IsArgsort srt) (c : Case P) :
    gather (srt ((genU c).map (·.bus))) (srt (srt ((genU c).map (·.bus)))) = some (List.range (genU c).length) := by
  have hp := hs.perm ((genU c).map (·.bus))
  rw [List.length_map] at hp
  exact argsort_perm_inverse hs _ _ hp

/-- Undoing the generator permutation. -/
theorem unsort {srt : List Nat → List Nat} (hs : IsArgsort srt) (c : Case P) {α : Type} (val : List α)
    (hlen : val.length = (posOf srt c .gen).length) :
    ∃ v, gather val (srt (srt ((genU c).map (·.bus)))) = some v ∧ v.length = (find (c.gen.map (genK c.bus))).length ∧
      ∀ (k j : Nat), (srt ((genU c).map (·.bus)))[k]? = some j → v[j]? = val[k]? := by
  generalize he : srt ((genU c).map (·.bus)) = e
  have hp : e.Perm (List.range (genU c).length) := by
    have := hs.perm ((genU c).map (·.bus)); rw [List.length_map, he] at this; exact this
  have hl1 : (posOf srt c .gen).length = (genU c).length := by
    rw [genU_length]; exact (posOf_gen_mem hs c).length_eq
  have hi := genE2i_inv hs c
  rw [he] at hi
  have hel : e.length = (genU c).length := by simpa using hp.length_eq
  obtain ⟨v, hv⟩ := gather_isSome val (srt e) (by
    intro i hi
    have := (hs.perm e).mem_iff.1 hi
    rw [List.mem_range, hel] at this
    omega)
  refine ⟨v, hv, ?_, ?_⟩
  · rw [gather_length hv, (hs.perm e).length_eq, List.length_range, hel, genU_length]
  · intro k j hk
    have hj : j < (genU c).length := by
      have := hp.mem_iff.1 (List.mem_of_getElem? hk)
      simpa using this
    have h1 := gather_get hi j
    rw [List.getElem?_range hj] at h1
    cases hs2 : (srt e)[j]? with
    | none => rw [hs2] at h1; simp at h1
    | some k' =>
      rw [hs2] at h1
      simp only [Option.bind_some] at h1
      have hkk : k' = k := by
        have hnd : e.Nodup := hp.nodup_iff.2 List.nodup_range
        obtain ⟨a1, b1⟩ := List.getElem?_eq_some_iff.1 h1.symm
        obtain ⟨a2, b2⟩ := List.getElem?_eq_some_iff.1 hk
        exact (List.getElem_inj hnd).1 (b1.trans b2.symm)
      rw [gather_get hv j, hs2, hkk]; rfl

theorem i2eSet_writes {srt : List Nat → List Nat} (hs : IsArgsort srt) (c : Case P) {α : Type} (cast : α → α)
    (val old : List α) (s : Ordering) (hval : val.length = (posOf srt c s).length) (hold : old.length = rows c s) :
    ∃ r, i2eSet (orderOf srt c) cast val old s = some r ∧ WritesRows (posOf srt c s) val (old.map cast) r := by
  cases s with
  | bus =>
    obtain ⟨r, h1, h2, h3, h4⟩ := scatter_mask (old.map cast) (c.bus.map busK) (by simpa [rows] using hold.symm) val hval
    exact ⟨r, h1, h2, h3, h4⟩
  | branch =>
    obtain ⟨r, h1, h2, h3, h4⟩ := scatter_mask (old.map cast) (c.branch.map (brK c.bus)) (by simpa [rows] using hold.symm) val hval
    exact ⟨r, h1, h2, h3, h4⟩
  | gen =>
    obtain ⟨v, hv, hvl, hvg⟩ := unsort hs c val hval
    obtain ⟨r, h1, h2, h3, h4⟩ := scatter_mask (old.map cast) (c.gen.map (genK c.bus)) (by simpa [rows] using hold.symm) v hvl
    refine ⟨r, ?_, h2, ?_, ?_⟩
    · simp only [i2eSet, orderOf]
      rw [hv]
      simpa using h1
    · intro k i hk
      have hg := gather_get (posOf_gen hs c) k
      rw [hk] at hg
      cases hj : (srt ((genU c).map (·.bus)))[k]? with
      | none => rw [hj] at hg; simp at hg
      | some j =>
        rw [hj] at hg
        simp only [Option.bind_some] at hg
        rw [h3 j i hg.symm, hvg k j hj]
    · intro i hi
      exact h4 i (fun hm => hi ((posOf_gen_mem hs c).mem_iff.2 hm))

end Verif.Index
