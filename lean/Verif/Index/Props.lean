import Mathlib.Data.List.Forall2
import Verif.Index.Blocks

/-!
# Properties C01–C09: conversion between external and internal numbering

Vocabulary: `Verif/Index/Spec.lean`.  `srt` is `numpy.argsort`, constrained only by `IsArgsort`.
-/

namespace Verif.Index
open Verif.NumPy
variable {P : Payload}

/-- A concrete argsort (stable insertion of positions), to show that `IsArgsort` is satisfiable. -/
def stableArgsort (l : List Nat) : List Nat :=
  (List.range l.length).mergeSort (fun i j => decide (l[i]?.getD 0 ≤ l[j]?.getD 0))

theorem stableArgsort_isArgsort : IsArgsort stableArgsort where
  perm l := List.mergeSort_perm _ _
  sorted l := by
    have h := List.pairwise_mergeSort (le := fun i j => decide (l[i]?.getD 0 ≤ l[j]?.getD 0))
      (by intro a b c hab hbc; simp only [decide_eq_true_eq] at *; omega)
      (by intro a b; simp only [Bool.or_eq_true, decide_eq_true_eq]; omega) (List.range l.length)
    rw [List.pairwise_filterMap]
    refine h.imp ?_
    intro a b hab x hx y hy
    simp only [decide_eq_true_eq] at hab
    simp only [hx, hy, Option.getD_some] at hab
    exact hab

/-- The correspondence produced by a conversion, with the data-reordering behaviour (`get`/`put`) that goes with it. -/
theorem ext2int_corr {srt : List Nat → List Nat} (hs : IsArgsort srt) {c : Case P} (h : WF c) :
    ∃ c' o pos apos, ext2int srt c = some c' ∧ c'.order = some o ∧ o.internal = true ∧ Corr c c' pos apos ∧
      pos = posOf srt c ∧ o = orderOf srt c := by
  obtain ⟨gen, gc, A, N, hres, hg, _⟩ := ext2int_result hs h
  exact ⟨_, _, _, _, hres, rfl, rfl, corr_of hs h hg gc A N _, rfl, rfl⟩

/-! ## C02, C03 -/

/-- **C02**. After conversion buses are numbered 0..nb-1 in table order, every reference of a generator, branch or area is to
the internal number of the bus it was attached to (second part of each line of `Corr`), and generators are in
non-decreasing bus order. -/
theorem C02_consecutive_consistent {srt : List Nat → List Nat} (hs : IsArgsort srt) {c : Case P} (h : WF c) :
    ∃ c' pos apos, ext2int srt c = some c' ∧ Corr c c' pos apos ∧
      c'.bus.map (·.num) = List.range c'.bus.length ∧
      (∀ g ∈ c'.gen, g.bus < c'.bus.length) ∧
      (∀ l ∈ c'.branch, l.f < c'.bus.length ∧ l.t < c'.bus.length) ∧
      (c'.gen.map (·.bus)).Pairwise (· ≤ ·) := by
  obtain ⟨c', o, pos, apos, he, _, _, hc, _, _⟩ := ext2int_corr hs h
  have hlt : ∀ k n, IntBus c (pos .bus) k n → k < c'.bus.length := by
    rintro k n ⟨i, b, hk, _⟩
    rw [hc.busLen]
    exact (List.getElem?_eq_some_iff.1 hk).1
  refine ⟨c', pos, apos, he, hc, ?_, ?_, ?_, hc.genSorted⟩
  · apply List.ext_getElem?
    intro k
    rw [List.getElem?_map]
    by_cases hk : k < c'.bus.length
    · have hk' : k < (pos .bus).length := hc.busLen ▸ hk
      obtain ⟨b, _, hb'⟩ := hc.busRow k _ (List.getElem?_eq_getElem hk')
      rw [hb', List.getElem?_range hk]; rfl
    · rw [List.getElem?_eq_none (by omega), List.getElem?_eq_none (by simp; omega)]; rfl
  · intro g hg
    obtain ⟨k, hk⟩ := List.getElem?_of_mem hg
    obtain ⟨i, hi⟩ := pos_get hc.genLen hk
    obtain ⟨g0, n, _, h2, h3⟩ := hc.genRow k i hi
    rw [hk] at h2
    obtain rfl := by simpa using h2
    exact hlt _ _ h3
  · intro l hl
    obtain ⟨k, hk⟩ := List.getElem?_of_mem hl
    obtain ⟨i, hi⟩ := pos_get hc.brLen hk
    obtain ⟨g0, f, t, _, h2, h3, h4⟩ := hc.brRow k i hi
    rw [hk] at h2
    obtain rfl := by simpa using h2
    exact ⟨hlt _ _ h3, hlt _ _ h4⟩

/-- **C03**. Exactly the in-service equipment is kept (`Corr.busIn/genIn/brIn/arIn`: a row occurs among the internal rows iff it
is in service; the lists `pos` have no repetitions), and the recorded on/off lists partition the external rows. -/
theorem C03_exactly_in_service {srt : List Nat → List Nat} (hs : IsArgsort srt) {c : Case P} (h : WF c) :
    ∃ c' o pos apos, ext2int srt c = some c' ∧ c'.order = some o ∧ Corr c c' pos apos ∧
      (∀ (i : Nat) b, c.bus[i]? = some b → (i ∈ o.busOn ↔ b.typ ≠ 4) ∧ (i ∈ o.busOff ↔ b.typ = 4)) ∧
      (∀ (i : Nat) g, c.gen[i]? = some g → (i ∈ o.genOn ↔ GenInService c g) ∧ (i ∈ o.genOff ↔ ¬ GenInService c g)) ∧
      (∀ (i : Nat) l, c.branch[i]? = some l →
        (i ∈ o.branchOn ↔ BranchInService c l) ∧ (i ∈ o.branchOff ↔ ¬ BranchInService c l)) ∧
      (∀ (i : Nat), (i ∈ o.busOn ∨ i ∈ o.busOff → i < c.bus.length) ∧ (i ∈ o.genOn ∨ i ∈ o.genOff → i < c.gen.length) ∧
        (i ∈ o.branchOn ∨ i ∈ o.branchOff → i < c.branch.length)) ∧
      o.busOn.Nodup ∧ o.busOff.Nodup ∧ o.genOn.Nodup ∧ o.genOff.Nodup ∧ o.branchOn.Nodup ∧ o.branchOff.Nodup := by
  obtain ⟨c', o, pos, apos, he, ho, _, hc, _, rfl⟩ := ext2int_corr hs h
  have hmem : ∀ {α : Type} (p : α → Bool) (xs : List α) (i : Nat) x, xs[i]? = some x →
      (i ∈ find (xs.map p) ↔ p x = true) ∧ (i ∈ find ((xs.map p).map not) ↔ ¬ p x = true) := by
    intro α p xs i x hx
    refine ⟨find_map_mem hx, ?_⟩
    rw [mem_find, List.getElem?_map, List.getElem?_map, hx]; simp
  have hlt : ∀ {α : Type} (p : α → Bool) (xs : List α) (i : Nat),
      i ∈ find (xs.map p) ∨ i ∈ find ((xs.map p).map not) → i < xs.length := by
    intro α p xs i hi
    rw [mem_find, mem_find] at hi
    rcases hi with hi | hi
    · simpa using (List.getElem?_eq_some_iff.1 hi).1
    · have h1 := (List.getElem?_eq_some_iff.1 hi).1
      simpa using h1
  refine ⟨c', _, pos, apos, he, ho, hc, ?_, ?_, ?_, ?_, find_nodup _, find_nodup _, find_nodup _, find_nodup _,
    find_nodup _, find_nodup _⟩
  · intro i b hb
    have := hmem busK c.bus i b hb
    rw [busK_iff, not_not] at this
    exact this
  · intro i g hg
    have := hmem (genK c.bus) c.gen i g hg
    rwa [genK_iff] at this
  · intro i l hl
    have := hmem (brK c.bus) c.branch i l hl
    rwa [brK_iff] at this
  · intro i
    exact ⟨hlt _ _ i, hlt _ _ i, hlt _ _ i⟩

/-! ## C04, C01, C05 -/

theorem int2ext_restored {srt : List Nat → List Nat} (hs : IsArgsort srt) {c c' : Case P} (h : WF c)
    (he : ext2int srt c = some c') {c'' : Case P} (hs' : Solved c' c'') :
    ∃ r, int2ext c'' = some r ∧ r.order = some { orderOf srt c with internal := false } ∧
      Restored c c'' r (posOf srt c) (aposOf c) := by
  obtain ⟨r, hr, ho, hR⟩ := toExternal_restored hs h he hs'
  refine ⟨r, ?_, ho, hR⟩
  have hord : c''.order = some (orderOf srt c) := by
    rw [hs'.order]
    obtain ⟨gen, gc, A, N, hres, _⟩ := ext2int_result hs h
    rw [hres] at he
    obtain rfl := by simpa using he
    rfl
  simpa [int2ext, hord, orderOf] using hr

/-- C04 with the correspondence made explicit. -/
theorem results_posOf {srt : List Nat → List Nat} (hs : IsArgsort srt) {c : Case P} (h : WF c) :
    ∃ c', ext2int srt c = some c' ∧ Corr c c' (posOf srt c) (aposOf c) ∧
      (∀ gc, c.gencost = some gc → ∃ gc', c'.gencost = some gc' ∧
        (∀ (k i : Nat), (posOf srt c .gen)[k]? = some i → gc'[k]? = gc[i]?) ∧
        (gc.length = 2 * c.gen.length → ∀ (k i : Nat), (posOf srt c .gen)[k]? = some i →
          gc'[c'.gen.length + k]? = gc[c.gen.length + i]?)) ∧
      ∀ c'', Solved c' c'' → ∃ r, int2ext c'' = some r ∧ Restored c c'' r (posOf srt c) (aposOf c) := by
  obtain ⟨gen, gc, A, N, hres, hg, hgc, hA, hN⟩ := ext2int_result hs h
  have hc : Corr c (intCase srt c gen gc A N) (posOf srt c) (aposOf c) := corr_of hs h hg gc A N (some (orderOf srt c))
  refine ⟨_, hres, hc, ?_, ?_⟩
  · intro g hcg
    have hrows := h.costRows g hcg
    rw [hcg] at hgc
    simp only [e2iGencost, Option.map_eq_some_iff] at hgc
    obtain ⟨gc', hgc', rfl⟩ := hgc
    refine ⟨gc', rfl, ?_⟩
    have hlen : (posOf srt c .gen).length = gen.length := by have := hc.genLen; exact this.symm
    by_cases h2 : g.length = 2 * c.gen.length
    · -- two blocks
      obtain ⟨w1, hw1, hl1, hr1⟩ := e2iSet_reads hs c (g.take c.gen.length) .gen (by simp [rows]; omega)
      obtain ⟨w2, hw2, hl2, hr2⟩ := e2iSet_reads hs c (g.drop c.gen.length) .gen (by simp [rows]; omega)
      have hb := e2iBlocks_append (orderOf srt c) [(.gen, g.take c.gen.length, w1), (.gen, g.drop c.gen.length, w2)] [] []
        (by simp [extLen_orderOf, rows]; omega) (by simp [hw1, hw2])
      simp only [List.map_cons, List.map_nil, List.flatten_cons, List.flatten_nil, List.append_nil, List.nil_append,
        List.take_append_drop, List.length_nil] at hb
      have : gc' = w1 ++ w2 := by
        rw [e2iList, gencostOrdering, if_pos h2, hb] at hgc'
        simpa using hgc'.symm
      subst this
      constructor
      · intro k i hk
        have hkl := (List.getElem?_eq_some_iff.1 hk).1
        rw [List.getElem?_append_left (by omega), hr1 k i hk]
        have hi := posOf_range hs c .gen i (List.mem_of_getElem? hk)
        simp only [rows] at hi
        rw [List.getElem?_take_of_lt hi]
      · intro _ k i hk
        have hge : (intCase srt c gen (some (w1 ++ w2)) A N).gen.length = w1.length := by
          rw [hl1, hlen]; rfl
        rw [List.getElem?_append_right (by omega), hge]
        simp only [Nat.add_sub_cancel_left]
        rw [hr2 k i hk, List.getElem?_drop]
    · have hb1 : g = g.take c.gen.length ++ g.drop c.gen.length := by simp
      obtain ⟨w1, hw1, hl1, hr1⟩ := e2iSet_reads hs c (g.take c.gen.length) .gen (by simp [rows]; omega)
      have hb := e2iBlocks_append (orderOf srt c) [(.gen, g.take c.gen.length, w1)] [] (g.drop c.gen.length)
        (by simp [extLen_orderOf, rows]; omega) (by simp [hw1])
      simp only [List.map_cons, List.map_nil, List.flatten_cons, List.flatten_nil, List.append_nil, List.nil_append,
        List.take_append_drop, List.length_nil] at hb
      have : gc' = w1 ++ g.drop c.gen.length := by
        rw [e2iList, gencostOrdering, if_neg h2, hb] at hgc'
        simpa using hgc'.symm
      subst this
      refine ⟨?_, fun hh => absurd hh h2⟩
      intro k i hk
      have hkl := (List.getElem?_eq_some_iff.1 hk).1
      rw [List.getElem?_append_left (by omega), hr1 k i hk]
      have hi := posOf_range hs c .gen i (List.mem_of_getElem? hk)
      simp only [rows] at hi
      rw [List.getElem?_take_of_lt hi]
  · intro c'' hs'
    obtain ⟨r, hr, _, hR⟩ := int2ext_restored hs h hres hs'
    exact ⟨r, hr, hR⟩

/-- **C04**. With the same row correspondence `pos` as the forward conversion: whatever values the solver wrote into the internal
tables (only the bus number columns are kept), converting back puts internal row `k` at external row `pos[k]` with the
original bus numbers and leaves every other row as supplied. Also, the internal cost rows are those of the
generator in the same internal row (real power block, and reactive power block if present). -/
theorem C04_results_land_on_right_rows {srt : List Nat → List Nat} (hs : IsArgsort srt) {c : Case P} (h : WF c) :
    ∃ c' pos apos, ext2int srt c = some c' ∧ Corr c c' pos apos ∧
      (∀ gc, c.gencost = some gc → ∃ gc', c'.gencost = some gc' ∧
        (∀ (k i : Nat), (pos .gen)[k]? = some i → gc'[k]? = gc[i]?) ∧
        (gc.length = 2 * c.gen.length → ∀ (k i : Nat), (pos .gen)[k]? = some i →
          gc'[c'.gen.length + k]? = gc[c.gen.length + i]?)) ∧
      ∀ c'', Solved c' c'' → ∃ r, int2ext c'' = some r ∧ Restored c c'' r pos apos := by
  obtain ⟨c', h1, h2⟩ := results_posOf hs h
  exact ⟨c', _, _, h1, h2⟩

theorem Solved.refl (c : Case P) : Solved c c := ⟨rfl, rfl, rfl, rfl, rfl, rfl, rfl, rfl, rfl⟩

theorem putBack_eq {α : Type} {pos : List Nat} {back : α → α → α} {ext int r : List α}
    (h : PutBack pos back ext int r)
    (hb : ∀ (k i : Nat) new old, pos[k]? = some i → int[k]? = some new → ext[i]? = some old → back new old = old) :
    r = ext := by
  obtain ⟨_, h1, h2⟩ := h
  apply List.ext_getElem?
  intro i
  by_cases hi : i ∈ pos
  · obtain ⟨k, hk⟩ := List.getElem?_of_mem hi
    obtain ⟨new, old, e1, e2, e3⟩ := h1 k i hk
    rw [e3, hb k i new old hk e1 e2, e2]
  · exact h2 i hi

theorem round_trip {srt : List Nat → List Nat} (hs : IsArgsort srt) {c : Case P} (h : WF c) :
    ∃ c' r, ext2int srt c = some c' ∧ int2ext c' = some r ∧
      r.order = some { orderOf srt c with internal := false } ∧ c'.order = some (orderOf srt c) ∧
      r.bus = c.bus ∧ r.gen = c.gen ∧ r.branch = c.branch ∧ r.areas = areas' c ∧
      r.gencost = c.gencost ∧ r.A = c.A ∧ r.N = c.N := by
  obtain ⟨gen, gc, A, N, hres, hg, _⟩ := ext2int_result hs h
  have hc : Corr c (intCase srt c gen gc A N) (posOf srt c) (aposOf c) := corr_of hs h hg gc A N (some (orderOf srt c))
  obtain ⟨r, hr, ho, hR⟩ := int2ext_restored hs h hres (Solved.refl _)
  refine ⟨_, r, hres, hr, ho, rfl, ?_, ?_, ?_, ?_, hR.gencost, hR.A, hR.N⟩
  · apply putBack_eq hR.bus
    intro k i new old hk h1 h2
    obtain ⟨b, hb, hb'⟩ := hc.busRow k i hk
    rw [h1] at hb'; rw [h2] at hb
    obtain rfl := by simpa using hb
    obtain rfl := by simpa using hb'
    rfl
  · apply putBack_eq hR.gen
    intro k i new old hk h1 h2
    obtain ⟨b, n, hb, hb', _⟩ := hc.genRow k i hk
    rw [h1] at hb'; rw [h2] at hb
    obtain rfl := by simpa using hb
    obtain rfl := by simpa using hb'
    rfl
  · apply putBack_eq hR.branch
    intro k i new old hk h1 h2
    obtain ⟨b, f, t, hb, hb', _⟩ := hc.brRow k i hk
    rw [h1] at hb'; rw [h2] at hb
    obtain rfl := by simpa using hb
    obtain rfl := by simpa using hb'
    rfl
  · rcases hca : c.areas with _ | as
    · rw [hR.areasNone (Or.inl hca)]; simp [areas', hca]
    · cases as with
      | nil => rw [hR.areasNone (Or.inr hca)]; simp [areas', hca]
      | cons a as =>
        cases hca' : (intCase srt c gen gc A N).areas with
        | none =>
          have := hc.arNone.1 hca'
          rw [hca] at this; simp at this
        | some as' =>
          obtain ⟨ra, hra, hp⟩ := hR.areas (a :: as) as' hca hca'
          have hra2 : ra = a :: as := by
            apply putBack_eq hp
            intro k i new old hk h1 h2
            obtain ⟨b, n, hb, hb', _⟩ := hc.arRow _ _ hca hca' k i hk
            rw [h1] at hb'; rw [h2] at hb
            obtain rfl := by simpa using hb
            obtain rfl := by simpa using hb'
            rfl
          simp [hra, hra2, areas', hca]

/-- **C01**. Converting to internal numbering and straight back returns the supplied tables, row for row.
(An *empty* areas table is dropped by the conversion; `areas` is otherwise returned unchanged as well.) -/
theorem C01_round_trip {srt : List Nat → List Nat} (hs : IsArgsort srt) {c : Case P} (h : WF c) :
    ∃ c' r, ext2int srt c = some c' ∧ int2ext c' = some r ∧
      r.bus = c.bus ∧ r.gen = c.gen ∧ r.branch = c.branch ∧ r.gencost = c.gencost ∧ r.A = c.A ∧ r.N = c.N ∧
      (c.areas ≠ some [] → r.areas = c.areas) := by
  obtain ⟨c', r, h1, h2, _, _, h3, h4, h5, h6, h7, h8, h9⟩ := round_trip hs h
  refine ⟨c', r, h1, h2, h3, h4, h5, h7, h8, h9, ?_⟩
  intro hne
  rw [h6]
  unfold areas'
  rcases hca : c.areas with _ | _ | ⟨a, as⟩
  · rfl
  · exact absurd hca hne
  · rfl

/-- The two user-visible operations. -/
inductive Op where
  | toInt | toExt
deriving DecidableEq, Repr

/-- Apply one operation. -/
def Op.run (srt : List Nat → List Nat) : Op → Case P → Option (Case P)
  | .toInt, c => ext2int srt c
  | .toExt, c => int2ext c

/-- Apply a history of operations. -/
def runOps (srt : List Nat → List Nat) : List Op → Case P → Option (Case P)
  | [], c => some c
  | op :: ops, c => (op.run srt c).bind (runOps srt ops)

theorem WF_congr {c r : Case P} (h : WF c) (hb : r.bus = c.bus) (hg : r.gen = c.gen) (hbr : r.branch = c.branch)
    (ha : r.areas = areas' c) (hgc : r.gencost = c.gencost) (hA : r.A = c.A) (hN : r.N = c.N)
    (ho : ∀ o, r.order = some o → o.internal = false) : WF r := by
  have hHas : ∀ n, HasBus c n → HasBus r n := by intro n; simp [HasBus, hb]
  have hdc : minCols r = minCols c := by unfold minCols isDC; rw [hb, hg, hA, hN]
  refine ⟨?_, ?_, ?_, ?_, ?_, ?_, ?_, ?_, ?_, ?_, ho⟩
  · rw [hb]; exact h.busNodup
  · rw [hb]; exact h.typValid
  · rw [hb]; exact h.someOn
  · rw [hg]; exact fun g hg' => hHas _ (h.genRef g hg')
  · rw [hbr]; exact fun g hg' => hHas _ (h.fRef g hg')
  · rw [hbr]; exact fun g hg' => hHas _ (h.tRef g hg')
  · intro as has a haa
    rw [ha] at has
    obtain ⟨as0, h1, h2⟩ := areas'_mem (c := c) (a := a) (by rw [has]; simpa using haa)
    exact hHas _ (h.areaRef as0 h1 a h2)
  · rw [hgc, hg]; exact h.costRows
  · rw [hA, hdc]; exact h.aCols
  · rw [hN, hdc]; exact h.nCols

theorem toInternal_congr (srt : List Nat → List Nat) {c r : Case P} (hb : r.bus = c.bus) (hg : r.gen = c.gen)
    (hbr : r.branch = c.branch) (ha : areas' r = areas' c) (hgc : r.gencost = c.gencost) (hA : r.A = c.A) (hN : r.N = c.N) :
    toInternal srt r = toInternal srt c := by
  have hdc : isDC r = isDC c := by unfold isDC; rw [hb, hg, hA, hN]
  unfold toInternal
  rw [hb, hg, hbr, ha, hgc, hA, hN, hdc]

/-- **C05**. From a well-formed external case: the first conversion gives an internal case `c'`, converting that back gives an
external case `r` with the original tables; from then on any history of conversions succeeds, and the result is `c'` if the
last conversion was to internal and `r` if it was to external numbering. In particular each conversion is idempotent. -/
theorem C05_histories {srt : List Nat → List Nat} (hs : IsArgsort srt) {c : Case P} (h : WF c) :
    ∃ c' r, ext2int srt c = some c' ∧ int2ext c' = some r ∧
      r.bus = c.bus ∧ r.gen = c.gen ∧ r.branch = c.branch ∧ (c.areas ≠ some [] → r.areas = c.areas) ∧
      r.gencost = c.gencost ∧ r.A = c.A ∧ r.N = c.N ∧
      ∀ (ops : List Op) (x : Case P), x = c' ∨ x = r →
        runOps srt ops x = some (match ops.getLast? with
          | none => x
          | some .toInt => c'
          | some .toExt => r) := by
  obtain ⟨c', r, h1, h2, ho, ho', hb, hg, hbr, ha, hgc, hA, hN⟩ := round_trip hs h
  have hne : c.areas ≠ some [] → r.areas = c.areas := by
    intro hne
    rw [ha]; unfold areas'
    rcases hca : c.areas with _ | _ | ⟨a, as⟩
    · rfl
    · exact absurd hca hne
    · rfl
  refine ⟨c', r, h1, h2, hb, hg, hbr, hne, hgc, hA, hN, ?_⟩
  have e1 : ext2int srt c' = some c' := by simp [ext2int, ho', orderOf]
  have e2 : int2ext r = some r := by simp [int2ext, ho]
  have harr : areas' r = areas' c := by
    have : ∀ x : Case P, areas' x ≠ some [] := by
      intro x; unfold areas'; split <;> simp_all
    have h' := this c
    rw [← ha] at h' ⊢
    unfold areas'
    split
    · rename_i h''; exact absurd h'' h'
    · rfl
  have e3 : ext2int srt r = some c' := by
    have : ext2int srt c = toInternal srt c := by
      unfold ext2int
      cases hoo : c.order with
      | none => rfl
      | some o => simp [h.notInternal o hoo]
    rw [this] at h1
    have h5 : ext2int srt r = toInternal srt r := by simp [ext2int, ho]
    rw [h5, toInternal_congr srt hb hg hbr harr hgc hA hN, h1]
  intro ops
  induction ops with
  | nil => intro x _; rfl
  | cons op ops ih =>
    intro x hx
    have hstep : ∃ y, op.run srt x = some y ∧ (y = c' ∨ y = r) ∧
        y = (match op with | .toInt => c' | .toExt => r) := by
      rcases hx with rfl | rfl <;> cases op <;> simp [Op.run, e1, e2, e3, h2]
    obtain ⟨y, hy1, hy2, hy3⟩ := hstep
    simp only [runOps, hy1, Option.bind_some]
    rw [ih y hy2]
    cases ops with
    | nil => subst hy3; cases op <;> rfl
    | cons o' os =>
      rw [List.getLast?_cons_cons]
      cases hlast : (o' :: os).getLast? with
      | none => simp at hlast
      | some z => cases z <;> rfl

/-- **C05, before the first conversion**: a case that has never been converted cannot be converted to external numbering (the call
raises), and one marked external is returned unchanged. -/
theorem C05_external_first (c : Case P) :
    (c.order = none → int2ext c = none) ∧ (∀ o, c.order = some o → o.internal = false → int2ext c = some c) := by
  refine ⟨fun h => by simp [int2ext, h], fun o h1 h2 => by simp [int2ext, h1, h2]⟩

/-- **C02**, stored maps: the order information of the internal case translates bus numbers both ways: position `k` of `order["bus"]["i2e"]` is the external
number of internal bus `k`, and `order["bus"]["e2i"]` leads from there back to `k`. -/
theorem C02_stored_maps {srt : List Nat → List Nat} (hs : IsArgsort srt) {c : Case P} (h : WF c) :
    ∃ c' o pos apos, ext2int srt c = some c' ∧ Corr c c' pos apos ∧ c'.order = some o ∧ o.busI2e.length = c'.bus.length ∧
      ∀ k n, IntBus c (pos .bus) k n → o.busI2e[k]? = some n ∧ o.busE2i[n]? = some k := by
  obtain ⟨c', o, pos, apos, he, ho, _, hc, rfl, rfl⟩ := ext2int_corr hs h
  have hi : ∀ k n, IntBus c (posOf srt c .bus) k n → (i2eOf c)[k]? = some n := fun k n hk => i2e_of_intBus hk
  refine ⟨c', _, _, apos, he, hc, ho, ?_, fun k n hk => ⟨hi k n hk, e2iArray_get _ (i2e_nodup h) _ _ (hi k n hk)⟩⟩
  rw [hc.busLen]
  show (i2eOf c).length = (find (c.bus.map busK)).length
  rw [← gather_length (gather_find c.bus busK), i2eOf, List.length_map]

/-! ## C06, C07: user data -/

/-- Dense data converted block by block. -/
theorem e2iList_reads {srt : List Nat → List Nat} (hs : IsArgsort srt) (c : Case P) {α : Type} (blocks : List (Ordering × List α))
    (rest : List α) (hlen : ∀ b ∈ blocks, b.2.length = rows c b.1) :
    ∃ outs : List (List α),
      e2iList (orderOf srt c) false ((blocks.map (·.2)).flatten ++ rest) (blocks.map (·.1)) = some (outs.flatten ++ rest) ∧
      List.Forall₂ (fun b w => ReadsRows (posOf srt c b.1) b.2 w) blocks outs := by
  have : ∃ bws : List (Ordering × List α × List α), bws.map (fun b => (b.1, b.2.1)) = blocks ∧
      (∀ b ∈ bws, e2iSet (orderOf srt c) b.2.1 b.1 = some b.2.2) ∧
      List.Forall₂ (fun b w => ReadsRows (posOf srt c b.1) b.2 w) blocks (bws.map (·.2.2)) := by
    induction blocks with
    | nil => exact ⟨[], rfl, by simp, by simp⟩
    | cons b bs ih =>
      obtain ⟨bws, h1, h2, h3⟩ := ih (fun x hx => hlen x (by simp [hx]))
      obtain ⟨w, hw, hr⟩ := e2iSet_reads hs c b.2 b.1 (Nat.le_of_eq (hlen b (by simp)).symm)
      refine ⟨(b.1, b.2, w) :: bws, by simp [h1], ?_, ?_⟩
      · intro x hx
        rcases List.mem_cons.1 hx with rfl | hx
        · exact hw
        · exact h2 x hx
      · exact List.Forall₂.cons hr h3
  obtain ⟨bws, h1, h2, h3⟩ := this
  refine ⟨bws.map (·.2.2), ?_, h3⟩
  have hb := e2iBlocks_append (orderOf srt c) bws [] rest (by
    intro b hb
    rw [extLen_orderOf]
    exact hlen (b.1, b.2.1) (h1 ▸ List.mem_map.2 ⟨b, hb, rfl⟩)) h2
  have e1 : bws.map (·.1) = blocks.map (·.1) := by rw [← h1]; simp
  have e2 : bws.map (·.2.1) = blocks.map (·.2) := by rw [← h1]; simp
  rw [e1, e2] at hb
  simp only [List.nil_append, List.length_nil] at hb
  simp [e2iList, hb]

theorem isDC_iff {c : Case P} {w : Nat} (h : decidingWidth c = some w) :
    isDC c = decide (w < 2 * c.bus.length + 2 * c.gen.length) := by
  unfold decidingWidth at h
  unfold isDC
  cases hA : c.A with
  | some A => rw [hA] at h; simp at h; simp [h]
  | none =>
    rw [hA] at h
    cases hN : c.N with
    | some N => rw [hN] at h; simp at h; simp [h]
    | none => rw [hN] at h; simp at h

theorem matReordered_of {srt : List Nat → List Nat} (hs : IsArgsort srt) (c : Case P) {m m' : Option (UserMat P.col)}
    (h : e2iMat (orderOf srt c) (isDC c) m = some m') : MatReordered c (posOf srt c) m m' := by
  refine ⟨fun w va vm pg qg rest hw hle hm h1 h2 h3 h4 => ?_, fun w va pg rest hw hlt hm h1 h3 => ?_⟩
  · have hd : isDC c = false := by rw [isDC_iff hw]; simp; omega
    obtain ⟨outs, e1, e2⟩ := e2iList_reads hs c [(.bus, va), (.bus, vm), (.gen, pg), (.gen, qg)] rest
      (by simp [rows, h1, h2, h3, h4])
    rcases e2 with _ | ⟨r1, _ | ⟨r2, _ | ⟨r3, _ | ⟨r4, _ | _⟩⟩⟩⟩
    refine ⟨_, _, _, _, ?_, r1, r2, r3, r4⟩
    subst hm
    rw [hd] at h
    simp at e1
    simp [e2iMat, matOrdering, e1] at h
    simp [← h]
  · have hd : isDC c = true := by rw [isDC_iff hw]; simp; omega
    obtain ⟨outs, e1, e2⟩ := e2iList_reads hs c [(.bus, va), (.gen, pg)] rest (by simp [rows, h1, h3])
    rcases e2 with _ | ⟨r1, _ | ⟨r3, _ | _⟩⟩
    refine ⟨_, _, ?_, r1, r3⟩
    subst hm
    rw [hd] at h
    simp at e1
    simp [e2iMat, matOrdering, e1] at h
    simp [← h]

/-- **C06**. With the row correspondence `pos` of the conversion: data for a list of orderings (blocks of the external sizes,
followed by any trailing data) is converted block by block — internal entry `k` of a block is the external entry of the
equipment in internal row `k` — with the trailing data carried along; converting back block by block puts entry `k` at the
external row of its equipment and keeps the fill value everywhere else. -/
theorem C06_data_reordering {srt : List Nat → List Nat} (hs : IsArgsort srt) {c : Case P} (h : WF c) :
    ∃ c' o pos apos, ext2int srt c = some c' ∧ c'.order = some o ∧ Corr c c' pos apos ∧
      (∀ (α : Type) (blocks : List (Ordering × List α)) (rest : List α), (∀ b ∈ blocks, b.2.length = rows c b.1) →
        ∃ outs : List (List α),
          e2iList o false ((blocks.map (·.2)).flatten ++ rest) (blocks.map (·.1)) = some (outs.flatten ++ rest) ∧
          List.Forall₂ (fun b w => ReadsRows (pos b.1) b.2 w) blocks outs) ∧
      (∀ (α : Type) (blocks : List (Ordering × List α × List α)) (rest restOld : List α),
        (∀ b ∈ blocks, b.2.1.length = c'.len b.1 ∧ b.2.2.length = rows c b.1) →
        ∃ outs : List (List α),
          i2eBlocks c' o id ((blocks.map (·.2.1)).flatten ++ rest) ((blocks.map (·.2.2)).flatten ++ restOld) 0 0
            (blocks.map (·.1)) = some (outs.flatten ++ rest) ∧
          List.Forall₂ (fun b w => WritesRows (pos b.1) b.2.1 b.2.2 w) blocks outs) := by
  obtain ⟨c', o, pos, apos, he, ho, _, hc, rfl, rfl⟩ := ext2int_corr hs h
  refine ⟨c', _, _, apos, he, ho, hc, ?_, ?_⟩
  · exact fun α blocks rest hlen => e2iList_reads hs c blocks rest hlen
  · intro α blocks rest restOld hlen
    have hint : ∀ s, c'.len s = (posOf srt c s).length := by
      intro s; cases s
      · exact hc.busLen
      · exact hc.genLen
      · exact hc.brLen
    have : ∃ bws : List (Ordering × List α × List α × List α), bws.map (fun b => (b.1, b.2.1, b.2.2.1)) = blocks ∧
        (∀ b ∈ bws, i2eSet (orderOf srt c) id b.2.1 b.2.2.1 b.1 = some b.2.2.2) ∧
        List.Forall₂ (fun b w => WritesRows (posOf srt c b.1) b.2.1 b.2.2 w) blocks (bws.map (·.2.2.2)) := by
      induction blocks with
      | nil => exact ⟨[], rfl, by simp, by simp⟩
      | cons b bs ih =>
        obtain ⟨bws, h1, h2, h3⟩ := ih (fun x hx => hlen x (by simp [hx]))
        have hb := hlen b (by simp)
        obtain ⟨w, hw, hr⟩ := i2eSet_writes hs c id b.2.1 b.2.2 b.1 (by rw [hb.1, hint]) hb.2
        rw [List.map_id] at hr
        refine ⟨(b.1, b.2.1, b.2.2, w) :: bws, by simp [h1], ?_, ?_⟩
        · intro x hx
          rcases List.mem_cons.1 hx with rfl | hx
          · exact hw
          · exact h2 x hx
        · exact List.Forall₂.cons hr h3
    obtain ⟨bws, h1, h2, h3⟩ := this
    refine ⟨bws.map (·.2.2.2), ?_, h3⟩
    have hm : ∀ b ∈ bws, (b.1, b.2.1, b.2.2.1) ∈ blocks := fun b hb => h1 ▸ List.mem_map.2 ⟨b, hb, rfl⟩
    have hb := i2eBlocks_append c' (orderOf srt c) id bws [] [] rest restOld
      (fun b hb => (hlen _ (hm b hb)).1) (fun b hb => by rw [extLen_orderOf]; exact (hlen _ (hm b hb)).2) h2
    have e1 : bws.map (·.1) = blocks.map (·.1) := by rw [← h1]; simp
    have e2 : bws.map (·.2.1) = blocks.map (·.2.1) := by rw [← h1]; simp
    have e3 : bws.map (·.2.2.1) = blocks.map (·.2.2) := by rw [← h1]; simp
    rw [e1, e2, e3] at hb
    simpa using hb

/-- **C06, the fields of the case itself**: after the conversion the cost rows, and the columns of dense user matrices, are those of
the external case, each block read in the internal order of the equipment it belongs to; the layout of the columns (AC or DC) is
decided by the width of `A`, or of `N` when there is no `A`. -/
theorem C06_case_fields {srt : List Nat → List Nat} (hs : IsArgsort srt) {c : Case P} (h : WF c) :
    ∃ c' pos apos, ext2int srt c = some c' ∧ Corr c c' pos apos ∧ CostReordered c pos c.gencost c'.gencost ∧
      MatReordered c pos c.A c'.A ∧ MatReordered c pos c.N c'.N := by
  obtain ⟨gen, gc, A, N, hres, hg, hgc, hA, hN⟩ := ext2int_result hs h
  have hco := corr_of hs h hg gc A N
  refine ⟨_, _, _, hres, hco _, ?_, ?_, ?_⟩
  · have hb := fun (blocks : List (Ordering × List P.cost)) rest hl => e2iList_reads hs c blocks rest hl
    refine ⟨fun he => ?_, fun p q he hp hq => ?_, fun p rest he hp hr => ?_⟩
    · rw [he] at hgc
      have : gc = none := by simpa [e2iGencost, eq_comm] using hgc
      exact this
    · obtain ⟨outs, h1, h2⟩ := hb [(.gen, p), (.gen, q)] [] (by simp [rows, hp, hq])
      rcases h2 with _ | ⟨r1, _ | ⟨r2, _ | _⟩⟩
      refine ⟨_, _, ?_, r1, r2⟩
      have h3 : (p ++ q).length = 2 * c.gen.length := by simp [hp, hq]; omega
      rw [he] at hgc
      simp only [e2iGencost, gencostOrdering, h3, if_true] at hgc
      simp at h1
      rw [h1] at hgc
      simpa [intCase, eq_comm] using hgc
    · obtain ⟨outs, h1, h2⟩ := hb [(.gen, p)] rest (by simp [rows, hp])
      rcases h2 with _ | ⟨r1, _ | _⟩
      rename_i p'
      refine ⟨p', ?_, r1⟩
      have h3 : ¬ (p ++ rest).length = 2 * c.gen.length := by simp [hp]; omega
      rw [he] at hgc
      simp only [e2iGencost, gencostOrdering, h3, if_false] at hgc
      simp at h1
      rw [h1] at hgc
      simpa [intCase, eq_comm] using hgc
  · exact matReordered_of hs c hA
  · exact matReordered_of hs c hN

/-- Reading rows and writing them back over the original changes nothing (so by C06 the data round trip is the identity). -/
theorem C06_round_trip {α : Type} {pos : List Nat} {val w r : List α} (hr : ReadsRows pos val w) (hw : WritesRows pos w val r) :
    r = val := by
  apply List.ext_getElem?
  intro i
  by_cases hi : i ∈ pos
  · obtain ⟨k, hk⟩ := List.getElem?_of_mem hi
    rw [hw.2.1 k i hk, hr.2 k i hk]
  · exact hw.2.2 i hi

/-- **C06, the fill value is cast** (set_reorder.py:23): when the new values have another dtype the fill values are converted to
it, so "keeps the fill value" fails for, e.g., integer results over fractional old data: here `cast` is truncation to integers
and the out-of-service entry 1/2 of the fill comes back as 0.  Exact in the general case: the fill is `old.map cast`. -/
theorem C06_fill_is_cast {srt : List Nat → List Nat} (hs : IsArgsort srt) {c : Case P} (h : WF c) (s : Ordering) {α : Type}
    (cast : α → α) (val old : List α) :
    ∃ c' o pos apos, ext2int srt c = some c' ∧ c'.order = some o ∧ Corr c c' pos apos ∧
      (val.length = c'.len s → old.length = rows c s →
        ∃ r, i2eSet o cast val old s = some r ∧ WritesRows (pos s) val (old.map cast) r) := by
  obtain ⟨c', o, pos, apos, he, ho, _, hc, rfl, rfl⟩ := ext2int_corr hs h
  refine ⟨c', _, _, apos, he, ho, hc, ?_⟩
  intro h1 h2
  have hint : c'.len s = (posOf srt c s).length := by
    cases s
    · exact hc.busLen
    · exact hc.genLen
    · exact hc.brLen
  exact i2eSet_writes hs c cast val old s (by rw [h1, hint]) h2

/-- A small case used for witnesses: bus 7 is isolated, bus 9 and bus 2 are connected; the generators are at 2, 7, 9. -/
abbrev exP : Payload := ⟨Nat, Nat, Nat, Nat, Nat, Nat⟩

def exCase : Case exP where
  bus := [⟨9, 3, 0⟩, ⟨7, 4, 1⟩, ⟨2, 1, 2⟩]
  gen := [⟨2, 1, 10⟩, ⟨7, 1, 11⟩, ⟨9, 1, 12⟩, ⟨9, 0, 13⟩]
  branch := [⟨9, 2, 1, 20⟩, ⟨9, 7, 1, 21⟩, ⟨2, 9, 0, 22⟩]
  areas := some [⟨9, 30⟩, ⟨7, 31⟩]
  gencost := some [40, 41, 42, 43]
  A := some ⟨true, [0, 1, 2, 3, 4, 5, 6]⟩
  N := some ⟨false, [0, 1, 2, 3, 4, 5, 6, 7]⟩
  order := none

/-- The hypotheses of C01–C06 are met by a case with isolated buses, off equipment, areas, costs and user matrices. -/
example : WF exCase where
  busNodup := by decide
  typValid := by simp [exCase]
  someOn := ⟨_, List.mem_cons_self, by decide⟩
  genRef := by simp [exCase, HasBus]
  fRef := by simp [exCase, HasBus]
  tRef := by simp [exCase, HasBus]
  areaRef := by
    intro as h
    obtain rfl : _ = as := by simpa [exCase] using h
    simp [exCase, HasBus]
  costRows := by
    intro gc h
    obtain rfl : _ = gc := by simpa [exCase] using h
    simp [exCase]
  aCols := by
    intro m h
    obtain rfl : _ = m := by simpa [exCase] using h
    simp [minCols, isDC, exCase]
  nCols := by
    intro m h
    obtain rfl : _ = m := by simpa [exCase] using h
    simp [minCols, isDC, exCase]
  notInternal := by simp [exCase]

/-- **C07 is false of the code.** A sparse user matrix converted with a list of orderings comes back *unchanged* … -/
theorem C07_sparse_unchanged {α : Type} (o : Order P) (val r : List α) (ords : List Ordering)
    (h : e2iList o true val ords = some r) : r = val := by
  unfold e2iList at h
  split at h
  · simp at h
  · simpa using h.symm

/-- The identity on sorted keys is an argsort there; used to evaluate the witness below. -/
def exOrder : Order exP where
  internal := true
  extBus := exCase.bus
  extBranch := exCase.branch
  extGen := exCase.gen
  extAreas := exCase.areas
  extGencost := exCase.gencost
  extA := exCase.A
  extN := exCase.N
  busOn := [0, 2]
  busOff := [1]
  genOn := [0, 2]
  genOff := [1, 3]
  branchOn := [0]
  branchOff := [1, 2]
  areasOn := [0]
  areasOff := [1]
  busI2e := [9, 2]
  busE2i := e2iArray [9, 2]
  genE2i := [1, 0]
  genI2e := [1, 0]

/-- … whereas the equivalent dense matrix is reordered: on `exCase` (`A` has 7 columns = 3 buses + 4 generators) the two results
differ.  So the claimed equality of sparse and dense conversion fails. -/
theorem C07_negation : ¬ ∀ (P : Payload) (o : Order P) (val : List Nat) (ords : List Ordering),
    e2iList o true val ords = e2iList o false val ords := by
  intro h
  have := h exP exOrder [0, 1, 2, 3, 4, 5, 6] [.bus, .gen]
  revert this
  decide

/-- **C07, what holds**: for a single ordering, or for dense data, the conversion does not depend on the storage format; in
particular a sparse matrix is converted correctly when all equipment is in service and generators are already sorted, i.e. when
the dense conversion is the identity. -/
theorem C07_partial {α : Type} (o : Order P) (val : List α) (ords : List Ordering)
    (h : e2iList o false val ords = some val) : e2iList o true val ords = some val := by
  unfold e2iList at *
  split at h <;> simp_all

/-! ## C08 -/

theorem renumber_inv {α : Type} (i2e : List Nat) (hnd : i2e.Nodup) (get : α → Nat) (set : α → Nat → α)
    (hgs : ∀ x k, get (set x k) = k) (hss : ∀ x k, set (set x k) (get x) = x) (xs : List α) (h : ∀ x ∈ xs, get x ∈ i2e) :
    ∃ ys, renumber (e2iArray i2e) get set xs = some ys ∧ renumber i2e get set ys = some xs ∧
      ys = xs.map (fun x => set x (i2e.idxOf (get x))) := by
  refine ⟨_, renumber_eq _ get set (fun x => i2e.idxOf (get x)) xs (fun x hx => e2iArray_idxOf _ hnd _ (h x hx)), ?_, rfl⟩
  induction xs with
  | nil => rfl
  | cons x xs ih =>
    have h1 := getElem?_idxOf_self i2e (get x) (h x (by simp))
    have h2 := ih (fun y hy => h y (List.mem_cons_of_mem _ hy))
    simp [renumber, hgs, h1, h2, hss]

/-- **C08**. The stand-alone renumbering routine numbers the buses 0..nb-1 in table order, each generator, branch and area
refers to the position of its bus, and the inverse routine restores the original tables.
Partial: the inverse is only claimed for a call without an areas table; with one it raises (next theorem). -/
theorem C08_roundtrip_partial {β γ δ ε : Type} (bus : List (BusRow β)) (gen : List (GenRow γ)) (branch : List (BranchRow δ))
    (areas : Option (List (AreaRow ε))) (hne : bus ≠ []) (hnd : (bus.map (·.num)).Nodup)
    (hg : ∀ g ∈ gen, ∃ b ∈ bus, b.num = g.bus) (hf : ∀ l ∈ branch, ∃ b ∈ bus, b.num = l.f)
    (ht : ∀ l ∈ branch, ∃ b ∈ bus, b.num = l.t) (ha : ∀ as, areas = some as → ∀ a ∈ as, ∃ b ∈ bus, b.num = a.ref) :
    ∃ bus' gen' branch' areas',
      ext2int1 bus gen branch areas = some (bus.map (·.num), bus', gen', branch', areas') ∧
      bus'.map (·.num) = List.range bus.length ∧ bus'.length = bus.length ∧ gen'.length = gen.length ∧
      branch'.length = branch.length ∧
      (∀ g' ∈ gen', g'.bus < bus.length) ∧ (∀ l' ∈ branch', l'.f < bus.length ∧ l'.t < bus.length) ∧
      int2ext1 (bus.map (·.num)) bus' gen' branch' (none : Option (List (AreaRow ε))) = some (bus, gen, branch) := by
  have hmem : ∀ n, (∃ b ∈ bus, b.num = n) → n ∈ bus.map (·.num) := by
    rintro n ⟨b, hb, rfl⟩; exact List.mem_map.2 ⟨b, hb, rfl⟩
  have hlt : ∀ n, n ∈ bus.map (·.num) → (bus.map (·.num)).idxOf n < bus.length := by
    intro n hn
    have := List.idxOf_lt_length_iff.2 hn
    simpa using this
  obtain ⟨b1, hb1, hb1', hb1e⟩ := renumber_inv (bus.map (·.num)) hnd BusRow.num BusRow.setNum (fun _ _ => rfl) (fun _ _ => rfl) bus
    (fun b hb => List.mem_map.2 ⟨b, hb, rfl⟩)
  obtain ⟨g1, hg1, hg1', hg1e⟩ := renumber_inv (bus.map (·.num)) hnd GenRow.bus GenRow.setBus (fun _ _ => rfl) (fun _ _ => rfl) gen
    (fun g hg' => hmem _ (hg g hg'))
  obtain ⟨l1, hl1, hl1', hl1e⟩ := renumber_inv (bus.map (·.num)) hnd BranchRow.f BranchRow.setF (fun _ _ => rfl) (fun _ _ => rfl) branch
    (fun g hg' => hmem _ (hf g hg'))
  have hl1t : ∀ l ∈ l1, l.t ∈ bus.map (·.num) := by
    intro l hl
    rw [hl1e] at hl
    obtain ⟨l0, hl0, rfl⟩ := List.mem_map.1 hl
    exact hmem _ (ht l0 hl0)
  obtain ⟨l2, hl2, _, hl2e⟩ := renumber_inv (bus.map (·.num)) hnd BranchRow.t BranchRow.setT (fun _ _ => rfl) (fun _ _ => rfl) l1 hl1t
  have har : ∃ a', (match areas with
      | none => some none
      | some [] => some none
      | some a => (renumber (e2iArray (bus.map (·.num))) AreaRow.ref AreaRow.setRef a).map some) = some a' := by
    rcases areas with _ | _ | ⟨a, as⟩
    · exact ⟨none, rfl⟩
    · exact ⟨none, rfl⟩
    · obtain ⟨a1, ha1, _⟩ := renumber_inv (bus.map (·.num)) hnd AreaRow.ref AreaRow.setRef (fun _ _ => rfl) (fun _ _ => rfl) (a :: as)
        (fun x hx => hmem _ (ha _ rfl x hx))
      exact ⟨some a1, by simp [ha1]⟩
  obtain ⟨a', ha'⟩ := har
  refine ⟨b1, g1, l2, a', ?_, ?_, by simp [hb1e], by simp [hg1e], by simp [hl2e, hl1e], ?_, ?_, ?_⟩
  · simp only [ext2int1, hne, if_false, hb1, hg1, hl1, hl2, Option.bind_eq_bind, Option.bind_some]
    rcases areas with _ | _ | ⟨a, as⟩
    · simp at ha'; simp [ha']
    · simp at ha'; simp [ha']
    · simp only at ha'
      simp [ha']
  · rw [hb1e]
    apply List.ext_getElem?
    intro k
    by_cases hk : k < bus.length
    · rw [List.getElem?_range hk]
      simp only [List.map_map, List.getElem?_map, List.getElem?_eq_getElem hk, Option.map_some, Function.comp, BusRow.setNum]
      congr 1
      have := hnd.idxOf_getElem k (by simpa using hk)
      simpa using this
    · rw [List.getElem?_eq_none (by simp; omega), List.getElem?_eq_none (by simp; omega)]
  · intro g' hg'
    rw [hg1e] at hg'
    obtain ⟨g, hg0, rfl⟩ := List.mem_map.1 hg'
    exact hlt _ (hmem _ (hg g hg0))
  · intro l' hl'
    rw [hl2e, hl1e] at hl'
    obtain ⟨l0, hl0, rfl⟩ := List.mem_map.1 hl'
    obtain ⟨l, hl, rfl⟩ := List.mem_map.1 hl0
    exact ⟨hlt _ (hmem _ (hf l hl)), hlt _ (hmem _ (ht l hl))⟩
  · have hback : renumber (bus.map (·.num)) BranchRow.f BranchRow.setF l2 =
        some (branch.map (fun l => l.setT ((bus.map (·.num)).idxOf l.t))) := by
      rw [hl2e, hl1e]
      have : ∀ bs : List (BranchRow δ), (∀ l ∈ bs, l.f ∈ bus.map (·.num)) →
          renumber (bus.map (·.num)) BranchRow.f BranchRow.setF
            ((bs.map (fun x => x.setF ((bus.map (·.num)).idxOf x.f))).map (fun x => x.setT ((bus.map (·.num)).idxOf x.t))) =
          some (bs.map (fun l => l.setT ((bus.map (·.num)).idxOf l.t))) := by
        intro bs
        induction bs with
        | nil => intro _; rfl
        | cons l bs ih =>
          intro hm
          have h1 := getElem?_idxOf_self _ _ (hm l (by simp))
          have h2 := ih (fun y hy => hm y (List.mem_cons_of_mem _ hy))
          simp only [List.map_cons, renumber]
          rw [h2]
          simp only [BranchRow.setF, BranchRow.setT]
          rw [h1]
      exact this branch (fun l hl => hmem _ (hf l hl))
    obtain ⟨l3, hl3, hl3', hl3e⟩ := renumber_inv (bus.map (·.num)) hnd BranchRow.t BranchRow.setT (fun _ _ => rfl) (fun _ _ => rfl) branch
      (fun g hg' => hmem _ (ht g hg'))
    rw [hl3e] at hl3'
    simp only [int2ext1, hb1', hg1', hback, hl3', Option.bind_eq_bind, Option.bind_some]

/-- **C08 is false with an areas table**: the inverse routine raises for every nonempty areas table (the test `areas != None` on an
array), so areas are never restored. -/
theorem C08_negation_areas {β γ δ ε : Type} (i2e : List Nat) (bus : List (BusRow β)) (gen : List (GenRow γ))
    (branch : List (BranchRow δ)) (a : AreaRow ε) (as : List (AreaRow ε)) :
    int2ext1 i2e bus gen branch (some (a :: as)) = none := by
  simp only [int2ext1]
  cases renumber i2e BusRow.num BusRow.setNum bus <;> simp

example : ([⟨9, 3, 0⟩, ⟨7, 4, 1⟩, ⟨2, 1, 2⟩] : List (BusRow Nat)).map (·.num) = [9, 7, 2] ∧ [9, 7, 2].Nodup := by decide

/-! ## C09 -/

/-- Buses 1 and 5; the generator claims to be at bus 3, which does not exist. -/
def exDangling : Case exP where
  bus := [⟨1, 3, 0⟩, ⟨5, 1, 1⟩]
  gen := [⟨3, 1, 10⟩]
  branch := []
  areas := none
  gencost := none
  A := none
  N := none
  order := none

/-- **C09 is false of the code**: a generator at the non-existent bus 3 of `exDangling` is silently attached to the first bus
(external number 1), for every sorting routine. -/
theorem C09_negation {srt : List Nat → List Nat} (hs : IsArgsort srt) :
    ¬ HasBus exDangling 3 ∧ ∃ c', ext2int srt exDangling = some c' ∧ c'.gen.map (·.bus) = [0] ∧
      c'.order.map (·.busI2e) = some [1, 5] := by
  refine ⟨by simp [HasBus, exDangling], ?_⟩
  have h1 : srt [0] = [0] := by
    have := hs.perm [0]
    simpa using this
  have h2 : ext2int srt exDangling = (do
      let gen ← gather ([⟨0, 1, 10⟩] : List (GenRow Nat)) (srt [0])
      some (⟨[⟨0, 3, 0⟩, ⟨1, 1, 1⟩], gen, [], none, none, none, none,
        some ⟨true, exDangling.bus, [], exDangling.gen, none, none, none, none, [0, 1], [], [0], [], [], [], [], [],
          [1, 5], [0, 0, 0, 0, 0, 1], srt [0], srt (srt [0])⟩⟩ : Case exP)) := rfl
  rw [h2, h1]
  exact ⟨_, rfl, rfl, rfl⟩

/-- **C09, the part that holds**: a reference beyond the largest bus number is detected (the call raises). Missing: references to
absent numbers that are smaller than the largest bus number. -/
theorem C09_partial (srt : List Nat → List Nat) {c : Case P} (hn : ∀ o, c.order = some o → o.internal = false)
    (h : (∃ g ∈ c.gen, ∀ b ∈ c.bus, b.num < g.bus) ∨ (∃ l ∈ c.branch, ∀ b ∈ c.bus, b.num < l.f) ∨
      (∃ l ∈ c.branch, ∀ b ∈ c.bus, b.num < l.t)) :
    ext2int srt c = none := by
  have he : ext2int srt c = toInternal srt c := by
    unfold ext2int
    cases ho : c.order with
    | none => rfl
    | some o => simp [hn o ho]
  have hst : ∀ {α : Type} (st : α → Option Bool) (xs : List α), (∃ x ∈ xs, st x = none) → statuses st xs = none := by
    intro α st xs
    induction xs with
    | nil => simp
    | cons x xs ih =>
      rintro ⟨y, hy, hn⟩
      rcases List.mem_cons.1 hy with rfl | hy
      · simp [statuses, hn]
      · simp only [statuses, ih ⟨y, hy, hn⟩]
        cases st x <;> rfl
  have hbs : ∀ n, (∀ b ∈ c.bus, b.num < n) → busStatusAt c.bus n = none := by
    intro n hn
    have : c.bus.any (fun b => decide (n ≤ b.num)) = false := by
      rw [List.any_eq_false]
      intro b hb
      have := hn b hb
      simp; omega
    simp [busStatusAt, n2i, this]
  rw [he, toInternal]
  by_cases hb : c.bus = []
  · simp [hb]
  · by_cases hv : 1 < (c.bus.filter invalidType).length
    · simp [hv]
    · simp only [hb, hv, if_false]
      rcases h with ⟨g, hg, hl⟩ | ⟨l, hl, hf⟩ | ⟨l, hl, ht⟩
      · rw [hst (genStatus c.bus) c.gen ⟨g, hg, by simp [genStatus, hbs _ hl]⟩]; rfl
      · cases statuses (genStatus c.bus) c.gen with
        | none => rfl
        | some _ =>
          rw [hst (branchStatus c.bus) c.branch ⟨l, hl, by simp [branchStatus, hbs _ hf]⟩]; rfl
      · cases statuses (genStatus c.bus) c.gen with
        | none => rfl
        | some _ =>
          rw [hst (branchStatus c.bus) c.branch ⟨l, hl, by simp only [branchStatus, hbs _ ht]; cases busStatusAt c.bus l.f <;> rfl⟩]
          rfl

example : (∃ g ∈ ([⟨3, 1, 10⟩] : List (GenRow Nat)), ∀ b ∈ ([⟨1, 3, 0⟩, ⟨2, 1, 0⟩] : List (BusRow Nat)), b.num < g.bus) := by decide

end Verif.Index
