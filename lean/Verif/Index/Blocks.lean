import Verif.Index.CorrLemmas

/-! Block lists of data, success of the conversion, and the way back. -/

namespace Verif.Index
open Verif.NumPy
variable {P : Payload}

theorem e2iBlocks_append {α : Type} (o : Order P) (bws : List (Ordering × List α × List α)) (pre rest : List α)
    (hlen : ∀ b ∈ bws, b.2.1.length = o.extLen b.1) (hset : ∀ b ∈ bws, e2iSet o b.2.1 b.1 = some b.2.2) :
    e2iBlocks o (pre ++ (bws.map (·.2.1)).flatten ++ rest) pre.length (bws.map (·.1)) =
      some ((bws.map (·.2.2)).flatten ++ rest) := by
  induction bws generalizing pre with
  | nil =>
    simp only [List.map_nil, List.flatten_nil, List.append_nil, e2iBlocks, List.nil_append]
    rw [gather_range' _ _ _ (by simp)]
    simp
  | cons b bs ih =>
    have h1 := hlen b (by simp)
    have h2 := hset b (by simp)
    have ih := ih (pre ++ b.2.1) (fun x hx => hlen x (by simp [hx])) (fun x hx => hset x (by simp [hx]))
    have hg : gather (pre ++ ((b :: bs).map (·.2.1)).flatten ++ rest) (List.range' pre.length (o.extLen b.1)) =
        some b.2.1 := by
      rw [gather_range' _ _ _ (by simp [← h1])]
      simp [← h1]
    simp only [List.map_cons, e2iBlocks]
    simp only [List.map_cons] at hg
    rw [hg]
    simp only [h2]
    have he : pre ++ (b.2.1 :: bs.map (·.2.1)).flatten ++ rest = pre ++ b.2.1 ++ (bs.map (·.2.1)).flatten ++ rest := by
      simp
    rw [he, ← h1, ← List.length_append, ih]
    simp

theorem i2eBlocks_append {α : Type} (c : Case P) (o : Order P) (cast : α → α)
    (bws : List (Ordering × List α × List α × List α)) (pre preE rest restE : List α)
    (hlen : ∀ b ∈ bws, b.2.1.length = c.len b.1) (hlenE : ∀ b ∈ bws, b.2.2.1.length = o.extLen b.1)
    (hset : ∀ b ∈ bws, i2eSet o cast b.2.1 b.2.2.1 b.1 = some b.2.2.2) :
    i2eBlocks c o cast (pre ++ (bws.map (·.2.1)).flatten ++ rest) (preE ++ (bws.map (·.2.2.1)).flatten ++ restE)
      pre.length preE.length (bws.map (·.1)) = some ((bws.map (·.2.2.2)).flatten ++ rest) := by
  induction bws generalizing pre preE with
  | nil =>
    simp only [List.map_nil, List.flatten_nil, List.append_nil, i2eBlocks, List.nil_append]
    rw [gather_range' _ _ _ (by simp)]
    simp
  | cons b bs ih =>
    have h1 := hlen b (by simp)
    have h1e := hlenE b (by simp)
    have h2 := hset b (by simp)
    have ih := ih (pre ++ b.2.1) (preE ++ b.2.2.1) (fun x hx => hlen x (by simp [hx])) (fun x hx => hlenE x (by simp [hx]))
      (fun x hx => hset x (by simp [hx]))
    have hg : gather (pre ++ (b.2.1 :: bs.map (·.2.1)).flatten ++ rest) (List.range' pre.length (c.len b.1)) =
        some b.2.1 := by
      rw [gather_range' _ _ _ (by simp [← h1])]
      simp [← h1]
    have hge : gather (preE ++ (b.2.2.1 :: bs.map (·.2.2.1)).flatten ++ restE) (List.range' preE.length (o.extLen b.1)) =
        some b.2.2.1 := by
      rw [gather_range' _ _ _ (by simp [← h1e])]
      simp [← h1e]
    simp only [List.map_cons, i2eBlocks]
    rw [hg, hge]
    simp only [h2]
    have he : pre ++ (b.2.1 :: bs.map (·.2.1)).flatten ++ rest = pre ++ b.2.1 ++ (bs.map (·.2.1)).flatten ++ rest := by
      simp
    have hee : preE ++ (b.2.2.1 :: bs.map (·.2.2.1)).flatten ++ restE =
        preE ++ b.2.2.1 ++ (bs.map (·.2.2.1)).flatten ++ restE := by
      simp
    rw [he, hee, ← h1, ← h1e, ← List.length_append, ← List.length_append, ih]
    simp

theorem extLen_orderOf (srt : List Nat → List Nat) (c : Case P) (s : Ordering) : (orderOf srt c).extLen s = rows c s := by
  cases s <;> rfl

theorem e2iBlocks_isSome {srt : List Nat → List Nat} (hs : IsArgsort srt) (c : Case P) {α : Type} (val : List α)
    (ords : List Ordering) (b : Nat) (h : b + (ords.map (rows c)).sum ≤ val.length) :
    ∃ r, e2iBlocks (orderOf srt c) val b ords = some r := by
  induction ords generalizing b with
  | nil => exact ⟨_, by rw [e2iBlocks, gather_range' _ _ _ (by simp at h; omega)]⟩
  | cons s ss ih =>
    simp only [List.map_cons, List.sum_cons] at h
    obtain ⟨r, hr⟩ := ih (b + rows c s) (by omega)
    have hg := gather_range' val b (rows c s) (by omega)
    obtain ⟨w, hw, _⟩ := e2iSet_reads hs c ((val.drop b).take (rows c s)) s (by simp; omega)
    simp only [e2iBlocks, extLen_orderOf, hg, hw, hr]
    exact ⟨_, rfl⟩

theorem e2iList_isSome {srt : List Nat → List Nat} (hs : IsArgsort srt) (c : Case P) {α : Type} (sp : Bool) (val : List α)
    (ords : List Ordering) (h : (ords.map (rows c)).sum ≤ val.length) :
    ∃ r, e2iList (orderOf srt c) sp val ords = some r := by
  obtain ⟨r, hr⟩ := e2iBlocks_isSome hs c val ords 0 (by omega)
  cases sp <;> simp [e2iList, hr]

theorem e2iGencost_isSome {srt : List Nat → List Nat} (hs : IsArgsort srt) {c : Case P} (h : WF c) :
    ∃ r, e2iGencost (orderOf srt c) c.gen.length c.gencost = some r := by
  cases hg : c.gencost with
  | none => exact ⟨none, rfl⟩
  | some gc =>
    have := h.costRows gc hg
    obtain ⟨r, hr⟩ := e2iList_isSome hs c false gc (gencostOrdering c.gen.length gc.length) (by
      unfold gencostOrdering
      split
      · simp [rows]; omega
      · simpa [rows] using this)
    exact ⟨some r, by simp [e2iGencost, hr]⟩

theorem e2iMat_isSome {srt : List Nat → List Nat} (hs : IsArgsort srt) {c : Case P} (m : Option (UserMat P.col))
    (h : ∀ m', m = some m' → minCols c ≤ m'.cols.length) :
    ∃ r, e2iMat (orderOf srt c) (isDC c) m = some r := by
  cases m with
  | none => exact ⟨none, rfl⟩
  | some m =>
    have := h m rfl
    obtain ⟨r, hr⟩ := e2iList_isSome hs c m.sparse m.cols (matOrdering (isDC c)) (by
      unfold minCols at this
      cases hd : isDC c <;> rw [hd] at this <;> simp [matOrdering, rows] at this ⊢ <;> omega)
    exact ⟨_, by simp [e2iMat, hr]; rfl⟩

def intCase (srt : List Nat → List Nat) (c : Case P) (gen : List (GenRow P.gen)) (gencost : Option (List P.cost))
    (A N : Option (UserMat P.col)) : Case P where
  bus := busI c
  gen := gen
  branch := brI c
  areas := (areas' c).map (fun _ => arI c)
  gencost := gencost
  A := A
  N := N
  order := some (orderOf srt c)

/-- The conversion succeeds on well-formed cases, with this result. -/
theorem ext2int_result {srt : List Nat → List Nat} (hs : IsArgsort srt) {c : Case P} (h : WF c) :
    ∃ gen gencost A N,
      ext2int srt c = some (intCase srt c gen gencost A N) ∧
      gather (genU c) (srt ((genU c).map (·.bus))) = some gen ∧
      e2iGencost (orderOf srt c) c.gen.length c.gencost = some gencost ∧
      e2iMat (orderOf srt c) (isDC c) c.A = some A ∧
      e2iMat (orderOf srt c) (isDC c) c.N = some N := by
  have he : ext2int srt c = toInternal srt c := by
    unfold ext2int
    cases ho : c.order with
    | none => rfl
    | some o => simp [h.notInternal o ho]
  obtain ⟨gen, hg, _⟩ := argsort_gather hs (genU c) (·.bus)
  obtain ⟨gc, hgc⟩ := e2iGencost_isSome hs h
  obtain ⟨A, hA⟩ := e2iMat_isSome hs c.A h.aCols
  obtain ⟨N, hN⟩ := e2iMat_isSome hs c.N h.nCols
  refine ⟨gen, gc, A, N, ?_, hg, hgc, hA, hN⟩
  rw [he, toInternal_closed srt h]
  simp [hg, hgc, hA, hN, intCase]

/-! ### way back -/

theorem renumber_get {α : Type} {arr : List Nat} {get : α → Nat} {set : α → Nat → α} {xs ys : List α}
    (h : renumber arr get set xs = some ys) (k : Nat) :
    ys[k]? = (xs[k]?).bind (fun x => (arr[get x]?).map (set x)) := by
  induction xs generalizing ys k with
  | nil => simp [renumber] at h; subst h; simp
  | cons x xs ih =>
    simp only [renumber] at h
    split at h
    · rename_i n r h1 h2
      obtain rfl := by simpa using h
      cases k with
      | zero => simp [h1]
      | succ k => simpa using ih h2 k
    · simp at h

theorem renumber_isSome {α : Type} (arr : List Nat) (get : α → Nat) (set : α → Nat → α) (xs : List α)
    (h : ∀ (k : Nat) x, xs[k]? = some x → ∃ n, arr[get x]? = some n) : ∃ ys, renumber arr get set xs = some ys := by
  induction xs with
  | nil => exact ⟨[], rfl⟩
  | cons x xs ih =>
    obtain ⟨n, hn⟩ := h 0 x rfl
    obtain ⟨ys, hy⟩ := ih (fun k y hy => h (k + 1) y (by simpa using hy))
    exact ⟨_, by simp [renumber, hn, hy]; rfl⟩

theorem i2e_of_intBus {c : Case P} {srt : List Nat → List Nat} {k n : Nat} (h : IntBus c (posOf srt c .bus) k n) :
    (i2eOf c)[k]? = some n := by
  obtain ⟨i, b, h1, h2, h3⟩ := h
  simp only [i2eOf, List.getElem?_map, filter_get]
  simp only [posOf] at h1
  simp [h1, h2, h3]

theorem get?_map_eq {α β : Type} {f : α → β} {xs ys : List α} (h : xs.map f = ys.map f) {k : Nat} {y : α}
    (hy : ys[k]? = some y) : ∃ x, xs[k]? = some x ∧ f x = f y := by
  have : (xs.map f)[k]? = (ys.map f)[k]? := by rw [h]
  rw [List.getElem?_map, List.getElem?_map, hy] at this
  cases hx : xs[k]? with
  | none => rw [hx] at this; simp at this
  | some x => rw [hx] at this; exact ⟨x, rfl, by simpa using this⟩

theorem pos_get {pos : List Nat} {α : Type} {xs : List α} (hl : xs.length = pos.length) {k : Nat} {x : α}
    (hx : xs[k]? = some x) : ∃ i, pos[k]? = some i := by
  obtain ⟨hlt, _⟩ := List.getElem?_eq_some_iff.1 hx
  exact ⟨pos[k], by simp [List.getElem?_eq_getElem (hl ▸ hlt)]⟩

theorem toExternal_restored {srt : List Nat → List Nat} (hs : IsArgsort srt) {c c' : Case P} (h : WF c)
    (he : ext2int srt c = some c') {c'' : Case P} (hs' : Solved c' c'') :
    ∃ r, toExternal c'' (orderOf srt c) = some r ∧ r.order = some { orderOf srt c with internal := false } ∧
      Restored c c'' r (posOf srt c) (aposOf c) := by
  obtain ⟨gen, gc, A, N, hres, hg, hgc, hA, hN⟩ := ext2int_result hs h
  rw [hres] at he
  obtain rfl := by simpa using he
  have hc : Corr c (intCase srt c gen gc A N) (posOf srt c) (aposOf c) := corr_of hs h hg gc A N (some (orderOf srt c))
  generalize hcd : intCase srt c gen gc A N = c' at hc hs'
  have hcg : c'.gencost = gc := by rw [← hcd]; rfl
  have hcA : c'.A = A := by rw [← hcd]; rfl
  have hcN : c'.N = N := by rw [← hcd]; rfl
  have hca : c'.areas = (areas' c).map (fun _ => arI c) := by rw [← hcd]; rfl
  -- bus
  have lbus : c''.bus.length = (posOf srt c .bus).length := by
    rw [← hc.busLen, ← List.length_map (f := (·.num)), hs'.bus, List.length_map]
  have rbus : ∀ (k i : Nat), (posOf srt c .bus)[k]? = some i → ∃ x x0, c''.bus[k]? = some x ∧ c.bus[i]? = some x0 ∧
      (i2eOf c)[x.num]? = some x0.num := by
    intro k i hk
    obtain ⟨b, hb, hb'⟩ := hc.busRow k i hk
    obtain ⟨x, hx, hxe⟩ := get?_map_eq hs'.bus hb'
    refine ⟨x, b, hx, hb, ?_⟩
    rw [hxe]
    exact i2e_of_intBus (srt := srt) ⟨i, b, hk, hb, rfl⟩
  obtain ⟨bus1, hbus1⟩ := renumber_isSome (i2eOf c) BusRow.num BusRow.setNum c''.bus (by
    intro k x hx
    obtain ⟨i, hi⟩ := pos_get lbus hx
    obtain ⟨x', x0, h1, _, h3⟩ := rbus k i hi
    obtain rfl : x = x' := by rw [hx] at h1; simpa using h1
    exact ⟨_, h3⟩)
  obtain ⟨bus2, hbus2, hbl, hbw, hbo⟩ := scatter_mask c.bus (c.bus.map busK) (by simp) bus1 (by
    rw [renumber_length hbus1, lbus]; rfl)
  -- branch
  have lbr : c''.branch.length = (posOf srt c .branch).length := by
    rw [← hc.brLen, ← List.length_map (f := (·.f)), hs'.brF, List.length_map]
  have rbr : ∀ (k i : Nat), (posOf srt c .branch)[k]? = some i → ∃ x x0, c''.branch[k]? = some x ∧ c.branch[i]? = some x0 ∧
      (i2eOf c)[x.f]? = some x0.f ∧ (i2eOf c)[x.t]? = some x0.t := by
    intro k i hk
    obtain ⟨l, f, t, hl, hl', hf, ht⟩ := hc.brRow k i hk
    obtain ⟨x, hx, hxe⟩ := get?_map_eq hs'.brF hl'
    obtain ⟨x', hx', hxe'⟩ := get?_map_eq hs'.brT hl'
    obtain rfl : x = x' := by rw [hx] at hx'; simpa using hx'
    refine ⟨x, l, hx, hl, ?_, ?_⟩
    · rw [hxe]; exact i2e_of_intBus hf
    · rw [hxe']; exact i2e_of_intBus ht
  obtain ⟨br1, hbr1⟩ := renumber_isSome (i2eOf c) BranchRow.f BranchRow.setF c''.branch (by
    intro k x hx
    obtain ⟨i, hi⟩ := pos_get lbr hx
    obtain ⟨x', x0, h1, _, h3, _⟩ := rbr k i hi
    obtain rfl : x = x' := by rw [hx] at h1; simpa using h1
    exact ⟨_, h3⟩)
  have gbr1 : ∀ (k i : Nat), (posOf srt c .branch)[k]? = some i → ∃ x x0, c''.branch[k]? = some x ∧ c.branch[i]? = some x0 ∧
      br1[k]? = some (x.setF x0.f) ∧ (i2eOf c)[x.t]? = some x0.t := by
    intro k i hk
    obtain ⟨x, x0, h1, h2, h3, h4⟩ := rbr k i hk
    refine ⟨x, x0, h1, h2, ?_, h4⟩
    rw [renumber_get hbr1 k, h1]
    simp [h3]
  have lbr1 : br1.length = (posOf srt c .branch).length := by rw [renumber_length hbr1, lbr]
  obtain ⟨br2, hbr2⟩ := renumber_isSome (i2eOf c) BranchRow.t BranchRow.setT br1 (by
    intro k x hx
    obtain ⟨i, hi⟩ := pos_get lbr1 hx
    obtain ⟨x', x0, h1, _, h3, h4⟩ := gbr1 k i hi
    obtain rfl : x = x'.setF x0.f := by rw [hx] at h3; simpa using h3
    exact ⟨_, h4⟩)
  obtain ⟨br3, hbr3, hbrl, hbrw, hbro⟩ := scatter_mask c.branch (c.branch.map (brK c.bus)) (by simp) br2 (by
    rw [renumber_length hbr2, lbr1]; rfl)
  -- gen
  have lgen : c''.gen.length = (posOf srt c .gen).length := by
    rw [← hc.genLen, ← List.length_map (f := (·.bus)), hs'.gen, List.length_map]
  have rgen : ∀ (k i : Nat), (posOf srt c .gen)[k]? = some i → ∃ x x0, c''.gen[k]? = some x ∧ c.gen[i]? = some x0 ∧
      (i2eOf c)[x.bus]? = some x0.bus := by
    intro k i hk
    obtain ⟨g, n, hg, hg', hn⟩ := hc.genRow k i hk
    obtain ⟨x, hx, hxe⟩ := get?_map_eq hs'.gen hg'
    refine ⟨x, g, hx, hg, ?_⟩
    rw [hxe]; exact i2e_of_intBus hn
  obtain ⟨g1, hg1, lg1, gg1⟩ := unsort hs c c''.gen lgen
  have hperm := hs.perm ((genU c).map (·.bus))
  have back : ∀ (j i : Nat), (find (c.gen.map (genK c.bus)))[j]? = some i →
      ∃ k : Nat, (posOf srt c .gen)[k]? = some i ∧ g1[j]? = c''.gen[k]? := by
    intro j i hj
    have hjlt : j < (genU c).length := by
      rw [genU_length]; exact (List.getElem?_eq_some_iff.1 hj).1
    have hm : j ∈ srt ((genU c).map (·.bus)) := by
      rw [hperm.mem_iff]; simpa using hjlt
    obtain ⟨k, hk⟩ := List.getElem?_of_mem hm
    refine ⟨k, ?_, gg1 k j hk⟩
    rw [gather_get (posOf_gen hs c) k, hk]; simpa using hj
  obtain ⟨g2, hg2⟩ := renumber_isSome (i2eOf c) GenRow.bus GenRow.setBus g1 (by
    intro j x hx
    obtain ⟨i, hi⟩ := pos_get lg1 hx
    obtain ⟨k, hk, hkj⟩ := back j i hi
    obtain ⟨x', x0, h1, h2, h3⟩ := rgen k i hk
    rw [hx, h1] at hkj
    obtain rfl := by simpa using hkj
    exact ⟨_, h3⟩)
  obtain ⟨g3, hg3, hgl, hgw, hgo⟩ := scatter_mask c.gen (c.gen.map (genK c.bus)) (by simp) g2 (by
    rw [renumber_length hg2, lg1])
  have pgen : PutBack (posOf srt c .gen) (fun new old => { new with bus := old.bus }) c.gen c''.gen g3 := by
    refine ⟨hgl, ?_, fun i hi => hgo i (fun hm => hi ((posOf_gen_mem hs c).mem_iff.2 hm))⟩
    intro k i hk
    obtain ⟨x, x0, h1, h2, h3⟩ := rgen k i hk
    refine ⟨x, x0, h1, h2, ?_⟩
    have hgk := gather_get (posOf_gen hs c) k
    rw [hk] at hgk
    cases hj : (srt ((genU c).map (·.bus)))[k]? with
    | none => rw [hj] at hgk; simp at hgk
    | some j =>
      rw [hj] at hgk
      simp only [Option.bind_some] at hgk
      rw [hgw j i hgk.symm, renumber_get hg2 j, gg1 k j hj, h1]
      simp [h3, GenRow.setBus]
  have pbus : PutBack (posOf srt c .bus) (fun new old => { new with num := old.num }) c.bus c''.bus bus2 := by
    refine ⟨hbl, ?_, hbo⟩
    intro k i hk
    obtain ⟨x, x0, h1, h2, h3⟩ := rbus k i hk
    refine ⟨x, x0, h1, h2, ?_⟩
    rw [hbw k i hk, renumber_get hbus1 k, h1]
    simp [h3, BusRow.setNum]
  have pbr : PutBack (posOf srt c .branch) (fun new old => { new with f := old.f, t := old.t }) c.branch c''.branch br3 := by
    refine ⟨hbrl, ?_, hbro⟩
    intro k i hk
    obtain ⟨x, x0, h1, h2, h3, h4⟩ := gbr1 k i hk
    refine ⟨x, x0, h1, h2, ?_⟩
    rw [hbrw k i hk, renumber_get hbr2 k, h3]
    simp [h4, BranchRow.setF, BranchRow.setT]
  -- areas
  have hareas : ∃ ra, restoreAreas (orderOf srt c) c''.areas = some ra ∧
      ((c.areas = none ∨ c.areas = some []) → ra = none) ∧
      (∀ as as'', c.areas = some as → c''.areas = some as'' → ∃ a, ra = some a ∧
        PutBack (aposOf c) (fun new old => { new with ref := old.ref }) as as'' a) := by
    cases hca'' : c''.areas with
    | none => exact ⟨none, rfl, fun _ => rfl, by intro as as'' _ h; simp at h⟩
    | some as'' =>
      have hsa := hs'.areas
      rw [hca''] at hsa
      cases hca' : c'.areas with
      | none => rw [hca'] at hsa; simp at hsa
      | some as' =>
        rw [hca'] at hsa
        have hsa : as''.map (·.ref) = as'.map (·.ref) := by simpa using hsa
        have hno : ¬ (c.areas = none ∨ c.areas = some []) := by
          rw [← hc.arNone, hca']; simp
        cases hcas : c.areas with
        | none => simp [hcas] at hno
        | some as =>
          have hne : as ≠ [] := by intro hh; simp [hcas, hh] at hno
          have hext : areas' c = some as := by
            unfold areas'; rw [hcas]; cases as <;> simp_all
          have lar : as''.length = (aposOf c).length := by
            rw [← hc.arLen as' hca', ← List.length_map (f := (·.ref)), hsa, List.length_map]
          have rar : ∀ (k i : Nat), (aposOf c)[k]? = some i → ∃ x x0, as''[k]? = some x ∧ as[i]? = some x0 ∧
              (i2eOf c)[x.ref]? = some x0.ref := by
            intro k i hk
            obtain ⟨a, n, ha, ha', hn⟩ := hc.arRow as as' hcas hca' k i hk
            obtain ⟨x, hx, hxe⟩ := get?_map_eq hsa ha'
            refine ⟨x, a, hx, ha, ?_⟩
            rw [hxe]; exact i2e_of_intBus hn
          obtain ⟨a1, ha1⟩ := renumber_isSome (i2eOf c) AreaRow.ref AreaRow.setRef as'' (by
            intro k x hx
            obtain ⟨i, hi⟩ := pos_get lar hx
            obtain ⟨x', x0, h1, _, h3⟩ := rar k i hi
            obtain rfl : x = x' := by rw [hx] at h1; simpa using h1
            exact ⟨_, h3⟩)
          obtain ⟨a2, ha2, hal, haw, hao⟩ := scatter_mask as (as.map (arK c.bus)) (by simp) a1 (by
            rw [renumber_length ha1, lar]; simp [aposOf, hext])
          refine ⟨some a2, ?_, fun hh => absurd (hcas ▸ hh) hno, ?_⟩
          · simp only [restoreAreas, orderOf, hext, Option.getD_some, ha1, Option.bind_eq_bind, Option.bind_some, ha2]
          · intro bs bs'' hb1 hb2
            obtain rfl := by simpa using hb1
            obtain rfl := by simpa using hb2
            refine ⟨a2, rfl, hal, ?_, ?_⟩
            · intro k i hk
              obtain ⟨x, x0, h1, h2, h3⟩ := rar k i hk
              refine ⟨x, x0, h1, h2, ?_⟩
              rw [haw k i (by simpa [aposOf, hext] using hk), renumber_get ha1 k, h1]
              simp [h3, AreaRow.setRef]
            · intro i hi
              exact hao i (by simpa [aposOf, hext] using hi)
  obtain ⟨ra, hra, hra1, hra2⟩ := hareas
  have hgcost : restore c''.gencost (orderOf srt c).extGencost = some c.gencost := by
    have h1 := hs'.gencost
    rw [hcg] at h1
    cases hcc : c.gencost with
    | none =>
      rw [hcc] at hgc
      obtain rfl : none = gc := by simpa [e2iGencost] using hgc
      cases hx : c''.gencost with
      | none => rfl
      | some x => rw [hx] at h1; simp at h1
    | some g =>
      rw [hcc] at hgc
      simp only [e2iGencost, Option.map_eq_some_iff] at hgc
      obtain ⟨a, _, rfl⟩ := hgc
      cases hx : c''.gencost with
      | none => rw [hx] at h1; simp at h1
      | some x => simp [orderOf, hcc, restore]
  have hmat : ∀ (m m' m'' : Option (UserMat P.col)), e2iMat (orderOf srt c) (isDC c) m = some m' → m''.isSome = m'.isSome →
      restore m'' m = some m := by
    intro m m' m'' hm h1
    cases m with
    | none =>
      obtain rfl : none = m' := by simpa [e2iMat] using hm
      cases m'' <;> simp [restore] at h1 ⊢
    | some g =>
      simp only [e2iMat, Option.map_eq_some_iff] at hm
      obtain ⟨a, _, rfl⟩ := hm
      cases m'' <;> simp [restore] at h1 ⊢
  have hAm := hmat c.A A c''.A hA (by rw [hs'.A, hcA])
  have hNm := hmat c.N N c''.N hN (by rw [hs'.N, hcN])
  refine ⟨{ bus := bus2, gen := g3, branch := br3, areas := ra, gencost := c.gencost, A := c.A, N := c.N,
            order := some { orderOf srt c with internal := false } }, ?_, rfl, ?_⟩
  · have e1 : renumber (orderOf srt c).busI2e BusRow.num BusRow.setNum c''.bus = some bus1 := hbus1
    have e2 : scatter (orderOf srt c).extBus (orderOf srt c).busOn bus1 = some bus2 := hbus2
    have e3 : renumber (orderOf srt c).busI2e BranchRow.f BranchRow.setF c''.branch = some br1 := hbr1
    have e4 : renumber (orderOf srt c).busI2e BranchRow.t BranchRow.setT br1 = some br2 := hbr2
    have e5 : scatter (orderOf srt c).extBranch (orderOf srt c).branchOn br2 = some br3 := hbr3
    have e6 : gather c''.gen (orderOf srt c).genI2e = some g1 := hg1
    have e7 : renumber (orderOf srt c).busI2e GenRow.bus GenRow.setBus g1 = some g2 := hg2
    have e8 : scatter (orderOf srt c).extGen (orderOf srt c).genOn g2 = some g3 := hg3
    have e9 : restore c''.A (orderOf srt c).extA = some c.A := hAm
    have e10 : restore c''.N (orderOf srt c).extN = some c.N := hNm
    simp only [toExternal, e1, e2, e3, e4, e5, e6, e7, e8, hra, hgcost, e9, e10, Option.bind_eq_bind, Option.bind_some]
  · exact ⟨pbus, pgen, pbr, hra1, hra2, rfl, rfl, rfl⟩

end Verif.Index
