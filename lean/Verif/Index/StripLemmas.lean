import Verif.Index.StripSpec
import Verif.Index.Blocks

/-! Lemmas for C135: conversion of a case without the equipment out of service. -/

namespace Verif.Index
open Verif.NumPy
variable {P : Payload}

/-- The entries of a list at the positions of a mask, picked by a filter. -/
theorem filter_of_get {α β : Type} {xs : List α} {p : α → Bool} {r : List β} {q : β → Bool} {vs : List β} (hm : r.map q = xs.map p)
    (hon : ∀ k i : Nat, (find (xs.map p))[k]? = some i → r[i]? = vs[k]?) (hl : vs.length = (xs.filter p).length) : r.filter q = vs := by
  refine List.ext_getElem? fun k => ?_
  rw [filter_get, hm]
  cases hk : (find (xs.map p))[k]? with
  | some i => simpa using hon k i hk
  | none =>
    rw [List.getElem?_eq_none_iff, find_map_length] at hk
    rw [List.getElem?_eq_none_iff.2 (by omega)]
    rfl

theorem scatter_len {α : Type} {idx : List Nat} {xs vs r : List α} (h : scatter xs idx vs = some r) : vs.length = idx.length := by
  induction idx generalizing xs vs with
  | nil => cases vs with
    | nil => rfl
    | cons v vs => simp [scatter] at h
  | cons i is ih =>
    cases vs with
    | nil => simp [scatter] at h
    | cons v vs =>
      simp only [scatter] at h
      split at h
      · simpa using ih h
      · simp at h

/-- Assignment to all rows. -/
theorem scatter_all {α : Type} {xs vs r : List α} {p : α → Bool} (hp : ∀ x ∈ xs, p x = true) (h : scatter xs (find (xs.map p)) vs = some r) : r = vs := by
  have hf : xs.filter p = xs := List.filter_eq_self.2 hp
  have hl := scatter_len h
  obtain ⟨r', h1, h2, h3, -⟩ := scatter_mask xs (xs.map p) (by simp) vs hl
  rw [h1] at h; cases h
  have := filter_of_get (xs := xs) (p := p) (r := r) (q := fun _ => true) (vs := vs)
    (by
      refine List.ext_getElem (by simp [h2]) fun i hi1 hi2 => ?_
      simp only [List.getElem_map]
      exact (hp _ (List.getElem_mem _)).symm) h3 (by rw [hl, find_map_length])
  rw [List.filter_eq_self.2 fun _ _ => rfl] at this
  exact this

section
open Classical

variable {c s : Case P} (h : Stripped c s)
include h

theorem Stripped.bus' : s.bus = c.bus.filter busK := by
  rw [h.bus]
  refine List.filter_congr fun b _ => ?_
  rw [Bool.eq_iff_iff, busK_iff, decide_eq_true_iff]

theorem Stripped.gen' : s.gen = c.gen.filter (genK c.bus) := by
  rw [h.gen]
  refine List.filter_congr fun b _ => ?_
  rw [Bool.eq_iff_iff, genK_iff, decide_eq_true_iff]

theorem Stripped.branch' : s.branch = c.branch.filter (brK c.bus) := by
  rw [h.branch]
  refine List.filter_congr fun b _ => ?_
  rw [Bool.eq_iff_iff, brK_iff, decide_eq_true_iff]

theorem Stripped.conn (n : Nat) : connB s.bus n = connB c.bus n := by
  rw [Bool.eq_iff_iff, conn_iff, conn_iff]
  unfold Connected
  rw [h.bus]
  simp only [List.mem_filter, decide_eq_true_iff]
  exact ⟨fun ⟨b, ⟨h1, _⟩, h3⟩ => ⟨b, h1, h3⟩, fun ⟨b, h1, h3⟩ => ⟨b, ⟨h1, h3.2⟩, h3⟩⟩

theorem Stripped.genK : (Index.genK s.bus : GenRow P.gen → Bool) = Index.genK c.bus := by
  funext g; simp only [Index.genK, h.conn]

theorem Stripped.brK : (Index.brK s.bus : BranchRow P.branch → Bool) = Index.brK c.bus := by
  funext g; simp only [Index.brK, h.conn]

theorem Stripped.busF : s.bus.filter busK = c.bus.filter busK := by
  rw [h.bus', List.filter_filter]; simp

theorem Stripped.genF : s.gen.filter (Index.genK s.bus) = c.gen.filter (Index.genK c.bus) := by
  rw [h.genK, h.gen', List.filter_filter]; simp

theorem Stripped.brF : s.branch.filter (Index.brK s.bus) = c.branch.filter (Index.brK c.bus) := by
  rw [h.brK, h.branch', List.filter_filter]; simp

theorem Stripped.i2e : i2eOf s = i2eOf c := by unfold i2eOf; rw [h.busF]

theorem Stripped.busI : Index.busI s = Index.busI c := by unfold Index.busI; rw [h.busF, h.i2e]

theorem Stripped.genU : Index.genU s = Index.genU c := by unfold Index.genU; rw [h.genF, h.i2e]

theorem Stripped.brI : Index.brI s = Index.brI c := by unfold Index.brI; rw [h.brF, h.i2e]

/-- The internal tables are the same. -/
theorem Stripped.internal {srt : List Nat → List Nat} (hs : IsArgsort srt) (w : WF c) (w2 : WF s) {c' : Case P} (he : ext2int srt c = some c') :
    c'.order = some (orderOf srt c) ∧ ∃ ar gc A N, e2iGencost (orderOf srt s) s.gen.length s.gencost = some gc ∧ e2iMat (orderOf srt s) (isDC s) s.A = some A ∧
      e2iMat (orderOf srt s) (isDC s) s.N = some N ∧
      ext2int srt s = some { c' with areas := ar, gencost := gc, A := A, N := N, order := some (orderOf srt s) } := by
  obtain ⟨gen, gc, A, N, h1, h2, -⟩ := ext2int_result hs w
  obtain ⟨gen2, gc2, A2, N2, k1, k2, k3, k4, k5⟩ := ext2int_result hs w2
  rw [he] at h1
  cases h1
  rw [h.genU, h2] at k2
  cases k2
  refine ⟨rfl, (areas' s).map (fun _ => arI s), gc2, A2, N2, k3, k4, k5, ?_⟩
  rw [k1]
  unfold intCase
  rw [h.busI, h.brI]

theorem Stripped.genOff (srt : List Nat → List Nat) : (orderOf srt s).genOff = [] := by
  show find ((s.gen.map (Index.genK s.bus)).map not) = []
  refine List.eq_nil_iff_forall_not_mem.2 fun i hi => ?_
  rw [mem_find, h.genK, h.gen', List.getElem?_map, List.getElem?_map] at hi
  cases hx : (c.gen.filter (Index.genK c.bus))[i]? with
  | none => rw [hx] at hi; simp at hi
  | some g => rw [hx] at hi; simp [mem_of_filter_get hx] at hi

theorem Stripped.branchOff (srt : List Nat → List Nat) : (orderOf srt s).branchOff = [] := by
  show find ((s.branch.map (Index.brK s.bus)).map not) = []
  refine List.eq_nil_iff_forall_not_mem.2 fun i hi => ?_
  rw [mem_find, h.brK, h.branch', List.getElem?_map, List.getElem?_map] at hi
  cases hx : (c.branch.filter (Index.brK c.bus))[i]? with
  | none => rw [hx] at hi; simp at hi
  | some g => rw [hx] at hi; simp [mem_of_filter_get hx] at hi

/-- Back in the caller's numbering: row `find mask [k]` of the full table is row `k` of the table without the equipment out of service. -/
theorem Stripped.external {srt : List Nat → List Nat} {x y r rs : Case P} (hb : y.bus = x.bus) (hg : y.gen = x.gen) (hl : y.branch = x.branch)
    (hx : x.order = some (orderOf srt c)) (hy : y.order = some (orderOf srt s)) (hr : int2ext x = some r) (hrs : int2ext y = some rs) :
    (∀ k i : Nat, (find (c.bus.map busK))[k]? = some i → r.bus[i]? = rs.bus[k]?) ∧
    (∀ k i : Nat, (find (c.gen.map (Index.genK c.bus)))[k]? = some i → r.gen[i]? = rs.gen[k]?) ∧
    (∀ k i : Nat, (find (c.branch.map (Index.brK c.bus)))[k]? = some i → r.branch[i]? = rs.branch[k]?) := by
  unfold int2ext at hr hrs
  rw [hx] at hr
  rw [hy] at hrs
  have i1 : (orderOf srt c).internal = true := rfl
  have i2 : (orderOf srt s).internal = true := rfl
  simp only [i1, if_true] at hr
  simp only [i2, if_true] at hrs
  unfold toExternal at hr hrs
  simp only [Option.bind_eq_bind, Option.bind_eq_some_iff, Option.some.injEq] at hr hrs
  obtain ⟨b1, hb1, b2, hb2, l1, hl1, l2, hl2, l3, hl3, g1, hg1, g2, hg2, g3, hg3, ar, -, gc, -, A, -, N, -, rfl⟩ := hr
  obtain ⟨b1', hb1', b2', hb2', l1', hl1', l2', hl2', l3', hl3', g1', hg1', g2', hg2', g3', hg3', ar', -, gc', -, A', -, N', -, rfl⟩ := hrs
  have e1 : (orderOf srt s).busI2e = (orderOf srt c).busI2e := h.i2e
  have e2 : (orderOf srt s).genI2e = (orderOf srt c).genI2e := by
    show srt (srt ((Index.genU s).map _)) = srt (srt ((Index.genU c).map _))
    rw [h.genU]
  rw [e1, hb, hb1] at hb1'; cases hb1'
  rw [e1, hl, hl1] at hl1'; cases hl1'
  rw [e1, hl2] at hl2'; cases hl2'
  rw [e2, hg, hg1] at hg1'; cases hg1'
  rw [e1, hg2] at hg2'; cases hg2'
  have a1 : b2' = b1 := by
    refine scatter_all (p := busK) (xs := s.bus) (fun b hbm => ?_) hb2'
    rw [h.bus'] at hbm; exact (List.mem_filter.1 hbm).2
  have a2 : l3' = l2 := by
    refine scatter_all (p := Index.brK s.bus) (xs := s.branch) (fun b hbm => ?_) hl3'
    rw [h.branch'] at hbm; rw [h.brK]; exact (List.mem_filter.1 hbm).2
  have a3 : g3' = g2 := by
    refine scatter_all (p := Index.genK s.bus) (xs := s.gen) (fun b hbm => ?_) hg3'
    rw [h.gen'] at hbm; rw [h.genK]; exact (List.mem_filter.1 hbm).2
  have key : ∀ {α : Type} {xs vs r : List α} {p : α → Bool}, scatter xs (find (xs.map p)) vs = some r → ∀ k i : Nat, (find (xs.map p))[k]? = some i → r[i]? = vs[k]? := by
    intro α xs vs r p hsc
    have hl := scatter_len hsc
    obtain ⟨r', h1, -, h3, -⟩ := scatter_mask xs (xs.map p) (by simp) vs hl
    rw [h1] at hsc; cases hsc
    exact h3
  subst a1 a2 a3
  exact ⟨key (p := busK) hb2, key (p := Index.genK c.bus) hg3, key (p := Index.brK c.bus) hl3⟩

end

/-- The rows of the generators in service, by their positions. -/
theorem ofGensOn_gather (c : Case P) {α : Type} (xs : List α) (hx : xs.length = c.gen.length) :
    gather xs (find (c.gen.map (genK c.bus))) = some (ofGensOn c xs) := by
  classical
  have h1 := gather_find (c.gen.zip xs) (fun x => genK c.bus x.1)
  have h2 : (c.gen.zip xs).map (fun x => genK c.bus x.1) = c.gen.map (genK c.bus) := by
    rw [show (fun x : GenRow P.gen × α => genK c.bus x.1) = genK c.bus ∘ Prod.fst from rfl, ← List.map_map, List.map_fst_zip (by omega)]
  have h3 : (c.gen.zip xs).map Prod.snd = xs := List.map_snd_zip (by omega)
  rw [h2] at h1
  have h4 := gather_map Prod.snd (c.gen.zip xs) (find (c.gen.map (genK c.bus)))
  rw [h1, h3] at h4
  rw [h4]
  simp only [Option.map_some, ofGensOn]
  congr 2
  refine List.filter_congr fun b _ => ?_
  rw [Bool.eq_iff_iff, genK_iff, decide_eq_true_iff]

theorem find_all {α : Type} (p : α → Bool) (xs : List α) (hp : ∀ x ∈ xs, p x = true) : find (xs.map p) = List.range xs.length := by
  have h1 := gather_find xs p
  have h2 := gather_find (List.range xs.length) (fun i => match xs[i]? with | some x => p x | none => false)
  have h3 : (List.range xs.length).map (fun i => match xs[i]? with | some x => p x | none => false) = xs.map p := by
    refine List.ext_getElem (by simp) fun i h1 h2 => ?_
    have : i < xs.length := by simpa using h2
    simp [this]
  have h4 : (List.range xs.length).filter (fun i => match xs[i]? with | some x => p x | none => false) = List.range xs.length := by
    refine List.filter_eq_self.2 fun i hi => ?_
    have : i < xs.length := by simpa using hi
    simp [this, hp _ (List.getElem_mem this)]
  rw [h3, h4] at h2
  have hlt : ∀ i ∈ find (xs.map p), i < xs.length := by
    intro i hi
    rw [mem_find] at hi
    have := (List.getElem?_eq_some_iff.1 hi).1
    simpa using this
  have h5 := gather_eq_filterMap h2
  rw [h5]
  have : ∀ l : List Nat, (∀ i ∈ l, i < xs.length) → l.filterMap (fun i => (List.range xs.length)[i]?) = l := by
    intro l hl
    induction l with
    | nil => rfl
    | cons i l ih =>
      have hi := hl i (by simp)
      simp only [List.filterMap_cons, List.getElem?_range hi]
      rw [ih fun j hj => hl j (by simp [hj])]
  exact (this _ hlt).symm

theorem Stripped.gencost {c s : Case P} (h : Stripped c s) {srt : List Nat → List Nat} (hs : IsArgsort srt) (hc : SameCosts c s) :
    e2iGencost (orderOf srt s) s.gen.length s.gencost = e2iGencost (orderOf srt c) c.gen.length c.gencost := by
  have hgl : s.gen.length = (find (c.gen.map (Index.genK c.bus))).length := by rw [h.gen', find_map_length]
  have hE : (orderOf srt s).genE2i = (orderOf srt c).genE2i := by
    show srt ((Index.genU s).map _) = srt ((Index.genU c).map _)
    rw [h.genU]
  have hon : (orderOf srt s).genOn = List.range s.gen.length := by
    show find (s.gen.map (Index.genK s.bus)) = _
    refine find_all _ _ fun g hg => ?_
    rw [h.gen'] at hg; rw [h.genK]; exact (List.mem_filter.1 hg).2
  have hset : ∀ {α : Type} (xs : List α), xs.length = c.gen.length → e2iSet (orderOf srt s) (ofGensOn c xs) .gen = e2iSet (orderOf srt c) xs .gen := by
    intro α xs hx
    have h1 := ofGensOn_gather c xs hx
    have h2 := gather_length h1
    simp only [e2iSet, hE, hon]
    have h3 : gather (List.range s.gen.length) (orderOf srt c).genE2i = some (orderOf srt c).genE2i := by
      have hp := hs.perm ((Index.genU c).map (·.bus))
      have hlen : ((Index.genU c).map (·.bus)).length = s.gen.length := by rw [List.length_map, genU_length, hgl]
      rw [hlen] at hp
      have hlt : ∀ i ∈ (orderOf srt c).genE2i, i < s.gen.length := fun i hi => by simpa using hp.mem_iff.1 hi
      obtain ⟨r, hr⟩ := gather_isSome (List.range s.gen.length) (orderOf srt c).genE2i (by simpa using hlt)
      rw [hr, gather_eq_filterMap hr]
      congr 1
      have : ∀ l : List Nat, (∀ i ∈ l, i < s.gen.length) → l.filterMap (fun i => (List.range s.gen.length)[i]?) = l := by
        intro l hl
        induction l with
        | nil => rfl
        | cons i l ih =>
          have hi := hl i (by simp)
          simp only [List.filterMap_cons, List.getElem?_range hi]
          rw [ih fun j hj => hl j (by simp [hj])]
      exact this _ hlt
    rw [h3]
    simp only [Option.bind_some]
    rw [gather_gather h1]
    rfl
  have hlen : ∀ {α : Type} (xs : List α), xs.length = c.gen.length → (ofGensOn c xs).length = s.gen.length := by
    intro α xs hx
    rw [gather_length (ofGensOn_gather c xs hx), hgl]
  unfold SameCosts at hc
  cases hgc : c.gencost with
  | none =>
    rw [hgc] at hc
    simp only at hc
    rw [hc]; rfl
  | some gc =>
  rw [hgc] at hc
  simp only at hc
  have xc : (orderOf srt c).extLen .gen = c.gen.length := rfl
  have xs : (orderOf srt s).extLen .gen = s.gen.length := rfl
  have one : ∀ {α : Type} (o : Order P) (v : List α), o.extLen .gen = v.length → e2iBlocks o v 0 [.gen] = (e2iSet o v .gen).map (· ++ []) := by
    intro α o v hv
    simp only [e2iBlocks, hv]
    rw [gather_range' v 0 v.length (by omega)]
    simp only [List.drop_zero, List.take_length, Nat.zero_add, Nat.sub_self, List.range'_zero, gather]
    cases e2iSet o v .gen <;> rfl
  have two : ∀ {α : Type} (o : Order P) (v1 v2 : List α), o.extLen .gen = v1.length → o.extLen .gen = v2.length →
      e2iBlocks o (v1 ++ v2) 0 [.gen, .gen] = (e2iSet o v1 .gen).bind fun a => (e2iSet o v2 .gen).map fun b => a ++ (b ++ []) := by
    intro α o v1 v2 h1 h2
    simp only [e2iBlocks]
    rw [gather_range' (v1 ++ v2) 0 _ (by simp; omega), gather_range' (v1 ++ v2) (0 + o.extLen .gen) _ (by simp; omega)]
    simp only [List.drop_zero, Nat.zero_add]
    rw [show (v1 ++ v2).take (o.extLen .gen) = v1 by rw [h1]; simp, show ((v1 ++ v2).drop (o.extLen .gen)).take (o.extLen .gen) = v2 by
      rw [h1]; simp only [List.drop_left]; rw [← h1, h2, List.take_length]]
    rw [show (v1 ++ v2).length - (o.extLen .gen + o.extLen .gen) = 0 by simp; omega]
    simp only [List.range'_zero, gather]
    cases e2iSet o v1 .gen <;> cases e2iSet o v2 .gen <;> rfl
  rcases hc with ⟨h1, h2⟩ | ⟨h1, h2⟩
  · rw [h2]
    unfold e2iGencost e2iList gencostOrdering
    simp only [hlen gc h1, h1, Bool.false_eq_true, if_false]
    by_cases h0 : s.gen.length = 2 * s.gen.length
    · -- no generator is in service
      have hs0 : s.gen.length = 0 := by omega
      have hn : ofGensOn c gc = [] := List.eq_nil_of_length_eq_zero (by rw [hlen gc h1, hs0])
      have e := hset gc h1
      rw [hn] at e
      rw [if_pos h0, hn]
      have t := two (orderOf srt s) ([] : List P.cost) [] (by rw [xs, hs0]; rfl) (by rw [xs, hs0]; rfl)
      simp only [List.append_nil] at t
      rw [t]
      by_cases hc0 : c.gen.length = 2 * c.gen.length
      · have : gc = [] := List.eq_nil_of_length_eq_zero (by omega)
        subst this
        have t2 := two (orderOf srt c) ([] : List P.cost) [] (by rw [xc]; simpa using h1.symm) (by rw [xc]; simpa using h1.symm)
        simp only [List.append_nil] at t2
        rw [if_pos hc0, t2, e]
      · rw [if_neg hc0, one (orderOf srt c) gc (by rw [xc, h1]), ← e]
        obtain ⟨a, ha⟩ : ∃ a, e2iSet (orderOf srt s) ([] : List P.cost) .gen = some a := by
          rw [e2iSet_eq hs]
          refine gather_isSome _ _ fun i hi => ?_
          have := posOf_range hs s .gen i hi
          have : i < s.gen.length := this
          omega
        have hl : a = [] := by
          have ha' := ha
          rw [e2iSet_eq hs] at ha'
          have hal := gather_length ha'
          cases hpos : posOf srt s .gen with
          | nil => rw [hpos] at hal; exact List.eq_nil_of_length_eq_zero hal
          | cons i is =>
            have : i < s.gen.length := posOf_range hs s .gen i (by rw [hpos]; simp)
            omega
        rw [ha, hl]
        rfl
    · rw [if_neg h0, one (orderOf srt s) _ (by rw [xs, hlen gc h1]), hset gc h1]
      have hc0 : ¬ c.gen.length = 2 * c.gen.length := by
        intro hc0
        have : c.gen = [] := List.eq_nil_of_length_eq_zero (by omega)
        have : s.gen = [] := by rw [h.gen', this]; rfl
        rw [this] at h0
        simp at h0
      rw [if_neg hc0, one (orderOf srt c) gc (by rw [xc, h1])]
  · rw [h2]
    unfold e2iGencost e2iList gencostOrdering
    have l1 : (gc.take c.gen.length).length = c.gen.length := by rw [List.length_take]; omega
    have l2 : (gc.drop c.gen.length).length = c.gen.length := by rw [List.length_drop]; omega
    simp only [List.length_append, hlen _ l1, hlen _ l2, h1, Bool.false_eq_true, if_false]
    rw [if_pos (by omega), if_pos trivial, two (orderOf srt s) _ _ (by rw [xs, hlen _ l1]) (by rw [xs, hlen _ l2]), hset _ l1, hset _ l2]
    have t := two (orderOf srt c) (gc.take c.gen.length) (gc.drop c.gen.length) (by rw [xc, l1]) (by rw [xc, l2])
    rw [List.take_append_drop] at t
    rw [t]

end Verif.Index
