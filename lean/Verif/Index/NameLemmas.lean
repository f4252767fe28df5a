import Verif.Index.NameSpec
import Verif.Index.Closed
import Verif.NumPyLemmas

/-! Lemmas for C131: conversion of a case with other bus numbers. -/

namespace Verif.Index
open Verif.NumPy
variable {P : Payload}

def renB (f : Nat → Nat) {β : Type} (b : BusRow β) : BusRow β := { b with num := f b.num }
def renG (f : Nat → Nat) {β : Type} (b : GenRow β) : GenRow β := { b with bus := f b.bus }
def renL (f : Nat → Nat) {β : Type} (b : BranchRow β) : BranchRow β := { b with f := f b.f, t := f b.t }
def renA (f : Nat → Nat) {β : Type} (b : AreaRow β) : AreaRow β := { b with ref := f b.ref }

/-- The record kept by `ext2int` for a case with other bus numbers. -/
def renO (f : Nat → Nat) (o : Order P) : Order P :=
  { o with
    extBus := o.extBus.map (renB f), extGen := o.extGen.map (renG f), extBranch := o.extBranch.map (renL f), extAreas := o.extAreas.map (List.map (renA f))
    busI2e := o.busI2e.map f, busE2i := e2iArray (o.busI2e.map f) }

theorem renumber_map {α : Type} (f : Nat → Nat) (arr : List Nat) (get : α → Nat) (set : α → Nat → α) (r : α → α) (hr : ∀ x k, set x (f k) = r (set x k)) (l : List α) :
    renumber (arr.map f) get set l = (renumber arr get set l).map (List.map r) := by
  induction l with
  | nil => rfl
  | cons x xs ih =>
    simp only [renumber, ih, List.getElem?_map]
    cases arr[get x]? <;> cases renumber arr get set xs <;> simp [hr]

/-- Both ends of a branch. -/
theorem renumber_comm {β : Type} {f : Nat → Nat} (arr : List Nat) (l : List (BranchRow β)) :
    renumber arr BranchRow.t BranchRow.setT (l.map fun l => { l with f := f l.f }) = (renumber arr BranchRow.t BranchRow.setT l).map (List.map fun l => { l with f := f l.f }) := by
  induction l with
  | nil => rfl
  | cons x xs ih =>
    simp only [renumber, List.map_cons, ih]
    cases arr[x.t]? <;> cases renumber arr BranchRow.t BranchRow.setT xs <;> simp [BranchRow.setT]

theorem scatter_map {α : Type} (r : α → α) (idx : List Nat) : ∀ xs vs : List α, scatter (xs.map r) idx (vs.map r) = (scatter xs idx vs).map (List.map r) := by
  induction idx with
  | nil => intro xs vs; cases vs <;> rfl
  | cons i is ih =>
    intro xs vs
    cases vs with
    | nil => rfl
    | cons v vs =>
      simp only [scatter, List.map_cons, List.length_map]
      split
      · rw [← List.map_set, ih]
      · rfl

theorem e2iSet_congr {α : Type} {o1 o2 : Order P} (h1 : o2.on = o1.on) (h2 : o2.genE2i = o1.genE2i) (val : List α) (s : Ordering) : e2iSet o2 val s = e2iSet o1 val s := by
  have hg : o2.genOn = o1.genOn := congrFun h1 .gen
  cases s <;> simp [e2iSet, h1, h2, hg]

theorem e2iBlocks_congr {α : Type} {o1 o2 : Order P} (h1 : o2.on = o1.on) (h2 : o2.genE2i = o1.genE2i) (h3 : o2.extLen = o1.extLen) (val : List α) (ss : List Ordering) :
    ∀ b, e2iBlocks o2 val b ss = e2iBlocks o1 val b ss := by
  induction ss with
  | nil => intro b; rfl
  | cons s ss ih => intro b; simp only [e2iBlocks, h3, ih, e2iSet_congr h1 h2]

theorem extLen_ren (f : Nat → Nat) (o : Order P) : (renO f o).extLen = o.extLen := by
  funext s; cases s <;> simp [Order.extLen, renO]

theorem on_ren (f : Nat → Nat) (o : Order P) : (renO f o).on = o.on := by
  funext s; cases s <;> rfl

section
variable {f : Nat → Nat} {c1 c2 : Case P} (h : Renamed f c1 c2) (hf : Distinct f c1)
include h hf

omit hf in
theorem Renamed.hasBus {n : Nat} (hn : HasBus c1 n) : HasBus c2 (f n) := by
  obtain ⟨b, hb, rfl⟩ := hn
  refine ⟨renB f b, ?_, rfl⟩
  rw [h.bus]
  exact List.mem_map_of_mem hb

omit hf in
theorem Renamed.lens : c2.bus.length = c1.bus.length ∧ c2.gen.length = c1.gen.length := by
  rw [h.bus, h.gen]; simp

omit hf in
theorem Renamed.isDC : isDC c2 = isDC c1 := by
  unfold Index.isDC
  rw [h.A, h.N, h.lens.1, h.lens.2]

omit hf in
theorem Renamed.minCols : minCols c2 = minCols c1 := by
  unfold Index.minCols
  rw [h.isDC, h.lens.1, h.lens.2]

theorem Renamed.wf (w : WF c1) (hi : ∀ o, c2.order = some o → o.internal = false) : WF c2 where
  busNodup := by
    rw [h.bus, List.map_map]
    have e : ((fun b : BusRow P.bus => b.num) ∘ fun b : BusRow P.bus => { b with num := f b.num }) = fun b => f b.num := rfl
    rw [e]
    have := w.busNodup
    rw [List.Nodup, List.pairwise_map] at this ⊢
    exact this.imp_of_mem fun hx hy hne e => hne (hf _ hx _ hy e)
  typValid := by
    rw [h.bus]; intro b hb
    obtain ⟨b, hb', rfl⟩ := List.mem_map.1 hb
    exact w.typValid b hb'
  someOn := by
    obtain ⟨b, hb, ht⟩ := w.someOn
    exact ⟨renB f b, by rw [h.bus]; exact List.mem_map_of_mem hb, ht⟩
  genRef := by
    rw [h.gen]; intro b hb
    obtain ⟨b, hb', rfl⟩ := List.mem_map.1 hb
    exact h.hasBus (w.genRef b hb')
  fRef := by
    rw [h.branch]; intro b hb
    obtain ⟨b, hb', rfl⟩ := List.mem_map.1 hb
    exact h.hasBus (w.fRef b hb')
  tRef := by
    rw [h.branch]; intro b hb
    obtain ⟨b, hb', rfl⟩ := List.mem_map.1 hb
    exact h.hasBus (w.tRef b hb')
  areaRef := by
    intro as has a ha
    rw [h.areas, Option.map_eq_some_iff] at has
    obtain ⟨as1, h1, rfl⟩ := has
    obtain ⟨a, ha', rfl⟩ := List.mem_map.1 ha
    exact h.hasBus (w.areaRef as1 h1 a ha')
  costRows := by
    intro gc hg
    rw [h.gencost] at hg
    have := w.costRows gc hg
    rw [h.gen]; simpa using this
  aCols := by
    intro m hm
    have e := h.minCols
    rw [h.A] at hm; rw [e]; exact w.aCols m hm
  nCols := by
    intro m hm
    have e := h.minCols
    rw [h.N] at hm; rw [e]; exact w.nCols m hm
  notInternal := hi

theorem Renamed.conn {n : Nat} (hn : HasBus c1 n) : connB c2.bus (f n) = connB c1.bus n := by
  obtain ⟨b0, hb0, rfl⟩ := hn
  rw [h.bus]
  simp only [connB, List.any_map]
  rw [Bool.eq_iff_iff, List.any_eq_true, List.any_eq_true]
  constructor
  · rintro ⟨b, hb, hc⟩
    refine ⟨b, hb, ?_⟩
    simp only [Function.comp, Bool.and_eq_true, beq_iff_eq] at hc ⊢
    exact ⟨hf b hb b0 hb0 hc.1, hc.2⟩
  · rintro ⟨b, hb, hc⟩
    refine ⟨b, hb, ?_⟩
    simp only [Function.comp, Bool.and_eq_true, beq_iff_eq] at hc ⊢
    exact ⟨by rw [hc.1], hc.2⟩

omit hf in
theorem Renamed.i2e : i2eOf c2 = (i2eOf c1).map f := by
  unfold i2eOf
  rw [h.bus, List.filter_map, List.map_map, List.map_map]
  rfl

theorem Renamed.idx {n : Nat} (hn : HasBus c1 n) : (i2eOf c2).idxOf (f n) = (i2eOf c1).idxOf n := by
  obtain ⟨b0, hb0, rfl⟩ := hn
  rw [h.i2e]
  have : ∀ m ∈ i2eOf c1, f m = f b0.num → m = b0.num := by
    intro m hm e
    obtain ⟨b, hb, rfl⟩ := List.mem_map.1 hm
    exact hf b (List.mem_filter.1 hb).1 b0 hb0 e
  revert this
  generalize i2eOf c1 = l
  intro this
  induction l with
  | nil => rfl
  | cons x xs ih =>
    have h1 := ih fun m hm => this m (List.mem_cons_of_mem _ hm)
    rw [List.map_cons, List.idxOf_cons, List.idxOf_cons, h1]
    by_cases e : x = b0.num
    · simp [e]
    · have e2 : f x ≠ f b0.num := fun e' => e (this x List.mem_cons_self e')
      rw [beq_false_of_ne e, beq_false_of_ne e2]

theorem Renamed.busI : busI c2 = busI c1 := by
  unfold Index.busI
  rw [show c2.bus = c1.bus.map (renB f) from h.bus, List.filter_map, List.map_map]
  refine List.map_congr_left fun b hb => ?_
  have : HasBus c1 b.num := ⟨b, (List.mem_filter.1 hb).1, rfl⟩
  simp only [Function.comp, renB, BusRow.setNum, h.idx hf this]

variable (w : WF c1)
include w

theorem Renamed.gs : c2.gen.map (genK c2.bus) = c1.gen.map (genK c1.bus) := by
  rw [h.gen, List.map_map]
  refine List.map_congr_left fun g hg => ?_
  simp only [Function.comp, genK, h.conn hf (w.genRef g hg)]

theorem Renamed.brs : c2.branch.map (brK c2.bus) = c1.branch.map (brK c1.bus) := by
  rw [h.branch, List.map_map]
  refine List.map_congr_left fun g hg => ?_
  simp only [Function.comp, brK, h.conn hf (w.fRef g hg), h.conn hf (w.tRef g hg)]

omit hf w in
theorem Renamed.areas' : areas' c2 = (areas' c1).map (List.map (renA f)) := by
  unfold Index.areas'
  rw [h.areas]
  cases c1.areas with
  | none => rfl
  | some as => cases as <;> rfl

omit hf w in
theorem Renamed.areasL : (Index.areas' c2).getD [] = ((Index.areas' c1).getD []).map (renA f) := by
  rw [h.areas']
  cases Index.areas' c1 <;> rfl

theorem Renamed.ars : ((Index.areas' c2).getD []).map (arK c2.bus) = ((Index.areas' c1).getD []).map (arK c1.bus) := by
  rw [h.areasL, List.map_map]
  refine List.map_congr_left fun a ha => ?_
  obtain ⟨as, h1, h2⟩ := areas'_mem ha
  simp only [Function.comp, arK, renA, h.conn hf (w.areaRef as h1 a h2)]

theorem Renamed.genU : genU c2 = genU c1 := by
  unfold Index.genU
  rw [show c2.gen = c1.gen.map (renG f) from h.gen, List.filter_map, List.map_map]
  rw [show c1.gen.filter (genK c2.bus ∘ renG f) = c1.gen.filter (genK c1.bus) from List.filter_congr fun g hg => 
    congrArg (decide (0 < g.status) && ·) (h.conn hf (w.genRef g hg))]
  refine List.map_congr_left fun b hb => ?_
  simp only [Function.comp, renG, GenRow.setBus, h.idx hf (w.genRef b (List.mem_filter.1 hb).1)]

theorem Renamed.brI : brI c2 = brI c1 := by
  unfold Index.brI
  rw [show c2.branch = c1.branch.map (renL f) from h.branch, List.filter_map, List.map_map, List.map_map, List.map_map]
  rw [show c1.branch.filter (brK c2.bus ∘ renL f) = c1.branch.filter (brK c1.bus) from List.filter_congr fun g hg => by
    show (decide (g.status % 2 = 1) && connB c2.bus (f g.f) && connB c2.bus (f g.t)) = (decide (g.status % 2 = 1) && connB c1.bus g.f && connB c1.bus g.t)
    rw [h.conn hf (w.fRef g hg), h.conn hf (w.tRef g hg)]]
  refine List.map_congr_left fun b hb => ?_
  simp only [Function.comp, renL, BranchRow.setF, BranchRow.setT, h.idx hf (w.fRef b (List.mem_filter.1 hb).1), h.idx hf (w.tRef b (List.mem_filter.1 hb).1)]

theorem Renamed.arI : arI c2 = arI c1 := by
  unfold Index.arI
  rw [h.areasL, List.filter_map, List.map_map]
  have hr : ∀ a ∈ (Index.areas' c1).getD [], HasBus c1 a.ref := fun a ha => by
    obtain ⟨as, h1, h2⟩ := areas'_mem ha
    exact w.areaRef as h1 a h2
  rw [show ((Index.areas' c1).getD []).filter (arK c2.bus ∘ renA f) = ((Index.areas' c1).getD []).filter (arK c1.bus) from List.filter_congr fun a ha => by
    simp [Function.comp, arK, renA, h.conn hf (hr a ha)]]
  refine List.map_congr_left fun b hb => ?_
  simp only [Function.comp, renA, AreaRow.setRef, h.idx hf (hr b (List.mem_filter.1 hb).1)]

theorem Renamed.order (srt : List Nat → List Nat) : orderOf srt c2 = renO f (orderOf srt c1) := by
  have hbs : c2.bus.map busK = c1.bus.map busK := by
    rw [h.bus, List.map_map]; rfl
  unfold orderOf renO
  simp only [hbs, h.gs hf w, h.brs hf w, h.ars hf w, h.genU hf w, h.i2e, h.gencost, h.A, h.N]
  rw [h.bus, h.gen, h.branch, h.areas']
  rfl

/-- The internal tables of the two cases are the same. -/
theorem Renamed.internal (hi : ∀ o, c2.order = some o → o.internal = false) {srt : List Nat → List Nat} {c' : Case P} (he : ext2int srt c1 = some c') :
    ∃ o, c'.order = some o ∧ o.internal = true ∧ ext2int srt c2 = some { c' with order := some (renO f o) } := by
  have e1 : ∀ {c : Case P}, WF c → ext2int srt c = toInternal srt c := by
    intro c w
    unfold ext2int
    cases ho : c.order with
    | none => rfl
    | some o => simp [w.notInternal o ho]
  have w2 := h.wf hf w hi
  rw [e1 w, toInternal_closed srt w] at he
  rw [e1 w2, toInternal_closed srt w2]
  simp only [Option.bind_eq_bind, Option.bind_eq_some_iff, Option.some.injEq] at he
  obtain ⟨gen, h1, gc, h2, A, h3, N, h4, rfl⟩ := he
  refine ⟨_, rfl, rfl, ?_⟩
  have hdc := h.isDC
  have hlen : c2.gen.length = c1.gen.length := by rw [h.gen]; simp
  have hbl : ∀ {α : Type} (val : List α) ss b, e2iBlocks (renO f (orderOf srt c1)) val b ss = e2iBlocks (orderOf srt c1) val b ss :=
    fun val ss b => e2iBlocks_congr (on_ren f _) rfl (extLen_ren f _) val ss b
  have hli : ∀ {α : Type} (sp : Bool) (val : List α) ss, e2iList (renO f (orderOf srt c1)) sp val ss = e2iList (orderOf srt c1) sp val ss := by
    intro α sp val ss
    simp only [e2iList, hbl]
  have g1 : e2iGencost (renO f (orderOf srt c1)) c1.gen.length c1.gencost = some gc := by
    rw [← h2]; unfold e2iGencost
    cases c1.gencost with
    | none => rfl
    | some x => simp only [hli]
  have g2 : ∀ (m : Option (UserMat P.col)) dc, e2iMat (renO f (orderOf srt c1)) dc m = e2iMat (orderOf srt c1) dc m := by
    intro m dc; unfold e2iMat
    cases m with
    | none => rfl
    | some x => simp only [hli]
  rw [h.genU hf w, h.order hf w, hdc, hlen, h.gencost, h.A, h.N, h1, g1, g2, g2, h3, h4, h.busI hf, h.brI hf w, h.arI hf w, h.areas']
  simp only [Option.bind_eq_bind, Option.bind_some, Option.map_map]
  rfl

end

/-- Back in the caller's numbering. -/
theorem int2ext_ren (f : Nat → Nat) {x r : Case P} {o : Order P} (ho : x.order = some o) (hi : o.internal = true) (hr : int2ext x = some r) :
    ∃ r2, int2ext { x with order := some (renO f o) } = some r2 ∧ Renamed f r r2 ∧ r.order = some { o with internal := false } ∧
      r2.order = some { renO f o with internal := false } := by
  unfold int2ext at hr ⊢
  rw [ho] at hr
  simp only [hi, if_true] at hr
  have hi2 : (renO f o).internal = true := hi
  simp only [hi2, if_true]
  unfold toExternal at hr ⊢
  simp only [Option.bind_eq_bind, Option.bind_eq_some_iff, Option.some.injEq] at hr
  obtain ⟨b1, hb1, b2, hb2, l1, hl1, l2, hl2, l3, hl3, g1, hg1, g2, hg2, g3, hg3, ar, har, gc, hgc, A, hA, N, hN, rfl⟩ := hr
  have eb : (renumber (o.busI2e.map f) BusRow.num BusRow.setNum x.bus) = some (b1.map (renB f)) := by
    rw [renumber_map f _ _ _ (renB f) (fun _ _ => rfl), hb1]; rfl
  have el : (renumber (o.busI2e.map f) BranchRow.f BranchRow.setF x.branch) = some (l1.map fun l => { l with f := f l.f }) := by
    rw [renumber_map f _ _ _ (fun l : BranchRow P.branch => { l with f := f l.f }) (fun _ _ => rfl), hl1]; rfl
  have el2 : (renumber (o.busI2e.map f) BranchRow.t BranchRow.setT (l1.map fun l => { l with f := f l.f })) = some (l2.map (renL f)) := by
    rw [renumber_map f _ _ _ (fun l : BranchRow P.branch => { l with t := f l.t }) (fun _ _ => rfl), renumber_comm o.busI2e l1, hl2]
    simp [renL]
  have eg : (renumber (o.busI2e.map f) GenRow.bus GenRow.setBus g1) = some (g2.map (renG f)) := by
    rw [renumber_map f _ _ _ (renG f) (fun _ _ => rfl), hg2]; rfl
  have ea : restoreAreas (renO f o) x.areas = some (ar.map (List.map (renA f))) := by
    unfold restoreAreas at har ⊢
    cases hx : x.areas with
    | none => rw [hx] at har; cases har; rfl
    | some a =>
      rw [hx] at har
      simp only [Option.bind_eq_bind, Option.bind_eq_some_iff, Option.some.injEq] at har
      obtain ⟨ext, h1, a1, h2, a2, h3, rfl⟩ := har
      have h4 : renumber (o.busI2e.map f) AreaRow.ref AreaRow.setRef a = some (a1.map (renA f)) := by
        rw [renumber_map f _ _ _ (renA f) (fun _ _ => rfl), h2]; rfl
      simp only [renO, h1, Option.map_some, Option.bind_eq_bind, Option.bind_some, h4, scatter_map, h3]
  refine ⟨Case.mk (b2.map (renB f)) (g3.map (renG f)) (l3.map (renL f)) (ar.map (List.map (renA f))) gc A N (some { renO f o with internal := false }), ?_,
    ⟨rfl, rfl, rfl, rfl, rfl, rfl, rfl⟩, rfl, rfl⟩
  have k1 : (renO f o).busI2e = o.busI2e.map f := rfl
  have k2 : scatter (renO f o).extBus (renO f o).busOn (b1.map (renB f)) = some (b2.map (renB f)) := by
    show scatter (o.extBus.map (renB f)) o.busOn _ = _
    rw [scatter_map, hb2]; rfl
  have k3 : scatter (renO f o).extBranch (renO f o).branchOn (l2.map (renL f)) = some (l3.map (renL f)) := by
    show scatter (o.extBranch.map (renL f)) o.branchOn _ = _
    rw [scatter_map, hl3]; rfl
  have k4 : scatter (renO f o).extGen (renO f o).genOn (g2.map (renG f)) = some (g3.map (renG f)) := by
    show scatter (o.extGen.map (renG f)) o.genOn _ = _
    rw [scatter_map, hg3]; rfl
  have k5 : gather x.gen (renO f o).genI2e = some g1 := hg1
  have k6 : restore x.gencost (renO f o).extGencost = some gc := hgc
  have k7 : restore x.A (renO f o).extA = some A := hA
  have k8 : restore x.N (renO f o).extN = some N := hN
  simp only [k1, eb, k2, el, el2, k3, k5, eg, k4, ea, k6, k7, k8, Option.bind_eq_bind, Option.bind_some]

end Verif.Index
