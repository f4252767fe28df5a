import Verif.DType.CostModel
import Verif.Opf.EconProps

/-!
# Lemmas: replacing cost rows commutes with the conversion to internal numbering and back
-/

namespace Verif.DType

open Verif.Opf Verif.Cost Verif.Pips Verif.Index Verif.NumPy

def mapOrder (f : CostRow ℝ → CostRow ℝ) (o : Order Tables) : Order Tables := { o with extGencost := o.extGencost.map (List.map f) }

theorem e2iBlocks_map (f : CostRow ℝ → CostRow ℝ) (o o' : Order Tables) (h1 : o'.genOn = o.genOn) (h2 : o'.genE2i = o.genE2i) (h3 : o'.busOn = o.busOn)
    (h4 : o'.branchOn = o.branchOn) (h5 : ∀ s, o'.extLen s = o.extLen s) (val : List (CostRow ℝ)) (b : ℕ) (ords : List Index.Ordering) :
    e2iBlocks o' (val.map f) b ords = (e2iBlocks o val b ords).map (List.map f) := by
  induction ords generalizing b with
  | nil => simp [e2iBlocks, gather_map]
  | cons s ss ih =>
    unfold e2iBlocks
    rw [gather_map, h5, ih]
    cases gather val (List.range' b (o.extLen s)) with
    | none => rfl
    | some v =>
      have : e2iSet o' (v.map f) s = (e2iSet o v s).map (List.map f) := by
        unfold e2iSet
        cases s with
        | gen =>
          dsimp only
          rw [h1, h2]
          cases gather o.genOn o.genE2i with
          | none => rfl
          | some ix => simp [gather_map]
        | bus => simp only [Order.on, h3, gather_map]
        | branch => simp only [Order.on, h4, gather_map]
      simp only [Option.map_some, this]
      cases e2iSet o v s <;> cases e2iBlocks o val (b + o.extLen s) ss <;> simp

theorem e2iGencost_map (f : CostRow ℝ → CostRow ℝ) (o : Order Tables) (n : ℕ) (g : Option (List (CostRow ℝ))) :
    e2iGencost (mapOrder f o) n (g.map (List.map f)) = (e2iGencost o n g).map (Option.map (List.map f)) := by
  cases g with
  | none => rfl
  | some gc =>
    have : e2iBlocks (mapOrder f o) (gc.map f) 0 (gencostOrdering n gc.length) = (e2iBlocks o gc 0 (gencostOrdering n gc.length)).map (List.map f) :=
      e2iBlocks_map f o (mapOrder f o) rfl rfl rfl rfl (fun s => by cases s <;> rfl) gc 0 _
    simp only [e2iGencost, e2iList, Option.map_some, List.length_map, this]
    cases e2iBlocks o gc 0 (gencostOrdering n gc.length) <;> simp

theorem e2iMat_map (f : CostRow ℝ → CostRow ℝ) (o : Order Tables) (dc : Bool) (m : Option (UserMat Tables.col)) :
    e2iMat (mapOrder f o) dc m = e2iMat o dc m := by
  have h1 : ∀ (val : List Tables.col) (s : Index.Ordering), e2iSet (mapOrder f o) val s = e2iSet o val s := by
    intro val s; cases s <;> rfl
  have h2 : ∀ s, (mapOrder f o).extLen s = o.extLen s := by intro s; cases s <;> rfl
  have : ∀ (val : List Tables.col) (b : ℕ) (ords : List Index.Ordering), e2iBlocks (mapOrder f o) val b ords = e2iBlocks o val b ords := by
    intro val b ords
    induction ords generalizing b with
    | nil => rfl
    | cons s ss ih =>
      unfold e2iBlocks
      simp only [h1, h2, ih]
  unfold e2iMat e2iList
  simp only [this]

theorem bind_step {α β γ : Type} (x : Option α) (g : β → γ) (f1 : α → Option γ) (f2 : α → Option β) (h : ∀ a, f1 a = (f2 a).map g) :
    (x >>= f1) = (x >>= f2).map g := by
  cases x with
  | none => rfl
  | some a => exact h a

theorem ite_step {β γ : Type} (p : Prop) [Decidable p] (g : β → γ) (a : Option γ) (b : Option β) (h : a = b.map g) :
    (if p then none else a) = (if p then none else b).map g := by
  split
  · rfl
  · exact h

theorem last_step (f : CostRow ℝ → CostRow ℝ) (c : Index.Case Tables) (o : Order Tables) (bus : List (BusRow Tables.bus)) (gen : List (GenRow Tables.gen))
    (branch : List (BranchRow Tables.branch)) (ar : Option (List (AreaRow Tables.area))) : (do
      let gencost ← e2iGencost (mapOrder f o) c.gen.length (c.gencost.map (List.map f))
      let A ← e2iMat (mapOrder f o) (isDC c) c.A
      let N ← e2iMat (mapOrder f o) (isDC c) c.N
      some ({ bus := bus, gen := gen, branch := branch, areas := ar, gencost := gencost, A := A, N := N,
              order := some (mapOrder f o) } : Index.Case Tables)) = (do
      let gencost ← e2iGencost o c.gen.length c.gencost
      let A ← e2iMat o (isDC c) c.A
      let N ← e2iMat o (isDC c) c.N
      some ({ bus := bus, gen := gen, branch := branch, areas := ar, gencost := gencost, A := A, N := N,
              order := some o } : Index.Case Tables)).map (mapCost f) := by
  rw [e2iGencost_map, e2iMat_map, e2iMat_map]
  cases e2iGencost o c.gen.length c.gencost <;> cases e2iMat o (isDC c) c.A <;> cases e2iMat o (isDC c) c.N <;> rfl

theorem toInternal_map (f : CostRow ℝ → CostRow ℝ) (srt : List ℕ → List ℕ) (c : Index.Case Tables) :
    toInternal srt (mapCost f c) = (toInternal srt c).map (mapCost f) := by
  unfold toInternal
  refine ite_step _ _ _ _ ?_
  refine ite_step _ _ _ _ ?_
  refine bind_step _ _ _ _ fun gs => ?_
  refine bind_step _ _ _ _ fun brs => ?_
  refine bind_step _ _ _ _ fun ars => ?_
  refine bind_step _ _ _ _ fun bus0 => ?_
  iterate 3 refine bind_step _ _ _ _ fun _ => ?_
  refine ite_step _ _ _ _ ?_
  refine bind_step _ _ _ _ fun _ => ?_
  refine bind_step _ _ _ _ fun gen0 => ?_
  iterate 4 refine bind_step _ _ _ _ fun _ => ?_
  exact last_step f c
    { internal := true, extBus := c.bus, extBranch := c.branch, extGen := c.gen, extAreas := areas' c,
      extGencost := c.gencost, extA := c.A, extN := c.N,
      busOn := find (c.bus.map busK), busOff := find ((c.bus.map busK).map not), genOn := find gs, genOff := find (gs.map not),
      branchOn := find brs, branchOff := find (brs.map not), areasOn := find ars, areasOff := find (ars.map not),
      busI2e := bus0.map (·.num), busE2i := e2iArray (bus0.map (·.num)), genE2i := srt (gen0.map (·.bus)), genI2e := srt (srt (gen0.map (·.bus))) } _ _ _ _

theorem ext2int_map (f : CostRow ℝ → CostRow ℝ) (srt : List ℕ → List ℕ) (c : Index.Case Tables) :
    ext2int srt (mapCost f c) = (ext2int srt c).map (mapCost f) := by
  unfold ext2int
  cases h : c.order with
  | none =>
    have : (mapCost f c).order = none := by simp [mapCost, h]
    rw [this]
    exact toInternal_map f srt c
  | some o =>
    have : (mapCost f c).order = some (mapOrder f o) := by simp [mapCost, h, mapOrder]
    rw [this]
    change (if o.internal = true then _ else _) = Option.map _ (if o.internal = true then _ else _)
    split
    · rfl
    · exact toInternal_map f srt c

theorem restore_map (f : CostRow ℝ → CostRow ℝ) (a b : Option (List (CostRow ℝ))) :
    restore (a.map (List.map f)) (b.map (List.map f)) = (restore a b).map (Option.map (List.map f)) := by
  cases a <;> cases b <;> rfl

theorem toExternal_map (f : CostRow ℝ → CostRow ℝ) (c : Index.Case Tables) (o : Order Tables) :
    toExternal (mapCost f c) (mapOrder f o) = (toExternal c o).map (mapCost f) := by
  unfold toExternal
  iterate 9 refine bind_step _ _ _ _ fun _ => ?_
  change (restore (c.gencost.map (List.map f)) (o.extGencost.map (List.map f)) >>= _) = _
  rw [restore_map]
  change ((restore c.gencost o.extGencost).map _ >>= fun g => restore c.A o.extA >>= fun A => restore c.N o.extN >>= fun N => _) = _
  cases restore c.gencost o.extGencost <;> cases h1 : restore c.A o.extA <;> cases h2 : restore c.N o.extN <;> rfl

theorem int2ext_map (f : CostRow ℝ → CostRow ℝ) (c : Index.Case Tables) : int2ext (mapCost f c) = (int2ext c).map (mapCost f) := by
  unfold int2ext
  cases h : c.order with
  | none =>
    have : (mapCost f c).order = none := by simp [mapCost, h]
    rw [this]
    rfl
  | some o =>
    have : (mapCost f c).order = some (mapOrder f o) := by simp [mapCost, h, mapOrder]
    rw [this]
    change (if o.internal = true then _ else _) = Option.map _ (if o.internal = true then _ else _)
    split
    · exact toExternal_map f c o
    · rfl

theorem zeroOff_map (f : CostRow ℝ → CostRow ℝ) (z : Off) (c : Index.Case Tables) : zeroOff z (mapCost f c) = mapCost f (zeroOff z c) := by
  unfold zeroOff
  cases h : c.order with
  | none => simp [mapCost, h]
  | some o => simp [mapCost, h]

/-- The tables of a result with cost rows replaced. -/
def mapRet (f : CostRow ℝ → CostRow ℝ) (r : Ret) : Ret := { r with tables := mapCost f r.tables }

/-- Running a case whose cost rows have been replaced beforehand is running the case itself with a formulation that reads the replaced rows. -/
theorem opfDc_map (f : CostRow ℝ → CostRow ℝ) (srt : List ℕ → List ℕ) (base : ℝ) (S : DcSetup) (o : Opt) (solve : AnySolver) (c : Index.Case Tables) :
    opfDc srt base S o solve (mapCost f c) = (opfDc srt base (readsAfter f S) o solve c).map (mapRet f) := by
  unfold opfDc
  rw [ext2int_map]
  cases ext2int srt c with
  | none => rfl
  | some c' =>
    change (readCase base c' >>= _) = Option.map _ (readCase base c' >>= _)
    refine bind_step _ _ _ _ fun d => ?_
    refine bind_step _ _ _ _ fun m => ?_
    refine bind_step _ _ _ _ fun s => ?_
    have key : ∀ u, (int2ext (write (mapCost f c') u) >>= fun r => some (Ret.mk s.success s.f s.tol s.dual (m.var.total + m.lin.total) (zeroOff opfOff r))) =
        (int2ext (write c' u) >>= fun r => some (Ret.mk s.success s.f s.tol s.dual (m.var.total + m.lin.total) (zeroOff opfOff r))).map (mapRet f) := by
      intro u
      change (int2ext (mapCost f (write c' u)) >>= _) = _
      rw [int2ext_map]
      cases int2ext (write c' u) with
      | none => rfl
      | some r =>
        change some _ = some _
        rw [zeroOff_map]
        rfl
    exact key _

/-- The internal case does not depend on what an external case carries in `order`. -/
theorem toInternal_order (srt : List ℕ → List ℕ) (c : Index.Case Tables) (x : Option (Order Tables)) : toInternal srt { c with order := x } = toInternal srt c := rfl

theorem ext2int_external (srt : List ℕ → List ℕ) (c : Index.Case Tables) (h : ∀ o, c.order = some o → o.internal = false) : ext2int srt c = toInternal srt c := by
  unfold ext2int
  cases h' : c.order with
  | none => rfl
  | some o => simp [h o h']

/-- Two replacements that do the same to every row of the cost table do the same to the internal case. -/
theorem mapCost_congr {f g : CostRow ℝ → CostRow ℝ} {srt : List ℕ → List ℕ} {c c' : Index.Case Tables} (h : ∀ o, c.order = some o → o.internal = false)
    (he : ext2int srt c = some c') (hfg : ∀ gc, c.gencost = some gc → ∀ r ∈ gc, f r = g r) : mapCost f c' = mapCost g c' := by
  rw [ext2int_external srt c h] at he
  have h1 := toInternal_map f srt c
  have h2 := toInternal_map g srt c
  have h3 : toInternal srt (mapCost f c) = toInternal srt (mapCost g c) := by
    have : mapCost f c = { mapCost g c with order := (mapCost f c).order } := by
      simp only [mapCost, Index.Case.mk.injEq, true_and, and_true]
      cases h : c.gencost with
      | none => rfl
      | some gc => simp only [Option.map_some, Option.some.injEq]; exact List.map_congr_left (hfg gc h)
    rw [this, toInternal_order]
  rw [h1, h2, he] at h3
  simpa using h3

/-- The run on the internal tables, the formulation reading other tables. -/
noncomputable def opfBody (base : ℝ) (S : DcSetup) (o : Opt) (solve : AnySolver) (c' c'' : Index.Case Tables) : Option Ret := do
  let d ← readCase base c'
  let m ← OpfModel.run (dcOps d ++ S.extra d c'')
  let s ← dcopfSolver d m (S.H c'' m) (S.C c'' m) (S.C0 c'' m) o solve (S.x0 c'' m)
  let r ← Index.int2ext (write c' (dcUpd s (S.post c'' m s)))
  some ⟨s.success, s.f, s.tol, s.dual, m.var.total + m.lin.total, zeroOff opfOff r⟩

theorem opfDc_congr {f g : CostRow ℝ → CostRow ℝ} {srt : List ℕ → List ℕ} (base : ℝ) (S : DcSetup) (o : Opt) (solve : AnySolver) {c : Index.Case Tables}
    (h : ∀ o, c.order = some o → o.internal = false) (hfg : ∀ gc, c.gencost = some gc → ∀ r ∈ gc, f r = g r) :
    opfDc srt base (readsAfter f S) o solve c = opfDc srt base (readsAfter g S) o solve c := by
  change (ext2int srt c >>= fun c' => opfBody base S o solve c' (mapCost f c')) = (ext2int srt c >>= fun c' => opfBody base S o solve c' (mapCost g c'))
  cases he : ext2int srt c with
  | none => rfl
  | some c' =>
    change opfBody base S o solve c' (mapCost f c') = opfBody base S o solve c' (mapCost g c')
    rw [mapCost_congr h he hfg]

end Verif.DType
