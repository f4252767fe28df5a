import Verif.Index.Lemmas

/-! Closed form of `toInternal` on well-formed cases. -/

namespace Verif.Index
open Verif.NumPy
variable {P : Payload}

def genK {β γ : Type} (bus : List (BusRow β)) (g : GenRow γ) : Bool := decide (0 < g.status) && connB bus g.bus
def brK {β δ : Type} (bus : List (BusRow β)) (l : BranchRow δ) : Bool :=
  decide (l.status % 2 = 1) && connB bus l.f && connB bus l.t
def arK {β ε : Type} (bus : List (BusRow β)) (a : AreaRow ε) : Bool := connB bus a.ref

def i2eOf (c : Case P) : List Nat := (c.bus.filter busK).map (·.num)

def busI (c : Case P) : List (BusRow P.bus) :=
  (c.bus.filter busK).map (fun b => b.setNum ((i2eOf c).idxOf b.num))
def genU (c : Case P) : List (GenRow P.gen) :=
  (c.gen.filter (genK c.bus)).map (fun g => g.setBus ((i2eOf c).idxOf g.bus))
def brI (c : Case P) : List (BranchRow P.branch) :=
  ((c.branch.filter (brK c.bus)).map (fun l => l.setF ((i2eOf c).idxOf l.f))).map
    (fun l => l.setT ((i2eOf c).idxOf l.t))
def arI (c : Case P) : List (AreaRow P.area) :=
  (((areas' c).getD []).filter (arK c.bus)).map (fun a => a.setRef ((i2eOf c).idxOf a.ref))

def orderOf (srt : List Nat → List Nat) (c : Case P) : Order P :=
  let bs := c.bus.map busK
  let gs := c.gen.map (genK c.bus)
  let brs := c.branch.map (brK c.bus)
  let ars := ((areas' c).getD []).map (arK c.bus)
  { internal := true, extBus := c.bus, extBranch := c.branch, extGen := c.gen, extAreas := areas' c,
    extGencost := c.gencost, extA := c.A, extN := c.N,
    busOn := find bs, busOff := find (bs.map not), genOn := find gs, genOff := find (gs.map not),
    branchOn := find brs, branchOff := find (brs.map not), areasOn := find ars, areasOff := find (ars.map not),
    busI2e := i2eOf c, busE2i := e2iArray (i2eOf c), genE2i := srt ((genU c).map (·.bus)),
    genI2e := srt (srt ((genU c).map (·.bus))) }

theorem i2e_nodup {c : Case P} (h : WF c) : (i2eOf c).Nodup :=
  (h.busNodup.sublist ((List.filter_sublist (p := busK) (l := c.bus)).map _))

theorem e2i_conn {c : Case P} (h : WF c) {n : Nat} (hn : connB c.bus n = true) :
    (e2iArray (i2eOf c))[n]? = some ((i2eOf c).idxOf n) := by
  apply e2iArray_idxOf _ (i2e_nodup h)
  obtain ⟨b, hb, rfl⟩ := mem_of_conn hn
  exact List.mem_map.2 ⟨b, hb, rfl⟩

theorem areas'_mem {c : Case P} {a : AreaRow P.area} (ha : a ∈ (areas' c).getD []) :
    ∃ as, c.areas = some as ∧ a ∈ as := by
  unfold areas' at ha
  split at ha
  · simp at ha
  · cases hc : c.areas with
    | none => rw [hc] at ha; simp at ha
    | some as => rw [hc] at ha; exact ⟨as, rfl, by simpa using ha⟩

theorem toInternal_closed (srt : List Nat → List Nat) {c : Case P} (h : WF c) :
    toInternal srt c = (do
      let gen ← gather (genU c) (srt ((genU c).map (·.bus)))
      let gencost ← e2iGencost (orderOf srt c) c.gen.length c.gencost
      let A ← e2iMat (orderOf srt c) (isDC c) c.A
      let N ← e2iMat (orderOf srt c) (isDC c) c.N
      some { bus := busI c, gen := gen, branch := brI c, areas := (areas' c).map (fun _ => arI c),
             gencost := gencost, A := A, N := N, order := some (orderOf srt c) }) := by
  have hbn : ¬ (c.bus = []) := by
    obtain ⟨b, hb, _⟩ := h.someOn
    intro he; rw [he] at hb; simp at hb
  have hgs : statuses (genStatus c.bus) c.gen = some (c.gen.map (genK c.bus)) := by
    apply statuses_eq
    intro g hg
    simp [genStatus, busStatusAt_conn c.bus h.busNodup g.bus (h.genRef g hg), genK]
  have hbrs : statuses (branchStatus c.bus) c.branch = some (c.branch.map (brK c.bus)) := by
    apply statuses_eq
    intro l hl
    simp [branchStatus, busStatusAt_conn c.bus h.busNodup l.f (h.fRef l hl),
      busStatusAt_conn c.bus h.busNodup l.t (h.tRef l hl), brK]
  have hars : statuses (areaStatus c.bus) ((areas' c).getD []) = some (((areas' c).getD []).map (arK c.bus)) := by
    apply statuses_eq
    intro a ha
    obtain ⟨as, has, hm⟩ := areas'_mem ha
    simp [areaStatus, busStatusAt_conn c.bus h.busNodup a.ref (h.areaRef as has a hm), arK]
  have hb1 : gather c.bus (find (c.bus.map busK)) = some (c.bus.filter busK) := gather_find _ _
  have hb2 : gather c.branch (find (c.branch.map (brK c.bus))) = some (c.branch.filter (brK c.bus)) := gather_find _ _
  have hb3 : gather c.gen (find (c.gen.map (genK c.bus))) = some (c.gen.filter (genK c.bus)) := gather_find _ _
  have hb4 : gather ((areas' c).getD []) (find (((areas' c).getD []).map (arK c.bus))) =
    some (((areas' c).getD []).filter (arK c.bus)) := gather_find _ _
  have hbf : ¬ (c.bus.filter busK = []) := by
    obtain ⟨b, hb, ht⟩ := h.someOn
    intro he
    have : b ∈ c.bus.filter busK := by simp [List.mem_filter, hb, busK, NONE, ht]
    rw [he] at this; simp at this
  have hr1 : renumber (e2iArray (i2eOf c)) BusRow.num BusRow.setNum (c.bus.filter busK) = some (busI c) := by
    apply renumber_eq _ _ _ (fun b : BusRow P.bus => (i2eOf c).idxOf b.num)
    intro b hb
    exact e2iArray_idxOf _ (i2e_nodup h) _ (List.mem_map.2 ⟨b, hb, rfl⟩)
  have hr2 : renumber (e2iArray (i2eOf c)) GenRow.bus GenRow.setBus (c.gen.filter (genK c.bus)) = some (genU c) := by
    apply renumber_eq _ _ _ (fun g : GenRow P.gen => (i2eOf c).idxOf g.bus)
    intro g hg
    apply e2i_conn h
    have := (List.mem_filter.1 hg).2
    simp only [genK, Bool.and_eq_true] at this
    exact this.2
  have hr3 : renumber (e2iArray (i2eOf c)) BranchRow.f BranchRow.setF (c.branch.filter (brK c.bus)) =
      some ((c.branch.filter (brK c.bus)).map (fun l => l.setF ((i2eOf c).idxOf l.f))) := by
    apply renumber_eq _ _ _ (fun l : BranchRow P.branch => (i2eOf c).idxOf l.f)
    intro l hl
    apply e2i_conn h
    have := (List.mem_filter.1 hl).2
    simp only [brK, Bool.and_eq_true] at this
    exact this.1.2
  have hr4 : renumber (e2iArray (i2eOf c)) BranchRow.t BranchRow.setT
      ((c.branch.filter (brK c.bus)).map (fun l => l.setF ((i2eOf c).idxOf l.f))) = some (brI c) := by
    apply renumber_eq _ _ _ (fun l : BranchRow P.branch => (i2eOf c).idxOf l.t)
    intro l hl
    obtain ⟨l', hl', rfl⟩ := List.mem_map.1 hl
    apply e2i_conn h
    have := (List.mem_filter.1 hl').2
    simp only [brK, Bool.and_eq_true] at this
    exact this.2
  have hr5 : renumber (e2iArray (i2eOf c)) AreaRow.ref AreaRow.setRef (((areas' c).getD []).filter (arK c.bus)) =
      some (arI c) := by
    apply renumber_eq _ _ _ (fun a : AreaRow P.area => (i2eOf c).idxOf a.ref)
    intro a ha
    exact e2i_conn h (List.mem_filter.1 ha).2
  have hv : ¬ (1 < (c.bus.filter invalidType).length) := by
    have : c.bus.filter invalidType = [] := by
      rw [List.filter_eq_nil_iff]
      intro b hb
      rcases h.typValid b hb with h | h | h | h <;> simp [invalidType, h, NONE]
    simp [this]
  have hi : (c.bus.filter busK).map (fun x => x.num) = i2eOf c := rfl
  simp only [toInternal, hbn, hv, if_false, hgs, hbrs, hars, hb1, hb2, hb3, hb4, Option.bind_eq_bind, Option.bind_some, hbf,
    hi, hr1, hr2, hr3, hr4, hr5]
  rfl

end Verif.Index
