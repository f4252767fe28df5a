import Verif.Opf.StartSpec
import Verif.Opf.RunLemmas

/-! Lemmas: two cases of the same system are formulated in the same way. -/

namespace Verif.Opf

open Verif.Index (BusRow GenRow BranchRow IsArgsort WF GenInService BranchInService Connected HasBus)
open Verif.OpfModel Verif.Pips Verif.Network Verif.NumPy

theorem SameSystem.symm {c1 c2 : Index.Case Tables} (h : SameSystem c1 c2) : SameSystem c2 c1 :=
  ⟨h.bus.symm, h.gen.symm, h.branch.symm, h.gencost.symm, h.A.symm, h.N.symm⟩

/-! ### Conversion to internal numbering -/

section conv
variable {c1 c2 : Index.Case Tables} (h : SameSystem c1 c2)

theorem map_eq_len {α β : Type} {f : α → β} {xs ys : List α} (h : xs.map f = ys.map f) : xs.length = ys.length := by
  simpa using congrArg List.length h

theorem map_of_key {α β γ : Type} {f : α → β} {k : α → γ} {xs ys : List α} (h : xs.map k = ys.map k) (hf : ∀ a b, k a = k b → f a = f b) : xs.map f = ys.map f := by
  induction xs generalizing ys with
  | nil => cases ys <;> simp_all
  | cons a xs ih =>
    cases ys with
    | nil => simp at h
    | cons b ys => simp only [List.map_cons, List.cons.injEq] at h ⊢; exact ⟨hf _ _ h.1, ih h.2⟩

theorem filter_map_key {α γ : Type} {p : α → Bool} {k : α → γ} {xs ys : List α} (h : xs.map k = ys.map k) (hp : ∀ a b, k a = k b → p a = p b) :
    (xs.filter p).map k = (ys.filter p).map k := by
  induction xs generalizing ys with
  | nil => cases ys <;> simp_all
  | cons a xs ih =>
    cases ys with
    | nil => simp at h
    | cons b ys =>
      simp only [List.map_cons, List.cons.injEq] at h
      have := hp _ _ h.1
      cases hb : p b <;> simp [this, hb, h.1, ih h.2]

theorem busGiven_num {a b : BusRow BusD} (h : busGiven a = busGiven b) : a.num = b.num := by
  have := congrArg BusRow.num h
  exact this
theorem busGiven_typ {a b : BusRow BusD} (h : busGiven a = busGiven b) : a.typ = b.typ := by
  have := congrArg BusRow.typ h
  exact this
theorem genInput_bus {a b : GenRow GenD} (h : genInput a = genInput b) : a.bus = b.bus := by
  have := congrArg GenRow.bus h
  exact this
theorem genInput_status {a b : GenRow GenD} (h : genInput a = genInput b) : a.status = b.status := by
  have := congrArg GenRow.status h
  exact this
theorem branchInput_f {a b : BranchRow BrD} (h : branchInput a = branchInput b) : a.f = b.f := by
  have := congrArg BranchRow.f h
  exact this
theorem branchInput_t {a b : BranchRow BrD} (h : branchInput a = branchInput b) : a.t = b.t := by
  have := congrArg BranchRow.t h
  exact this
theorem branchInput_status {a b : BranchRow BrD} (h : branchInput a = branchInput b) : a.status = b.status := by
  have := congrArg BranchRow.status h
  exact this

include h

theorem SameSystem.nums : c1.bus.map (·.num) = c2.bus.map (·.num) := map_of_key h.bus fun _ _ => busGiven_num

theorem SameSystem.exists_bus {b : BusRow BusD} (hb : b ∈ c1.bus) : ∃ b2 ∈ c2.bus, b2.num = b.num ∧ b2.typ = b.typ := by
  have : busGiven b ∈ c2.bus.map busGiven := h.bus ▸ List.mem_map_of_mem hb
  obtain ⟨b2, h2, e⟩ := List.mem_map.1 this
  exact ⟨b2, h2, busGiven_num e, busGiven_typ e⟩

theorem SameSystem.connected (n : ℕ) : Connected c1 n ↔ Connected c2 n := by
  have key : ∀ {a b : Index.Case Tables}, SameSystem a b → Connected a n → Connected b n := by
    rintro a b h ⟨x, hx, rfl, ht⟩
    obtain ⟨y, hy, e1, e2⟩ := h.exists_bus hx
    exact ⟨y, hy, e1, e2 ▸ ht⟩
  exact ⟨key h, key h.symm⟩

theorem SameSystem.connB : Index.connB c1.bus = Index.connB c2.bus := by
  funext n
  have := h.connected n
  rw [← Index.conn_iff, ← Index.conn_iff] at this
  exact Bool.eq_iff_iff.2 this

theorem SameSystem.i2e : Index.i2eOf c1 = Index.i2eOf c2 := by
  have := filter_map_key (p := Index.busK) h.bus fun a b e => by simp only [Index.busK, busGiven_typ e]
  unfold Index.i2eOf
  exact map_of_key this fun _ _ => busGiven_num

theorem SameSystem.wf (hw : WF c1) (ha : ∀ as, c2.areas = some as → ∀ a ∈ as, HasBus c1 a.ref) (hi : ∀ o, c2.order = some o → o.internal = false) : WF c2 := by
  have has : ∀ n, HasBus c1 n → HasBus c2 n := by
    rintro n ⟨b, hb, rfl⟩
    obtain ⟨b2, h2, e, -⟩ := h.exists_bus hb
    exact ⟨b2, h2, e⟩
  have nb : c2.bus.length = c1.bus.length := map_eq_len h.bus.symm
  have ng : c2.gen.length = c1.gen.length := map_eq_len h.gen.symm
  have cols : Index.minCols c2 = Index.minCols c1 := by simp only [Index.minCols, Index.isDC, h.A, h.N, nb, ng]
  refine ⟨h.nums ▸ hw.busNodup, ?_, ?_, ?_, ?_, ?_, ?_, ?_, ?_, ?_, hi⟩
  · intro b hb
    obtain ⟨b1, h1, -, e⟩ := h.symm.exists_bus hb
    exact e ▸ hw.typValid b1 h1
  · obtain ⟨b, hb, ht⟩ := hw.someOn
    obtain ⟨b2, h2, -, e⟩ := h.exists_bus hb
    exact ⟨b2, h2, e ▸ ht⟩
  · intro g hg
    have : genInput g ∈ c1.gen.map genInput := h.gen ▸ List.mem_map_of_mem hg
    obtain ⟨g1, h1, e⟩ := List.mem_map.1 this
    exact genInput_bus e ▸ has _ (hw.genRef g1 h1)
  · intro l hl
    have : branchInput l ∈ c1.branch.map branchInput := h.branch ▸ List.mem_map_of_mem hl
    obtain ⟨l1, h1, e⟩ := List.mem_map.1 this
    exact branchInput_f e ▸ has _ (hw.fRef l1 h1)
  · intro l hl
    have : branchInput l ∈ c1.branch.map branchInput := h.branch ▸ List.mem_map_of_mem hl
    obtain ⟨l1, h1, e⟩ := List.mem_map.1 this
    exact branchInput_t e ▸ has _ (hw.tRef l1 h1)
  · intro as hA a hm
    exact has _ (ha as hA a hm)
  · intro gc hgc
    exact ng ▸ hw.costRows gc (h.gencost.trans hgc)
  · intro m hm
    exact cols ▸ hw.aCols m (h.A.trans hm)
  · intro m hm
    exact cols ▸ hw.nCols m (h.N.trans hm)

theorem SameSystem.genFilter : (c1.gen.filter (Index.genK c1.bus)).map genInput = (c2.gen.filter (Index.genK c2.bus)).map genInput := by
  have : Index.genK (γ := GenD) c1.bus = Index.genK c2.bus := by funext g; simp only [Index.genK, h.connB]
  rw [this]
  exact filter_map_key h.gen fun a b e => by simp only [Index.genK, genInput_bus e, genInput_status e]

theorem SameSystem.genU : (Index.genU c1).map genInput = (Index.genU c2).map genInput := by
  have e := h.genFilter
  have := map_of_key (f := fun g => genInput (g.setBus ((Index.i2eOf c2).idxOf g.bus))) e fun a b e' => by
    have := genInput_bus e'
    simp only [genInput, Index.GenRow.setBus, GenRow.mk.injEq] at e' ⊢
    exact ⟨by rw [this], e'.2⟩
  unfold Index.genU
  rw [h.i2e]
  simpa [List.map_map, Function.comp_def] using this

theorem SameSystem.busI : (Index.busI c1).map busGiven = (Index.busI c2).map busGiven := by
  have e := filter_map_key (p := Index.busK) h.bus fun a b e => by simp only [Index.busK, busGiven_typ e]
  have := map_of_key (f := fun g => busGiven (g.setNum ((Index.i2eOf c2).idxOf g.num))) e fun a b e' => by
    have := busGiven_num e'
    simp only [busGiven, busInput, Index.BusRow.setNum, BusRow.mk.injEq] at e' ⊢
    exact ⟨by rw [this], e'.2⟩
  unfold Index.busI
  rw [h.i2e]
  simpa [List.map_map, Function.comp_def] using this

theorem SameSystem.brI : (Index.brI c1).map branchInput = (Index.brI c2).map branchInput := by
  have hk : Index.brK (δ := BrD) c1.bus = Index.brK c2.bus := by funext g; simp only [Index.brK, h.connB]
  have e := filter_map_key (p := Index.brK c2.bus) h.branch fun a b e => by simp only [Index.brK, branchInput_f e, branchInput_t e, branchInput_status e]
  have := map_of_key (f := fun l => branchInput ((l.setF ((Index.i2eOf c2).idxOf l.f)).setT ((Index.i2eOf c2).idxOf l.t))) e fun a b e' => by
    have h1 := branchInput_f e'
    have h2 := branchInput_t e'
    simp only [branchInput, Index.BranchRow.setF, Index.BranchRow.setT, BranchRow.mk.injEq] at e' ⊢
    exact ⟨by rw [h1], by rw [h2], e'.2.2⟩
  unfold Index.brI
  rw [h.i2e, hk]
  simpa [List.map_map, Function.comp_def, Index.BranchRow.setF] using this

theorem SameSystem.genKs : c1.gen.map (Index.genK c1.bus) = c2.gen.map (Index.genK c2.bus) := by
  have : Index.genK (γ := GenD) c1.bus = Index.genK c2.bus := by funext g; simp only [Index.genK, h.connB]
  rw [this]
  exact map_of_key h.gen fun a b e => by simp only [Index.genK, genInput_bus e, genInput_status e]

theorem SameSystem.brKs : c1.branch.map (Index.brK c1.bus) = c2.branch.map (Index.brK c2.bus) := by
  have : Index.brK (δ := BrD) c1.bus = Index.brK c2.bus := by funext g; simp only [Index.brK, h.connB]
  rw [this]
  exact map_of_key h.branch fun a b e => by simp only [Index.brK, branchInput_f e, branchInput_t e, branchInput_status e]

theorem SameSystem.busKs : c1.bus.map Index.busK = c2.bus.map Index.busK := map_of_key h.bus fun a b e => by simp only [Index.busK, busGiven_typ e]

theorem SameSystem.genBuses : (Index.genU c1).map (·.bus) = (Index.genU c2).map (·.bus) := map_of_key h.genU fun _ _ => genInput_bus

theorem SameSystem.pos (srt : List ℕ → List ℕ) : Index.posOf srt c1 = Index.posOf srt c2 := by
  funext s
  cases s <;> simp only [Index.posOf, h.busKs, h.genKs, h.brKs, h.genBuses]

theorem SameSystem.e2iSet (srt : List ℕ → List ℕ) {α : Type} (val : List α) (s : Index.Ordering) :
    Index.e2iSet (Index.orderOf srt c1) val s = Index.e2iSet (Index.orderOf srt c2) val s := by
  cases s <;> simp only [Index.e2iSet, Index.Order.on, Index.orderOf, h.busKs, h.genKs, h.brKs, h.genBuses]

theorem SameSystem.extLen (srt : List ℕ → List ℕ) (s : Index.Ordering) : (Index.orderOf srt c1).extLen s = (Index.orderOf srt c2).extLen s := by
  cases s <;> simp only [Index.Order.extLen, Index.orderOf, map_eq_len h.bus, map_eq_len h.gen, map_eq_len h.branch]

theorem SameSystem.e2iBlocks (srt : List ℕ → List ℕ) {α : Type} (val : List α) (ss : List Index.Ordering) (b : ℕ) :
    Index.e2iBlocks (Index.orderOf srt c1) val b ss = Index.e2iBlocks (Index.orderOf srt c2) val b ss := by
  induction ss generalizing b with
  | nil => rfl
  | cons s ss ih => simp only [Index.e2iBlocks, h.extLen, h.e2iSet, ih]

/-- Internal versions of the same system. -/
theorem SameSystem.internal {srt : List ℕ → List ℕ} (hs : IsArgsort srt) (h1 : WF c1) (h2 : WF c2) :
    ∃ c1' c2', Index.ext2int srt c1 = some c1' ∧ Index.ext2int srt c2 = some c2' ∧ SameSystem c1' c2' := by
  obtain ⟨g1, gc1, A1, N1, e1, hg1, hc1, hA1, hN1⟩ := Index.ext2int_result hs h1
  obtain ⟨g2, gc2, A2, N2, e2, hg2, hc2, hA2, hN2⟩ := Index.ext2int_result hs h2
  have ng : c1.gen.length = c2.gen.length := map_eq_len h.gen
  have nb : c1.bus.length = c2.bus.length := map_eq_len h.bus
  have dc : Index.isDC c1 = Index.isDC c2 := by simp only [Index.isDC, h.A, h.N, nb, ng]
  refine ⟨_, _, e1, e2, h.busI, ?_, h.brI, ?_, ?_, ?_⟩
  · show g1.map genInput = g2.map genInput
    have k1 := gather_map genInput (Index.genU c1) (srt ((Index.genU c1).map (·.bus)))
    have k2 := gather_map genInput (Index.genU c2) (srt ((Index.genU c2).map (·.bus)))
    rw [hg1] at k1
    rw [hg2, ← h.genU, ← h.genBuses, k1] at k2
    exact Option.some_injective _ k2
  · show gc1 = gc2
    rw [h.gencost, ng] at hc1
    have : Index.e2iGencost (Index.orderOf srt c1) c2.gen.length c2.gencost = Index.e2iGencost (Index.orderOf srt c2) c2.gen.length c2.gencost := by
      cases c2.gencost <;> simp only [Index.e2iGencost, Index.e2iList, h.e2iBlocks]
    rw [this, hc2] at hc1
    exact (Option.some_injective _ hc1).symm
  · show A1 = A2
    rw [h.A, dc] at hA1
    have : Index.e2iMat (Index.orderOf srt c1) (Index.isDC c2) c2.A = Index.e2iMat (Index.orderOf srt c2) (Index.isDC c2) c2.A := by
      cases c2.A <;> simp only [Index.e2iMat, Index.e2iList, h.e2iBlocks]
    rw [this, hA2] at hA1
    exact (Option.some_injective _ hA1).symm
  · show N1 = N2
    rw [h.N, dc] at hN1
    have : Index.e2iMat (Index.orderOf srt c1) (Index.isDC c2) c2.N = Index.e2iMat (Index.orderOf srt c2) (Index.isDC c2) c2.N := by
      cases c2.N <;> simp only [Index.e2iMat, Index.e2iList, h.e2iBlocks]
    rw [this, hN2] at hN1
    exact (Option.some_injective _ hN1).symm

end conv

end Verif.Opf
