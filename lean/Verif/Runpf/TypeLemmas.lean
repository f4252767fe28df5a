import Verif.Runpf.TypeSpec
import Verif.Runpf.LimitLemmas

/-! Lemmas for C143. -/

namespace Verif.Runpf

open Verif.Network Verif.Pfsoln Verif.Solvers
open Verif.Index (BusRow GenRow BranchRow IsArgsort WF GenInService BranchInService Connected HasBus posOf)
open Verif.Opf (Tables BusD GenD BrD Upd write zeroOff readCase bridge_exists readAs writeAs bridge_as exists_as map_eq_len map_of_key filter_map_key)
open Verif.NumPy

theorem SameTypes.any {c1 c2 : Index.Case Tables} (h : SameTypes c1 c2) : AnyTypes c1 c2 := ⟨h.bus, h.gen, h.branch⟩

theorem AnyTypes.symm {c1 c2 : Index.Case Tables} (h : AnyTypes c1 c2) : AnyTypes c2 c1 := ⟨h.bus.symm, h.gen.symm, h.branch.symm⟩

theorem anyType_num {a b : BusRow BusD} (h : anyType a = anyType b) : a.num = b.num := by
  have := congrArg BusRow.num h
  exact this
theorem anyType_typ {a b : BusRow BusD} (h : anyType a = anyType b) : (a.typ = 4) = (b.typ = 4) := by
  have : (if a.typ = 4 then (4 : ℤ) else 1) = if b.typ = 4 then 4 else 1 := congrArg BusRow.typ h
  by_cases h1 : a.typ = 4 <;> by_cases h2 : b.typ = 4 <;> simp [h1, h2] at this ⊢
theorem busK_any {a b : BusRow BusD} (h : anyType a = anyType b) : Index.busK a = Index.busK b := by
  have := anyType_typ h
  simp only [eq_iff_iff] at this
  rw [Bool.eq_iff_iff]
  simp only [Index.busK, Index.NONE, bne_iff_ne, ne_eq, this]

/-- The types of buses without generators in service are not used. -/
theorem bustypes_types {t1 t2 : List ℤ} (hl : t2.length = t1.length) (gs : List Bustypes.Gen)
    (h : ∀ (i : ℕ) x y, t1[i]? = some x → t2[i]? = some y → y = x ∨ Bustypes.gensOn gs i = 0) : Bustypes.bustypes t2 gs = Bustypes.bustypes t1 gs := by
  have key : ∀ f : ℤ → Bool → Bool, (∀ x y, f x false = f y false) →
      List.zipWith f t2 ((List.range t1.length).map fun i => Bustypes.gensOn gs i != 0) = List.zipWith f t1 ((List.range t1.length).map fun i => Bustypes.gensOn gs i != 0) := by
    intro f hf
    refine List.ext_getElem (by simp [hl]) fun i h1 h2 => ?_
    have hi : i < t1.length := by simp [hl] at h1; exact h1
    simp only [List.getElem_zipWith, List.getElem_map, List.getElem_range]
    rcases h i _ _ (List.getElem?_eq_getElem hi) (List.getElem?_eq_getElem (hl ▸ hi)) with e | e
    · rw [e]
    · have : (Bustypes.gensOn gs i != 0) = false := by simp [e]
      rw [this]
      exact hf _ _
  unfold Bustypes.bustypes
  simp only [hl]
  rw [key (fun t s => t == 3 && s) (by simp), key (fun t s => t == 2 && s) (by simp), key (fun t s => t == 1 || !s) (by simp)]

section conv
variable {c1 c2 : Index.Case Tables} (h : AnyTypes c1 c2)

include h

theorem AnyTypes.nums : c1.bus.map (·.num) = c2.bus.map (·.num) := map_of_key h.bus fun _ _ => anyType_num

theorem AnyTypes.exists_bus {b : BusRow BusD} (hb : b ∈ c1.bus) : ∃ b2 ∈ c2.bus, b2.num = b.num ∧ (b2.typ = 4) = (b.typ = 4) := by
  have : anyType b ∈ c2.bus.map anyType := h.bus ▸ List.mem_map_of_mem hb
  obtain ⟨b2, h2, e⟩ := List.mem_map.1 this
  exact ⟨b2, h2, anyType_num e, anyType_typ e⟩

theorem AnyTypes.connected (n : ℕ) : Connected c1 n ↔ Connected c2 n := by
  have key : ∀ {a b : Index.Case Tables}, AnyTypes a b → Connected a n → Connected b n := by
    rintro a b h ⟨x, hx, rfl, ht⟩
    obtain ⟨y, hy, e1, e2⟩ := h.exists_bus hx
    exact ⟨y, hy, e1, fun x => ht (e2 ▸ x)⟩
  exact ⟨key h, key h.symm⟩

theorem AnyTypes.connB : Index.connB c1.bus = Index.connB c2.bus := by
  funext n
  have := h.connected n
  rw [← Index.conn_iff, ← Index.conn_iff] at this
  exact Bool.eq_iff_iff.2 this

theorem AnyTypes.i2e : Index.i2eOf c1 = Index.i2eOf c2 := by
  have := filter_map_key (p := Index.busK) h.bus fun _ _ e => busK_any e
  unfold Index.i2eOf
  exact map_of_key this fun _ _ => anyType_num

theorem AnyTypes.genFilter : (c1.gen.filter (Index.genK c1.bus)).map noGenLimits = (c2.gen.filter (Index.genK c2.bus)).map noGenLimits := by
  have : Index.genK (γ := GenD) c1.bus = Index.genK c2.bus := by funext g; simp only [Index.genK, h.connB]
  rw [this]
  exact filter_map_key h.gen fun a b e => by simp only [Index.genK, noGenLimits_bus e, noGenLimits_status e]

theorem AnyTypes.genU : (Index.genU c1).map noGenLimits = (Index.genU c2).map noGenLimits := by
  have e := h.genFilter
  have := map_of_key (f := fun g => noGenLimits (g.setBus ((Index.i2eOf c2).idxOf g.bus))) e fun a b e' => by
    have := noGenLimits_bus e'
    simp only [noGenLimits, Index.GenRow.setBus, GenRow.mk.injEq] at e' ⊢
    exact ⟨by rw [this], e'.2⟩
  unfold Index.genU
  rw [h.i2e]
  simpa [List.map_map, Function.comp_def] using this

theorem AnyTypes.busI : (Index.busI c1).map anyType = (Index.busI c2).map anyType := by
  have e := filter_map_key (p := Index.busK) h.bus fun _ _ e => busK_any e
  have := map_of_key (f := fun g => anyType (g.setNum ((Index.i2eOf c2).idxOf g.num))) e fun a b e' => by
    have := anyType_num e'
    simp only [anyType, Index.BusRow.setNum, BusRow.mk.injEq] at e' ⊢
    exact ⟨by rw [this], e'.2⟩
  unfold Index.busI
  rw [h.i2e]
  simpa [List.map_map, Function.comp_def] using this

theorem AnyTypes.brI : (Index.brI c1).map noBranchLimits = (Index.brI c2).map noBranchLimits := by
  have hk : Index.brK (δ := BrD) c1.bus = Index.brK c2.bus := by funext g; simp only [Index.brK, h.connB]
  have e := filter_map_key (p := Index.brK c2.bus) h.branch fun a b e => by simp only [Index.brK, noBranchLimits_f e, noBranchLimits_t e, noBranchLimits_status e]
  have := map_of_key (f := fun l => noBranchLimits ((l.setF ((Index.i2eOf c2).idxOf l.f)).setT ((Index.i2eOf c2).idxOf l.t))) e fun a b e' => by
    have h1 := noBranchLimits_f e'
    have h2 := noBranchLimits_t e'
    simp only [noBranchLimits, Index.BranchRow.setF, Index.BranchRow.setT, BranchRow.mk.injEq] at e' ⊢
    exact ⟨by rw [h1], by rw [h2], e'.2.2⟩
  unfold Index.brI
  rw [h.i2e, hk]
  simpa [List.map_map, Function.comp_def, Index.BranchRow.setF] using this

theorem AnyTypes.genKs : c1.gen.map (Index.genK c1.bus) = c2.gen.map (Index.genK c2.bus) := by
  have : Index.genK (γ := GenD) c1.bus = Index.genK c2.bus := by funext g; simp only [Index.genK, h.connB]
  rw [this]
  exact map_of_key h.gen fun a b e => by simp only [Index.genK, noGenLimits_bus e, noGenLimits_status e]

theorem AnyTypes.brKs : c1.branch.map (Index.brK c1.bus) = c2.branch.map (Index.brK c2.bus) := by
  have : Index.brK (δ := BrD) c1.bus = Index.brK c2.bus := by funext g; simp only [Index.brK, h.connB]
  rw [this]
  exact map_of_key h.branch fun a b e => by simp only [Index.brK, noBranchLimits_f e, noBranchLimits_t e, noBranchLimits_status e]

theorem AnyTypes.busKs : c1.bus.map Index.busK = c2.bus.map Index.busK := map_of_key h.bus fun _ _ e => busK_any e

theorem AnyTypes.genBuses : (Index.genU c1).map (·.bus) = (Index.genU c2).map (·.bus) := map_of_key h.genU fun _ _ => noGenLimits_bus

theorem AnyTypes.pos (srt : List ℕ → List ℕ) : Index.posOf srt c1 = Index.posOf srt c2 := by
  funext s
  cases s <;> simp only [Index.posOf, h.busKs, h.genKs, h.brKs, h.genBuses]

/-- Internal versions of the same system. -/
theorem AnyTypes.internal {srt : List ℕ → List ℕ} (hs : IsArgsort srt) (h1 : WF c1) (h2 : WF c2) :
    ∃ c1' c2', Index.ext2int srt c1 = some c1' ∧ Index.ext2int srt c2 = some c2' ∧ AnyTypes c1' c2' := by
  obtain ⟨g1, gc1, A1, N1, e1, hg1, -⟩ := Index.ext2int_result hs h1
  obtain ⟨g2, gc2, A2, N2, e2, hg2, -⟩ := Index.ext2int_result hs h2
  refine ⟨_, _, e1, e2, h.busI, ?_, h.brI⟩
  show g1.map noGenLimits = g2.map noGenLimits
  have k1 := gather_map noGenLimits (Index.genU c1) (srt ((Index.genU c1).map (·.bus)))
  have k2 := gather_map noGenLimits (Index.genU c2) (srt ((Index.genU c2).map (·.bus)))
  rw [hg1] at k1
  rw [hg2, ← h.genU, ← h.genBuses, k1] at k2
  exact Option.some_injective _ k2

end conv

noncomputable section

/-- The driver reads the same from both. -/
theorem read_types {base : ℝ} {c' c2 : Index.Case Tables} (S : AnyTypes c' c2) (hb : c2.bus.length = c'.bus.length) (hg : c2.gen.length = c'.gen.length)
    (hl : c2.branch.length = c'.branch.length)
    (ht : Bustypes.bustypes (c2.bus.map (·.typ)) (c'.gen.map fun g => ⟨g.bus, g.status⟩) = Bustypes.bustypes (c'.bus.map (·.typ)) (c'.gen.map fun g => ⟨g.bus, g.status⟩)) :
    readPfAs base c2 hb hg hl = readPf base c' := by
  have b : ∀ k : Fin c'.bus.length, anyType (c2.bus[(k : ℕ)]'(k.isLt.trans_eq hb.symm)) = anyType c'.bus[k] := by
    intro k
    obtain ⟨y, h1, h2⟩ := key_at S.bus (List.getElem?_eq_getElem k.isLt)
    rw [List.getElem?_eq_getElem (k.isLt.trans_eq hb.symm)] at h1
    rw [Option.some.inj h1]
    exact h2.symm
  have g : ∀ k : Fin c'.gen.length, noGenLimits (c2.gen[(k : ℕ)]'(k.isLt.trans_eq hg.symm)) = noGenLimits c'.gen[k] := by
    intro k
    obtain ⟨y, h1, h2⟩ := key_at S.gen (List.getElem?_eq_getElem k.isLt)
    rw [List.getElem?_eq_getElem (k.isLt.trans_eq hg.symm)] at h1
    rw [Option.some.inj h1]
    exact h2.symm
  have l : ∀ k : Fin c'.branch.length, noBranchLimits (c2.branch[(k : ℕ)]'(k.isLt.trans_eq hl.symm)) = noBranchLimits c'.branch[k] := by
    intro k
    obtain ⟨y, h1, h2⟩ := key_at S.branch (List.getElem?_eq_getElem k.isLt)
    rw [List.getElem?_eq_getElem (k.isLt.trans_eq hl.symm)] at h1
    rw [Option.some.inj h1]
    exact h2.symm
  have hgs : (c2.gen.map fun g => (⟨g.bus, g.status⟩ : Bustypes.Gen)) = c'.gen.map fun g => ⟨g.bus, g.status⟩ :=
    map_of_key S.gen.symm fun _ _ e => by rw [noGenLimits_bus e, noGenLimits_status e]
  have hvi : ((∀ k : Fin c'.gen.length, (c2.gen[(k : ℕ)]'(k.isLt.trans_eq hg.symm)).bus < c'.bus.length) ∧
      (∀ k : Fin c'.branch.length, (c2.branch[(k : ℕ)]'(k.isLt.trans_eq hl.symm)).f < c'.bus.length ∧ (c2.branch[(k : ℕ)]'(k.isLt.trans_eq hl.symm)).t < c'.bus.length)) ↔
      ((∀ k : Fin c'.gen.length, c'.gen[k].bus < c'.bus.length) ∧ (∀ k : Fin c'.branch.length, c'.branch[k].f < c'.bus.length ∧ c'.branch[k].t < c'.bus.length)) := by
    refine and_congr (forall_congr' fun k => ?_) (forall_congr' fun k => ?_)
    · rw [noGenLimits_bus (g k)]
    · rw [noBranchLimits_f (l k), noBranchLimits_t (l k)]
  unfold readPfAs readAs readPf readCase
  rw [hgs]
  by_cases hv : ((∀ k : Fin c'.gen.length, c'.gen[k].bus < c'.bus.length) ∧ (∀ k : Fin c'.branch.length, c'.branch[k].f < c'.bus.length ∧ c'.branch[k].t < c'.bus.length))
  · rw [dif_pos hv, dif_pos (hvi.2 hv)]
    simp only [Option.bind_eq_bind, Option.bind_some]
    rw [ht]
    cases Bustypes.bustypes (c'.bus.map (·.typ)) (c'.gen.map fun g => ⟨g.bus, g.status⟩) with
    | none => rfl
    | some t =>
      simp only [Option.bind_some, Option.some.injEq]
      simp only [noBranchLimits, BranchRow.mk.injEq, Opf.BrD.mk.injEq] at l
      simp only [anyType, BusRow.mk.injEq, Opf.BusD.mk.injEq] at b
      simp only [noGenLimits, GenRow.mk.injEq, Opf.GenD.mk.injEq] at g
      congr 1
      · funext k; simp only [b k]
      · funext k; simp only [b k]
      · funext k; simp only [b k]
      · funext k; simp only [g k]
      · funext k; simp only [g k]
      · funext k
        have := l k
        simp only [this]
  · rw [dif_neg hv, dif_neg (fun x => hv (hvi.1 x))]
    rfl


/-- In internal numbering the types differ only at buses without generators. -/
theorem types_internal {srt : List ℕ → List ℕ} (hs : IsArgsort srt) {c c2 : Index.Case Tables} (w : WF c) (w2 : WF c2) (h : SameTypes c c2) {c' c2' : Index.Case Tables}
    (he1 : Index.ext2int srt c = some c') (he2 : Index.ext2int srt c2 = some c2') :
    Bustypes.bustypes (c2'.bus.map (·.typ)) (c'.gen.map fun g => ⟨g.bus, g.status⟩) = Bustypes.bustypes (c'.bus.map (·.typ)) (c'.gen.map fun g => ⟨g.bus, g.status⟩) := by
  obtain ⟨_, d, he', hd, hr⟩ := bridge_exists hs 0 w
  rw [he1] at he'; cases he'
  obtain ⟨_, d2, he', hd2, hr2⟩ := bridge_exists hs 0 w2
  rw [he2] at he'; cases he'
  obtain ⟨r, hr⟩ := hr ⟨fun _ b => b, fun _ g => g, fun _ l => l⟩
  obtain ⟨r2, hr2⟩ := hr2 ⟨fun _ b => b, fun _ g => g, fun _ l => l⟩
  obtain ⟨bp, gp, lp, B, -, hbus, hgen, -, -, hpos, -⟩ := Opf.bridge_at hs w he1 hd _ hr pfOff
  obtain ⟨bp2, gp2, lp2, B2, -, hbus2, -, -, -, hpos2, -⟩ := Opf.bridge_at hs w2 he2 hd2 _ hr2 pfOff
  obtain ⟨_, _, e1, e2, S'⟩ := h.any.internal hs w w2
  rw [he1] at e1; cases e1
  rw [he2] at e2; cases e2
  have hlen : c2'.bus.length = c'.bus.length := (map_eq_len S'.bus).symm
  refine bustypes_types (by simp [hlen]) _ fun i x y hx hy => ?_
  rw [List.getElem?_map] at hx hy
  obtain ⟨b1', hb1', rfl⟩ := Option.map_eq_some_iff.1 hx
  obtain ⟨b2', hb2', rfl⟩ := Option.map_eq_some_iff.1 hy
  obtain ⟨hi, rfl⟩ := List.getElem?_eq_some_iff.1 hb1'
  obtain ⟨hi2, rfl⟩ := List.getElem?_eq_some_iff.1 hb2'
  obtain ⟨b1, x1, x2, -⟩ := hbus ⟨i, hi⟩
  obtain ⟨b2, y1, y2, -⟩ := hbus2 ⟨i, hi2⟩
  have e : bp2 ⟨i, hi2⟩ = bp ⟨i, hi⟩ := Option.some.inj ((hpos2 ⟨i, hi2⟩).symm.trans (by rw [← h.any.pos]; exact hpos ⟨i, hi⟩))
  rw [e] at y1
  rcases h.typ _ b1 b2 x1 y1 with ht | ht
  · exact Or.inl (y2.trans (ht.trans x2.symm))
  · right
    unfold Bustypes.gensOn
    rw [List.length_eq_zero_iff, List.filter_eq_nil_iff]
    intro g hg hgi
    obtain ⟨g', hg', rfl⟩ := List.mem_map.1 hg
    obtain ⟨j, hj, rfl⟩ := List.mem_iff_getElem.1 hg'
    obtain ⟨g0, z1, -, -, z2⟩ := hgen ⟨j, hj⟩
    obtain ⟨g1, v1, v2, -, ⟨b, v3, v4⟩, -⟩ := B.gen ⟨j, hj⟩
    simp only [Bool.and_eq_true, beq_iff_eq, decide_eq_true_eq] at hgi
    have hk : (d.gen ⟨j, hj⟩).bus = ⟨i, hi⟩ := Fin.ext (z2.symm.trans hgi.1)
    rw [hk, x1] at v3
    cases v3
    exact ht ⟨g1, List.mem_of_getElem? v1, v2, v4.symm⟩

section
variable {srt : List ℕ → List ℕ} (hs : IsArgsort srt) {base : ℝ} {c c2 : Index.Case Tables} (w : WF c) (w2 : WF c2) (S : AnyTypes c c2) {nb ng nl : ℕ}
  {c' c2' : Index.Case Tables} (he1 : Index.ext2int srt c = some c') (he2 : Index.ext2int srt c2 = some c2')
  {h1b : c'.bus.length = nb} {h1g : c'.gen.length = ng} {h1l : c'.branch.length = nl} {h2b : c2'.bus.length = nb} {h2g : c2'.gen.length = ng} {h2l : c2'.branch.length = nl}
  {d d2 : Opf.Case nb ng nl} (hd : readAs base c' h1b h1g h1l = some d) (hd2 : readAs base c2' h2b h2g h2l = some d2)
include hs w w2 S he1 he2 hd hd2

/-- The same results put back in two cases are the same rows, but for what a power flow does not use. -/
theorem same_type_results (u : Upd nb ng nl)
    (hub : ∀ k b1 b2, anyType b1 = anyType b2 → anyType { b2 with data := u.bus k b2.data } = anyType { b1 with data := u.bus k b1.data })
    (hug : ∀ k b1 b2, noGenLimits b1 = noGenLimits b2 → noGenLimits { b2 with data := u.gen k b2.data } = noGenLimits { b1 with data := u.gen k b1.data })
    (hul : ∀ k b1 b2, noBranchLimits b1 = noBranchLimits b2 → noBranchLimits { b2 with data := u.branch k b2.data } = noBranchLimits { b1 with data := u.branch k b1.data })
    {r1 r2 : Index.Case Tables} (hr1 : Index.int2ext (writeAs c' h1b h1g h1l u) = some r1) (hr2 : Index.int2ext (writeAs c2' h2b h2g h2l u) = some r2) :
    AnyTypes (zeroOff pfOff r1) (zeroOff pfOff r2) := by
  obtain ⟨bp1, gp1, lp1, B1, -, pb1, pg1, pl1⟩ := bridge_as hs w he1 hd u hr1 pfOff
  obtain ⟨bp2, gp2, lp2, B2, -, pb2, pg2, pl2⟩ := bridge_as hs w2 he2 hd2 u hr2 pfOff
  have ebp : ∀ i, bp2 i = bp1 i := fun i => Option.some.inj ((pb2 i).symm.trans (by rw [← S.pos]; exact pb1 i))
  have egp : ∀ i, gp2 i = gp1 i := fun i => Option.some.inj ((pg2 i).symm.trans (by rw [← S.pos]; exact pg1 i))
  have elp : ∀ i, lp2 i = lp1 i := fun i => Option.some.inj ((pl2 i).symm.trans (by rw [← S.pos]; exact pl1 i))
  have nb' : c.bus.length = c2.bus.length := map_eq_len S.bus
  have ng' : c.gen.length = c2.gen.length := map_eq_len S.gen
  have nl' : c.branch.length = c2.branch.length := map_eq_len S.branch
  suffices AnyTypes (zeroOff pfOff r2) (zeroOff pfOff r1) from ⟨this.bus.symm, this.gen.symm, this.branch.symm⟩
  refine ⟨?_, ?_, ?_⟩
  · refine List.ext_getElem? fun i => ?_
    rw [List.getElem?_map, List.getElem?_map]
    cases hx : c.bus[i]? with
    | none =>
      rw [List.getElem?_eq_none_iff] at hx
      rw [List.getElem?_eq_none_iff.2 (by rw [B2.busLen, ← nb']; exact hx), List.getElem?_eq_none_iff.2 (by rw [B1.busLen]; exact hx)]
    | some b =>
      obtain ⟨b2, hx2, hk⟩ := key_at S.bus hx
      have htyp := anyType_typ hk
      by_cases ht : b.typ = 4
      · rw [B1.busOff i b hx ht, B2.busOff i b2 hx2 (htyp ▸ ht), Option.map_some, Option.map_some, hk]
      · obtain ⟨j, rfl⟩ := B1.busOn i b hx ht
        obtain ⟨b', e1, -, e2, -⟩ := B1.bus j
        rw [hx] at e1; cases e1
        obtain ⟨b', e3, -, e4, -⟩ := B2.bus j
        rw [ebp, hx2] at e3; cases e3
        rw [ebp] at e4
        rw [e2, e4, Option.map_some, Option.map_some, hub j b b2 hk]
  · refine List.ext_getElem? fun i => ?_
    rw [List.getElem?_map, List.getElem?_map]
    cases hx : c.gen[i]? with
    | none =>
      rw [List.getElem?_eq_none_iff] at hx
      rw [List.getElem?_eq_none_iff.2 (by rw [B2.genLen, ← ng']; exact hx), List.getElem?_eq_none_iff.2 (by rw [B1.genLen]; exact hx)]
    | some g =>
      obtain ⟨g2, hx2, hk⟩ := key_at S.gen hx
      have hin2 : GenInService c2 g2 ↔ GenInService c g := by
        unfold GenInService
        rw [← S.connected, noGenLimits_bus hk, noGenLimits_status hk]
      by_cases hin : GenInService c g
      · obtain ⟨j, rfl⟩ := B1.genOn i g hx hin
        obtain ⟨b', e1, -, e2, -⟩ := B1.gen j
        rw [hx] at e1; cases e1
        obtain ⟨b', e3, -, e4, -⟩ := B2.gen j
        rw [egp, hx2] at e3; cases e3
        rw [egp] at e4
        rw [e2, e4, Option.map_some, Option.map_some, hug j g g2 hk]
      · rw [B1.genOff i g hx hin, B2.genOff i g2 hx2 (hin2.not.2 hin), Option.map_some, Option.map_some]
        exact congrArg (fun x : GenRow GenD => some ({ x with data := { x.data with PG := 0, QG := 0 } } : GenRow GenD)) hk.symm
  · refine List.ext_getElem? fun i => ?_
    rw [List.getElem?_map, List.getElem?_map]
    cases hx : c.branch[i]? with
    | none =>
      rw [List.getElem?_eq_none_iff] at hx
      rw [List.getElem?_eq_none_iff.2 (by rw [B2.brLen, ← nl']; exact hx), List.getElem?_eq_none_iff.2 (by rw [B1.brLen]; exact hx)]
    | some l =>
      obtain ⟨l2, hx2, hk⟩ := key_at S.branch hx
      have hin2 : BranchInService c2 l2 ↔ BranchInService c l := by
        unfold BranchInService
        rw [← S.connected, ← S.connected, noBranchLimits_f hk, noBranchLimits_t hk, noBranchLimits_status hk]
      by_cases hin : BranchInService c l
      · obtain ⟨j, rfl⟩ := B1.brOn i l hx hin
        obtain ⟨b', e1, -, e2, -⟩ := B1.branch j
        rw [hx] at e1; cases e1
        obtain ⟨b', e3, -, e4, -⟩ := B2.branch j
        rw [elp, hx2] at e3; cases e3
        rw [elp] at e4
        rw [e2, e4, Option.map_some, Option.map_some, hul j l l2 hk]
      · rw [B1.brOff i l hx hin, B2.brOff i l2 hx2 (hin2.not.2 hin), Option.map_some, Option.map_some]
        exact congrArg (fun x : BranchRow BrD => some ({ x with data := { x.data with PF := 0, QF := 0, PT := 0, QT := 0 } } : BranchRow BrD)) hk.symm

end

end

end Verif.Runpf
