import Verif.Runpf.AgainCore
import Verif.Runpf.AgainLemmas

/-! Lemmas: the tables of a run, converted to internal numbering again, are the internal tables with the results. -/

namespace Verif.Runpf

open Verif.Opf (Tables readCase Upd write Off zeroOff Bridge BusD GenD BrD readAs writeAs getElem_key bridge_as exists_as map_eq_len)
open Verif.Index (BusRow GenRow BranchRow IsArgsort WF GenInService BranchInService Connected HasBus)
open Verif.Network Verif.Solvers Verif.Pfsoln

noncomputable section

theorem readAs_exists {nb ng nl : ℕ} {base : ℝ} {c : Index.Case Tables} (h : ∃ d, readCase base c = some d) (hb : c.bus.length = nb) (hg : c.gen.length = ng)
    (hl : c.branch.length = nl) : ∃ d, readAs base c hb hg hl = some d := by
  subst hb hg hl
  exact h

/-- Lists of the same length whose entries agree. -/
theorem list_rows {α : Type} {xs ys : List α} (hl : xs.length = ys.length) (h : ∀ (i : ℕ) x, xs[i]? = some x → ys[i]? = some x) : xs = ys := by
  apply List.ext_getElem hl
  intro i h1 h2
  have := h i _ (List.getElem?_eq_getElem h1)
  rw [List.getElem?_eq_getElem h2] at this
  exact (Option.some_injective _ this).symm

section tables
variable {srt : List ℕ → List ℕ} (hs : IsArgsort srt) {c : Index.Case Tables} (h : WF c) {c' r : Index.Case Tables} (he : Index.ext2int srt c = some c')
  {u : Upd c'.bus.length c'.gen.length c'.branch.length} (hr : Index.int2ext (write c' u) = some r)
  (hub : ∀ k b, pfBusInput { b with data := u.bus k b.data } = pfBusInput b) (hug : ∀ k g, pfGenInput { g with data := u.gen k g.data } = pfGenInput g)
  (hul : ∀ k l, pfBranchInput { l with data := u.branch k l.data } = pfBranchInput l)

include hs h he hr

theorem again_rest : (zeroOff pfOff r).gencost = c.gencost ∧ (zeroOff pfOff r).A = c.A ∧ (zeroOff pfOff r).N = c.N ∧
    (∀ o, (zeroOff pfOff r).order = some o → o.internal = false) ∧ (∀ as, (zeroOff pfOff r).areas = some as → ∀ a ∈ as, HasBus c a.ref) := by
  obtain ⟨c1, he1, hc, -, hres⟩ := Index.results_posOf hs h
  rw [he] at he1; cases he1
  obtain ⟨r1, hr1, hR⟩ := hres _ (Opf.write_solved c' u)
  rw [hr] at hr1; cases hr1
  obtain ⟨c3, o3, pos3, apos3, he3, ho3, hi3, -⟩ := Index.ext2int_corr hs h
  rw [he] at he3; cases he3
  have hord : r.order = some { o3 with internal := false } := Opf.int2ext_order (c := write c' u) ho3 hi3 hr
  refine ⟨?_, ?_, ?_, ?_, ?_⟩
  · simpa [zeroOff, hord] using hR.gencost
  · simpa [zeroOff, hord] using hR.A
  · simpa [zeroOff, hord] using hR.N
  · intro o ho
    simp only [zeroOff, hord, Option.some.injEq] at ho
    rw [← ho]
  · intro as ha a ham
    have ha : r.areas = some as := by simpa [zeroOff, hord] using ha
    cases hca : c.areas with
    | none => rw [hR.areasNone (Or.inl hca)] at ha; simp at ha
    | some as0 =>
      cases hca' : c'.areas with
      | none =>
        rw [hR.areasNone (hc.arNone.1 hca')] at ha
        simp at ha
      | some as1 =>
        obtain ⟨ra, h1, h2, h3, h4⟩ := hR.areas as0 as1 hca hca'
        rw [ha] at h1; cases h1
        obtain ⟨i, hi⟩ := List.getElem?_of_mem ham
        by_cases hip : i ∈ Index.aposOf c
        · obtain ⟨k, hk⟩ := List.getElem?_of_mem hip
          obtain ⟨new, old, -, h5, h6⟩ := h3 k i hk
          rw [hi] at h6
          have : a.ref = old.ref := by rw [Option.some_injective _ h6]
          rw [this]
          exact h.areaRef as0 hca old (List.mem_of_getElem? h5)
        · rw [h4 i hip] at hi
          exact h.areaRef as0 hca a (List.mem_of_getElem? hi)

include hub hug hul

theorem again_same : SameData c (zeroOff pfOff r) := by
  obtain ⟨c2, d, he2, hd, -⟩ := Opf.bridge_exists hs 0 h
  rw [he] at he2; cases he2
  obtain ⟨bp, gp, lp, B, -⟩ := Opf.bridge_at hs h he hd u hr pfOff
  obtain ⟨k1, k2, k3, -⟩ := B.kept (fb := pfBusInput) (fg := pfGenInput) (fl := pfBranchInput) hub hug hul (fun _ => ⟨rfl, rfl, rfl⟩) (fun _ => ⟨rfl, rfl, rfl, rfl, rfl⟩)
  obtain ⟨r1, r2, r3, -⟩ := again_rest hs h he hr
  exact ⟨k1.symm, k2.symm, k3.symm, r1.symm, r2.symm, r3.symm⟩

theorem again_wf : WF (zeroOff pfOff r) := by
  obtain ⟨-, -, -, r4, r5⟩ := again_rest hs h he hr
  exact (again_same hs h he hr hub hug hul).wf h r5 r4

/-- The internal version of the tables returned. -/
theorem again_internal : ∃ c2, Index.ext2int srt (zeroOff pfOff r) = some c2 ∧ c2.bus = (write c' u).bus ∧ c2.gen = (write c' u).gen ∧ c2.branch = (write c' u).branch := by
  have S := again_same hs h he hr hub hug hul
  have w := again_wf hs h he hr hub hug hul
  obtain ⟨c1, c2, he1, he2, S2⟩ := S.internal hs h w
  rw [he] at he1; cases he1
  obtain ⟨c3, d, he3, hd, -⟩ := Opf.bridge_exists hs 0 h
  rw [he] at he3; cases he3
  obtain ⟨bp, gp, lp, B, -, b1, g1, l1, -, pb1, pg1, pl1⟩ := Opf.bridge_at hs h he hd u hr pfOff
  obtain ⟨c4, d2, he4, hd2, hw⟩ := Opf.bridge_exists hs 0 w
  rw [he2] at he4; cases he4
  obtain ⟨r2, hr2⟩ := hw ⟨fun _ b => b, fun _ g => g, fun _ l => l⟩
  obtain ⟨bp2, gp2, lp2, B2, -, b2, g2, l2, -, pb2, pg2, pl2⟩ := Opf.bridge_at hs w he2 hd2 _ hr2 pfOff
  have nb := map_eq_len S2.bus
  have ng := map_eq_len S2.gen
  have nl := map_eq_len S2.branch
  refine ⟨c2, he2, ?_, ?_, ?_⟩
  · apply List.ext_getElem (by simp [write, nb])
    intro k k1 k2
    have hk : k < c'.bus.length := nb ▸ k1
    have e1 : bp2 ⟨k, k1⟩ = bp ⟨k, hk⟩ := Option.some_injective _ ((pb2 ⟨k, k1⟩).symm.trans (by rw [← S.pos]; exact pb1 ⟨k, hk⟩))
    obtain ⟨x, h1, -, h2⟩ := b2 ⟨k, k1⟩
    obtain ⟨y, h3, h4, h5⟩ := b1 ⟨k, hk⟩
    obtain ⟨y', h6, -, h7, -⟩ := B.bus ⟨k, hk⟩
    rw [h3] at h6; cases h6
    rw [e1, h7] at h1; cases h1
    have e2 := getElem_key S2.bus hk k1
    have e3 := pfBusInput_num e2
    have e4 := pfBusInput_typ e2
    have h2' : c2.bus[k].data = u.bus ⟨k, hk⟩ y.data := h2
    have h5' : c'.bus[k].data = y.data := h5
    have : (write c' u).bus[k] = { c'.bus[k] with data := u.bus ⟨k, hk⟩ c'.bus[k].data } := by simp [write]
    rw [this, h5', ← h2']
    show c2.bus[k] = BusRow.mk c'.bus[k].num c'.bus[k].typ c2.bus[k].data
    rw [e3, e4]
  · apply List.ext_getElem (by simp [write, ng])
    intro k k1 k2
    have hk : k < c'.gen.length := ng ▸ k1
    have e1 : gp2 ⟨k, k1⟩ = gp ⟨k, hk⟩ := Option.some_injective _ ((pg2 ⟨k, k1⟩).symm.trans (by rw [← S.pos]; exact pg1 ⟨k, hk⟩))
    obtain ⟨x, h1, -, h2, -⟩ := g2 ⟨k, k1⟩
    obtain ⟨y, h3, h4, h5, -⟩ := g1 ⟨k, hk⟩
    obtain ⟨y', h6, -, h7, -⟩ := B.gen ⟨k, hk⟩
    rw [h3] at h6; cases h6
    rw [e1, h7] at h1; cases h1
    have e2 := getElem_key S2.gen hk k1
    have e3 := pfGenInput_bus e2
    have e4 := pfGenInput_status e2
    have h2' : c2.gen[k].data = u.gen ⟨k, hk⟩ y.data := h2
    have h5' : c'.gen[k].data = y.data := h5
    have : (write c' u).gen[k] = { c'.gen[k] with data := u.gen ⟨k, hk⟩ c'.gen[k].data } := by simp [write]
    rw [this, h5', ← h2']
    show c2.gen[k] = GenRow.mk c'.gen[k].bus c'.gen[k].status c2.gen[k].data
    rw [e3, e4]
  · apply List.ext_getElem (by simp [write, nl])
    intro k k1 k2
    have hk : k < c'.branch.length := nl ▸ k1
    have e1 : lp2 ⟨k, k1⟩ = lp ⟨k, hk⟩ := Option.some_injective _ ((pl2 ⟨k, k1⟩).symm.trans (by rw [← S.pos]; exact pl1 ⟨k, hk⟩))
    obtain ⟨x, h1, h2, -⟩ := l2 ⟨k, k1⟩
    obtain ⟨y, h3, h5, -⟩ := l1 ⟨k, hk⟩
    obtain ⟨y', h6, -, h7, -⟩ := B.branch ⟨k, hk⟩
    rw [h3] at h6; cases h6
    rw [e1, h7] at h1; cases h1
    have e2 := getElem_key S2.branch hk k1
    have e3 := pfBranchInput_f e2
    have e4 := pfBranchInput_t e2
    have e5 := pfBranchInput_status e2
    have h2' : c2.branch[k].data = u.branch ⟨k, hk⟩ y.data := h2
    have h5' : c'.branch[k].data = y.data := h5
    have : (write c' u).branch[k] = { c'.branch[k] with data := u.branch ⟨k, hk⟩ c'.branch[k].data } := by simp [write]
    rw [this, h5', ← h2']
    show c2.branch[k] = BranchRow.mk c'.branch[k].f c'.branch[k].t c'.branch[k].status c2.branch[k].data
    rw [e3, e4, e5]

/-- The same results written again give the same tables. -/
theorem again_results {c2 : Index.Case Tables} (he2 : Index.ext2int srt (zeroOff pfOff r) = some c2) {hb : c2.bus.length = c'.bus.length} {hg : c2.gen.length = c'.gen.length}
    {hl : c2.branch.length = c'.branch.length} (hib : ∀ k b, u.bus k (u.bus k b) = u.bus k b) (hig : ∀ k g, u.gen k (u.gen k g) = u.gen k g)
    (hil : ∀ k l, u.branch k (u.branch k l) = u.branch k l) :
    ∃ r2, Index.int2ext (writeAs c2 hb hg hl u) = some r2 ∧ (zeroOff pfOff r2).bus = (zeroOff pfOff r).bus ∧ (zeroOff pfOff r2).gen = (zeroOff pfOff r).gen ∧
      (zeroOff pfOff r2).branch = (zeroOff pfOff r).branch := by
  have S := again_same hs h he hr hub hug hul
  have w := again_wf hs h he hr hub hug hul
  obtain ⟨r2, hr2⟩ := exists_as hs w he2 (hb := hb) (hg := hg) (hl := hl) u
  refine ⟨r2, hr2, ?_⟩
  obtain ⟨c3, d, he3, hd, -⟩ := Opf.bridge_exists hs 0 h
  rw [he] at he3; cases he3
  obtain ⟨bp, gp, lp, B, -, -, -, -, -, pb1, pg1, pl1⟩ := Opf.bridge_at hs h he hd u hr pfOff
  obtain ⟨d2, hd2⟩ : ∃ d2, readAs 0 c2 hb hg hl = some d2 := by
    obtain ⟨c4, d4, he4, hd4, -⟩ := Opf.bridge_exists hs 0 w
    rw [he2] at he4; cases he4
    exact readAs_exists ⟨d4, hd4⟩ hb hg hl
  obtain ⟨bp2, gp2, lp2, B2, -, pb2, pg2, pl2⟩ := bridge_as hs w he2 hd2 u hr2 pfOff
  have e1 : bp2 = bp := funext fun k => Option.some_injective _ ((pb2 k).symm.trans (by rw [← S.pos]; exact pb1 k))
  have e2 : gp2 = gp := funext fun k => Option.some_injective _ ((pg2 k).symm.trans (by rw [← S.pos]; exact pg1 k))
  have e3 : lp2 = lp := funext fun k => Option.some_injective _ ((pl2 k).symm.trans (by rw [← S.pos]; exact pl1 k))
  subst e1 e2 e3
  refine ⟨?_, ?_, ?_⟩
  · refine list_rows B2.busLen fun i b2 hi => ?_
    obtain ⟨b1, k1, -, k2, k3, k4⟩ := B2.bus_at hi
    by_cases ht : b1.typ = 4
    · rw [k4 ht]; exact k1
    · obtain ⟨k, rfl, rfl⟩ := k3 ht
      obtain ⟨b0, -, -, k5, -⟩ := B.bus k
      rw [k1] at k5; cases k5
      rw [k1]
      dsimp only
      rw [hib]
  · refine list_rows B2.genLen fun i b2 hi => ?_
    obtain ⟨b1, k1, q1, q2, k3, k4⟩ := B2.gen_at hi
    by_cases ht : GenInService (zeroOff pfOff r) b1
    · obtain ⟨k, rfl, rfl⟩ := k3 ht
      obtain ⟨b0, -, -, k5, -⟩ := B.gen k
      rw [k1] at k5; cases k5
      rw [k1]
      dsimp only
      rw [hig]
    · obtain ⟨b0, -, q3, q4, -, k6⟩ := B.gen_at k1
      have h0 := k6 fun h0 => ht ((B.genIn_iff q3 q4).2 h0)
      rw [k4 ht, k1, h0]
      rfl
  · refine list_rows B2.brLen fun i b2 hi => ?_
    obtain ⟨b1, k1, q1, q2, q5, k3, k4⟩ := B2.branch_at hi
    by_cases ht : BranchInService (zeroOff pfOff r) b1
    · obtain ⟨k, rfl, rfl⟩ := k3 ht
      obtain ⟨b0, -, -, k5, -⟩ := B.branch k
      rw [k1] at k5; cases k5
      rw [k1]
      dsimp only
      rw [hil]
    · obtain ⟨b0, -, q3, q4, q6, -, k6⟩ := B.branch_at k1
      have h0 := k6 fun h0 => ht ((B.brIn_iff q3 q4 q6).2 h0)
      rw [k4 ht, k1, h0]
      rfl

end tables

/-! ### Reading and writing tables of given lengths -/

variable {nb ng nl : ℕ}

/-- `readPf`, with the lengths of the tables given. -/
def readPfAs (base : ℝ) (c : Index.Case Tables) (hb : c.bus.length = nb) (hg : c.gen.length = ng) (hl : c.branch.length = nl) : Option (Case (Fin nb) (Fin nl) ng) := do
  let d ← readAs base c hb hg hl
  let t ← Bustypes.bustypes (c.bus.map (·.typ)) (c.gen.map fun g => ⟨g.bus, g.status⟩)
  some {
    baseMVA := d.base
    bus := d.bus
    VM := d.vm
    VA := d.va
    gen := fun k => ⟨d.gen k, d.qmin k, d.qmax k⟩
    VG := fun k => (c.gen[(k : ℕ)]'(hg ▸ k.isLt)).data.VG
    branch := d.branch
    ref := idxOf _ t.1
    pv := idxOf _ t.2.1
    pq := idxOf _ t.2.2 }

theorem runpfAc_as {srt : List ℕ → List ℕ} {base : ℝ} {o : PfOpt} {lib : PfLib} {c c' : Index.Case Tables} (he : Index.ext2int srt c = some c')
    (hb : c'.bus.length = nb) (hg : c'.gen.length = ng) (hl : c'.branch.length = nl) {p : Case (Fin nb) (Fin nl) ng} (hp : readPfAs base c' hb hg hl = some p)
    {s : Out (Fin nb) (Fin nl) ng} (hrun : runAC o.EPS o.viol o.qlim (pickSolver o lib p) p = some (.ok s)) {r : Index.Case Tables}
    (hr : Index.int2ext (writeAs c' hb hg hl (acUpd s)) = some r) : runpfAc srt base o lib c = some ⟨s.success, some (zeroOff pfOff r)⟩ := by
  subst hb hg hl
  unfold runpfAc
  rw [he]
  change (readPf base c').bind _ = _
  have hp : readPf base c' = some p := hp
  have hr : Index.int2ext (write c' (acUpd s)) = some r := hr
  rw [hp]
  simp only [Option.bind_some, Option.bind_eq_bind]
  rw [hrun]
  simp only [Option.bind_some]
  rw [hr]
  rfl

theorem runpfDc_as {srt : List ℕ → List ℕ} {base : ℝ} {lib : DcLib} {c c' : Index.Case Tables} (he : Index.ext2int srt c = some c')
    (hb : c'.bus.length = nb) (hg : c'.gen.length = ng) (hl : c'.branch.length = nl) {p : Case (Fin nb) (Fin nl) ng} (hp : readPfAs base c' hb hg hl = some p)
    {Va : Fin nb → ℝ} {PG : Fin ng → ℝ} (hVa : Pfsoln.dcpf (· ∈ p.ref) lib (Bbus p.branch) (Pfsoln.dcPbus p.baseMVA p.bus p.gen p.branch) (fun k => p.VA k * (Real.pi / 180)) = Va)
    (hPG : Pfsoln.dcPG p.baseMVA p.bus p.gen p.branch p.ref Va = some PG) {r : Index.Case Tables}
    (hr : Index.int2ext (writeAs c' hb hg hl (dcUpd p Va PG)) = some r) : runpfDc srt base lib c = some ⟨true, some (zeroOff pfOff r)⟩ := by
  subst hb hg hl
  unfold runpfDc
  rw [he]
  change (readPf base c').bind _ = _
  have hp : readPf base c' = some p := hp
  have hr : Index.int2ext (write c' (dcUpd p Va PG)) = some r := hr
  rw [hp]
  simp only [Option.bind_some, Option.bind_eq_bind, hVa]
  rw [hPG]
  simp only [Option.bind_some]
  rw [hr]
  rfl

/-- The driver reads the data of the first run, with the results stored. -/
theorem read_again {base : ℝ} {c' c2 : Index.Case Tables} {p : Case (Fin c'.bus.length) (Fin c'.branch.length) c'.gen.length} (hp : readPf base c' = some p)
    {u : Upd c'.bus.length c'.gen.length c'.branch.length} (e1 : c2.bus = (write c' u).bus) (e2 : c2.gen = (write c' u).gen) (e3 : c2.branch = (write c' u).branch)
    {VM VA : Fin c'.bus.length → ℝ} {PG QG : Fin c'.gen.length → ℝ} (hub : ∀ k b, u.bus k b = { b with VM := VM k, VA := VA k })
    (hug : ∀ k, u.gen k c'.gen[k].data = { c'.gen[k].data with PG := PG k, QG := QG k })
    (hul : ∀ k l, pfBranchInput { l with data := u.branch k l.data } = pfBranchInput l)
    (hb : c2.bus.length = c'.bus.length) (hg : c2.gen.length = c'.gen.length) (hl : c2.branch.length = c'.branch.length) :
    readPfAs base c2 hb hg hl = some (stored p VM VA PG QG) := by
  have b : ∀ k : Fin c'.bus.length, c2.bus[(k : ℕ)]'(k.isLt.trans_eq hb.symm) = { c'.bus[k] with data := { c'.bus[k].data with VM := VM k, VA := VA k } } := by
    intro k
    have : (write c' u).bus[(k : ℕ)]'(by simp [write]) = { c'.bus[k] with data := u.bus k c'.bus[k].data } := by simp [write]
    simp only [e1, this, hub]
  have g : ∀ k : Fin c'.gen.length, c2.gen[(k : ℕ)]'(k.isLt.trans_eq hg.symm) = { c'.gen[k] with data := { c'.gen[k].data with PG := PG k, QG := QG k } } := by
    intro k
    have : (write c' u).gen[(k : ℕ)]'(by simp [write]) = { c'.gen[k] with data := u.gen k c'.gen[k].data } := by simp [write]
    simp only [e2, this, hug]
  have l : ∀ k : Fin c'.branch.length, pfBranchInput (c2.branch[(k : ℕ)]'(k.isLt.trans_eq hl.symm)) = pfBranchInput c'.branch[k] := by
    intro k
    have : (write c' u).branch[(k : ℕ)]'(by simp [write]) = { c'.branch[k] with data := u.branch k c'.branch[k].data } := by simp [write]
    simp only [e3, this]
    exact hul _ _
  have ht : c2.bus.map (·.typ) = c'.bus.map (·.typ) := by
    apply List.ext_getElem (by simp [hb])
    intro i h1 h2
    have hi : i < c'.bus.length := by simpa using h2
    have := congrArg (fun x : BusRow BusD => x.typ) (b ⟨i, hi⟩)
    simpa using this
  have hgs : (c2.gen.map fun g => (⟨g.bus, g.status⟩ : Bustypes.Gen)) = c'.gen.map fun g => ⟨g.bus, g.status⟩ := by
    apply List.ext_getElem (by simp [hg])
    intro i h1 h2
    have hi : i < c'.gen.length := by simpa using h2
    have := g ⟨i, hi⟩
    simp only [List.getElem_map, this]
    rfl
  unfold readPf at hp
  simp only [Option.bind_eq_bind, Option.bind_eq_some_iff] at hp
  obtain ⟨d, hd, t, hbt, e⟩ := hp
  injection e with e
  unfold readCase at hd
  split at hd
  swap
  · simp at hd
  rename_i hv
  injection hd with hd
  have lf : ∀ k : Fin c'.branch.length, (c2.branch[(k : ℕ)]'(k.isLt.trans_eq hl.symm)).f = c'.branch[k].f ∧ (c2.branch[(k : ℕ)]'(k.isLt.trans_eq hl.symm)).t = c'.branch[k].t := fun k =>
    ⟨pfBranchInput_f (l k), pfBranchInput_t (l k)⟩
  have hv2 : (∀ k : Fin c'.gen.length, (c2.gen[(k : ℕ)]'(k.isLt.trans_eq hg.symm)).bus < c'.bus.length) ∧
      (∀ k : Fin c'.branch.length, (c2.branch[(k : ℕ)]'(k.isLt.trans_eq hl.symm)).f < c'.bus.length ∧ (c2.branch[(k : ℕ)]'(k.isLt.trans_eq hl.symm)).t < c'.bus.length) :=
    ⟨fun k => by rw [g k]; exact hv.1 k, fun k => by rw [(lf k).1, (lf k).2]; exact hv.2 k⟩
  unfold readPfAs readAs
  rw [dif_pos hv2, ht, hgs, hbt]
  simp only [Option.bind_eq_bind, Option.bind_some, Option.some.injEq]
  subst hd
  rw [← e]
  unfold stored
  simp only [pfBranchInput, BranchRow.mk.injEq, Opf.BrD.mk.injEq] at l
  congr 1
  · funext k; simp only [b k]
  · funext k; simp only [b k]
  · funext k; simp only [b k]
  · funext k; simp only [g k]
  · funext k; simp only [g k]
  · funext k
    have := l k
    simp only [this]

end

end Verif.Runpf
