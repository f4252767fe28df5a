import Verif.Runpf.GuessSpec
import Verif.Runpf.GuessSolvers
import Verif.Runpf.SpinLemmas

/-! Lemmas for C139: tables. -/

namespace Verif.Runpf

open Verif.Network Verif.Pfsoln Verif.Solvers
open Verif.Index (BusRow GenRow BranchRow IsArgsort WF GenInService BranchInService Connected posOf)
open Verif.Opf (Tables BusD GenD BrD Upd write zeroOff readCase bridge_exists readAs writeAs bridge_as exists_as map_eq_len map_of_key)

noncomputable section

theorem OtherGuess.same {c1 c2 : Index.Case Tables} (h : OtherGuess c1 c2) : SameData c1 c2 := ⟨h.busData, h.genData, h.branchData, h.gencost, h.A, h.N⟩

theorem key_at {α β : Type} {f : α → β} {xs ys : List α} (h : xs.map f = ys.map f) {i : ℕ} {x : α} (hx : xs[i]? = some x) : ∃ y, ys[i]? = some y ∧ f x = f y := by
  have := congrArg (·[i]?) h
  simp only [List.getElem?_map, hx, Option.map_some] at this
  obtain ⟨y, h1, h2⟩ := Option.map_eq_some_iff.1 this.symm
  exact ⟨y, h1, h2.symm⟩

theorem pf_bridge_as {nb ng nl : ℕ} {srt : List ℕ → List ℕ} (hs : IsArgsort srt) {c : Index.Case Tables} (h : WF c) {c' r : Index.Case Tables} (he : Index.ext2int srt c = some c')
    {hb : c'.bus.length = nb} {hg : c'.gen.length = ng} {hl : c'.branch.length = nl} {base : ℝ} {p : Case (Fin nb) (Fin nl) ng} (hp : readPfAs base c' hb hg hl = some p)
    (u : Upd nb ng nl) (hr : Index.int2ext (writeAs c' hb hg hl u) = some r) :
    ∃ bp gp lp, PfBridge c (zeroOff pfOff r) base p u bp gp lp ∧ (∀ k : Fin nb, (posOf srt c .bus)[(k : ℕ)]? = some (bp k)) ∧
      (∀ k : Fin ng, (posOf srt c .gen)[(k : ℕ)]? = some (gp k)) ∧ (∀ k : Fin nl, (posOf srt c .branch)[(k : ℕ)]? = some (lp k)) := by
  subst hb hg hl
  exact pf_bridge_at hs h he hp u hr

/-- The driver reads the same data from both, but for the stored results. -/
theorem read_same {base : ℝ} {c' c2 : Index.Case Tables} (S : SameData c' c2) (hb : c2.bus.length = c'.bus.length) (hg : c2.gen.length = c'.gen.length)
    (hl : c2.branch.length = c'.branch.length) :
    readPfAs base c2 hb hg hl = (readPf base c').map fun p => stored p (fun k => (c2.bus[(k : ℕ)]'(k.isLt.trans_eq hb.symm)).data.VM) (fun k => (c2.bus[(k : ℕ)]'(k.isLt.trans_eq hb.symm)).data.VA)
      (fun k => (c2.gen[(k : ℕ)]'(k.isLt.trans_eq hg.symm)).data.PG) (fun k => (c2.gen[(k : ℕ)]'(k.isLt.trans_eq hg.symm)).data.QG) := by
  have b : ∀ k : Fin c'.bus.length, pfBusInput (c2.bus[(k : ℕ)]'(k.isLt.trans_eq hb.symm)) = pfBusInput c'.bus[k] := by
    intro k
    obtain ⟨y, h1, h2⟩ := key_at S.bus (List.getElem?_eq_getElem k.isLt)
    rw [List.getElem?_eq_getElem (k.isLt.trans_eq hb.symm)] at h1
    rw [Option.some.inj h1]
    exact h2.symm
  have g : ∀ k : Fin c'.gen.length, pfGenInput (c2.gen[(k : ℕ)]'(k.isLt.trans_eq hg.symm)) = pfGenInput c'.gen[k] := by
    intro k
    obtain ⟨y, h1, h2⟩ := key_at S.gen (List.getElem?_eq_getElem k.isLt)
    rw [List.getElem?_eq_getElem (k.isLt.trans_eq hg.symm)] at h1
    rw [Option.some.inj h1]
    exact h2.symm
  have l : ∀ k : Fin c'.branch.length, pfBranchInput (c2.branch[(k : ℕ)]'(k.isLt.trans_eq hl.symm)) = pfBranchInput c'.branch[k] := by
    intro k
    obtain ⟨y, h1, h2⟩ := key_at S.branch (List.getElem?_eq_getElem k.isLt)
    rw [List.getElem?_eq_getElem (k.isLt.trans_eq hl.symm)] at h1
    rw [Option.some.inj h1]
    exact h2.symm
  have ht : c2.bus.map (·.typ) = c'.bus.map (·.typ) := map_of_key S.bus.symm fun _ _ => pfBusInput_typ
  have hgs : (c2.gen.map fun g => (⟨g.bus, g.status⟩ : Bustypes.Gen)) = c'.gen.map fun g => ⟨g.bus, g.status⟩ :=
    map_of_key S.gen.symm fun _ _ e => by rw [pfGenInput_bus e, pfGenInput_status e]
  have hvi : ((∀ k : Fin c'.gen.length, (c2.gen[(k : ℕ)]'(k.isLt.trans_eq hg.symm)).bus < c'.bus.length) ∧
      (∀ k : Fin c'.branch.length, (c2.branch[(k : ℕ)]'(k.isLt.trans_eq hl.symm)).f < c'.bus.length ∧ (c2.branch[(k : ℕ)]'(k.isLt.trans_eq hl.symm)).t < c'.bus.length)) ↔
      ((∀ k : Fin c'.gen.length, c'.gen[k].bus < c'.bus.length) ∧ (∀ k : Fin c'.branch.length, c'.branch[k].f < c'.bus.length ∧ c'.branch[k].t < c'.bus.length)) := by
    refine and_congr (forall_congr' fun k => ?_) (forall_congr' fun k => ?_)
    · rw [pfGenInput_bus (g k)]
    · rw [pfBranchInput_f (l k), pfBranchInput_t (l k)]
  unfold readPfAs readAs readPf readCase
  rw [ht, hgs]
  by_cases hv : ((∀ k : Fin c'.gen.length, c'.gen[k].bus < c'.bus.length) ∧ (∀ k : Fin c'.branch.length, c'.branch[k].f < c'.bus.length ∧ c'.branch[k].t < c'.bus.length))
  · rw [dif_pos hv, dif_pos (hvi.2 hv)]
    simp only [Option.bind_eq_bind, Option.bind_some]
    cases Bustypes.bustypes (c'.bus.map (·.typ)) (c'.gen.map fun g => ⟨g.bus, g.status⟩) with
    | none => rfl
    | some t =>
      simp only [Option.bind_some, Option.map_some, Option.some.injEq]
      unfold stored
      simp only [pfBranchInput, BranchRow.mk.injEq, Opf.BrD.mk.injEq] at l
      simp only [pfBusInput, BusRow.mk.injEq, Opf.BusD.mk.injEq] at b
      simp only [pfGenInput, GenRow.mk.injEq, Opf.GenD.mk.injEq] at g
      congr 1
      · funext k; simp only [b k]
      · funext k; simp only [g k]
      · funext k; simp only [g k]
      · funext k
        have := l k
        simp only [this]
  · rw [dif_neg hv, dif_neg (fun x => hv (hvi.1 x))]
    rfl

section
variable {srt : List ℕ → List ℕ} (hs : IsArgsort srt) {base : ℝ} {c c2 : Index.Case Tables} (w : WF c) (w2 : WF c2) (S : SameData c c2) {nb ng nl : ℕ}
  {c' c2' : Index.Case Tables} (he1 : Index.ext2int srt c = some c') (he2 : Index.ext2int srt c2 = some c2')
  {h1b : c'.bus.length = nb} {h1g : c'.gen.length = ng} {h1l : c'.branch.length = nl} {h2b : c2'.bus.length = nb} {h2g : c2'.gen.length = ng} {h2l : c2'.branch.length = nl}
  {d d2 : Opf.Case nb ng nl} (hd : readAs base c' h1b h1g h1l = some d) (hd2 : readAs base c2' h2b h2g h2l = some d2)
include hs w w2 S he1 he2 hd hd2

/-- The same results put back in two cases with the same data are the same tables, but for the voltages of isolated buses. -/
theorem same_results (u : Upd nb ng nl) (hoff : ∀ (i : ℕ) b1 b2, c.bus[i]? = some b1 → c2.bus[i]? = some b2 → b1.typ = 4 → b2 = b1)
    (hub : ∀ k b1 b2, pfBusInput b1 = pfBusInput b2 → ({ b2 with data := u.bus k b2.data } : BusRow BusD) = { b1 with data := u.bus k b1.data })
    (hug : ∀ k b1 b2, pfGenInput b1 = pfGenInput b2 → ({ b2 with data := u.gen k b2.data } : GenRow GenD) = { b1 with data := u.gen k b1.data })
    (hul : ∀ k b1 b2, pfBranchInput b1 = pfBranchInput b2 → ({ b2 with data := u.branch k b2.data } : BranchRow BrD) = { b1 with data := u.branch k b1.data })
    {r1 r2 : Index.Case Tables} (hr1 : Index.int2ext (writeAs c' h1b h1g h1l u) = some r1) (hr2 : Index.int2ext (writeAs c2' h2b h2g h2l u) = some r2) :
    (zeroOff pfOff r2).bus = (zeroOff pfOff r1).bus ∧ (zeroOff pfOff r2).gen = (zeroOff pfOff r1).gen ∧ (zeroOff pfOff r2).branch = (zeroOff pfOff r1).branch := by
  obtain ⟨bp1, gp1, lp1, B1, -, pb1, pg1, pl1⟩ := bridge_as hs w he1 hd u hr1 pfOff
  obtain ⟨bp2, gp2, lp2, B2, -, pb2, pg2, pl2⟩ := bridge_as hs w2 he2 hd2 u hr2 pfOff
  have ebp : ∀ i, bp2 i = bp1 i := fun i => Option.some.inj ((pb2 i).symm.trans (by rw [← S.pos]; exact pb1 i))
  have egp : ∀ i, gp2 i = gp1 i := fun i => Option.some.inj ((pg2 i).symm.trans (by rw [← S.pos]; exact pg1 i))
  have elp : ∀ i, lp2 i = lp1 i := fun i => Option.some.inj ((pl2 i).symm.trans (by rw [← S.pos]; exact pl1 i))
  have nb' : c.bus.length = c2.bus.length := map_eq_len S.bus
  have ng' : c.gen.length = c2.gen.length := map_eq_len S.gen
  have nl' : c.branch.length = c2.branch.length := map_eq_len S.branch
  refine ⟨?_, ?_, ?_⟩
  · refine List.ext_getElem? fun i => ?_
    cases hx : c.bus[i]? with
    | none =>
      rw [List.getElem?_eq_none_iff] at hx
      rw [List.getElem?_eq_none_iff.2 (by rw [B2.busLen, ← nb']; exact hx), List.getElem?_eq_none_iff.2 (by rw [B1.busLen]; exact hx)]
    | some b =>
      obtain ⟨b2, hx2, hk⟩ := key_at S.bus hx
      have htyp := pfBusInput_typ hk
      by_cases ht : b.typ = 4
      · rw [B1.busOff i b hx ht, B2.busOff i b2 hx2 (htyp ▸ ht), hoff i b b2 hx hx2 ht]
      · obtain ⟨j, rfl⟩ := B1.busOn i b hx ht
        obtain ⟨b', e1, -, e2, -⟩ := B1.bus j
        rw [hx] at e1; cases e1
        obtain ⟨b', e3, -, e4, -⟩ := B2.bus j
        rw [ebp, hx2] at e3; cases e3
        rw [ebp] at e4
        rw [e2, e4, hub j b b2 hk]
  · refine List.ext_getElem? fun i => ?_
    cases hx : c.gen[i]? with
    | none =>
      rw [List.getElem?_eq_none_iff] at hx
      rw [List.getElem?_eq_none_iff.2 (by rw [B2.genLen, ← ng']; exact hx), List.getElem?_eq_none_iff.2 (by rw [B1.genLen]; exact hx)]
    | some g =>
      obtain ⟨g2, hx2, hk⟩ := key_at S.gen hx
      have hin2 : GenInService c2 g2 ↔ GenInService c g := by
        unfold GenInService
        rw [← S.connected, pfGenInput_bus hk, pfGenInput_status hk]
      by_cases hin : GenInService c g
      · obtain ⟨j, rfl⟩ := B1.genOn i g hx hin
        obtain ⟨b', e1, -, e2, -⟩ := B1.gen j
        rw [hx] at e1; cases e1
        obtain ⟨b', e3, -, e4, -⟩ := B2.gen j
        rw [egp, hx2] at e3; cases e3
        rw [egp] at e4
        rw [e2, e4, hug j g g2 hk]
      · rw [B1.genOff i g hx hin, B2.genOff i g2 hx2 (hin2.not.2 hin)]
        exact congrArg some hk.symm
  · refine List.ext_getElem? fun i => ?_
    cases hx : c.branch[i]? with
    | none =>
      rw [List.getElem?_eq_none_iff] at hx
      rw [List.getElem?_eq_none_iff.2 (by rw [B2.brLen, ← nl']; exact hx), List.getElem?_eq_none_iff.2 (by rw [B1.brLen]; exact hx)]
    | some l =>
      obtain ⟨l2, hx2, hk⟩ := key_at S.branch hx
      have hin2 : BranchInService c2 l2 ↔ BranchInService c l := by
        unfold BranchInService
        rw [← S.connected, ← S.connected, pfBranchInput_f hk, pfBranchInput_t hk, pfBranchInput_status hk]
      by_cases hin : BranchInService c l
      · obtain ⟨j, rfl⟩ := B1.brOn i l hx hin
        obtain ⟨b', e1, -, e2, -⟩ := B1.branch j
        rw [hx] at e1; cases e1
        obtain ⟨b', e3, -, e4, -⟩ := B2.branch j
        rw [elp, hx2] at e3; cases e3
        rw [elp] at e4
        rw [e2, e4, hul j l l2 hk]
      · rw [B1.brOff i l hx hin, B2.brOff i l2 hx2 (hin2.not.2 hin)]
        exact congrArg some hk.symm

end

end

end Verif.Runpf
