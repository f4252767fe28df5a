import Verif.Runpf.LoadSpec
import Verif.Runpf.GuessLemmas
import Verif.Runpf.TableCore

/-! Lemmas for C140. -/

namespace Verif.Runpf

open Verif.Network Verif.Pfsoln Verif.Solvers
open Verif.Index (BusRow GenRow BranchRow IsArgsort WF GenInService BranchInService Connected HasBus posOf)
open Verif.Opf (Tables BusD GenD BrD Upd write zeroOff readCase bridge_exists readAs writeAs bridge_as exists_as map_eq_len map_of_key filter_map_key)
open Verif.NumPy

/-- Two cases that differ at most in loads, outputs and flows, and in the table of areas. -/
structure SameKeys (c1 c2 : Index.Case Tables) : Prop where
  bus : c1.bus.map noLoad = c2.bus.map noLoad
  gen : c1.gen.map pfGenInput = c2.gen.map pfGenInput
  branch : c1.branch.map pfBranchInput = c2.branch.map pfBranchInput
  gencost : c1.gencost = c2.gencost
  A : c1.A = c2.A
  N : c1.N = c2.N

theorem SameKeys.symm {c1 c2 : Index.Case Tables} (h : SameKeys c1 c2) : SameKeys c2 c1 :=
  ⟨h.bus.symm, h.gen.symm, h.branch.symm, h.gencost.symm, h.A.symm, h.N.symm⟩

theorem SameNet.keys {c1 c2 : Index.Case Tables} (h : SameNet c1 c2) : SameKeys c1 c2 := ⟨h.busData, h.genData, h.branchData, h.gencost, h.A, h.N⟩

theorem noLoad_num {a b : BusRow BusD} (h : noLoad a = noLoad b) : a.num = b.num := by
  have := congrArg BusRow.num h
  exact this
theorem noLoad_typ {a b : BusRow BusD} (h : noLoad a = noLoad b) : a.typ = b.typ := by
  have := congrArg BusRow.typ h
  exact this

section conv
variable {c1 c2 : Index.Case Tables} (h : SameKeys c1 c2)

include h

theorem SameKeys.nums : c1.bus.map (·.num) = c2.bus.map (·.num) := map_of_key h.bus fun _ _ => noLoad_num

theorem SameKeys.exists_bus {b : BusRow BusD} (hb : b ∈ c1.bus) : ∃ b2 ∈ c2.bus, b2.num = b.num ∧ b2.typ = b.typ := by
  have : noLoad b ∈ c2.bus.map noLoad := h.bus ▸ List.mem_map_of_mem hb
  obtain ⟨b2, h2, e⟩ := List.mem_map.1 this
  exact ⟨b2, h2, noLoad_num e, noLoad_typ e⟩

theorem SameKeys.connected (n : ℕ) : Connected c1 n ↔ Connected c2 n := by
  have key : ∀ {a b : Index.Case Tables}, SameKeys a b → Connected a n → Connected b n := by
    rintro a b h ⟨x, hx, rfl, ht⟩
    obtain ⟨y, hy, e1, e2⟩ := h.exists_bus hx
    exact ⟨y, hy, e1, e2 ▸ ht⟩
  exact ⟨key h, key h.symm⟩

theorem SameKeys.connB : Index.connB c1.bus = Index.connB c2.bus := by
  funext n
  have := h.connected n
  rw [← Index.conn_iff, ← Index.conn_iff] at this
  exact Bool.eq_iff_iff.2 this

theorem SameKeys.i2e : Index.i2eOf c1 = Index.i2eOf c2 := by
  have := filter_map_key (p := Index.busK) h.bus fun a b e => by simp only [Index.busK, noLoad_typ e]
  unfold Index.i2eOf
  exact map_of_key this fun _ _ => noLoad_num

theorem SameKeys.genFilter : (c1.gen.filter (Index.genK c1.bus)).map pfGenInput = (c2.gen.filter (Index.genK c2.bus)).map pfGenInput := by
  have : Index.genK (γ := GenD) c1.bus = Index.genK c2.bus := by funext g; simp only [Index.genK, h.connB]
  rw [this]
  exact filter_map_key h.gen fun a b e => by simp only [Index.genK, pfGenInput_bus e, pfGenInput_status e]

theorem SameKeys.genU : (Index.genU c1).map pfGenInput = (Index.genU c2).map pfGenInput := by
  have e := h.genFilter
  have := map_of_key (f := fun g => pfGenInput (g.setBus ((Index.i2eOf c2).idxOf g.bus))) e fun a b e' => by
    have := pfGenInput_bus e'
    simp only [pfGenInput, Index.GenRow.setBus, GenRow.mk.injEq] at e' ⊢
    exact ⟨by rw [this], e'.2⟩
  unfold Index.genU
  rw [h.i2e]
  simpa [List.map_map, Function.comp_def] using this

theorem SameKeys.busI : (Index.busI c1).map noLoad = (Index.busI c2).map noLoad := by
  have e := filter_map_key (p := Index.busK) h.bus fun a b e => by simp only [Index.busK, noLoad_typ e]
  have := map_of_key (f := fun g => noLoad (g.setNum ((Index.i2eOf c2).idxOf g.num))) e fun a b e' => by
    have := noLoad_num e'
    simp only [noLoad, Index.BusRow.setNum, BusRow.mk.injEq] at e' ⊢
    exact ⟨by rw [this], e'.2⟩
  unfold Index.busI
  rw [h.i2e]
  simpa [List.map_map, Function.comp_def] using this

theorem SameKeys.brI : (Index.brI c1).map pfBranchInput = (Index.brI c2).map pfBranchInput := by
  have hk : Index.brK (δ := BrD) c1.bus = Index.brK c2.bus := by funext g; simp only [Index.brK, h.connB]
  have e := filter_map_key (p := Index.brK c2.bus) h.branch fun a b e => by simp only [Index.brK, pfBranchInput_f e, pfBranchInput_t e, pfBranchInput_status e]
  have := map_of_key (f := fun l => pfBranchInput ((l.setF ((Index.i2eOf c2).idxOf l.f)).setT ((Index.i2eOf c2).idxOf l.t))) e fun a b e' => by
    have h1 := pfBranchInput_f e'
    have h2 := pfBranchInput_t e'
    simp only [pfBranchInput, Index.BranchRow.setF, Index.BranchRow.setT, BranchRow.mk.injEq] at e' ⊢
    exact ⟨by rw [h1], by rw [h2], e'.2.2⟩
  unfold Index.brI
  rw [h.i2e, hk]
  simpa [List.map_map, Function.comp_def, Index.BranchRow.setF] using this

theorem SameKeys.genKs : c1.gen.map (Index.genK c1.bus) = c2.gen.map (Index.genK c2.bus) := by
  have : Index.genK (γ := GenD) c1.bus = Index.genK c2.bus := by funext g; simp only [Index.genK, h.connB]
  rw [this]
  exact map_of_key h.gen fun a b e => by simp only [Index.genK, pfGenInput_bus e, pfGenInput_status e]

theorem SameKeys.brKs : c1.branch.map (Index.brK c1.bus) = c2.branch.map (Index.brK c2.bus) := by
  have : Index.brK (δ := BrD) c1.bus = Index.brK c2.bus := by funext g; simp only [Index.brK, h.connB]
  rw [this]
  exact map_of_key h.branch fun a b e => by simp only [Index.brK, pfBranchInput_f e, pfBranchInput_t e, pfBranchInput_status e]

theorem SameKeys.busKs : c1.bus.map Index.busK = c2.bus.map Index.busK := map_of_key h.bus fun a b e => by simp only [Index.busK, noLoad_typ e]

theorem SameKeys.genBuses : (Index.genU c1).map (·.bus) = (Index.genU c2).map (·.bus) := map_of_key h.genU fun _ _ => pfGenInput_bus

theorem SameKeys.pos (srt : List ℕ → List ℕ) : Index.posOf srt c1 = Index.posOf srt c2 := by
  funext s
  cases s <;> simp only [Index.posOf, h.busKs, h.genKs, h.brKs, h.genBuses]

theorem SameKeys.e2iSet (srt : List ℕ → List ℕ) {α : Type} (val : List α) (s : Index.Ordering) :
    Index.e2iSet (Index.orderOf srt c1) val s = Index.e2iSet (Index.orderOf srt c2) val s := by
  cases s <;> simp only [Index.e2iSet, Index.Order.on, Index.orderOf, h.busKs, h.genKs, h.brKs, h.genBuses]

theorem SameKeys.extLen (srt : List ℕ → List ℕ) (s : Index.Ordering) : (Index.orderOf srt c1).extLen s = (Index.orderOf srt c2).extLen s := by
  cases s <;> simp only [Index.Order.extLen, Index.orderOf, map_eq_len h.bus, map_eq_len h.gen, map_eq_len h.branch]

theorem SameKeys.e2iBlocks (srt : List ℕ → List ℕ) {α : Type} (val : List α) (ss : List Index.Ordering) (b : ℕ) :
    Index.e2iBlocks (Index.orderOf srt c1) val b ss = Index.e2iBlocks (Index.orderOf srt c2) val b ss := by
  induction ss generalizing b with
  | nil => rfl
  | cons s ss ih => simp only [Index.e2iBlocks, h.extLen, h.e2iSet, ih]

/-- Internal versions of the same system. -/
theorem SameKeys.internal {srt : List ℕ → List ℕ} (hs : IsArgsort srt) (h1 : WF c1) (h2 : WF c2) :
    ∃ c1' c2', Index.ext2int srt c1 = some c1' ∧ Index.ext2int srt c2 = some c2' ∧ SameKeys c1' c2' := by
  obtain ⟨g1, gc1, A1, N1, e1, hg1, hc1, hA1, hN1⟩ := Index.ext2int_result hs h1
  obtain ⟨g2, gc2, A2, N2, e2, hg2, hc2, hA2, hN2⟩ := Index.ext2int_result hs h2
  have ng : c1.gen.length = c2.gen.length := map_eq_len h.gen
  have nb : c1.bus.length = c2.bus.length := map_eq_len h.bus
  have dc : Index.isDC c1 = Index.isDC c2 := by simp only [Index.isDC, h.A, h.N, nb, ng]
  refine ⟨_, _, e1, e2, h.busI, ?_, h.brI, ?_, ?_, ?_⟩
  · show g1.map pfGenInput = g2.map pfGenInput
    have k1 := gather_map pfGenInput (Index.genU c1) (srt ((Index.genU c1).map (·.bus)))
    have k2 := gather_map pfGenInput (Index.genU c2) (srt ((Index.genU c2).map (·.bus)))
    rw [hg1] at k1
    rw [hg2, ← h.genU, ← h.genBuses, k1] at k2
    exact Option.some_injective _ k2
  · show gc1 = gc2
    rw [h.gencost, ng] at hc1
    have : Index.e2iGencost (Index.orderOf srt c1) c2.gen.length c2.gencost = Index.e2iGencost (Index.orderOf srt c2) c2.gen.length c2.gencost := by
      cases c2.gencost <;> simp only [Index.e2iGencost, Index.e2iList, h.e2iBlocks]
    rw [this, hc2] at hc1
    exact (Option.some_injective _ hc1).symm
  · show A1 = A2
    rw [h.A, dc] at hA1
    have : Index.e2iMat (Index.orderOf srt c1) (Index.isDC c2) c2.A = Index.e2iMat (Index.orderOf srt c2) (Index.isDC c2) c2.A := by
      cases c2.A <;> simp only [Index.e2iMat, Index.e2iList, h.e2iBlocks]
    rw [this, hA2] at hA1
    exact (Option.some_injective _ hA1).symm
  · show N1 = N2
    rw [h.N, dc] at hN1
    have : Index.e2iMat (Index.orderOf srt c1) (Index.isDC c2) c2.N = Index.e2iMat (Index.orderOf srt c2) (Index.isDC c2) c2.N := by
      cases c2.N <;> simp only [Index.e2iMat, Index.e2iList, h.e2iBlocks]
    rw [this, hN2] at hN1
    exact (Option.some_injective _ hN1).symm

end conv

noncomputable section

/-- The case with other loads and outputs. -/
def netted {nb nl ng : ℕ} (c : Case (Fin nb) (Fin nl) ng) (PD QD : Fin nb → ℝ) (PG QG : Fin ng → ℝ) : Case (Fin nb) (Fin nl) ng :=
  { c with bus := fun k => { c.bus k with PD := PD k, QD := QD k }, gen := fun k => { c.gen k with PG := PG k, QG := QG k } }

/-- The driver reads the same data from both, but for loads and outputs. -/
theorem read_net {base : ℝ} {c' c2 : Index.Case Tables} (S : SameKeys c' c2) (hb : c2.bus.length = c'.bus.length) (hg : c2.gen.length = c'.gen.length)
    (hl : c2.branch.length = c'.branch.length) :
    readPfAs base c2 hb hg hl = (readPf base c').map fun p => netted p (fun k => (c2.bus[(k : ℕ)]'(k.isLt.trans_eq hb.symm)).data.PD) (fun k => (c2.bus[(k : ℕ)]'(k.isLt.trans_eq hb.symm)).data.QD)
      (fun k => (c2.gen[(k : ℕ)]'(k.isLt.trans_eq hg.symm)).data.PG) (fun k => (c2.gen[(k : ℕ)]'(k.isLt.trans_eq hg.symm)).data.QG) := by
  have b : ∀ k : Fin c'.bus.length, noLoad (c2.bus[(k : ℕ)]'(k.isLt.trans_eq hb.symm)) = noLoad c'.bus[k] := by
    intro k
    obtain ⟨y, h1, h2⟩ := key_at S.bus (List.getElem?_eq_getElem k.isLt)
    rw [List.getElem?_eq_getElem (k.isLt.trans_eq hb.symm)] at h1
    rw [Option.some.inj h1]
    exact h2.symm
  have g : ∀ k : Fin c'.gen.length, pfGenInput (c2.gen[(k : ℕ)]'(k.isLt.trans_eq hg.symm)) = pfGenInput c'.gen[k] := by
    intro k
    obtain ⟨y, h1, h2⟩ := key_at S.gen (List.getElem?_eq_getElem k.isLt)
    rw [List.getElem?_eq_getElem (k.isLt.trans_eq hg.symm)] at h1
    rw [Option.some.inj h1]
    exact h2.symm
  have l : ∀ k : Fin c'.branch.length, pfBranchInput (c2.branch[(k : ℕ)]'(k.isLt.trans_eq hl.symm)) = pfBranchInput c'.branch[k] := by
    intro k
    obtain ⟨y, h1, h2⟩ := key_at S.branch (List.getElem?_eq_getElem k.isLt)
    rw [List.getElem?_eq_getElem (k.isLt.trans_eq hl.symm)] at h1
    rw [Option.some.inj h1]
    exact h2.symm
  have ht : c2.bus.map (·.typ) = c'.bus.map (·.typ) := map_of_key S.bus.symm fun _ _ => noLoad_typ
  have hgs : (c2.gen.map fun g => (⟨g.bus, g.status⟩ : Bustypes.Gen)) = c'.gen.map fun g => ⟨g.bus, g.status⟩ :=
    map_of_key S.gen.symm fun _ _ e => by rw [pfGenInput_bus e, pfGenInput_status e]
  have hvi : ((∀ k : Fin c'.gen.length, (c2.gen[(k : ℕ)]'(k.isLt.trans_eq hg.symm)).bus < c'.bus.length) ∧
      (∀ k : Fin c'.branch.length, (c2.branch[(k : ℕ)]'(k.isLt.trans_eq hl.symm)).f < c'.bus.length ∧ (c2.branch[(k : ℕ)]'(k.isLt.trans_eq hl.symm)).t < c'.bus.length)) ↔
      ((∀ k : Fin c'.gen.length, c'.gen[k].bus < c'.bus.length) ∧ (∀ k : Fin c'.branch.length, c'.branch[k].f < c'.bus.length ∧ c'.branch[k].t < c'.bus.length)) := by
    refine and_congr (forall_congr' fun k => ?_) (forall_congr' fun k => ?_)
    · rw [pfGenInput_bus (g k)]
    · rw [pfBranchInput_f (l k), pfBranchInput_t (l k)]
  unfold readPfAs readAs readPf readCase
  rw [ht, hgs]
  by_cases hv : ((∀ k : Fin c'.gen.length, c'.gen[k].bus < c'.bus.length) ∧ (∀ k : Fin c'.branch.length, c'.branch[k].f < c'.bus.length ∧ c'.branch[k].t < c'.bus.length))
  · rw [dif_pos hv, dif_pos (hvi.2 hv)]
    simp only [Option.bind_eq_bind, Option.bind_some]
    cases Bustypes.bustypes (c'.bus.map (·.typ)) (c'.gen.map fun g => ⟨g.bus, g.status⟩) with
    | none => rfl
    | some t =>
      simp only [Option.bind_some, Option.map_some, Option.some.injEq]
      unfold netted
      simp only [pfBranchInput, BranchRow.mk.injEq, Opf.BrD.mk.injEq] at l
      simp only [noLoad, BusRow.mk.injEq, Opf.BusD.mk.injEq] at b
      simp only [pfGenInput, GenRow.mk.injEq, Opf.GenD.mk.injEq] at g
      congr 1
      · funext k; simp only [b k]
      · funext k; simp only [b k]
      · funext k; simp only [b k]
      · funext k; simp only [g k]
      · funext k; simp only [g k]
      · funext k
        have := l k
        simp only [this]
  · rw [dif_neg hv, dif_neg (fun x => hv (hvi.1 x))]
    rfl

theorem newPG_netted {nb ng : ℕ} (base : ℝ) {bus bus2 : Fin nb → Bus} {gen gen2 : Fin ng → GenQ (Fin nb)} (Y : Matrix (Fin nb) (Fin nb) ℂ) (V : Fin nb → ℂ)
    (hr : ∀ r, refgen gen2 r = refgen gen r) : ∀ (ref : List (Fin nb)) (PG PG2 : Fin ng → ℝ),
    (newPG base bus2 gen2 Y V ref PG2).isSome = (newPG base bus gen Y V ref PG).isSome
  | [], _, _ => rfl
  | r :: rs, PG, PG2 => by
    unfold newPG slackStep
    rw [hr]
    cases refgen gen r with
    | nil => rfl
    | cons g rest =>
      simp only [Option.bind_some]
      exact newPG_netted base Y V hr rs _ _

/-- What the two runs share. -/
def SameRes {nb nl ng : ℕ} : Result (Fin nb) (Fin nl) ng → Result (Fin nb) (Fin nl) ng → Prop
  | .nan s, .nan s2 => s2 = s
  | .ok s, .ok s2 => s2.success = s.success ∧ s2.VM = s.VM ∧ s2.VA = s.VA ∧ s2.Sf = s.Sf ∧ s2.St = s.St
  | _, _ => False

theorem runAC_netted {nb nl ng : ℕ} (o : PfOpt) (hq : o.qlim = false) (lib : PfLib) (p : Case (Fin nb) (Fin nl) ng) (PD QD : Fin nb → ℝ) (PG QG : Fin ng → ℝ)
    (hP : ∀ b, b ∈ p.pv ∨ b ∈ p.pq → atBus p.gen PG b - PD b = atBus p.gen (fun g => (p.gen g).PG) b - (p.bus b).PD)
    (hQ : ∀ b ∈ p.pq, atBus p.gen QG b - QD b = atBus p.gen (fun g => (p.gen g).QG) b - (p.bus b).QD) :
    Option.Rel SameRes (runAC o.EPS o.viol o.qlim (pickSolver o lib p) p)
      (runAC o.EPS o.viol o.qlim (pickSolver o lib (netted p PD QD PG QG)) (netted p PD QD PG QG)) := by
  set p2 := netted p PD QD PG QG with hp2
  have hS : SameInj p.pv p.pq (makeSbus p.baseMVA p.bus fun g => (p.gen g).toGen) (makeSbus p.baseMVA p2.bus fun g => (p2.gen g).toGen) := by
    have hre : ∀ b, b ∈ p.pv ∨ b ∈ p.pq → (makeSbus p.baseMVA p2.bus (fun g => (p2.gen g).toGen) b).re = (makeSbus p.baseMVA p.bus (fun g => (p.gen g).toGen) b).re := by
      intro b hb
      rw [sbus_re, sbus_re, ← hP b hb]
      rfl
    refine ⟨fun b hb => hre b (Or.inl hb), fun b hb => Complex.ext (hre b (Or.inr hb)) ?_⟩
    rw [sbus_im, sbus_im, ← hQ b hb]
    rfl
  have hV : initialV p2 = initialV p := rfl
  unfold runAC
  rw [hV]
  cases initialV p with
  | none => exact .some rfl
  | some V0 =>
    show Option.Rel SameRes ((pickSolver o lib p (makeSbus p.baseMVA p.bus fun g => (p.gen g).toGen) V0).bind _) ((pickSolver o lib p (makeSbus p.baseMVA p2.bus fun g => (p2.gen g).toGen) V0).bind _)
    rw [pick_same o lib p hS V0]
    cases pickSolver o lib p (makeSbus p.baseMVA p.bus fun g => (p.gen g).toGen) V0 with
    | none => exact .none
    | some r =>
      simp only [Option.bind_some, hq, finish]
      cases r.V with
      | none => exact .some (show r.converged = r.converged from rfl)
      | some V =>
        simp only [Bool.false_eq_true, false_and, if_false, solution]
        have h0 := newPG_netted p.baseMVA (bus := p.bus) (bus2 := p2.bus) (gen := p.gen) (gen2 := p2.gen) (Ybus p.baseMVA p.bus p.branch) V (fun _ => rfl) p.ref (fun g => (p.gen g).PG) fun g => (p2.gen g).PG
        show Option.Rel SameRes (((newPG p.baseMVA p.bus p.gen (Ybus p.baseMVA p.bus p.branch) V p.ref fun g => (p.gen g).PG).map _).bind _) (((newPG p.baseMVA p2.bus p2.gen (Ybus p.baseMVA p.bus p.branch) V p.ref fun g => (p2.gen g).PG).map _).bind _)
        cases h1 : newPG p.baseMVA p.bus p.gen (Ybus p.baseMVA p.bus p.branch) V p.ref (fun g => (p.gen g).PG) with
        | none =>
          rw [h1] at h0
          rw [Option.isSome_eq_false_iff.1 h0 |> Option.isNone_iff_eq_none.1]
          exact .none
        | some X =>
          rw [h1] at h0
          obtain ⟨X2, h2⟩ := Option.isSome_iff_exists.1 h0
          rw [h2]
          exact .some ⟨rfl, rfl, rfl, rfl, rfl⟩

section
variable {srt : List ℕ → List ℕ} (hs : IsArgsort srt) {base : ℝ} {c c2 : Index.Case Tables} (w : WF c) (w2 : WF c2) (S : SameKeys c c2) {nb ng nl : ℕ}
  {c' c2' : Index.Case Tables} (he1 : Index.ext2int srt c = some c') (he2 : Index.ext2int srt c2 = some c2')
  {h1b : c'.bus.length = nb} {h1g : c'.gen.length = ng} {h1l : c'.branch.length = nl} {h2b : c2'.bus.length = nb} {h2g : c2'.gen.length = ng} {h2l : c2'.branch.length = nl}
  {d d2 : Opf.Case nb ng nl} (hd : readAs base c' h1b h1g h1l = some d) (hd2 : readAs base c2' h2b h2g h2l = some d2)
include hs w w2 S he1 he2 hd hd2

/-- The same voltages and flows put back in two cases are the same rows, but for loads. -/
theorem same_net_results (u u2 : Upd nb ng nl)
    (hub : ∀ k b1 b2, noLoad b1 = noLoad b2 → noLoad { b2 with data := u2.bus k b2.data } = noLoad { b1 with data := u.bus k b1.data })
    (hul : ∀ k b1 b2, pfBranchInput b1 = pfBranchInput b2 → ({ b2 with data := u2.branch k b2.data } : BranchRow BrD) = { b1 with data := u.branch k b1.data })
    {r1 r2 : Index.Case Tables} (hr1 : Index.int2ext (writeAs c' h1b h1g h1l u) = some r1) (hr2 : Index.int2ext (writeAs c2' h2b h2g h2l u2) = some r2) :
    (zeroOff pfOff r2).bus.map noLoad = (zeroOff pfOff r1).bus.map noLoad ∧ (zeroOff pfOff r2).branch = (zeroOff pfOff r1).branch := by
  obtain ⟨bp1, gp1, lp1, B1, -, pb1, -, pl1⟩ := bridge_as hs w he1 hd u hr1 pfOff
  obtain ⟨bp2, gp2, lp2, B2, -, pb2, -, pl2⟩ := bridge_as hs w2 he2 hd2 u2 hr2 pfOff
  have ebp : ∀ i, bp2 i = bp1 i := fun i => Option.some.inj ((pb2 i).symm.trans (by rw [← S.pos]; exact pb1 i))
  have elp : ∀ i, lp2 i = lp1 i := fun i => Option.some.inj ((pl2 i).symm.trans (by rw [← S.pos]; exact pl1 i))
  have nb' : c.bus.length = c2.bus.length := map_eq_len S.bus
  have nl' : c.branch.length = c2.branch.length := map_eq_len S.branch
  refine ⟨?_, ?_⟩
  · refine List.ext_getElem? fun i => ?_
    rw [List.getElem?_map, List.getElem?_map]
    cases hx : c.bus[i]? with
    | none =>
      rw [List.getElem?_eq_none_iff] at hx
      rw [List.getElem?_eq_none_iff.2 (by rw [B2.busLen, ← nb']; exact hx), List.getElem?_eq_none_iff.2 (by rw [B1.busLen]; exact hx)]
    | some b =>
      obtain ⟨b2, hx2, hk⟩ := key_at S.bus hx
      have htyp := noLoad_typ hk
      by_cases ht : b.typ = 4
      · rw [B1.busOff i b hx ht, B2.busOff i b2 hx2 (htyp ▸ ht), Option.map_some, Option.map_some, hk]
      · obtain ⟨j, rfl⟩ := B1.busOn i b hx ht
        obtain ⟨b', e1, -, e2, -⟩ := B1.bus j
        rw [hx] at e1; cases e1
        obtain ⟨b', e3, -, e4, -⟩ := B2.bus j
        rw [ebp, hx2] at e3; cases e3
        rw [ebp] at e4
        rw [e2, e4, Option.map_some, Option.map_some, hub j b b2 hk]
  · refine List.ext_getElem? fun i => ?_
    cases hx : c.branch[i]? with
    | none =>
      rw [List.getElem?_eq_none_iff] at hx
      rw [List.getElem?_eq_none_iff.2 (by rw [B2.brLen, ← nl']; exact hx), List.getElem?_eq_none_iff.2 (by rw [B1.brLen]; exact hx)]
    | some l =>
      obtain ⟨l2, hx2, hk⟩ := key_at S.branch hx
      have hin2 : BranchInService c2 l2 ↔ BranchInService c l := by
        unfold BranchInService
        rw [← S.connected, ← S.connected, pfBranchInput_f hk, pfBranchInput_t hk, pfBranchInput_status hk]
      by_cases hin : BranchInService c l
      · obtain ⟨j, rfl⟩ := B1.brOn i l hx hin
        obtain ⟨b', e1, -, e2, -⟩ := B1.branch j
        rw [hx] at e1; cases e1
        obtain ⟨b', e3, -, e4, -⟩ := B2.branch j
        rw [elp, hx2] at e3; cases e3
        rw [elp] at e4
        rw [e2, e4, hul j l l2 hk]
      · rw [B1.brOff i l hx hin, B2.brOff i l2 hx2 (hin2.not.2 hin)]
        exact congrArg some hk.symm

end

end

end Verif.Runpf
