import Verif.Opf.RunProps
import Verif.Runpf.TableProps
import Verif.Network.Regular

/-!
# C87, C88: the DC power flow in the caller's numbering, completion of both power flows
-/

namespace Verif.Runpf

open Verif.Opf (Tables readCase Upd write Off zeroOff Bridge BusD GenD BrD genAt fromAt toAt dcBalance asBranch rowPhasor)
open Verif.Index (BusRow GenRow BranchRow IsArgsort WF GenInService BranchInService Connected)
open Verif.Network Verif.Solvers Verif.Pfsoln

/-- A linear solver that solves regular systems. -/
def Solves (lib : DcLib) : Prop := ∀ {I : Type} [Fintype I] [DecidableEq I] (M : Matrix I I ℝ) (b : I → ℝ), IsUnit M.det → Matrix.mulVec M (lib M b) = b

/-- The preparation of a run never raises when there is a slack bus. -/
theorem prep_exists {srt : List ℕ → List ℕ} (hs : IsArgsort srt) (base : ℝ) {c : Index.Case Tables} (h : WF c) (hsl : ∃ i, IsSlack c i) :
    ∃ (c' : Index.Case Tables) (p : Case (Fin c'.bus.length) (Fin c'.branch.length) c'.gen.length), Index.ext2int srt c = some c' ∧ readPf base c' = some p ∧
      ∀ u, ∃ r bp gp lp, Index.int2ext (write c' u) = some r ∧ PfBridge c (zeroOff pfOff r) base p u bp gp lp := by
  obtain ⟨c', d, he, hd, hw⟩ := Opf.bridge_exists hs base h
  have hp : ∃ p, readPf base c' = some p := by
    obtain ⟨r, hr⟩ := hw ⟨fun _ b => b, fun _ g => g, fun _ l => l⟩
    obtain ⟨bp, gp, lp, D, -, hbus, hgen⟩ := Opf.bridge_rows hs h he hd _ hr pfOff
    cases hb : Bustypes.bustypes (c'.bus.map (·.typ)) (c'.gen.map fun g => ⟨g.bus, g.status⟩) with
    | some t =>
      unfold readPf
      rw [hd, hb]
      exact ⟨_, rfl⟩
    | none =>
      exfalso
      rcases (Bustypes.C10_failure _ _).1 hb with ⟨g, hg, hlt⟩ | hno
      · obtain ⟨g', hg', rfl⟩ := List.mem_map.1 hg
        obtain ⟨i, hi, rfl⟩ := List.mem_iff_getElem.1 hg'
        obtain ⟨-, -, -, -, h4⟩ := hgen ⟨i, hi⟩
        rw [List.length_map] at hlt
        have h5 : c'.gen[i].bus = ((d.gen ⟨i, hi⟩).bus : ℕ) := h4
        have := (d.gen ⟨i, hi⟩).bus.isLt
        simp only at hlt
        omega
      · obtain ⟨i, b, hbi, ⟨g, hg, hin, hgn⟩, ht⟩ := hsl
        have ht' : b.typ = 2 ∨ b.typ = 3 := by tauto
        obtain ⟨k, rfl⟩ := D.busOn i b hbi (by omega)
        obtain ⟨b1, h1, h2, -⟩ := hbus k
        rw [hbi] at h1; cases h1
        obtain ⟨j, hj⟩ := List.getElem?_of_mem hg
        obtain ⟨q, rfl⟩ := D.genOn j g hj hin
        obtain ⟨g1, h3, h4, -, h5⟩ := hgen q
        rw [hj] at h3; cases h3
        obtain ⟨g2, h6, -, -, ⟨b2, h7, h8⟩, -⟩ := D.gen q
        rw [hj] at h6; cases h6
        have h9 : (d.gen q).bus = k := (D.sameBus h h7 hbi).1 (h8.trans hgn)
        have htk : ∀ t, b.typ = t → Bustypes.HasType (c'.bus.map (·.typ)) k t := by
          intro t e
          unfold Bustypes.HasType
          rw [List.getElem?_map, List.getElem?_eq_getElem k.isLt]
          simp only [Option.map_some, Option.some.injEq]
          exact h2.trans e
        refine hno k (ht'.imp (htk 2) (htk 3)) ⟨⟨c'.gen[q].bus, c'.gen[q].status⟩, List.mem_map.2 ⟨c'.gen[q], List.getElem_mem _, rfl⟩, ?_, ?_⟩
        · show c'.gen[q].bus = (k : ℕ)
          rw [h5, h9]
        · show 0 < c'.gen[q].status
          rw [h4]; exact hin.1
  obtain ⟨p, hp⟩ := hp
  refine ⟨c', p, he, hp, fun u => ?_⟩
  obtain ⟨r, hr⟩ := hw u
  obtain ⟨bp, gp, lp, B⟩ := pf_bridge hs h he hp u hr
  exact ⟨r, bp, gp, lp, hr, B⟩

/-- Reference buses have a slack generator. -/
theorem PfBridge.refgen_ne {c R : Index.Case Tables} {base : ℝ} {nb ng nl : ℕ} {p : Case (Fin nb) (Fin nl) ng} {u : Upd nb ng nl} {bp : Fin nb → ℕ}
    {gp : Fin ng → ℕ} {lp : Fin nl → ℕ} (B : PfBridge c R base p u bp gp lp) (r : Fin nb) (hr : r ∈ p.ref) : refgen p.gen r ≠ [] := by
  obtain ⟨b, hb, hg, -⟩ := (B.ref r).1 hr
  obtain ⟨g, hg1⟩ := (B.hasGen r b hb).2 hg
  intro h0
  have : g ∈ refgen p.gen r := (mem_refgen p.gen r g).2 hg1
  rw [h0] at this
  simp at this

section dc
variable {srt : List ℕ → List ℕ} (hs : IsArgsort srt) {base : ℝ} (hb : base ≠ 0) {lib : DcLib} (hlib : Solves lib) {c : Index.Case Tables} (h : WF c)

include hs h in
/-- **C87 (DC, completion).**  A DC power flow of a well-formed case with a slack bus never raises and reports success. -/
theorem C87_dc_completes (hsl : ∃ i, IsSlack c i) : ∃ R, runpfDc srt base lib c = some ⟨true, some R⟩ := by
  obtain ⟨c', p, he, hp, hw⟩ := prep_exists hs base h hsl
  obtain ⟨r0, bp, gp, lp, -, B⟩ := hw ⟨fun _ b => b, fun _ g => g, fun _ l => l⟩
  unfold runpfDc
  rw [he, Option.bind_eq_bind, Option.bind_some, hp, Option.bind_eq_bind, Option.bind_some]
  dsimp only
  have hPG : ∀ Va, ∃ PG, dcPG p.baseMVA p.bus p.gen p.branch p.ref Va = some PG := by
    intro Va
    unfold dcPG
    rw [if_neg]
    · exact ⟨_, rfl⟩
    · rintro ⟨r, hr, h0⟩
      exact B.refgen_ne r hr h0
  obtain ⟨PG, hPG⟩ := hPG _
  rw [hPG, Option.bind_eq_bind, Option.bind_some]
  obtain ⟨r, -, -, -, hr, -⟩ := hw _
  rw [hr]
  exact ⟨_, rfl⟩

variable {ok : Bool} {R : Index.Case Tables} (hrun : runpfDc srt base lib c = some ⟨ok, some R⟩)

include hs h hrun

theorem dc_bridge : ∃ (nb ng nl : ℕ) (p : Case (Fin nb) (Fin nl) ng) (Va : Fin nb → ℝ) (PG : Fin ng → ℝ) (bp : Fin nb → ℕ) (gp : Fin ng → ℕ) (lp : Fin nl → ℕ),
    PfBridge c R base p (dcUpd p Va PG) bp gp lp ∧
    Va = dcpf (· ∈ p.ref) lib (Bbus p.branch) (dcPbus p.baseMVA p.bus p.gen p.branch) (fun k => p.VA k * (Real.pi / 180)) ∧
    dcPG p.baseMVA p.bus p.gen p.branch p.ref Va = some PG := by
  unfold runpfDc at hrun
  simp only [Option.bind_eq_bind, Option.bind_eq_some_iff, Option.some.injEq, PfRet.mk.injEq] at hrun
  obtain ⟨c', hc', p, hp, PG, hPG, r, hr, -, rfl⟩ := hrun
  obtain ⟨bp, gp, lp, B⟩ := pf_bridge hs h hc' hp _ hr
  exact ⟨_, _, _, p, _, PG, bp, gp, lp, B, rfl, hPG⟩


omit hrun hs in
/-- The reduced matrix of a tied network is regular. -/
theorem PfBridge.regular {R : Index.Case Tables} {nb ng nl : ℕ} {p : Case (Fin nb) (Fin nl) ng} {u : Upd nb ng nl} {bp : Fin nb → ℕ}
    {gp : Fin ng → ℕ} {lp : Fin nl → ℕ} (B : PfBridge c R base p u bp gp lp) (hind : Inductive c) (htied : Tied c) :
    (∀ l, (p.branch l).stat ≠ 0 → 0 < bdc (p.branch l)) ∧ (∀ i, ∃ r, r ∈ p.ref ∧ Relation.ReflTransGen (Joined p.branch) r i) := by
  obtain ⟨d, D, -, -, -, hbr, -⟩ := B.bridge
  rw [hbr]
  have hbrow : ∀ q, ∃ l, c.branch[lp q]? = some l ∧ l.status = 1 ∧ (d.branch q).stat = 1 ∧ 0 < bdc (d.branch q) := by
    intro q
    obtain ⟨l, h1, h2, -, -, -, -, hx, -, ht, -, hst, -⟩ := D.branch q
    obtain ⟨h3, h4, h5⟩ := hind l (List.mem_of_getElem? h1) h2
    have hst1 : (d.branch q).stat = 1 := by rw [hst, h3]; norm_num
    exact ⟨l, h1, h3, hst1, bdc_pos (by rw [hst1]; norm_num) (by rw [hx]; exact h4) (by rw [ht]; exact h5)⟩
  refine ⟨fun q _ => (hbrow q).choose_spec.2.2.2, fun i => ?_⟩
  obtain ⟨b, hbi, hb4, -⟩ := D.bus i
  obtain ⟨j, s, hs, hsl, hpath⟩ := htied b (List.mem_of_getElem? hbi) hb4
  have hs4 : s.typ ≠ 4 := by
    obtain ⟨s', hs', -, h1⟩ := id hsl
    rw [hs] at hs'; cases hs'
    omega
  obtain ⟨k0, rfl⟩ := D.busOn j s hs hs4
  refine ⟨k0, (B.ref k0).2 hsl, ?_⟩
  have key : ∀ n, Relation.ReflTransGen (JoinedOn c) s.num n → ∃ (k : Fin nb) (b : BusRow BusD), c.bus[bp k]? = some b ∧ b.num = n ∧
      Relation.ReflTransGen (Joined d.branch) k0 k := by
    intro n hn
    induction hn with
    | refl => exact ⟨k0, s, hs, rfl, .refl⟩
    | tail _ h2 ih =>
      obtain ⟨k, b1, hb1, hn1, hk⟩ := ih
      obtain ⟨l, hl, hin, hends⟩ := h2
      obtain ⟨x, hx⟩ := List.getElem?_of_mem hl
      obtain ⟨q, rfl⟩ := D.brOn x l hx hin
      obtain ⟨l', h1, -, -, ⟨bf, hbf, hnf⟩, ⟨bt, hbt, hnt⟩, -⟩ := D.branch q
      rw [hx] at h1; cases h1
      obtain ⟨-, -, -, hst1, -⟩ := hbrow q
      have hne : (d.branch q).stat ≠ 0 := by rw [hst1]; norm_num
      rcases hends with ⟨e1, e2⟩ | ⟨e1, e2⟩
      · have hfk : (d.branch q).f = k := (D.sameBus h hbf hb1).1 (by rw [hnf, e1, hn1])
        exact ⟨_, bt, hbt, hnt.trans e2, hk.tail ⟨q, hne, Or.inl ⟨hfk, rfl⟩⟩⟩
      · have htk : (d.branch q).t = k := (D.sameBus h hbt hb1).1 (by rw [hnt, e2, hn1])
        exact ⟨_, bf, hbf, hnf.trans e1, hk.tail ⟨q, hne, Or.inr ⟨rfl, htk⟩⟩⟩
  obtain ⟨k, b1, hb1, hn1, hk⟩ := key b.num hpath
  rwa [(D.sameBus h hb1 hbi).1 hn1] at hk

include hb hlib in
/-- **C87 (DC).**  In the tables of a DC power flow of a tied network with inductive branches, in the caller's own numbering: at every connected bus generation, demand, shunt and flows
over *all* rows balance exactly; angles of slack buses are the given ones; magnitudes of connected buses are 1. -/
theorem C87_dc (hind : Inductive c) (htied : Tied c) : ok = true ∧
    (∀ b ∈ R.bus, b.typ ≠ 4 → dcBalance R b = 0 ∧ b.data.VM = 1) ∧
    (∀ (i : ℕ) b b0, R.bus[i]? = some b → c.bus[i]? = some b0 → IsSlack c i → b.data.VA = b0.data.VA) := by
  obtain ⟨nb, ng, nl, p, Va, PG, bp, gp, lp, B, hVa, hPG⟩ := dc_bridge hs h hrun
  obtain ⟨d, D, hbase, hbus, hva, hbr, hgen⟩ := B.bridge
  obtain ⟨hpos, ht⟩ := B.regular h hind htied
  have hu := regular_of_bdc p.branch (· ∈ p.ref) hpos ht
  obtain ⟨h1, h2, h3⟩ := C29_dc p.baseMVA (by rw [hbase]; exact hb) p.bus p.gen p.branch p.ref lib (fun k => p.VA k * (Real.pi / 180))
    (fun b => hlib _ b hu) PG
  rw [← hVa] at h1 h2 h3
  obtain ⟨h3, -⟩ := h3 hPG
  refine ⟨?_, ?_, ?_⟩
  · unfold runpfDc at hrun
    simp only [Option.bind_eq_bind, Option.bind_eq_some_iff, Option.some.injEq, PfRet.mk.injEq] at hrun
    obtain ⟨_, _, _, _, _, _, _, _, e, -⟩ := hrun
    exact e.symm
  · intro b hbm ht4
    obtain ⟨k, b0, h0, rfl, h8, -⟩ := D.busRow hbm ht4
    refine ⟨?_, rfl⟩
    have e1 := D.genSum h h0 GenD.PG PG (fun _ _ => rfl) (fun _ => rfl)
    have e2 := (D.brSum h h0 BrD.PF (dcPF p.baseMVA p.branch Va) (fun _ _ => rfl) (fun _ => rfl)).1
    have e3 := (D.brSum h h0 BrD.PT (fun l => -dcPF p.baseMVA p.branch Va l) (fun _ _ => rfl) (fun _ => rfl)).2
    have key := h3 k
    rw [← B.genFilter k PG hgen, hbus, h8, hbr] at key
    rw [Finset.sum_neg_distrib] at e3
    unfold dcBalance
    have e1' : genAt R ({ b0 with data := (dcUpd p Va PG).bus k b0.data } : BusRow BusD).num GenD.PG = _ := e1
    have e2' : fromAt R ({ b0 with data := (dcUpd p Va PG).bus k b0.data } : BusRow BusD).num BrD.PF = _ := e2
    have e3' : toAt R ({ b0 with data := (dcUpd p Va PG).bus k b0.data } : BusRow BusD).num BrD.PT = _ := e3
    rw [e1', e2', e3', hbr]
    show _ - b0.data.PD - b0.data.GS - _ - _ = 0
    dsimp only at key
    linarith
  · intro i b b0 hbi h0 hsl
    obtain ⟨b1, h0', hnum, htyp, h6, -⟩ := D.bus_at hbi
    rw [h0] at h0'; cases h0'
    have ht4 : b0.typ ≠ 4 := by
      obtain ⟨s', hs', -, h1⟩ := id hsl
      rw [h0] at hs'; cases hs'
      omega
    obtain ⟨k, rfl, rfl⟩ := h6 ht4
    obtain ⟨b3, hb3, -, hVA3⟩ := B.vm k
    rw [h0] at hb3; cases hb3
    show Va k * (180 / Real.pi) = b0.data.VA
    rw [h1 k ((B.ref k).2 hsl), ← hVA3]
    have := Real.pi_ne_zero
    field_simp

/-- **C87 (DC flows).**  The flow of every branch in service is given by the DC branch equation at the returned angles; no losses, no reactive flows. -/
theorem C87_dc_flows (hst : ∀ l ∈ c.branch, l.status = 0 ∨ l.status = 1) (θ : ℕ → ℝ) (hθ : ∀ b ∈ R.bus, θ b.num = b.data.VA * (Real.pi / 180)) :
    ∀ l ∈ R.branch, BranchInService R l → l.data.PF = base * dcFlow (asBranch l) θ ∧ l.data.PT = -l.data.PF ∧ l.data.QF = 0 ∧ l.data.QT = 0 := by
  obtain ⟨nb, ng, nl, p, Va, PG, bp, gp, lp, B, hVa, hPG⟩ := dc_bridge hs h hrun
  obtain ⟨d, D, hbase, hbus, hva, hbr, hgen⟩ := B.bridge
  intro l hlm hon
  obtain ⟨k, l0, h0, rfl, ⟨bf, hbf, hnf⟩, ⟨bt, hbt, hnt⟩, -, hx, -, htap, hshift, hstat, -⟩ := D.brRow hlm hon
  have hstat' : ∀ k, (p.branch k).stat = 0 ∨ (p.branch k).stat = 1 := by
    intro k
    obtain ⟨l0, h1, -, -, -, -, -, -, -, -, -, h2, -⟩ := D.branch k
    rw [hbr, h2]
    rcases hst l0 (List.mem_of_getElem? h1) with h3 | h3 <;> simp [h3]
  have ang : ∀ (j : Fin nb) b0 n, c.bus[bp j]? = some b0 → b0.num = n → Va j = θ n := by
    rintro j b0 n hj rfl
    obtain ⟨b1, h1, -, h2, -⟩ := D.bus j
    rw [hj] at h1; cases h1
    refine (Eq.trans ?_ (hθ _ (List.mem_of_getElem? h2)).symm)
    show Va j = Va j * (180 / Real.pi) * (Real.pi / 180)
    have := Real.pi_ne_zero
    field_simp
  refine ⟨?_, rfl, rfl, rfl⟩
  have e := (C24_lossless p.branch hstat' Va).1 k
  show dcPF p.baseMVA p.branch Va k = _
  unfold dcPF
  rw [e, hbase, hbr, mul_comm]
  congr 1
  simp only [dcFlow, asBranch, hstat, hx, htap, hshift, ang _ _ _ hbf hnf, ang _ _ _ hbt hnt, dcUpd]
  congr

/-- **C87 (DC, dispatch).**  Only slack generation is changed: the active output of every generator in service keeps its given value, except for one generator at each slack bus;
reactive outputs of generators in service are kept. -/
theorem C87_dc_dispatch : (∃ slackGen : ℕ → ℕ, ∀ (j : ℕ) g g0, R.gen[j]? = some g → c.gen[j]? = some g0 → GenInService c g0 → g.data.PG ≠ g0.data.PG →
      ∃ (i : ℕ) (b : BusRow BusD), c.bus[i]? = some b ∧ IsSlack c i ∧ b.num = g0.bus ∧ slackGen i = j) ∧
    (∀ (j : ℕ) g g0, R.gen[j]? = some g → c.gen[j]? = some g0 → GenInService c g0 → g.data.QG = g0.data.QG) := by
  obtain ⟨nb, ng, nl, p, Va, PG, bp, gp, lp, B, hVa, hPG⟩ := dc_bridge hs h hrun
  obtain ⟨d, D, hbase, hbus, hva, hbr, hgen⟩ := B.bridge
  constructor
  · refine B.slackGen PG (fun _ _ => rfl) fun x hx => ?_
    unfold dcPG at hPG
    split at hPG
    · simp at hPG
    injection hPG with hPG
    rw [← hPG]
    refine if_neg fun hh => hx _ hh.1 hh.2
  · intro j g g0 hg hg0 hin
    obtain ⟨g1, hg1, -, -, h4, -⟩ := D.gen_at hg
    rw [hg0] at hg1; cases hg1
    obtain ⟨x, rfl, rfl⟩ := h4 hin
    rfl

/-- **C87 (DC, inputs).**  As `C87_ac_inputs`. -/
theorem C87_dc_inputs :
    R.bus.map pfBusInput = c.bus.map pfBusInput ∧ R.gen.map pfGenInput = c.gen.map pfGenInput ∧ R.branch.map pfBranchInput = c.branch.map pfBranchInput ∧
    (∀ g ∈ R.gen, ¬ GenInService R g → g.data.PG = 0 ∧ g.data.QG = 0) ∧
    (∀ l ∈ R.branch, ¬ BranchInService R l → l.data.PF = 0 ∧ l.data.QF = 0 ∧ l.data.PT = 0 ∧ l.data.QT = 0) := by
  obtain ⟨nb, ng, nl, p, Va, PG, bp, gp, lp, B, -⟩ := dc_bridge hs h hrun
  obtain ⟨d, D, -⟩ := B.bridge
  exact D.kept (fun _ _ => rfl) (fun _ _ => rfl) (fun _ _ => rfl) (fun _ => ⟨rfl, rfl, rfl⟩) (fun _ => ⟨rfl, rfl, rfl, rfl, rfl⟩)

end dc

/-- **C87 (AC, completion).**  With Newton's method or Gauss-Seidel and without enforcement of reactive limits, the AC power flow of a well-formed case with a slack bus and at least one
other connected bus never raises. -/
theorem C87_ac_completes {srt : List ℕ → List ℕ} (hs : IsArgsort srt) (base : ℝ) {o : PfOpt} (lib : PfLib) {c : Index.Case Tables} (h : WF c)
    (hsl : ∃ i, IsSlack c i) (hns : ∃ (i : ℕ) (b : BusRow BusD), c.bus[i]? = some b ∧ b.typ ≠ 4 ∧ ¬ IsSlack c i) (halg : o.alg = 1 ∨ o.alg = 4) (hq : o.qlim = false) :
    ∃ r, runpfAc srt base o lib c = some r := by
  obtain ⟨c', p, he, hp, hw⟩ := prep_exists hs base h hsl
  obtain ⟨r0, bp, gp, lp, -, B⟩ := hw ⟨fun _ b => b, fun _ g => g, fun _ l => l⟩
  obtain ⟨d, D, -⟩ := B.bridge
  have hne : ¬ (p.pv = [] ∧ p.pq = []) := by
    rintro ⟨h1, h2⟩
    obtain ⟨i, b, hb, ht, hn⟩ := hns
    obtain ⟨k, rfl⟩ := D.busOn i b hb ht
    have := B.cover k fun hh => hn ((B.ref k).1 hh)
    rw [h1, h2] at this
    simp at this
  have hsolve : ∀ S V0, ∃ q, pickSolver o lib p S V0 = some q := by
    intro S V0
    unfold pickSolver
    rcases halg with e | e
    · simp only [e, if_true, newtonpf]
      rw [if_neg hne]
      exact ⟨_, rfl⟩
    · simp only [e, show ¬ ((4 : Int) = 1) by decide, if_false, show ¬ ((4 : Int) = 2 ∨ (4 : Int) = 3) by decide, if_true, gausspf]
      rw [if_neg hne]
      exact ⟨_, rfl⟩
  have hPG : ∀ V, ∃ PG, newPG p.baseMVA p.bus p.gen (Ybus p.baseMVA p.bus p.branch) V p.ref (fun g => (p.gen g).PG) = some PG := by
    intro V
    refine (slackPG p.baseMVA p.bus p.gen _ V p.ref).2.2 fun r hr => ?_
    obtain ⟨b, hb, hg, -⟩ := (B.ref r).1 hr
    exact (B.hasGen r b hb).2 hg
  have hrun : ∃ q, runAC o.EPS o.viol o.qlim (pickSolver o lib p) p = some q := by
    unfold runAC
    cases hV : initialV p with
    | none => exact ⟨_, rfl⟩
    | some V0 =>
      obtain ⟨q, hq1⟩ := hsolve (makeSbus p.baseMVA p.bus fun g => (p.gen g).toGen) V0
      dsimp only
      rw [hq1, Option.bind_some]
      unfold finish
      cases hqV : q.V with
      | none => exact ⟨_, rfl⟩
      | some V =>
        obtain ⟨PG, hPG⟩ := hPG V
        dsimp only
        simp only [solution, hPG, Option.map_some, Option.bind_some, hq]
        simp
  obtain ⟨q, hq⟩ := hrun
  unfold runpfAc
  rw [he, Option.bind_eq_bind, Option.bind_some, hp, Option.bind_eq_bind, Option.bind_some, hq, Option.bind_eq_bind, Option.bind_some]
  cases q with
  | nan s => exact ⟨_, rfl⟩
  | ok s =>
    obtain ⟨r, -, -, -, hr, -⟩ := hw (acUpd s)
    dsimp only
    rw [hr]
    exact ⟨_, rfl⟩

/-- With a large enough tolerance the run succeeds, so that the theorems above are not empty. -/
theorem runpfAc_succeeds {srt : List ℕ → List ℕ} (hs : IsArgsort srt) (base : ℝ) (lib : PfLib) {c : Index.Case Tables} (h : WF c)
    (hsl : ∃ i, IsSlack c i) (hns : ∃ (i : ℕ) (b : BusRow BusD), c.bus[i]? = some b ∧ b.typ ≠ 4 ∧ ¬ IsSlack c i)
    (hvm : ∀ b ∈ c.bus, b.typ ≠ 4 → b.data.VM ≠ 0) : ∃ tol R, runpfAc srt base ⟨1, tol, 10, 10, 10, false, 0, 0⟩ lib c = some ⟨true, some R⟩ := by
  obtain ⟨c', p, he, hp, hw⟩ := prep_exists hs base h hsl
  obtain ⟨r0, bp, gp, lp, -, B⟩ := hw ⟨fun _ b => b, fun _ g => g, fun _ l => l⟩
  obtain ⟨d, D, -⟩ := B.bridge
  have hne : ¬ (p.pv = [] ∧ p.pq = []) := by
    rintro ⟨h1, h2⟩
    obtain ⟨i, b, hb, ht, hn⟩ := hns
    obtain ⟨k, rfl⟩ := D.busOn i b hb ht
    have := B.cover k fun hh => hn ((B.ref k).1 hh)
    rw [h1, h2] at this
    simp at this
  have hV : ∃ V0, initialV p = some V0 := by
    unfold initialV
    rw [if_neg]
    · exact ⟨_, rfl⟩
    · rintro ⟨k, -, h0⟩
      obtain ⟨b, hb, h1, -⟩ := B.vm k
      obtain ⟨b', hb', h2, -⟩ := D.bus k
      rw [hb] at hb'; cases hb'
      unfold flat at h0
      rcases mul_eq_zero.1 h0 with h0 | h0
      · have : p.VM k = 0 := by exact_mod_cast h0
        exact hvm b (List.mem_of_getElem? hb) h2 (h1 ▸ this)
      · exact Complex.exp_ne_zero _ h0
  obtain ⟨V0, hV⟩ := hV
  obtain ⟨tol, ht⟩ : ∃ tol, Solved (Ybus p.baseMVA p.bus p.branch) (makeSbus p.baseMVA p.bus fun g => (p.gen g).toGen) p.pv p.pq tol V0 := by
    let m : Fin c'.bus.length → ℂ := fun b => V0 b * (starRingEnd ℂ) (∑ j, Ybus p.baseMVA p.bus p.branch b j * V0 j) - makeSbus p.baseMVA p.bus (fun g => (p.gen g).toGen) b
    refine ⟨1 + ∑ b, ‖m b‖, ?_, ?_⟩
    · intro b _
      have h1 : ‖m b‖ ≤ ∑ b, ‖m b‖ := Finset.single_le_sum (f := fun b => ‖m b‖) (fun _ _ => norm_nonneg _) (Finset.mem_univ b)
      have := Complex.abs_re_le_norm (m b)
      show |(m b).re| < _
      linarith
    · intro b _
      have h1 : ‖m b‖ ≤ ∑ b, ‖m b‖ := Finset.single_le_sum (f := fun b => ‖m b‖) (fun _ _ => norm_nonneg _) (Finset.mem_univ b)
      have := Complex.abs_im_le_norm (m b)
      show |(m b).im| < _
      linarith
  obtain ⟨PG, hPG⟩ : ∃ PG, newPG p.baseMVA p.bus p.gen (Ybus p.baseMVA p.bus p.branch) V0 p.ref (fun g => (p.gen g).PG) = some PG := by
    refine (slackPG p.baseMVA p.bus p.gen _ V0 p.ref).2.2 fun r hr => ?_
    obtain ⟨b, hb, hg, -⟩ := (B.ref r).1 hr
    exact (B.hasGen r b hb).2 hg
  obtain ⟨s, hrun, hsucc⟩ : ∃ s, runAC 0 0 false (pickSolver ⟨1, tol, 10, 10, 10, false, 0, 0⟩ lib p) p = some (.ok s) ∧ s.success = true := by
    unfold runAC
    rw [hV]
    dsimp only
    have : pickSolver ⟨1, tol, 10, 10, 10, false, 0, 0⟩ lib p (makeSbus p.baseMVA p.bus fun g => (p.gen g).toGen) V0 = some ⟨some V0, true, 0⟩ := by
      unfold pickSolver
      simp only [if_true]
      exact C30_start _ _ _ _ _ _ _ _ hne ht
    rw [this, Option.bind_some]
    unfold finish
    dsimp only
    simp only [solution, hPG, Option.map_some, Option.bind_some]
    simp
  refine ⟨tol, ?_⟩
  obtain ⟨r, -, -, -, hr, -⟩ := hw (acUpd s)
  unfold runpfAc
  rw [he, Option.bind_eq_bind, Option.bind_some, hp, Option.bind_eq_bind, Option.bind_some]
  dsimp only
  rw [hrun, Option.bind_eq_bind, Option.bind_some]
  dsimp only
  rw [hr, hsucc]
  exact ⟨_, rfl⟩

/-! ## The hypotheses on a concrete case: `Opf.exTables`, slack bus 9 in row 0, load bus 2 in row 2 with a generator, isolated bus 7 in row 1 -/

theorem exSlack : IsSlack Opf.exTables 0 :=
  ⟨_, rfl, ⟨⟨9, 1, ⟨80, 0, 50, -50, 1, 200, 10, 0, 0, 0, 0, []⟩⟩, by simp [Opf.exTables], by simp [GenInService, Connected, Opf.exTables], rfl⟩, Or.inl rfl⟩

theorem exOther : ∃ (i : ℕ) (b : BusRow BusD), Opf.exTables.bus[i]? = some b ∧ b.typ ≠ 4 ∧ ¬ IsSlack Opf.exTables i := by
  refine ⟨2, _, rfl, by decide, ?_⟩
  rintro ⟨b, hb, -, h⟩
  have : b.typ = 1 := by
    have e : Opf.exTables.bus[2]? = some ⟨2, 1, ⟨90, 30, 1, 2, 1, 0, 1.1, 0.9, 0, 0, 0, 0, [345]⟩⟩ := rfl
    rw [e] at hb
    injection hb with hb
    rw [← hb]
  rw [this] at h
  simp at h

theorem exTied : Tied Opf.exTables := by
  simp only [Tied, Opf.exTables, List.mem_cons, List.not_mem_nil, or_false, forall_eq_or_imp, forall_eq]
  refine ⟨fun _ => ⟨0, _, rfl, exSlack, .refl⟩, fun h => absurd rfl h, fun _ => ⟨0, _, rfl, exSlack, .single ⟨_, List.mem_cons_self, ?_, Or.inl ⟨rfl, rfl⟩⟩⟩⟩
  simp [BranchInService, Connected]

theorem exInductive : Inductive Opf.exTables := by
  simp only [Inductive, Opf.exTables, List.mem_cons, List.not_mem_nil, or_false, forall_eq_or_imp, forall_eq]
  norm_num [BranchInService]

/-- A solver that inverts the matrix. -/
noncomputable def invLib : DcLib := fun {I} M b => by
  classical
  exact if h : Nonempty (Fintype I) then (letI := h.some; Matrix.mulVec M⁻¹ b) else b

theorem invLib_solves : Solves invLib := by
  intro I _ _ M b hM
  have hn : Nonempty (Fintype I) := ⟨inferInstance⟩
  unfold invLib
  beta_reduce
  rw [dif_pos hn]
  have e1 : hn.some = ‹Fintype I› := Subsingleton.elim _ _
  rw [e1]
  have e2 : (fun a b => Classical.propDecidable (a = b) : DecidableEq I) = ‹DecidableEq I› := Subsingleton.elim _ _
  rw [e2]
  rw [Matrix.mulVec_mulVec, Matrix.mul_nonsing_inv _ hM, Matrix.one_mulVec]

example : ∃ R, WF Opf.exTables ∧ Inductive Opf.exTables ∧ Tied Opf.exTables ∧ Solves invLib ∧ runpfDc Index.stableArgsort 100 invLib Opf.exTables = some ⟨true, some R⟩ :=
  let ⟨R, h⟩ := C87_dc_completes Index.stableArgsort_isArgsort Opf.exTables_wf (lib := invLib) (base := 100) ⟨0, exSlack⟩
  ⟨R, Opf.exTables_wf, exInductive, exTied, invLib_solves, h⟩

/-- The AC theorems: a successful run exists, with a slack bus, a bus that is not the slack bus and a nonzero `base`. -/
example (lib : PfLib) : ∃ o R, WF Opf.exTables ∧ runpfAc Index.stableArgsort 100 o lib Opf.exTables = some ⟨true, some R⟩ := by
  obtain ⟨tol, R, h⟩ := runpfAc_succeeds Index.stableArgsort_isArgsort 100 lib Opf.exTables_wf ⟨0, exSlack⟩ exOther (by simp [Opf.exTables])
  exact ⟨_, R, Opf.exTables_wf, h⟩

end Verif.Runpf
