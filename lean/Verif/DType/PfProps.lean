import Verif.DType.PfLemmas
import Verif.DType.PfSpec

/-!
# C113: the power flow of a generator table of whole numbers
-/

namespace Verif.DType

open Verif.Opf (Tables Upd write zeroOff BusD GenD BrD genAt dcBalance acBalanceP acBalanceQ)
open Verif.Index (BusRow GenRow BranchRow IsArgsort WF GenInService BranchInService)
open Verif.Network Verif.Pfsoln Verif.Solvers Verif.Runpf

/-- **C113 (float tables).**  For a float table this is the run of C87. -/
theorem C113_float (srt : List ℕ → List ℕ) (base : ℝ) (o : PfOpt) (lib : PfLib) (dlib : DcLib) (c : Index.Case Tables) :
    runpfAcT .float srt base o lib c = runpfAc srt base o lib c ∧ runpfDcT .float srt base dlib c = runpfDc srt base dlib c := by
  refine ⟨?_, rfl⟩
  unfold runpfAcT runpfAc
  simp only [runACT_float]
  rfl

section
variable {srt : List ℕ → List ℕ} (hs : IsArgsort srt) {base : ℝ} {c : Index.Case Tables} (h : WF c) (hw : WholeGens c)

include hs h

/-! ## DC -/

section dc
variable {lib : DcLib}

include hw in
theorem dc_pair {ok : Bool} {R' : Index.Case Tables} (hrun : runpfDcT .int srt base lib c = some ⟨ok, some R'⟩) :
    ∃ (R : Index.Case Tables) (nb ng nl : ℕ) (p : Case (Fin nb) (Fin nl) ng) (Va : Fin nb → ℝ) (PG : Fin ng → ℝ) (bp : Fin nb → ℕ) (gp : Fin ng → ℕ) (lp : Fin nl → ℕ),
      runpfDc srt base lib c = some ⟨ok, some R⟩ ∧ PfBridge c R base p (dcUpd p Va PG) bp gp lp ∧ PfBridge c R' base p (dcUpd p Va fun g => trunc (PG g)) bp gp lp ∧
      (∀ g, Whole (p.gen g).PG) ∧ dcPG p.baseMVA p.bus p.gen p.branch p.ref Va = some PG := by
  unfold runpfDcT at hrun
  simp only [Option.bind_eq_bind, Option.bind_eq_some_iff, Option.some.injEq, PfRet.mk.injEq] at hrun
  obtain ⟨c', hc', p, hp, PG', hPG', r', hr', hok, rfl⟩ := hrun
  obtain ⟨c2, d2, he2, -, hwr⟩ := Opf.bridge_exists hs base h
  rw [hc'] at he2; cases he2
  have hwp : ∀ g, Whole (p.gen g).PG := by
    obtain ⟨bp, gp, lp, B⟩ := pf_bridge hs h hc' hp _ hr'
    intro g
    obtain ⟨g0, h1, -, h2, -⟩ := B.gen g
    rw [h2]
    exact (hw g0 (List.mem_of_getElem? h1)).1
  set Va := dcpf (· ∈ p.ref) lib (Bbus p.branch) (dcPbus p.baseMVA p.bus p.gen p.branch) (fun k => p.VA k * (Real.pi / 180)) with hVa
  unfold dcPGT at hPG'
  split at hPG'
  · simp at hPG'
  rename_i hne
  have hPG : dcPG p.baseMVA p.bus p.gen p.branch p.ref Va = some (fun g => if (p.gen g).bus ∈ p.ref ∧ (refgen p.gen (p.gen g).bus).head? = some g then
      (p.gen g).PG + (Matrix.mulVec (Bbus p.branch) Va (p.gen g).bus - dcPbus p.baseMVA p.bus p.gen p.branch (p.gen g).bus) * p.baseMVA else (p.gen g).PG) := by
    unfold dcPG
    rw [if_neg hne]
  generalize hq : (fun g => if (p.gen g).bus ∈ p.ref ∧ (refgen p.gen (p.gen g).bus).head? = some g then
      (p.gen g).PG + (Matrix.mulVec (Bbus p.branch) Va (p.gen g).bus - dcPbus p.baseMVA p.bus p.gen p.branch (p.gen g).bus) * p.baseMVA else (p.gen g).PG) = PG at hPG
  have hPG2 : PG' = fun g => trunc (PG g) := by
    injection hPG' with hPG'
    rw [← hPG', ← hq]
    funext g
    dsimp only
    split
    · rfl
    · exact (trunc_of_whole (hwp g)).symm
  subst hPG2
  obtain ⟨r, hr⟩ := hwr (dcUpd p Va PG)
  obtain ⟨bp, gp, lp, B, B'⟩ := two_bridges hs h hc' hp hr hr'
  refine ⟨_, _, _, _, p, Va, PG, bp, gp, lp, ?_, B, B', hwp, hPG⟩
  unfold runpfDc
  rw [hc', Option.bind_eq_bind, Option.bind_some, hp, Option.bind_eq_bind, Option.bind_some]
  dsimp only
  rw [← hVa, hPG, Option.bind_eq_bind, Option.bind_some, hr]
  simp [← hok]

include hw in
/-- **C113 (DC).**  The tables returned for an integer table are those of the float table with the fractions of the active outputs dropped: buses and flows are the same. -/
theorem C113_dc {ok : Bool} {R' : Index.Case Tables} (hrun : runpfDcT .int srt base lib c = some ⟨ok, some R'⟩) :
    ∃ R, runpfDc srt base lib c = some ⟨ok, some R⟩ ∧ R'.bus = R.bus ∧ R'.branch = R.branch ∧ R'.gen = R.gen.map truncPG := by
  obtain ⟨R, nb, ng, nl, p, Va, PG, bp, gp, lp, hR, B, B', -⟩ := dc_pair hs h hw hrun
  refine ⟨R, hR, bus_eq B B' fun _ _ => rfl, branch_eq B B' fun _ _ => rfl, ?_⟩
  refine gen_map B B' (fun g => { g with PG := trunc g.PG }) ?_ fun _ _ _ => rfl
  intro g
  show ({ pfOff.gen g with PG := trunc (pfOff.gen g).PG } : GenD) = pfOff.gen g
  have : (pfOff.gen g).PG = 0 := rfl
  rw [this, trunc_of_whole whole_zero]
  rfl

/-- **C113 (DC, completion).**  The run of an integer table raises exactly when that of a float table does. -/
theorem C113_dc_completes : (runpfDcT .int srt base lib c).map PfRet.success = (runpfDc srt base lib c).map PfRet.success := by
  obtain ⟨c', d2, he, -, hwr⟩ := Opf.bridge_exists hs base h
  unfold runpfDcT runpfDc
  rw [he, Option.bind_eq_bind, Option.bind_some, Option.bind_eq_bind, Option.bind_some]
  cases readPf base c' with
  | none => rfl
  | some p =>
    simp only [Option.bind_eq_bind, Option.bind_some]
    unfold dcPGT dcPG
    split
    · rfl
    · simp only [Option.bind_some]
      obtain ⟨r, hr⟩ := hwr (dcUpd p (dcpf (· ∈ p.ref) lib (Bbus p.branch) (dcPbus p.baseMVA p.bus p.gen p.branch) fun k => p.VA k * (Real.pi / 180))
        fun g => if (p.gen g).bus ∈ p.ref ∧ (refgen p.gen (p.gen g).bus).head? = some g then
          Elem.int.put ((p.gen g).PG + (Matrix.mulVec (Bbus p.branch) (dcpf (· ∈ p.ref) lib (Bbus p.branch) (dcPbus p.baseMVA p.bus p.gen p.branch) fun k => p.VA k * (Real.pi / 180))
            (p.gen g).bus - dcPbus p.baseMVA p.bus p.gen p.branch (p.gen g).bus) * p.baseMVA) else (p.gen g).PG)
      obtain ⟨r2, hr2⟩ := hwr (dcUpd p (dcpf (· ∈ p.ref) lib (Bbus p.branch) (dcPbus p.baseMVA p.bus p.gen p.branch) fun k => p.VA k * (Real.pi / 180))
        fun g => if (p.gen g).bus ∈ p.ref ∧ (refgen p.gen (p.gen g).bus).head? = some g then
          ((p.gen g).PG + (Matrix.mulVec (Bbus p.branch) (dcpf (· ∈ p.ref) lib (Bbus p.branch) (dcPbus p.baseMVA p.bus p.gen p.branch) fun k => p.VA k * (Real.pi / 180))
            (p.gen g).bus - dcPbus p.baseMVA p.bus p.gen p.branch (p.gen g).bus) * p.baseMVA) else (p.gen g).PG)
      rw [hr, hr2]
      rfl

include hw in
/-- **C113 (DC balance; partial).**  The claim is that generation, demand, shunts and flows balance at every connected bus, as for a float table (C87).  True: the outputs returned
are whole numbers, the balance holds at buses that are not slack buses, and at slack buses it is off by less than 1 MW.  Missing: the balance at slack buses, see
`C113_negation`. -/
theorem C113_dc_partial (hb : base ≠ 0) (hlib : Solves lib) (hind : Inductive c) (htied : Tied c) {ok : Bool} {R' : Index.Case Tables}
    (hrun : runpfDcT .int srt base lib c = some ⟨ok, some R'⟩) :
    ok = true ∧ (∀ g ∈ R'.gen, Whole g.data.PG) ∧ ∀ (i : ℕ) b, R'.bus[i]? = some b → b.typ ≠ 4 → (¬ IsSlack c i → dcBalance R' b = 0) ∧ |dcBalance R' b| < 1 := by
  obtain ⟨R, hR, e1, e2, e3⟩ := C113_dc hs h hw hrun
  obtain ⟨hok, hbal, -⟩ := C87_dc hs hb hlib h hR hind htied
  obtain ⟨R2, nb, ng, nl, p, Va, PG, bp, gp, lp, hR2, B, B', hwp, hPG⟩ := dc_pair hs h hw hrun
  rw [hR] at hR2; cases hR2
  refine ⟨hok, ?_, ?_⟩
  · rw [e3]
    intro g hg
    obtain ⟨g0, -, rfl⟩ := List.mem_map.1 hg
    exact trunc_whole _
  · intro i b hbi ht4
    obtain ⟨d, D, -, -, -, -, hgen⟩ := B.bridge
    obtain ⟨d', D', -, -, -, -, hgen'⟩ := B'.bridge
    have hbR : R.bus[i]? = some b := by rw [← e1]; exact hbi
    obtain ⟨b0, h0, hnum, htyp, h6, -⟩ := D.bus_at hbR
    obtain ⟨k, rfl, hbk⟩ := h6 (by rw [← htyp]; exact ht4)
    have s1 := D.genSum h h0 GenD.PG PG (fun _ _ => rfl) (fun _ => rfl)
    have s2 := D'.genSum h h0 GenD.PG (fun g => trunc (PG g)) (fun _ _ => rfl) (fun _ => rfl)
    rw [B.genFilter k _ hgen] at s1
    rw [B'.genFilter k _ hgen'] at s2
    have hz := (hbal b (List.mem_of_getElem? hbR) ht4).1
    have hdiff : dcBalance R' b = ∑ g with (p.gen g).stat > 0 ∧ (p.gen g).bus = k, (trunc (PG g) - PG g) := by
      rw [Finset.sum_sub_distrib, ← s1, ← s2]
      unfold dcBalance Opf.fromAt Opf.toAt at hz ⊢
      rw [e2, hnum] at *
      linarith
    rw [hdiff]
    have hother : ∀ g, ¬ ((p.gen g).bus ∈ p.ref ∧ (refgen p.gen (p.gen g).bus).head? = some g) → trunc (PG g) - PG g = 0 := by
      intro g hg
      unfold dcPG at hPG
      split at hPG
      · simp at hPG
      injection hPG with hPG
      have : PG g = (p.gen g).PG := by rw [← hPG]; exact if_neg hg
      rw [this, trunc_of_whole (hwp g), sub_self]
    constructor
    · intro hns
      refine Finset.sum_eq_zero fun g hg => hother g ?_
      rintro ⟨h1, -⟩
      rw [(Finset.mem_filter.1 hg).2.2] at h1
      exact hns ((B.ref k).1 h1)
    · cases hh : (refgen p.gen k).head? with
      | none =>
        rw [Finset.sum_eq_zero]
        · simp
        · intro g hg
          refine hother g ?_
          rintro ⟨-, h1⟩
          rw [(Finset.mem_filter.1 hg).2.2, hh] at h1
          simp at h1
      | some g1 =>
        have hg1 : g1 ∈ (Finset.univ.filter fun g => (p.gen g).stat > 0 ∧ (p.gen g).bus = k) := by
          rw [Finset.mem_filter]
          exact ⟨Finset.mem_univ _, (mem_refgen p.gen k g1).1 (List.mem_of_head? hh)⟩
        rw [Finset.sum_eq_single_of_mem g1 hg1]
        · rw [abs_sub_comm]; exact trunc_near _
        · intro g hg hne
          refine hother g ?_
          rintro ⟨-, h1⟩
          rw [(Finset.mem_filter.1 hg).2.2, hh] at h1
          exact hne (Option.some.inj h1).symm

end dc

/-! ## AC -/

section ac
variable {o : PfOpt} {lib : PfLib} (hq : o.qlim = false)

include hq in
/-- **C113 (AC, completion).**  With or without an integer table the run raises, fails to converge, or succeeds alike. -/
theorem C113_ac_completes : (runpfAcT .int srt base o lib c).map (fun q => (q.success, q.tables.isSome)) =
    (runpfAc srt base o lib c).map fun q => (q.success, q.tables.isSome) := by
  obtain ⟨c', d2, he, -, hwr⟩ := Opf.bridge_exists hs base h
  unfold runpfAcT runpfAc
  rw [he, Option.bind_eq_bind, Option.bind_some, Option.bind_eq_bind, Option.bind_some]
  cases readPf base c' with
  | none => rfl
  | some p =>
    simp only [Option.bind_eq_bind, Option.bind_some]
    rw [hq]
    rcases runACT_pair o.EPS o.viol (pickSolver o lib p) p with ⟨h1, h2⟩ | ⟨s, h1, h2⟩ | ⟨V, s, PG', h2, h1, -⟩
    · rw [h1, h2]; rfl
    · rw [h1, h2]; rfl
    · rw [h1, h2]
      simp only [Option.bind_some]
      obtain ⟨r1, hr1⟩ := hwr (acUpd s)
      obtain ⟨r2, hr2⟩ := hwr (acUpd { s with PG := PG', QG := newQGT .int o.EPS p.baseMVA p.bus p.gen (Ybus p.baseMVA p.bus p.branch) V })
      rw [hr1, hr2]
      rfl

include hq hw in
theorem ac_pair {ok : Bool} {R' : Index.Case Tables} (hrun : runpfAcT .int srt base o lib c = some ⟨ok, some R'⟩) :
    ∃ (R : Index.Case Tables) (nb ng nl : ℕ) (p : Case (Fin nb) (Fin nl) ng) (s : Out (Fin nb) (Fin nl) ng) (V : Fin nb → ℂ) (PG' : Fin ng → ℝ) (bp : Fin nb → ℕ)
        (gp : Fin ng → ℕ) (lp : Fin nl → ℕ),
      runpfAc srt base o lib c = some ⟨ok, some R⟩ ∧ PfBridge c R base p (acUpd s) bp gp lp ∧
      PfBridge c R' base p (acUpd { s with PG := PG', QG := newQGT .int o.EPS p.baseMVA p.bus p.gen (Ybus p.baseMVA p.bus p.branch) V }) bp gp lp ∧
      (∀ g, Whole (p.gen g).PG) ∧ s.QG = newQG o.EPS p.baseMVA p.bus p.gen (Ybus p.baseMVA p.bus p.branch) V ∧
      newPG p.baseMVA p.bus p.gen (Ybus p.baseMVA p.bus p.branch) V p.ref (fun g => (p.gen g).PG) = some s.PG ∧
      newPGT .int p.baseMVA p.bus p.gen (Ybus p.baseMVA p.bus p.branch) V p.ref (fun g => (p.gen g).PG) = some PG' := by
  unfold runpfAcT at hrun
  simp only [Option.bind_eq_bind, Option.bind_eq_some_iff] at hrun
  obtain ⟨c', hc', p, hp, q, hq1, e⟩ := hrun
  cases q with
  | nan s => simp at e
  | ok s' =>
    simp only [Option.map_eq_some_iff, PfRet.mk.injEq, Option.some.injEq] at e
    obtain ⟨r', hr', e1, rfl⟩ := e
    rw [hq] at hq1
    rcases runACT_pair o.EPS o.viol (pickSolver o lib p) p with ⟨h1, h2⟩ | ⟨s, h1, h2⟩ | ⟨V, s, PG', h2, h1, h3, h4, h5⟩
    · rw [h1] at hq1; simp at hq1
    · rw [h1] at hq1; simp at hq1
    · rw [h1] at hq1
      injection hq1 with hq1
      injection hq1 with hq1
      subst hq1
      obtain ⟨c2, d2, he2, -, hwr⟩ := Opf.bridge_exists hs base h
      rw [hc'] at he2; cases he2
      obtain ⟨r, hr⟩ := hwr (acUpd s)
      obtain ⟨bp, gp, lp, B, B'⟩ := two_bridges hs h hc' hp hr hr'
      refine ⟨_, _, _, _, p, s, V, PG', bp, gp, lp, ?_, B, B', ?_, h3, h4, h5⟩
      · unfold runpfAc
        rw [hc', Option.bind_eq_bind, Option.bind_some, hp, Option.bind_eq_bind, Option.bind_some, hq, h2, Option.bind_eq_bind, Option.bind_some]
        dsimp only
        rw [hr]
        simp [← e1]
      · intro g
        obtain ⟨g0, h6, -, h7, -⟩ := B.gen g
        rw [h7]
        exact (hw g0 (List.mem_of_getElem? h6)).1

include hq hw in
/-- **C113 (AC).**  The tables returned for an integer table: buses, flows and all inputs as for the float table; active outputs at buses that are not slack buses too; at a slack bus
the total of the active outputs is that of the float table with the fraction dropped; the totals of the reactive outputs differ by less than one unit for the bus and two for each
generator in service there. -/
theorem C113_ac {ok : Bool} {R' : Index.Case Tables} (hrun : runpfAcT .int srt base o lib c = some ⟨ok, some R'⟩) :
    ∃ R, runpfAc srt base o lib c = some ⟨ok, some R⟩ ∧ R'.bus = R.bus ∧ R'.branch = R.branch ∧ R'.gen.map pfGenInput = R.gen.map pfGenInput ∧
      (∀ g ∈ R'.gen, Whole g.data.PG ∧ Whole g.data.QG) ∧
      ∀ (i : ℕ) b, R'.bus[i]? = some b → b.typ ≠ 4 →
        (¬ IsSlack c i → genAt R' b.num GenD.PG = genAt R b.num GenD.PG) ∧ (IsSlack c i → genAt R' b.num GenD.PG = trunc (genAt R b.num GenD.PG)) ∧
        (¬ HasGenOn c b.num → genAt R' b.num GenD.QG = genAt R b.num GenD.QG) ∧
        (0 ≤ o.EPS → genOnAt c b.num GenD.QMIN ≤ genOnAt c b.num GenD.QMAX →
          |genAt R' b.num GenD.QG - genAt R b.num GenD.QG| < 2 * genOnAt c b.num (fun _ => 1) + 1) := by
  obtain ⟨R, nb, ng, nl, p, s, V, PG', bp, gp, lp, hR, B, B', hwp, hQ, hPG, hPG'⟩ := ac_pair hs h hw hq hrun
  obtain ⟨d, D, hbase, -, -, -, hgen⟩ := B.bridge
  obtain ⟨d', D', -, -, -, -, hgen'⟩ := B'.bridge
  have e1 : R'.bus = R.bus := bus_eq B B' fun _ _ => rfl
  have hin : R.bus.map pfBusInput = c.bus.map pfBusInput ∧ R.gen.map pfGenInput = c.gen.map pfGenInput ∧ R.branch.map pfBranchInput = c.branch.map pfBranchInput ∧
      (∀ g ∈ R.gen, ¬ GenInService R g → g.data.PG = 0 ∧ g.data.QG = 0) ∧
      (∀ l ∈ R.branch, ¬ BranchInService R l → l.data.PF = 0 ∧ l.data.QF = 0 ∧ l.data.PT = 0 ∧ l.data.QT = 0) :=
    D.kept (fun _ _ => rfl) (fun _ _ => rfl) (fun _ _ => rfl) (fun _ => ⟨rfl, rfl, rfl⟩) (fun _ => ⟨rfl, rfl, rfl, rfl, rfl⟩)
  have hin' : R'.bus.map pfBusInput = c.bus.map pfBusInput ∧ R'.gen.map pfGenInput = c.gen.map pfGenInput ∧ R'.branch.map pfBranchInput = c.branch.map pfBranchInput ∧
      (∀ g ∈ R'.gen, ¬ GenInService R' g → g.data.PG = 0 ∧ g.data.QG = 0) ∧
      (∀ l ∈ R'.branch, ¬ BranchInService R' l → l.data.PF = 0 ∧ l.data.QF = 0 ∧ l.data.PT = 0 ∧ l.data.QT = 0) :=
    D'.kept (fun _ _ => rfl) (fun _ _ => rfl) (fun _ _ => rfl) (fun _ => ⟨rfl, rfl, rfl⟩) (fun _ => ⟨rfl, rfl, rfl, rfl, rfl⟩)
  refine ⟨R, hR, e1, branch_eq B B' fun _ _ => rfl, hin'.2.1.trans hin.2.1.symm, ?_, ?_⟩
  · intro g hg
    obtain ⟨j, hj⟩ := List.getElem?_of_mem hg
    obtain ⟨g0, h0, -, -, h3, h4⟩ := D'.gen_at hj
    by_cases hon : GenInService c g0
    · obtain ⟨k, -, rfl⟩ := h3 hon
      exact ⟨newPGT_whole _ _ _ _ _ _ hwp hPG' k, newQGT_whole _ _ _ _ _ _ k⟩
    · rw [h4 hon]
      exact ⟨whole_zero, whole_zero⟩
  · intro i b hbi ht4
    have hbR : R.bus[i]? = some b := by rw [← e1]; exact hbi
    obtain ⟨b0, h0, hnum, htyp, h6, -⟩ := D.bus_at hbR
    obtain ⟨k, rfl, hbk⟩ := h6 (by rw [← htyp]; exact ht4)
    have s1 := D.genSum h h0 GenD.PG s.PG (fun _ _ => rfl) (fun _ => rfl)
    have s2 := D'.genSum h h0 GenD.PG PG' (fun _ _ => rfl) (fun _ => rfl)
    have t1 := D.genSum h h0 GenD.QG s.QG (fun _ _ => rfl) (fun _ => rfl)
    have t2 := D'.genSum h h0 GenD.QG (newQGT .int o.EPS p.baseMVA p.bus p.gen (Ybus p.baseMVA p.bus p.branch) V) (fun _ _ => rfl) (fun _ => rfl)
    rw [B.genFilter k _ hgen] at s1 t1
    rw [B'.genFilter k _ hgen'] at s2 t2
    rw [hnum, s1, s2, t1, t2, hQ]
    have hPG2 := hPG'
    rw [newPGT_int _ _ _ _ _ _ hwp] at hPG2
    obtain ⟨sp1, sp2⟩ := newPG_spec _ _ _ _ _ _ _ _ hPG
    obtain ⟨sq1, sq2⟩ := newPG_spec _ _ _ _ _ _ _ _ hPG2
    refine ⟨fun hns => ?_, fun hsl => ?_, fun hng => ?_, fun hE hle => ?_⟩
    · refine Finset.sum_congr rfl fun g hg => ?_
      have hgk := (Finset.mem_filter.1 hg).2
      have hne : ∀ r ∈ p.ref, (refgen p.gen r).head? ≠ some g := by
        intro r hr hh
        have := (mem_refgen p.gen r g).1 (List.mem_of_head? hh)
        rw [hgk.2] at this
        rw [← this.2] at hr
        exact hns ((B.ref k).1 hr)
      rw [sp2 g hne, sq2 g hne]
    · have hk := (B.ref k).2 hsl
      have f1 := sp1 k (Or.inl hk)
      have f2 := sq1 k (Or.inl hk)
      unfold atBus at f1 f2
      rw [f1, f2]
      ring
    · rw [Finset.sum_eq_zero, Finset.sum_eq_zero] <;>
      · intro g hg
        exact absurd ((B.hasGen k b0 h0).1 ⟨g, (Finset.mem_filter.1 hg).2⟩) hng
    · have hlo : genOnAt c b0.num GenD.QMIN = atBus p.gen (fun g => (p.gen g).QMIN) k := by
        refine B.genOnSum h h0 _ _ fun q g hq => ?_
        obtain ⟨g1, h1, -, -, -, -, -, -, h2, -⟩ := D.gen q
        rw [hq] at h1; cases h1
        rw [hgen, ← h2]
      have hhi : genOnAt c b0.num GenD.QMAX = atBus p.gen (fun g => (p.gen g).QMAX) k := by
        refine B.genOnSum h h0 _ _ fun q g hq => ?_
        obtain ⟨g1, h1, -, -, -, -, -, -, -, h2⟩ := D.gen q
        rw [hq] at h1; cases h1
        rw [hgen, ← h2]
      have hone : genOnAt c b0.num (fun _ => 1) = atBus p.gen (fun _ => 1) k := B.genOnSum h h0 _ _ fun _ _ _ => rfl
      rw [hone]
      by_cases hex : ∃ g, (p.gen g).stat > 0 ∧ (p.gen g).bus = k
      · exact newQGT_near _ _ _ _ _ hE k hex (by rw [← hlo, ← hhi]; exact hle)
      · have hempty : (Finset.univ.filter fun g => (p.gen g).stat > 0 ∧ (p.gen g).bus = k) = ∅ :=
          Finset.filter_eq_empty_iff.2 fun g _ hg => hex ⟨g, hg⟩
        unfold atBus
        simp [hempty]

include hq hw in
/-- **C113 (AC balance; partial).**  The claim is the balance of C87.  True for a successful run: it holds at buses that are not slack buses, and at slack buses it is off by less than
1 MW; the reactive one holds at buses without generators.  Missing: slack buses, and generator buses for reactive power (`C113_ac` bounds the error). -/
theorem C113_ac_partial (hb : 0 < base) {R' : Index.Case Tables} (hrun : runpfAcT .int srt base o lib c = some ⟨true, some R'⟩) :
    ∀ (i : ℕ) b, R'.bus[i]? = some b → b.typ ≠ 4 →
      (¬ IsSlack c i → |acBalanceP R' b| < tolAt o b.data.VM * base) ∧ (IsSlack c i → |acBalanceP R' b| < 1) ∧
      (¬ HasGenOn c b.num → |acBalanceQ R' b| < tolAt o b.data.VM * base) := by
  obtain ⟨R, hR, e1, e2, -, -, h5⟩ := C113_ac hs h hw hq hrun
  intro i b hbi ht4
  obtain ⟨a1, a2, a3⟩ := C87_ac hs hb h hR rfl i b (by rw [← e1]; exact hbi) ht4
  obtain ⟨c1, c2, c3, -⟩ := h5 i b hbi ht4
  have eP : acBalanceP R' b = acBalanceP R b + (genAt R' b.num GenD.PG - genAt R b.num GenD.PG) := by
    unfold acBalanceP Opf.fromAt Opf.toAt
    rw [e2]; ring
  have eQ : acBalanceQ R' b = acBalanceQ R b + (genAt R' b.num GenD.QG - genAt R b.num GenD.QG) := by
    unfold acBalanceQ Opf.fromAt Opf.toAt
    rw [e2]; ring
  refine ⟨fun hns => ?_, fun hsl => ?_, fun hng => ?_⟩
  · rw [eP, c1 hns, sub_self, add_zero]; exact a1 hns
  · rw [eP, a2 hsl, zero_add, c2 hsl, abs_sub_comm]; exact trunc_near _
  · rw [eQ, c3 hng, sub_self, add_zero]; exact a3 hng

end ac

end

end Verif.DType
