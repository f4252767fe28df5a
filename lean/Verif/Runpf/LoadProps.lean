import Verif.Runpf.LoadLemmas
import Verif.Opf.RunProps

/-!
# C140: AC power flows depend on net injections only
-/

namespace Verif.Runpf

open Verif.Network Verif.Pfsoln Verif.Solvers
open Verif.Index (BusRow GenRow BranchRow IsArgsort WF GenInService)
open Verif.Opf (Tables BusD GenD BrD Upd write zeroOff readCase bridge_exists readAs exists_as map_eq_len)

noncomputable section

/-- **C140.**  Two cases with the same net injections, and reactive power limits not enforced: every algorithm raises, diverges or succeeds alike, and returns the same bus rows but
for the loads, and the same branch rows: the same voltages everywhere and the same flows. -/
theorem C140_net_injections {srt : List ℕ → List ℕ} (hs : IsArgsort srt) (base : ℝ) {c1 c2 : Index.Case Tables} (w : WF c1) (w2 : WF c2) (h : SameNet c1 c2) (o : PfOpt)
    (hq : o.qlim = false) (lib : PfLib) :
    Option.Rel (fun r1 r2 : PfRet => r2.success = r1.success ∧
      Option.Rel (fun R1 R2 : Index.Case Tables => R2.bus.map noLoad = R1.bus.map noLoad ∧ R2.branch = R1.branch) r1.tables r2.tables)
      (runpfAc srt base o lib c1) (runpfAc srt base o lib c2) := by
  have S := h.keys
  obtain ⟨c1', c2', he1, he2, S'⟩ := S.internal hs w w2
  obtain ⟨_, d, he', hd, -⟩ := bridge_exists hs base w
  rw [he1] at he'; cases he'
  obtain ⟨_, d2', he', hd2', -⟩ := bridge_exists hs base w2
  rw [he2] at he'; cases he'
  have hb : c2'.bus.length = c1'.bus.length := (map_eq_len S'.bus).symm
  have hg : c2'.gen.length = c1'.gen.length := (map_eq_len S'.gen).symm
  have hl : c2'.branch.length = c1'.branch.length := (map_eq_len S'.branch).symm
  obtain ⟨d2, hd2⟩ := readAs_exists ⟨d2', hd2'⟩ hb hg hl
  have hread := read_net (base := base) S' hb hg hl
  rw [runpfAc_via he1 rfl rfl rfl, runpfAc_via he2 hb hg hl]
  show Option.Rel _ ((readPf base c1').bind _) _
  cases hp : readPf base c1' with
  | none =>
    rw [hread, hp]
    exact .none
  | some p =>
  rw [hp, Option.map_some] at hread
  rw [hread]
  simp only [Option.bind_some]
  set p2 := netted p (fun k => (c2'.bus[(k : ℕ)]'(k.isLt.trans_eq hb.symm)).data.PD) (fun k => (c2'.bus[(k : ℕ)]'(k.isLt.trans_eq hb.symm)).data.QD)
    (fun k => (c2'.gen[(k : ℕ)]'(k.isLt.trans_eq hg.symm)).data.PG) (fun k => (c2'.gen[(k : ℕ)]'(k.isLt.trans_eq hg.symm)).data.QG) with hp2
  set u0 : Upd c1'.bus.length c1'.gen.length c1'.branch.length := ⟨fun _ b => b, fun _ g => g, fun _ l => l⟩
  obtain ⟨r01, hr01⟩ := exists_as hs w he1 (hb := rfl) (hg := rfl) (hl := rfl) u0
  obtain ⟨r02, hr02⟩ := exists_as hs w2 he2 (hb := hb) (hg := hg) (hl := hl) u0
  obtain ⟨bp, gp, lp, B, pb1, -, -⟩ := pf_bridge_as hs w he1 (hb := rfl) (hg := rfl) (hl := rfl) hp u0 hr01
  obtain ⟨bp2, gp2, lp2, B2, pb2, -, -⟩ := pf_bridge_as hs w2 he2 hread u0 hr02
  have ebp : ∀ i, bp2 i = bp i := fun i => Option.some.inj ((pb2 i).symm.trans (by rw [← S.pos]; exact pb1 i))
  -- loads and outputs, seen from the tables
  have look : ∀ k, ∃ b1 b2 : BusRow BusD, c1.bus[bp k]? = some b1 ∧ c2.bus[bp k]? = some b2 ∧ b1.typ ≠ 4 ∧
      (genOnAt c1 b1.num (·.PG) - b1.data.PD = atBus p.gen (fun g => (p.gen g).PG) k - (p.bus k).PD ∧
        genOnAt c1 b1.num (·.QG) - b1.data.QD = atBus p.gen (fun g => (p.gen g).QG) k - (p.bus k).QD) ∧
      genOnAt c2 b2.num (·.PG) - b2.data.PD = atBus p.gen (fun g => (p2.gen g).PG) k - (p2.bus k).PD ∧
        genOnAt c2 b2.num (·.QG) - b2.data.QD = atBus p.gen (fun g => (p2.gen g).QG) k - (p2.bus k).QD := by
    intro k
    obtain ⟨d1, D, -, hbus, -⟩ := B.bridge
    obtain ⟨d2, D2, -, hbus2, -⟩ := B2.bridge
    obtain ⟨b1, x1, x2, -, x3, -⟩ := D.bus k
    obtain ⟨b2, y1, y2, -, y3, -⟩ := D2.bus k
    have s1 := B.genOnSum w x1 (·.PG) (fun g => (p.gen g).PG) fun q g hg => by
      obtain ⟨g', z1, -, z2, -⟩ := B.gen q
      rw [hg] at z1; cases z1; exact z2.symm
    have s2 := B.genOnSum w x1 (·.QG) (fun g => (p.gen g).QG) fun q g hg => by
      obtain ⟨g', z1, -, -, z2⟩ := B.gen q
      rw [hg] at z1; cases z1; exact z2.symm
    have s3 := B2.genOnSum w2 y1 (·.PG) (fun g => (p2.gen g).PG) fun q g hg => by
      obtain ⟨g', z1, -, z2, -⟩ := B2.gen q
      rw [hg] at z1; cases z1; exact z2.symm
    have s4 := B2.genOnSum w2 y1 (·.QG) (fun g => (p2.gen g).QG) fun q g hg => by
      obtain ⟨g', z1, -, -, z2⟩ := B2.gen q
      rw [hg] at z1; cases z1; exact z2.symm
    refine ⟨b1, b2, x1, ebp k ▸ y1, x2, ⟨?_, ?_⟩, ?_, ?_⟩
    · rw [s1, hbus, x3]; rfl
    · rw [s2, hbus, x3]; rfl
    · rw [s3, hbus2, y3]; rfl
    · rw [s4, hbus2, y3]; rfl
  have hrel := runAC_netted o hq lib p (fun k => (p2.bus k).PD) (fun k => (p2.bus k).QD) (fun g => (p2.gen g).PG) (fun g => (p2.gen g).QG) (fun k hk => by
      obtain ⟨b1, b2, x1, x2, x3, x4, x5⟩ := look k
      rw [← x4.1, ← x5.1]
      refine h.active _ b1 b2 x1 x2 x3 fun hsl => ?_
      rcases hk with hk | hk
      · exact ((B.pv k).1 hk).2 hsl
      · obtain ⟨x, t1, t2, t3⟩ := hsl
        exact (B.pq k).1 hk ⟨x, t1, t3.elim Or.inr fun x => Or.inl x.1, t2⟩) fun k hk => by
      obtain ⟨b1, b2, x1, x2, x3, x4, x5⟩ := look k
      rw [← x4.2, ← x5.2]
      exact h.reactive _ b1 b2 x1 x2 x3 ((B.pq k).1 hk)
  change Option.Rel SameRes _ (runAC o.EPS o.viol o.qlim (pickSolver o lib p2) p2) at hrel
  revert hrel
  generalize runAC o.EPS o.viol o.qlim (pickSolver o lib p) p = q1
  generalize runAC o.EPS o.viol o.qlim (pickSolver o lib p2) p2 = q2
  intro hrel
  cases hrel with
  | none => exact .none
  | @some q1 q2 hq12 =>
  simp only [Option.bind_some]
  cases q1 with
  | nan s =>
    cases q2 with
    | nan s2 => exact .some ⟨hq12, .none⟩
    | ok s2 => exact hq12.elim
  | ok s =>
  cases q2 with
  | nan s2 => exact hq12.elim
  | ok s2 =>
  obtain ⟨e0, e1, e2, e3, e4⟩ := hq12
  obtain ⟨r1, hr1⟩ := exists_as hs w he1 (hb := rfl) (hg := rfl) (hl := rfl) (acUpd s)
  obtain ⟨r2, hr2⟩ := exists_as hs w2 he2 (hb := hb) (hg := hg) (hl := hl) (acUpd s2)
  have hfin := same_net_results hs w w2 S he1 he2 (h1b := rfl) (h1g := rfl) (h1l := rfl) hd hd2 (acUpd s) (acUpd s2)
    (fun k b1 b2 e => by
      have := (congrArg (fun b : BusRow BusD => ({ b with data := { b.data with VM := s.VM k, VA := s.VA k } } : BusRow BusD)) e).symm
      simp only [acUpd, e1, e2]
      exact this)
    (fun k b1 b2 e => by
      have := (congrArg (fun b : BranchRow BrD => ({ b with data := { b.data with PF := (s.Sf k).re, QF := (s.Sf k).im, PT := (s.St k).re, QT := (s.St k).im } } : BranchRow BrD)) e).symm
      simp only [acUpd, e3, e4]
      exact this)
    hr1 hr2
  show Option.Rel _ ((Index.int2ext _).map _) ((Index.int2ext _).map _)
  erw [hr1, hr2]
  exact .some ⟨e0, .some hfin⟩

/-! ### A concrete case -/

/-- `exTables` with other loads: 25 MW and 3 MVAr more at bus 2, met by its own generator; more load at the slack bus, and at the isolated bus. -/
def exLoads : Index.Case Tables where
  bus := [⟨9, 3, ⟨40, 15, 0, 0, 1, 5, 1.1, 0.9, 0, 0, 0, 0, []⟩⟩, ⟨7, 4, ⟨11, 6, 0, 0, 1, 0, 1.1, 0.9, 0, 0, 0, 0, []⟩⟩,
    ⟨2, 1, ⟨115, 33, 1, 2, 1, 0, 1.1, 0.9, 0, 0, 0, 0, [345]⟩⟩]
  gen := [⟨2, 1, ⟨35, 3, 50, -50, 1, 100, 10, 0, 0, 0, 0, []⟩⟩, ⟨7, 1, ⟨5, 1, 50, -50, 1, 100, 10, 0, 0, 0, 0, []⟩⟩,
    ⟨9, 1, ⟨60, 0, 50, -50, 1, 200, 10, 0, 0, 0, 0, []⟩⟩, ⟨9, 0, ⟨7, 3, 50, -50, 1, 100, 10, 4, 0, 0, 0, []⟩⟩]
  branch := Opf.exTables.branch
  areas := none
  gencost := none
  A := none
  N := none
  order := none

theorem exLoads_wf : WF exLoads where
  busNodup := by simp [exLoads]
  typValid := by simp [exLoads]
  someOn := ⟨_, List.mem_cons_self, by decide⟩
  genRef := by simp [exLoads, Index.HasBus]
  fRef := by simp [exLoads, Opf.exTables, Index.HasBus]
  tRef := by simp [exLoads, Opf.exTables, Index.HasBus]
  areaRef := by simp [exLoads]
  costRows := by simp [exLoads]
  aCols := by simp [exLoads]
  nCols := by simp [exLoads]
  notInternal := by simp [exLoads]

example : SameNet Opf.exTables exLoads := by
  have hon : HasGenOn Opf.exTables 9 := ⟨⟨9, 1, ⟨80, 0, 50, -50, 1, 200, 10, 0, 0, 0, 0, []⟩⟩, by simp [Opf.exTables],
    by simp [GenInService, Index.Connected, Opf.exTables], rfl⟩
  have hc : IsControlled Opf.exTables 0 := ⟨_, rfl, Or.inr rfl, hon⟩
  have hsl : IsSlack Opf.exTables 0 := ⟨_, rfl, hon, Or.inl rfl⟩
  refine ⟨by simp [Opf.exTables, exLoads, noLoad], by simp [Opf.exTables, exLoads, pfGenInput], rfl, rfl, rfl, rfl, ?_, ?_⟩
  · rintro (_ | _ | _ | i) b1 b2 h1 h2 ht hn <;> simp [Opf.exTables, exLoads] at h1 h2 <;> subst h1 h2
    · exact absurd hsl hn
    · exact absurd rfl ht
    · simp [genOnAt, GenInService, Index.Connected, Opf.exTables, exLoads]
      norm_num
  · rintro (_ | _ | _ | i) b1 b2 h1 h2 ht hn <;> simp [Opf.exTables, exLoads] at h1 h2 <;> subst h1 h2
    · exact absurd hc hn
    · exact absurd rfl ht
    · simp [genOnAt, GenInService, Index.Connected, Opf.exTables, exLoads]
      norm_num

end

end Verif.Runpf
