import Verif.Runpf.LimitLemmas
import Verif.Opf.RunProps

/-!
# C141: power flows ignore limits, ratings, prices, costs and user constraints
-/

namespace Verif.Runpf

open Verif.Network Verif.Pfsoln Verif.Solvers
open Verif.Index (BusRow GenRow BranchRow IsArgsort WF GenInService)
open Verif.Opf (Tables BusD GenD BrD Upd write zeroOff readCase bridge_exists readAs writeAs exists_as map_eq_len)

noncomputable section

theorem dc_via {nb ng nl : ℕ} {srt : List ℕ → List ℕ} {base : ℝ} {lib : DcLib} {c c' : Index.Case Tables} (he : Index.ext2int srt c = some c')
    (hb : c'.bus.length = nb) (hg : c'.gen.length = ng) (hl : c'.branch.length = nl) :
    runpfDc srt base lib c = (readPfAs base c' hb hg hl).bind fun p =>
      let Va := Pfsoln.dcpf (· ∈ p.ref) lib (Bbus p.branch) (Pfsoln.dcPbus p.baseMVA p.bus p.gen p.branch) fun k => p.VA k * (Real.pi / 180)
      (Pfsoln.dcPG p.baseMVA p.bus p.gen p.branch p.ref Va).bind fun PG =>
        (Index.int2ext (writeAs c' hb hg hl (dcUpd p Va PG))).bind fun r => some ⟨true, some (zeroOff pfOff r)⟩ := by
  subst hb hg hl
  unfold runpfDc
  rw [he]
  rfl

/-- **C141 (AC).**  Two cases whose tables differ only in voltage limits, limits of active power, ratings, prices, multipliers and further columns, with any costs, user matrices and areas:
every algorithm raises, diverges or succeeds alike, and the returned rows differ only in these columns. -/
theorem C141_ac {srt : List ℕ → List ℕ} (hs : IsArgsort srt) (base : ℝ) {c1 c2 : Index.Case Tables} (w : WF c1) (w2 : WF c2) (h : SameFlowData c1 c2) (o : PfOpt) (lib : PfLib) :
    Option.Rel (fun r1 r2 : PfRet => r2.success = r1.success ∧ Option.Rel SameFlowData r1.tables r2.tables) (runpfAc srt base o lib c1) (runpfAc srt base o lib c2) := by
  obtain ⟨c1', c2', he1, he2, S'⟩ := h.internal hs w w2
  obtain ⟨_, d, he', hd, -⟩ := bridge_exists hs base w
  rw [he1] at he'; cases he'
  obtain ⟨_, d2', he', hd2', -⟩ := bridge_exists hs base w2
  rw [he2] at he'; cases he'
  have hb : c2'.bus.length = c1'.bus.length := (map_eq_len S'.bus).symm
  have hg : c2'.gen.length = c1'.gen.length := (map_eq_len S'.gen).symm
  have hl : c2'.branch.length = c1'.branch.length := (map_eq_len S'.branch).symm
  obtain ⟨d2, hd2⟩ := readAs_exists ⟨d2', hd2'⟩ hb hg hl
  have hread := read_limits (base := base) S' hb hg hl
  rw [runpfAc_via he1 rfl rfl rfl, runpfAc_via he2 hb hg hl, hread]
  show Option.Rel _ ((readPf base c1').bind _) _
  cases hp : readPf base c1' with
  | none => exact .none
  | some p =>
  simp only [Option.bind_some]
  cases hq : runAC o.EPS o.viol o.qlim (pickSolver o lib p) p with
  | none => exact .none
  | some q =>
  cases q with
  | nan s => exact .some ⟨rfl, .none⟩
  | ok s =>
  simp only [Option.bind_some]
  obtain ⟨r1, hr1⟩ := exists_as hs w he1 (hb := rfl) (hg := rfl) (hl := rfl) (acUpd s)
  obtain ⟨r2, hr2⟩ := exists_as hs w2 he2 (hb := hb) (hg := hg) (hl := hl) (acUpd s)
  have hfin := same_limit_results hs w w2 h he1 he2 (h1b := rfl) (h1g := rfl) (h1l := rfl) hd hd2 (acUpd s)
    (fun k b1 b2 e => (congrArg (fun b : BusRow BusD => ({ b with data := { b.data with VM := s.VM k, VA := s.VA k } } : BusRow BusD)) e).symm)
    (fun k b1 b2 e => (congrArg (fun b : GenRow GenD => ({ b with data := { b.data with PG := s.PG k, QG := s.QG k } } : GenRow GenD)) e).symm)
    (fun k b1 b2 e => (congrArg (fun b : BranchRow BrD => ({ b with data := { b.data with PF := (s.Sf k).re, QF := (s.Sf k).im, PT := (s.St k).re, QT := (s.St k).im } } : BranchRow BrD)) e).symm)
    hr1 hr2
  rw [hr1, hr2]
  exact .some ⟨rfl, .some hfin⟩

/-- **C141 (DC).**  The same for the DC power flow. -/
theorem C141_dc {srt : List ℕ → List ℕ} (hs : IsArgsort srt) (base : ℝ) {c1 c2 : Index.Case Tables} (w : WF c1) (w2 : WF c2) (h : SameFlowData c1 c2) (lib : DcLib) :
    Option.Rel (fun r1 r2 : PfRet => r2.success = r1.success ∧ Option.Rel SameFlowData r1.tables r2.tables) (runpfDc srt base lib c1) (runpfDc srt base lib c2) := by
  obtain ⟨c1', c2', he1, he2, S'⟩ := h.internal hs w w2
  obtain ⟨_, d, he', hd, -⟩ := bridge_exists hs base w
  rw [he1] at he'; cases he'
  obtain ⟨_, d2', he', hd2', -⟩ := bridge_exists hs base w2
  rw [he2] at he'; cases he'
  have hb : c2'.bus.length = c1'.bus.length := (map_eq_len S'.bus).symm
  have hg : c2'.gen.length = c1'.gen.length := (map_eq_len S'.gen).symm
  have hl : c2'.branch.length = c1'.branch.length := (map_eq_len S'.branch).symm
  obtain ⟨d2, hd2⟩ := readAs_exists ⟨d2', hd2'⟩ hb hg hl
  have hread := read_limits (base := base) S' hb hg hl
  rw [dc_via he1 rfl rfl rfl, dc_via he2 hb hg hl, hread]
  show Option.Rel _ ((readPf base c1').bind _) _
  cases hp : readPf base c1' with
  | none => exact .none
  | some p =>
  simp only [Option.bind_some]
  generalize Pfsoln.dcpf (· ∈ p.ref) lib (Bbus p.branch) (Pfsoln.dcPbus p.baseMVA p.bus p.gen p.branch) (fun k => p.VA k * (Real.pi / 180)) = Va
  cases Pfsoln.dcPG p.baseMVA p.bus p.gen p.branch p.ref Va with
  | none => exact .none
  | some PG =>
  simp only [Option.bind_some]
  obtain ⟨r1, hr1⟩ := exists_as hs w he1 (hb := rfl) (hg := rfl) (hl := rfl) (dcUpd p Va PG)
  obtain ⟨r2, hr2⟩ := exists_as hs w2 he2 (hb := hb) (hg := hg) (hl := hl) (dcUpd p Va PG)
  have hfin := same_limit_results hs w w2 h he1 he2 (h1b := rfl) (h1g := rfl) (h1l := rfl) hd hd2 (dcUpd p Va PG)
    (fun k b1 b2 e => (congrArg (fun b : BusRow BusD => ({ b with data := (dcUpd p Va PG).bus k b.data } : BusRow BusD)) e).symm)
    (fun k b1 b2 e => (congrArg (fun b : GenRow GenD => ({ b with data := (dcUpd p Va PG).gen k b.data } : GenRow GenD)) e).symm)
    (fun k b1 b2 e => (congrArg (fun b : BranchRow BrD => ({ b with data := (dcUpd p Va PG).branch k b.data } : BranchRow BrD)) e).symm)
    hr1 hr2
  rw [hr1, hr2]
  exact .some ⟨rfl, .some hfin⟩

/-! ### A concrete case -/

/-- `exTables` with other limits, ratings, prices and further columns, and with a user constraint. -/
def exLimits : Index.Case Tables where
  bus := [⟨9, 3, ⟨0, 0, 0, 0, 1, 5, 1.2, 0.8, 40, 1, 0, 0, [230]⟩⟩, ⟨7, 4, ⟨10, 5, 0, 0, 1, 0, 1.1, 0.7, 0, 0, 0, 0, []⟩⟩,
    ⟨2, 1, ⟨90, 30, 1, 2, 1, 0, 1.05, 0.9, 41, 0, 2, 3, []⟩⟩]
  gen := [⟨2, 1, ⟨10, 0, 50, -50, 1, 9, 8, 0, 6, 0, 0, [1, 2]⟩⟩, ⟨7, 1, ⟨5, 1, 50, -50, 1, 100, 10, 0, 0, 0, 0, []⟩⟩,
    ⟨9, 1, ⟨80, 0, 50, -50, 1, 70, 10, 5, 0, 0, 0, []⟩⟩, ⟨9, 0, ⟨7, 3, 50, -50, 1, 100, 20, 4, 0, 0, 0, []⟩⟩]
  branch := [⟨9, 2, 1, ⟨0.01, 0.1, 0.02, 1, 0, 0, 0, 0, 0, 0, 5, 0, 0, 0, [-30, 30]⟩⟩, ⟨9, 7, 1, ⟨0.01, 0.1, 0.02, 60, 0, 0, 8, 0, 0, 0, 0, 0, 0, 0, []⟩⟩,
    ⟨2, 9, 0, ⟨0.01, 0.1, 0.02, 0, 0, 0, 0, 9, 0, 0, 0, 0, 0, 0, []⟩⟩]
  areas := none
  gencost := none
  A := some ⟨true, List.replicate 14 [1]⟩
  N := none
  order := none

example : WF Opf.exTables ∧ WF exLimits ∧ SameFlowData Opf.exTables exLimits := by
  refine ⟨Opf.exTables_wf, ?_, ⟨by simp [Opf.exTables, exLimits, noBusLimits], by simp [Opf.exTables, exLimits, noGenLimits], by simp [Opf.exTables, exLimits, noBranchLimits]⟩⟩
  exact
  { busNodup := by simp [exLimits]
    typValid := by simp [exLimits]
    someOn := ⟨_, List.mem_cons_self, by decide⟩
    genRef := by simp [exLimits, Index.HasBus]
    fRef := by simp [exLimits, Index.HasBus]
    tRef := by simp [exLimits, Index.HasBus]
    areaRef := by simp [exLimits]
    costRows := by simp [exLimits]
    aCols := by simp [exLimits, Index.minCols, Index.isDC]
    nCols := by simp [exLimits]
    notInternal := by simp [exLimits] }

end

end Verif.Runpf
