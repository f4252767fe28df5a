import Verif.Runpf.OnOffLemmas
import Verif.Runpf.LimitProps

/-!
# C142: the status of a generator is only on or off
-/

namespace Verif.Runpf

open Verif.Network Verif.Pfsoln Verif.Solvers
open Verif.Index (BusRow GenRow BranchRow IsArgsort WF GenInService)
open Verif.Opf (Tables BusD GenD BrD Upd write zeroOff readCase bridge_exists readAs writeAs exists_as map_eq_len)

noncomputable section

theorem read_stat {base : ℝ} {c' : Index.Case Tables} {p : Case (Fin c'.bus.length) (Fin c'.branch.length) c'.gen.length} (hp : readPf base c' = some p) (k : Fin c'.gen.length) :
    (p.gen k).stat = (c'.gen[(k : ℕ)].status : ℝ) := by
  unfold readPf readCase at hp
  split at hp
  · simp only [Option.bind_eq_bind, Option.bind_some, Option.bind_eq_some_iff] at hp
    obtain ⟨t, -, e⟩ := hp
    cases e
    rfl
  · cases hp

/-- **C142 (AC).**  Two cases with the same generators on, said by any positive numbers (off: by any others): every algorithm raises, diverges or succeeds alike, and returns the same rows
but for the status numbers (and for the columns of C141), each row keeping its own. -/
theorem C142_ac {srt : List ℕ → List ℕ} (hs : IsArgsort srt) (base : ℝ) {c1 c2 : Index.Case Tables} (w : WF c1) (w2 : WF c2) (h : SameOnOff c1 c2) (o : PfOpt) (lib : PfLib) :
    Option.Rel (fun r1 r2 : PfRet => r2.success = r1.success ∧ Option.Rel SameOnOff r1.tables r2.tables) (runpfAc srt base o lib c1) (runpfAc srt base o lib c2) := by
  obtain ⟨c1', c2', he1, he2, S'⟩ := h.internal hs w w2
  obtain ⟨_, d, he', hd, -⟩ := bridge_exists hs base w
  rw [he1] at he'; cases he'
  obtain ⟨_, d2', he', hd2', -⟩ := bridge_exists hs base w2
  rw [he2] at he'; cases he'
  have hb : c2'.bus.length = c1'.bus.length := (map_eq_len S'.bus).symm
  have hg : c2'.gen.length = c1'.gen.length := (map_eq_len S'.gen).symm
  have hl : c2'.branch.length = c1'.branch.length := (map_eq_len S'.branch).symm
  obtain ⟨d2, hd2⟩ := readAs_exists ⟨d2', hd2'⟩ hb hg hl
  have hread := read_onoff (base := base) S' hb hg hl
  rw [runpfAc_via he1 rfl rfl rfl, runpfAc_via he2 hb hg hl]
  show Option.Rel _ ((readPf base c1').bind _) _
  cases hp : readPf base c1' with
  | none =>
    rw [hread, hp]
    exact .none
  | some p =>
  rw [hp, Option.map_some] at hread
  rw [hread]
  simp only [Option.bind_some]
  have hpos : ∀ k : Fin c1'.gen.length, (((c2'.gen[(k : ℕ)]'(k.isLt.trans_eq hg.symm)).status : ℤ) : ℝ) > 0 ↔ (p.gen k).stat > 0 := by
    intro k
    have hst : (p.gen k).stat = (c1'.gen[(k : ℕ)].status : ℝ) := read_stat hp k
    obtain ⟨y, h1, h2⟩ := key_at S'.gen (List.getElem?_eq_getElem k.isLt)
    rw [List.getElem?_eq_getElem (k.isLt.trans_eq hg.symm)] at h1
    rw [Option.some.inj h1, hst, gt_iff_lt, gt_iff_lt, Int.cast_pos, Int.cast_pos]
    exact iff_of_eq (onOff_status h2).symm
  rw [restat_run p _ hpos]
  cases hq : runAC o.EPS o.viol o.qlim (pickSolver o lib p) p with
  | none => exact .none
  | some q =>
  cases q with
  | nan s => exact .some ⟨rfl, .none⟩
  | ok s =>
  simp only [Option.bind_some]
  obtain ⟨r1, hr1⟩ := exists_as hs w he1 (hb := rfl) (hg := rfl) (hl := rfl) (acUpd s)
  obtain ⟨r2, hr2⟩ := exists_as hs w2 he2 (hb := hb) (hg := hg) (hl := hl) (acUpd s)
  have hfin := same_onoff_results hs w w2 h he1 he2 (h1b := rfl) (h1g := rfl) (h1l := rfl) hd hd2 (acUpd s)
    (fun k b1 b2 e => (congrArg (fun b : BusRow BusD => ({ b with data := { b.data with VM := s.VM k, VA := s.VA k } } : BusRow BusD)) e).symm)
    (fun k b1 b2 e => (congrArg (fun b : GenRow GenD => ({ b with data := { b.data with PG := s.PG k, QG := s.QG k } } : GenRow GenD)) e).symm)
    (fun k b1 b2 e => (congrArg (fun b : BranchRow BrD => ({ b with data := { b.data with PF := (s.Sf k).re, QF := (s.Sf k).im, PT := (s.St k).re, QT := (s.St k).im } } : BranchRow BrD)) e).symm)
    hr1 hr2
  rw [hr1, hr2]
  exact .some ⟨rfl, .some hfin⟩

/-- **C142 (DC).**  The same for the DC power flow. -/
theorem C142_dc {srt : List ℕ → List ℕ} (hs : IsArgsort srt) (base : ℝ) {c1 c2 : Index.Case Tables} (w : WF c1) (w2 : WF c2) (h : SameOnOff c1 c2) (lib : DcLib) :
    Option.Rel (fun r1 r2 : PfRet => r2.success = r1.success ∧ Option.Rel SameOnOff r1.tables r2.tables) (runpfDc srt base lib c1) (runpfDc srt base lib c2) := by
  obtain ⟨c1', c2', he1, he2, S'⟩ := h.internal hs w w2
  obtain ⟨_, d, he', hd, -⟩ := bridge_exists hs base w
  rw [he1] at he'; cases he'
  obtain ⟨_, d2', he', hd2', -⟩ := bridge_exists hs base w2
  rw [he2] at he'; cases he'
  have hb : c2'.bus.length = c1'.bus.length := (map_eq_len S'.bus).symm
  have hg : c2'.gen.length = c1'.gen.length := (map_eq_len S'.gen).symm
  have hl : c2'.branch.length = c1'.branch.length := (map_eq_len S'.branch).symm
  obtain ⟨d2, hd2⟩ := readAs_exists ⟨d2', hd2'⟩ hb hg hl
  have hread := read_onoff (base := base) S' hb hg hl
  rw [dc_via he1 rfl rfl rfl, dc_via he2 hb hg hl]
  show Option.Rel _ ((readPf base c1').bind _) _
  cases hp : readPf base c1' with
  | none =>
    rw [hread, hp]
    exact .none
  | some p =>
  rw [hp, Option.map_some] at hread
  rw [hread]
  simp only [Option.bind_some]
  have hpos : ∀ k : Fin c1'.gen.length, (((c2'.gen[(k : ℕ)]'(k.isLt.trans_eq hg.symm)).status : ℤ) : ℝ) > 0 ↔ (p.gen k).stat > 0 := by
    intro k
    have hst : (p.gen k).stat = (c1'.gen[(k : ℕ)].status : ℝ) := read_stat hp k
    obtain ⟨y, h1, h2⟩ := key_at S'.gen (List.getElem?_eq_getElem k.isLt)
    rw [List.getElem?_eq_getElem (k.isLt.trans_eq hg.symm)] at h1
    rw [Option.some.inj h1, hst, gt_iff_lt, gt_iff_lt, Int.cast_pos, Int.cast_pos]
    exact iff_of_eq (onOff_status h2).symm
  set s : Fin c1'.gen.length → ℝ := fun k => ((c2'.gen[(k : ℕ)]'(k.isLt.trans_eq hg.symm)).status : ℝ)
  show Option.Rel _ _ (let Va := dcpf (· ∈ p.ref) lib (Bbus p.branch) (dcPbus p.baseMVA p.bus (restat p s).gen p.branch) fun k => p.VA k * (Real.pi / 180)
    (dcPG p.baseMVA p.bus (restat p s).gen p.branch p.ref Va).bind fun PG =>
      (Index.int2ext (writeAs c2' hb hg hl (dcUpd p Va PG))).bind fun r => some (⟨true, some (zeroOff pfOff r)⟩ : PfRet))
  rw [restat_pbus p s hpos]
  dsimp only
  rw [restat_dcPG p s hpos]
  generalize Pfsoln.dcpf (· ∈ p.ref) lib (Bbus p.branch) (Pfsoln.dcPbus p.baseMVA p.bus p.gen p.branch) (fun k => p.VA k * (Real.pi / 180)) = Va
  cases Pfsoln.dcPG p.baseMVA p.bus p.gen p.branch p.ref Va with
  | none => exact .none
  | some PG =>
  simp only [Option.bind_some]
  obtain ⟨r1, hr1⟩ := exists_as hs w he1 (hb := rfl) (hg := rfl) (hl := rfl) (dcUpd p Va PG)
  obtain ⟨r2, hr2⟩ := exists_as hs w2 he2 (hb := hb) (hg := hg) (hl := hl) (dcUpd p Va PG)
  have hfin := same_onoff_results hs w w2 h he1 he2 (h1b := rfl) (h1g := rfl) (h1l := rfl) hd hd2 (dcUpd p Va PG)
    (fun k b1 b2 e => (congrArg (fun b : BusRow BusD => ({ b with data := (dcUpd p Va PG).bus k b.data } : BusRow BusD)) e).symm)
    (fun k b1 b2 e => (congrArg (fun b : GenRow GenD => ({ b with data := (dcUpd p Va PG).gen k b.data } : GenRow GenD)) e).symm)
    (fun k b1 b2 e => (congrArg (fun b : BranchRow BrD => ({ b with data := (dcUpd p Va PG).branch k b.data } : BranchRow BrD)) e).symm)
    hr1 hr2
  rw [hr1, hr2]
  exact .some ⟨rfl, .some hfin⟩

/-! ### A concrete case -/

/-- `exTables` with other numbers for the status of generators. -/
def exOnOff : Index.Case Tables :=
  { Opf.exTables with
    gen := [⟨2, 5, ⟨10, 0, 50, -50, 1, 100, 10, 0, 0, 0, 0, []⟩⟩, ⟨7, 1, ⟨5, 1, 50, -50, 1, 100, 10, 0, 0, 0, 0, []⟩⟩,
      ⟨9, 2, ⟨80, 0, 50, -50, 1, 200, 10, 0, 0, 0, 0, []⟩⟩, ⟨9, -1, ⟨7, 3, 50, -50, 1, 100, 10, 4, 0, 0, 0, []⟩⟩] }

example : WF Opf.exTables ∧ WF exOnOff ∧ SameOnOff Opf.exTables exOnOff := by
  refine ⟨Opf.exTables_wf, ?_, ⟨rfl, by simp [Opf.exTables, exOnOff, onOff], rfl⟩⟩
  exact
  { Opf.exTables_wf with
    genRef := by simp [exOnOff, Opf.exTables, Index.HasBus]
    costRows := by simp [exOnOff, Opf.exTables]
    aCols := by simp [exOnOff, Opf.exTables]
    nCols := by simp [exOnOff, Opf.exTables] }

end

end Verif.Runpf
