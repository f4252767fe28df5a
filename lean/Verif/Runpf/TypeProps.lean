import Verif.Runpf.TypeLemmas
import Verif.Runpf.LimitProps

/-!
# C143: a bus without a generator in service is a PQ bus, whatever its declared type
-/

namespace Verif.Runpf

open Verif.Network Verif.Pfsoln Verif.Solvers
open Verif.Index (BusRow GenRow BranchRow IsArgsort WF GenInService)
open Verif.Opf (Tables BusD GenD BrD Upd write zeroOff readCase bridge_exists readAs writeAs exists_as map_eq_len)

noncomputable section

/-- **C143 (AC).**  Two cases that differ in the declared types (PQ, PV or REF) of buses with no generator in service: every algorithm raises, diverges or succeeds alike, and returns the
same rows but for these types (and for the columns of C141), each row keeping its own. -/
theorem C143_ac {srt : List ℕ → List ℕ} (hs : IsArgsort srt) (base : ℝ) {c1 c2 : Index.Case Tables} (w : WF c1) (w2 : WF c2) (h : SameTypes c1 c2) (o : PfOpt) (lib : PfLib) :
    Option.Rel (fun r1 r2 : PfRet => r2.success = r1.success ∧ Option.Rel AnyTypes r1.tables r2.tables) (runpfAc srt base o lib c1) (runpfAc srt base o lib c2) := by
  obtain ⟨c1', c2', he1, he2, S'⟩ := h.any.internal hs w w2
  obtain ⟨_, d, he', hd, -⟩ := bridge_exists hs base w
  rw [he1] at he'; cases he'
  obtain ⟨_, d2', he', hd2', -⟩ := bridge_exists hs base w2
  rw [he2] at he'; cases he'
  have hb : c2'.bus.length = c1'.bus.length := (map_eq_len S'.bus).symm
  have hg : c2'.gen.length = c1'.gen.length := (map_eq_len S'.gen).symm
  have hl : c2'.branch.length = c1'.branch.length := (map_eq_len S'.branch).symm
  obtain ⟨d2, hd2⟩ := readAs_exists ⟨d2', hd2'⟩ hb hg hl
  have hread := read_types (base := base) S' hb hg hl (types_internal hs w w2 h he1 he2)
  rw [runpfAc_via he1 rfl rfl rfl, runpfAc_via he2 hb hg hl, hread]
  show Option.Rel _ ((readPf base c1').bind _) _
  cases hp : readPf base c1' with
  | none => exact .none
  | some p =>
  simp only [Option.bind_some]
  cases hq : runAC o.EPS o.viol o.qlim (pickSolver o lib p) p with
  | none => exact .none
  | some q =>
  cases q with
  | nan s => exact .some ⟨rfl, .none⟩
  | ok s =>
  simp only [Option.bind_some]
  obtain ⟨r1, hr1⟩ := exists_as hs w he1 (hb := rfl) (hg := rfl) (hl := rfl) (acUpd s)
  obtain ⟨r2, hr2⟩ := exists_as hs w2 he2 (hb := hb) (hg := hg) (hl := hl) (acUpd s)
  have hfin := same_type_results hs w w2 h.any he1 he2 (h1b := rfl) (h1g := rfl) (h1l := rfl) hd hd2 (acUpd s)
    (fun k b1 b2 e => (congrArg (fun b : BusRow BusD => ({ b with data := { b.data with VM := s.VM k, VA := s.VA k } } : BusRow BusD)) e).symm)
    (fun k b1 b2 e => (congrArg (fun b : GenRow GenD => ({ b with data := { b.data with PG := s.PG k, QG := s.QG k } } : GenRow GenD)) e).symm)
    (fun k b1 b2 e => (congrArg (fun b : BranchRow BrD => ({ b with data := { b.data with PF := (s.Sf k).re, QF := (s.Sf k).im, PT := (s.St k).re, QT := (s.St k).im } } : BranchRow BrD)) e).symm)
    hr1 hr2
  rw [hr1, hr2]
  exact .some ⟨rfl, .some hfin⟩

/-- **C143 (DC).**  The same for the DC power flow. -/
theorem C143_dc {srt : List ℕ → List ℕ} (hs : IsArgsort srt) (base : ℝ) {c1 c2 : Index.Case Tables} (w : WF c1) (w2 : WF c2) (h : SameTypes c1 c2) (lib : DcLib) :
    Option.Rel (fun r1 r2 : PfRet => r2.success = r1.success ∧ Option.Rel AnyTypes r1.tables r2.tables) (runpfDc srt base lib c1) (runpfDc srt base lib c2) := by
  obtain ⟨c1', c2', he1, he2, S'⟩ := h.any.internal hs w w2
  obtain ⟨_, d, he', hd, -⟩ := bridge_exists hs base w
  rw [he1] at he'; cases he'
  obtain ⟨_, d2', he', hd2', -⟩ := bridge_exists hs base w2
  rw [he2] at he'; cases he'
  have hb : c2'.bus.length = c1'.bus.length := (map_eq_len S'.bus).symm
  have hg : c2'.gen.length = c1'.gen.length := (map_eq_len S'.gen).symm
  have hl : c2'.branch.length = c1'.branch.length := (map_eq_len S'.branch).symm
  obtain ⟨d2, hd2⟩ := readAs_exists ⟨d2', hd2'⟩ hb hg hl
  have hread := read_types (base := base) S' hb hg hl (types_internal hs w w2 h he1 he2)
  rw [dc_via he1 rfl rfl rfl, dc_via he2 hb hg hl, hread]
  show Option.Rel _ ((readPf base c1').bind _) _
  cases hp : readPf base c1' with
  | none => exact .none
  | some p =>
  simp only [Option.bind_some]
  generalize Pfsoln.dcpf (· ∈ p.ref) lib (Bbus p.branch) (Pfsoln.dcPbus p.baseMVA p.bus p.gen p.branch) (fun k => p.VA k * (Real.pi / 180)) = Va
  cases Pfsoln.dcPG p.baseMVA p.bus p.gen p.branch p.ref Va with
  | none => exact .none
  | some PG =>
  simp only [Option.bind_some]
  obtain ⟨r1, hr1⟩ := exists_as hs w he1 (hb := rfl) (hg := rfl) (hl := rfl) (dcUpd p Va PG)
  obtain ⟨r2, hr2⟩ := exists_as hs w2 he2 (hb := hb) (hg := hg) (hl := hl) (dcUpd p Va PG)
  have hfin := same_type_results hs w w2 h.any he1 he2 (h1b := rfl) (h1g := rfl) (h1l := rfl) hd hd2 (dcUpd p Va PG)
    (fun k b1 b2 e => (congrArg (fun b : BusRow BusD => ({ b with data := (dcUpd p Va PG).bus k b.data } : BusRow BusD)) e).symm)
    (fun k b1 b2 e => (congrArg (fun b : GenRow GenD => ({ b with data := (dcUpd p Va PG).gen k b.data } : GenRow GenD)) e).symm)
    (fun k b1 b2 e => (congrArg (fun b : BranchRow BrD => ({ b with data := (dcUpd p Va PG).branch k b.data } : BranchRow BrD)) e).symm)
    hr1 hr2
  rw [hr1, hr2]
  exact .some ⟨rfl, .some hfin⟩

/-! ### A concrete case -/

/-- A case with a slack bus 9, a PV bus 5 whose generator is out of service, and a PQ bus 2. -/
def exTyped (t5 t2 : ℤ) : Index.Case Tables where
  bus := [⟨9, 3, ⟨0, 0, 0, 0, 1, 5, 1.1, 0.9, 0, 0, 0, 0, []⟩⟩, ⟨5, t5, ⟨10, 5, 0, 0, 1, 0, 1.1, 0.9, 0, 0, 0, 0, []⟩⟩,
    ⟨2, t2, ⟨90, 30, 1, 2, 1, 0, 1.1, 0.9, 0, 0, 0, 0, [345]⟩⟩]
  gen := [⟨9, 1, ⟨80, 0, 50, -50, 1, 200, 10, 0, 0, 0, 0, []⟩⟩, ⟨5, 0, ⟨7, 3, 50, -50, 1, 100, 10, 4, 0, 0, 0, []⟩⟩]
  branch := [⟨9, 2, 1, ⟨0.01, 0.1, 0.02, 60, 0, 0, 0, 0, 0, 0, 0, 0, 0, 0, []⟩⟩, ⟨9, 5, 1, ⟨0.01, 0.1, 0.02, 60, 0, 0, 8, 0, 0, 0, 0, 0, 0, 0, []⟩⟩]
  areas := none
  gencost := none
  A := none
  N := none
  order := none

theorem exTyped_wf (t5 t2 : ℤ) (h5 : t5 = 1 ∨ t5 = 2 ∨ t5 = 3) (h2 : t2 = 1 ∨ t2 = 2 ∨ t2 = 3) : WF (exTyped t5 t2) where
  busNodup := by simp [exTyped]
  typValid := by rcases h5 with rfl | rfl | rfl <;> rcases h2 with rfl | rfl | rfl <;> simp [exTyped]
  someOn := ⟨_, List.mem_cons_self, by decide⟩
  genRef := by simp [exTyped, Index.HasBus]
  fRef := by simp [exTyped, Index.HasBus]
  tRef := by simp [exTyped, Index.HasBus]
  areaRef := by simp [exTyped]
  costRows := by simp [exTyped]
  aCols := by simp [exTyped]
  nCols := by simp [exTyped]
  notInternal := by simp [exTyped]

/-- Bus 5 declared PV or PQ, bus 2 declared PQ or REF. -/
example : WF (exTyped 2 1) ∧ WF (exTyped 1 3) ∧ SameTypes (exTyped 2 1) (exTyped 1 3) := by
  refine ⟨exTyped_wf 2 1 (by simp) (by simp), exTyped_wf 1 3 (by simp) (by simp), ⟨by simp [exTyped, anyType], rfl, rfl, ?_⟩⟩
  rintro (_ | _ | _ | i) b1 b2 h1 h2 <;> simp [exTyped] at h1 h2 <;> subst h1 h2
  · exact Or.inl rfl
  · right
    rintro ⟨g, hg, hin, hn⟩
    simp [exTyped] at hg
    rcases hg with rfl | rfl
    · simp at hn
    · simp [GenInService] at hin
  · right
    rintro ⟨g, hg, hin, hn⟩
    simp [exTyped] at hg
    rcases hg with rfl | rfl <;> simp at hn

end

end Verif.Runpf
