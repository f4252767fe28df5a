import Verif.Runpf.AgainRuns
import Verif.Runpf.TableDc

/-!
# C130: running a power flow again on its own results changes nothing
-/

namespace Verif.Runpf

open Verif.Opf (Tables Upd write zeroOff)
open Verif.Index (IsArgsort WF GenInService)
open Verif.Network Verif.Solvers Verif.Pfsoln

/-- **C130 (AC).**  The tables returned by a successful AC power flow, given to `runpf` again with the same options, are returned unchanged and reported as a success, for every
algorithm and even when no iteration is allowed (`PF_MAX_IT` and its relatives may be anything).  Set points of generators in service must be positive (a negative one turns the phase by
180° in each run) and no generator in service may be at a bus declared PQ (the sharing rule for reactive power then changes what such a bus injects). -/
theorem C130_ac {srt : List ℕ → List ℕ} (hs : IsArgsort srt) {base : ℝ} {o : PfOpt} {lib : PfLib} {c R : Index.Case Tables} (h : WF c)
    (hrun : runpfAc srt base o lib c = some ⟨true, some R⟩) (hVG : ∀ g ∈ c.gen, GenInService c g → 0 < g.data.VG)
    (hPQ : ∀ g ∈ c.gen, GenInService c g → ∀ b ∈ c.bus, b.num = g.bus → b.typ ≠ 1) (m mf mg : ℕ) :
    ∃ R2, runpfAc srt base { o with maxIt := m, maxItFd := mf, maxItGs := mg } lib R = some ⟨true, some R2⟩ ∧
      R2.bus = R.bus ∧ R2.gen = R.gen ∧ R2.branch = R.branch := by
  unfold runpfAc at hrun
  simp only [Option.bind_eq_bind, Option.bind_eq_some_iff] at hrun
  obtain ⟨c', he, p, hp, q, hq, e⟩ := hrun
  cases q with
  | nan s => simp at e
  | ok s =>
  simp only [Option.map_eq_some_iff, PfRet.mk.injEq, Option.some.injEq] at e
  obtain ⟨r, hr, hok, rfl⟩ := e
  obtain ⟨bp, gp, lp, B⟩ := pf_bridge hs h he hp _ hr
  obtain ⟨d, D, -, -, -, -, hgen⟩ := B.bridge
  obtain ⟨c2, he2, e1, e2, e3⟩ := again_internal hs h he hr (fun _ _ => rfl) (fun _ _ => rfl) (fun _ _ => rfl)
  have hb : c2.bus.length = c'.bus.length := by rw [e1]; simp [write]
  have hg : c2.gen.length = c'.gen.length := by rw [e2]; simp [write]
  have hl : c2.branch.length = c'.branch.length := by rw [e3]; simp [write]
  have hread := read_again hp e1 e2 e3 (VM := s.VM) (VA := s.VA) (PG := s.PG) (QG := s.QG) (fun _ _ => rfl) (fun _ => rfl) (fun _ _ => rfl) hb hg hl
  have hcore := runAC_again (o := o) (lib := lib) hq hok B.disjoint ?_ ?_ ?_ m mf mg
  rotate_left
  · rintro b (hb | hb) hr
    · exact ((B.pv b).1 hb).2 ((B.ref b).1 hr)
    · exact (B.pq b).1 hb (slackCtl ((B.ref b).1 hr))
  · intro g _
    obtain ⟨g0, h1, h2, -⟩ := B.gen g
    obtain ⟨g1, h3, h4, -⟩ := D.gen g
    rw [h1] at h3; cases h3
    rw [h2]
    exact hVG g0 (List.mem_of_getElem? h1) h4
  · intro g _ hbad
    obtain ⟨g1, h3, h4, -, ⟨b, h5, h6⟩, -⟩ := D.gen g
    have hbus : (p.gen g).bus = (d.gen g).bus := by rw [hgen]
    rw [hbus] at hbad
    refine (B.pq _).1 hbad ⟨b, h5, ?_, g1, List.mem_of_getElem? h3, h4, h6.symm⟩
    have ht := h.typValid b (List.mem_of_getElem? h5)
    have ht1 := hPQ g1 (List.mem_of_getElem? h3) h4 b (List.mem_of_getElem? h5) h6
    obtain ⟨b', h7, h8, -⟩ := D.bus (d.gen g).bus
    rw [h5] at h7; cases h7
    omega
  obtain ⟨r2, hr2, k1, k2, k3⟩ := again_results hs h he hr (fun _ _ => rfl) (fun _ _ => rfl) (fun _ _ => rfl) he2 (hb := hb) (hg := hg) (hl := hl) (fun _ _ => rfl) (fun _ _ => rfl)
    (fun _ _ => rfl)
  refine ⟨zeroOff pfOff r2, ?_, k1, k2, k3⟩
  have := runpfAc_as (o := { o with maxIt := m, maxItFd := mf, maxItGs := mg }) (lib := lib) he2 hb hg hl hread hcore hr2
  rw [this, hok]

/-- **C130 (DC).**  The tables returned by a DC power flow, given to `runpf` again, are returned unchanged, whatever the linear solver does. -/
theorem C130_dc {srt : List ℕ → List ℕ} (hs : IsArgsort srt) {base : ℝ} (hbase : base ≠ 0) {lib : DcLib} {c R : Index.Case Tables} (h : WF c) {ok : Bool}
    (hrun : runpfDc srt base lib c = some ⟨ok, some R⟩) :
    ∃ R2, runpfDc srt base lib R = some ⟨true, some R2⟩ ∧ R2.bus = R.bus ∧ R2.gen = R.gen ∧ R2.branch = R.branch := by
  unfold runpfDc at hrun
  simp only [Option.bind_eq_bind, Option.bind_eq_some_iff, Option.some.injEq, PfRet.mk.injEq] at hrun
  obtain ⟨c', he, p, hp, PG, hPG, r, hr, -, rfl⟩ := hrun
  obtain ⟨bp, gp, lp, B⟩ := pf_bridge hs h he hp _ hr
  obtain ⟨d, D, hpb, -, -, -, hgen⟩ := B.bridge
  obtain ⟨c2, he2, e1, e2, e3⟩ := again_internal hs h he hr (fun _ _ => rfl) (fun _ _ => rfl) (fun _ _ => rfl)
  have hb : c2.bus.length = c'.bus.length := by rw [e1]; simp [write]
  have hg : c2.gen.length = c'.gen.length := by rw [e2]; simp [write]
  have hl : c2.branch.length = c'.branch.length := by rw [e3]; simp [write]
  obtain ⟨a1, a2⟩ := dc_again (lib := lib) (by rw [hpb]; exact hbase) (fun _ => 1) rfl hPG
  have hread := read_again hp e1 e2 e3 (VM := fun _ => 1) (PG := PG) (QG := fun k => (p.gen k).QG) (fun _ _ => rfl) (fun k => ?_) (fun _ _ => rfl) hb hg hl
  swap
  · have : (p.gen k).QG = c'.gen[k].data.QG := by
      unfold readPf Opf.readCase at hp
      split at hp
      · simp only [Option.bind_eq_bind, Option.bind_some, Option.bind_eq_some_iff, Option.some.injEq] at hp
        obtain ⟨t, -, rfl⟩ := hp
        rfl
      · simp at hp
    rw [this]
    rfl
  obtain ⟨r2, hr2, k1, k2, k3⟩ := again_results hs h he hr (fun _ _ => rfl) (fun _ _ => rfl) (fun _ _ => rfl) he2 (hb := hb) (hg := hg) (hl := hl) (fun _ _ => rfl) (fun _ _ => rfl)
    (fun _ _ => rfl)
  exact ⟨zeroOff pfOff r2, runpfDc_as he2 hb hg hl hread a1 a2 hr2, k1, k2, k3⟩

end Verif.Runpf
