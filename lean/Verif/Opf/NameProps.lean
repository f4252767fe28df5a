import Verif.Index.NameLemmas
import Verif.Opf.NameSpec
import Verif.Opf.StartProps
import Verif.Runpf.TableDc

/-!
# C131: bus numbers are only names
-/

namespace Verif.Opf

open Verif.Index (IsArgsort WF Renamed Distinct renO)
open Verif.OpfModel Verif.Pips

noncomputable section

variable {srt : List ℕ → List ℕ} {base : ℝ} {f : ℕ → ℕ} {c1 c2 : Index.Case Tables}

/-- Zeroing out-of-service results commutes with renaming. -/
theorem zeroOff_ren (z : Off) {r1 r2 : Index.Case Tables} {o : Index.Order Tables} (h : Renamed f r1 r2) (h1 : r1.order = some { o with internal := false })
    (h2 : r2.order = some { renO f o with internal := false }) :
    Renamed f (zeroOff z r1) (zeroOff z r2) := by
  unfold zeroOff
  rw [h1, h2]
  refine ⟨h.bus, ?_, ?_, h.areas, h.gencost, h.A, h.N⟩
  · show List.mapIdx _ r2.gen = _
    rw [h.gen]
    refine List.ext_getElem? fun i => ?_
    simp only [List.getElem?_mapIdx, List.getElem?_map, Option.map_map]
    refine Option.map_congr fun g _ => ?_
    simp only [Function.comp]
    show (if i ∈ o.genOff then _ else _) = _
    split <;> rfl
  · show List.mapIdx _ r2.branch = _
    rw [h.branch]
    refine List.ext_getElem? fun i => ?_
    simp only [List.getElem?_mapIdx, List.getElem?_map, Option.map_map]
    refine Option.map_congr fun g _ => ?_
    simp only [Function.comp]
    show (if i ∈ o.branchOff then _ else _) = _
    split <;> rfl

/-- The results written into the caller's tables. -/
theorem results_ren (z : Off) {c' : Index.Case Tables} {o : Index.Order Tables} (ho : c'.order = some o) (hi : o.internal = true) (u : Upd c'.bus.length c'.gen.length c'.branch.length)
    {r : Index.Case Tables} (hr : Index.int2ext (write c' u) = some r) :
    ∃ r2, Index.int2ext (write { c' with order := some (renO f o) } u) = some r2 ∧ Renamed f (zeroOff z r) (zeroOff z r2) := by
  obtain ⟨r2, h1, h2, h3, h4⟩ := Index.int2ext_ren f (x := write c' u) ho hi hr
  exact ⟨r2, h1, zeroOff_ren z h2 h3 h4⟩

variable (hs : IsArgsort srt) (w : WF c1) (h : Renamed f c1 c2) (hf : Distinct f c1) (hi : ∀ o, c2.order = some o → o.internal = false)
include hs w h hf hi

theorem both_internal : ∃ c' o, Index.ext2int srt c1 = some c' ∧ c'.order = some o ∧ o.internal = true ∧ Index.ext2int srt c2 = some { c' with order := some (renO f o) } := by
  obtain ⟨c', -, he, -⟩ := bridge_exists hs 0 w
  obtain ⟨o, h1, h2, h3⟩ := h.internal hf w hi he
  exact ⟨c', o, he, h1, h2, h3⟩

/-- **C131 (DC optimal power flow).**  Giving the buses other numbers (in all tables, different buses different numbers, in any order of size) changes nothing but these numbers:
the run raises if and only if it raised before, the outcome and the cost are the same, and so is every result in every row. -/
theorem C131_opf_dc (E : Econ) (others : Bool) (p : PpOpt) (solve : AnySolver) : Option.Rel (SameRet f) (runDc srt base E others p solve c1) (runDc srt base E others p solve c2) := by
  obtain ⟨c', o, he1, ho, hoi, he2⟩ := both_internal hs w h hf hi
  unfold runDc opfDcEcon opfDc
  rw [he1, he2]
  simp only [Option.bind_eq_bind, Option.bind_some]
  rw [show firstRef { c' with order := some (renO f o) } = firstRef c' from rfl]
  cases firstRef c' with
  | none => exact .none
  | some x =>
  cases p.dc others with
  | none => exact .none
  | some op =>
  simp only [Option.bind_some]
  rw [show readCase base { c' with order := some (renO f o) } = readCase base c' from rfl]
  cases readCase base c' with
  | none => exact .none
  | some d =>
  simp only [Option.bind_some]
  set S := econSetup base { E with ignoreAng := p.OPF_IGNORE_ANG_LIM, x0 := dcStart } with hS
  have hx : S.extra d { c' with order := some (renO f o) } = S.extra d c' := rfl
  rw [hx]
  cases OpfModel.run (dcOps d ++ S.extra d c') with
  | none => exact .none
  | some m =>
  simp only [Option.bind_some]
  have hsol : dcopfSolver d m (S.H { c' with order := some (renO f o) } m) (S.C { c' with order := some (renO f o) } m) (S.C0 { c' with order := some (renO f o) } m) op solve
    (S.x0 { c' with order := some (renO f o) } m) = dcopfSolver d m (S.H c' m) (S.C c' m) (S.C0 c' m) op solve (S.x0 c' m) := rfl
  rw [hsol]
  cases dcopfSolver d m (S.H c' m) (S.C c' m) (S.C0 c' m) op solve (S.x0 c' m) with
  | none => exact .none
  | some s =>
  simp only [Option.bind_some]
  obtain ⟨c2', d', he', -, hex⟩ := bridge_exists hs 0 w
  rw [he1] at he'; cases he'
  obtain ⟨r, hr⟩ := hex (dcUpd s (S.post c' m s))
  obtain ⟨r2, hr2, hren⟩ := results_ren (f := f) opfOff ho hoi _ hr
  have hr2' : Index.int2ext (write { c' with order := some (renO f o) } (dcUpd s (S.post { c' with order := some (renO f o) } m s))) = some r2 := hr2
  rw [hr, hr2']
  exact .some ⟨rfl, rfl, rfl, rfl, rfl, hren⟩

/-- **C131 (AC optimal power flow).**  The same, with capability curves, power factors, angle limits, and costs and further constraints taken from the data in internal numbering. -/
theorem C131_opf_ac {K : Curves} (hK : InputsOnly K) (p : PpOpt) (solve : AnySolver) : Option.Rel (SameRet f) (runAc srt base K p solve c1) (runAc srt base K p solve c2) := by
  obtain ⟨c', o, he1, ho, hoi, he2⟩ := both_internal hs w h hf hi
  unfold runAc opfAcCurve
  rw [he1, he2]
  simp only [Option.bind_eq_bind, Option.bind_some]
  rw [show firstRef { c' with order := some (renO f o) } = firstRef c' from rfl]
  cases firstRef c' with
  | none => exact .none
  | some x =>
  cases p.ac with
  | none => exact .none
  | some op =>
  simp only [Option.bind_some]
  rw [show readCase base { c' with order := some (renO f o) } = readCase base c' from rfl]
  cases readCase base c' with
  | none => exact .none
  | some d =>
  simp only [Option.bind_some]
  have hsys : SameSystem { c' with order := some (renO f o) } c' := ⟨rfl, rfl, rfl, rfl, rfl, rfl⟩
  set K' : Curves := { K with ang := { K.ang with ignoreAng := p.OPF_IGNORE_ANG_LIM, x0 := acStart } } with hK'
  have hcost : K'.cost { c' with order := some (renO f o) } = K'.cost c' := hK.cost _ _ hsys
  have hmore : K'.more d { c' with order := some (renO f o) } = K'.more d c' := hK.more d d _ _ ⟨rfl, fun _ _ => rfl, fun _ => ⟨rfl, rfl⟩⟩ hsys
  have hx : curveExtra K' d { c' with order := some (renO f o) } = curveExtra K' d c' := by
    unfold curveExtra
    rw [hmore]
    rfl
  rw [hx, hcost]
  cases OpfModel.run (acOps d ++ curveExtra K' d c') with
  | none => exact .none
  | some m =>
  simp only [Option.bind_some]
  rw [show acStart { c' with order := some (renO f o) } m = acStart c' m from rfl, show K'.cost c' = K.cost c' from rfl]
  cases pipsopfSolver d p.OPF_FLOW_LIM (K.cost c') m op solve (acStart c' m) with
  | none => exact .none
  | some s =>
  simp only [Option.bind_some]
  rw [show curveMus base K' { c' with order := some (renO f o) } m s = curveMus base K' c' m s from rfl]
  cases curveMus base K' c' m s with
  | none => exact .none
  | some mu =>
  simp only [Option.bind_some]
  obtain ⟨c2', d', he', -, hex⟩ := bridge_exists hs 0 w
  rw [he1] at he'; cases he'
  obtain ⟨r, hr⟩ := hex (acUpd s (curvePost K' c' m s mu))
  obtain ⟨r2, hr2, hren⟩ := results_ren (f := f) opfOff ho hoi _ hr
  have hr2' : Index.int2ext (write { c' with order := some (renO f o) } (acUpd s (curvePost K' { c' with order := some (renO f o) } m s mu))) = some r2 := hr2
  rw [hr, hr2']
  exact .some ⟨rfl, rfl, rfl, rfl, rfl, hren⟩

end

end Verif.Opf

namespace Verif.Runpf

open Verif.Opf (Tables write zeroOff both_internal results_ren)
open Verif.Index (IsArgsort WF Renamed Distinct renO)

section

variable {srt : List ℕ → List ℕ} {base : ℝ} {f : ℕ → ℕ} {c1 c2 : Index.Case Tables}
  (hs : IsArgsort srt) (w : WF c1) (h : Renamed f c1 c2) (hf : Distinct f c1) (hi : ∀ o, c2.order = some o → o.internal = false)
include hs w h hf hi

/-- **C131 (AC power flow).**  Giving the buses other numbers changes nothing but these numbers: for every algorithm the run raises, diverges or succeeds as before, with the same
voltages, outputs and flows in every row. -/
theorem C131_pf_ac (o : PfOpt) (lib : PfLib) : Option.Rel (SamePf f) (runpfAc srt base o lib c1) (runpfAc srt base o lib c2) := by
  obtain ⟨c', od, he1, ho, hoi, he2⟩ := both_internal hs w h hf hi
  unfold runpfAc
  rw [he1, he2]
  simp only [Option.bind_eq_bind, Option.bind_some]
  rw [show readPf base { c' with order := some (renO f od) } = readPf base c' from rfl]
  cases readPf base c' with
  | none => exact .none
  | some p =>
  simp only [Option.bind_some]
  cases runAC o.EPS o.viol o.qlim (pickSolver o lib p) p with
  | none => exact .none
  | some q =>
  cases q with
  | nan s => exact .some ⟨rfl, .none⟩
  | ok s =>
  simp only [Option.bind_some]
  obtain ⟨c2', d', he', -, hex⟩ := Opf.bridge_exists hs 0 w
  rw [he1] at he'; cases he'
  obtain ⟨r, hr⟩ := hex (acUpd s)
  obtain ⟨r2, hr2, hren⟩ := results_ren (f := f) pfOff ho hoi _ hr
  rw [hr, hr2]
  exact .some ⟨rfl, .some hren⟩

/-- **C131 (DC power flow).**  The same, whatever the linear solver returns. -/
theorem C131_pf_dc (lib : DcLib) : Option.Rel (SamePf f) (runpfDc srt base lib c1) (runpfDc srt base lib c2) := by
  obtain ⟨c', od, he1, ho, hoi, he2⟩ := both_internal hs w h hf hi
  unfold runpfDc
  rw [he1, he2]
  simp only [Option.bind_eq_bind, Option.bind_some]
  rw [show readPf base { c' with order := some (renO f od) } = readPf base c' from rfl]
  cases readPf base c' with
  | none => exact .none
  | some p =>
  simp only [Option.bind_some]
  generalize hVa : Pfsoln.dcpf (· ∈ p.ref) lib (Network.Bbus p.branch) (Pfsoln.dcPbus p.baseMVA p.bus p.gen p.branch) (fun k => p.VA k * (Real.pi / 180)) = Va
  cases Pfsoln.dcPG p.baseMVA p.bus p.gen p.branch p.ref Va with
  | none => exact .none
  | some PG =>
  simp only [Option.bind_some]
  obtain ⟨c2', d', he', -, hex⟩ := Opf.bridge_exists hs 0 w
  rw [he1] at he'; cases he'
  obtain ⟨r, hr⟩ := hex (dcUpd p Va PG)
  obtain ⟨r2, hr2, hren⟩ := results_ren (f := f) pfOff ho hoi _ hr
  have hr2' : Index.int2ext (write { c' with order := some (renO f od) } (dcUpd p Va PG)) = some r2 := hr2
  rw [hr, hr2']
  exact .some ⟨rfl, .some hren⟩

end

/-! ### The hypotheses hold of a case whose buses are numbered in reverse order -/

noncomputable def exNames : Index.Case Tables :=
  { Opf.exTables with
    bus := Opf.exTables.bus.map fun b => { b with num := 100 - b.num }
    gen := Opf.exTables.gen.map fun g => { g with bus := 100 - g.bus }
    branch := Opf.exTables.branch.map fun l => { l with f := 100 - l.f, t := 100 - l.t }
    areas := Opf.exTables.areas.map fun as => as.map fun a => { a with ref := 100 - a.ref } }

example : WF Opf.exTables ∧ Renamed (fun n => 100 - n) Opf.exTables exNames ∧ Distinct (fun n => 100 - n) Opf.exTables ∧ (∀ o, exNames.order = some o → o.internal = false) ∧
    exNames.bus.map (·.num) = [91, 93, 98] := by
  refine ⟨Opf.exTables_wf, ⟨rfl, rfl, rfl, rfl, rfl, rfl, rfl⟩, ?_, by simp [exNames, Opf.exTables], by simp [exNames, Opf.exTables]⟩
  intro b1 h1 b2 h2 e
  simp only [Opf.exTables, List.mem_cons, List.not_mem_nil, or_false] at h1 h2
  rcases h1 with rfl | rfl | rfl <;> rcases h2 with rfl | rfl | rfl <;> simp_all

end Verif.Runpf
