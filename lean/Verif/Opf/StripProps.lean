import Verif.Index.StripLemmas
import Verif.Opf.StripSpec
import Verif.Opf.PriceProps
import Verif.Opf.StartProps
import Verif.Runpf.TableDc

/-!
# C135: equipment out of service might as well not be in the tables
-/

namespace Verif.Opf

open Verif.Index (IsArgsort WF Stripped SameCosts orderOf busK genK brK GenInService BranchInService filter_of_get)
open Verif.OpfModel Verif.Pips
open Classical

noncomputable section

variable {srt : List ℕ → List ℕ} {base : ℝ} {c s : Index.Case Tables}

/-- The results of a run on the internal tables, put back into the full tables and into the ones without the equipment out of service. -/
theorem results_strip (hs : IsArgsort srt) (w : WF c) (w2 : WF s) (h : Stripped c s) (z : Off) {c' : Index.Case Tables} (he : Index.ext2int srt c = some c')
    {ar gc A N} (he2 : Index.ext2int srt s = some { c' with areas := ar, gencost := gc, A := A, N := N, order := some (orderOf srt s) })
    (ho : c'.order = some (orderOf srt c)) (u : Upd c'.bus.length c'.gen.length c'.branch.length) {r : Index.Case Tables} (hr : Index.int2ext (write c' u) = some r) :
    ∃ r2, Index.int2ext (write { c' with areas := ar, gencost := gc, A := A, N := N, order := some (orderOf srt s) } u) = some r2 ∧
      Stripped (zeroOff z r) (zeroOff z r2) := by
  obtain ⟨_, d, he', hd, -⟩ := bridge_exists hs 0 w
  rw [he] at he'; cases he'
  obtain ⟨_, d2, he', hd2, hex2⟩ := bridge_exists hs 0 w2
  rw [he2] at he'; cases he'
  obtain ⟨r2, hr2⟩ := hex2 u
  refine ⟨r2, hr2, ?_⟩
  obtain ⟨bp, gp, lp, B, -⟩ := bridge_at hs w he hd u hr z
  obtain ⟨bp2, gp2, lp2, B2, -⟩ := bridge_at hs w2 he2 hd2 u hr2 z
  obtain ⟨k1, k2, k3⟩ := h.external (x := write c' u) (y := write { c' with areas := ar, gencost := gc, A := A, N := N, order := some (orderOf srt s) } u)
    rfl rfl rfl ho rfl hr hr2
  have hor := int2ext_order (c := write c' u) ho rfl hr
  have hor2 := int2ext_order (c := write { c' with areas := ar, gencost := gc, A := A, N := N, order := some (orderOf srt s) } u) rfl rfl hr2
  have zb : (zeroOff z r).bus = r.bus := by unfold zeroOff; rw [hor]
  have zb2 : (zeroOff z r2).bus = r2.bus := by unfold zeroOff; rw [hor2]
  have zg2 : (zeroOff z r2).gen = r2.gen := by
    unfold zeroOff; rw [hor2]
    refine List.ext_getElem? fun i => ?_
    simp only [List.getElem?_mapIdx, h.genOff, List.not_mem_nil, if_false, Option.map_id']
  have zl2 : (zeroOff z r2).branch = r2.branch := by
    unfold zeroOff; rw [hor2]
    refine List.ext_getElem? fun i => ?_
    simp only [List.getElem?_mapIdx, h.branchOff, List.not_mem_nil, if_false, Option.map_id']
  have off : ∀ {bs : List Bool} {i : ℕ}, i ∈ NumPy.find bs → i ∉ NumPy.find (bs.map not) := by
    intro bs i h1 h2
    rw [NumPy.mem_find] at h1 h2
    rw [List.getElem?_map, h1] at h2
    simp at h2
  have zg : ∀ i : ℕ, i ∈ NumPy.find (c.gen.map (genK c.bus)) → (zeroOff z r).gen[i]? = r.gen[i]? := by
    intro i hi
    unfold zeroOff; rw [hor]
    have : i ∉ (orderOf srt c).genOff := off hi
    simp only [List.getElem?_mapIdx, this, if_false, Option.map_id']
  have zl : ∀ i : ℕ, i ∈ NumPy.find (c.branch.map (brK c.bus)) → (zeroOff z r).branch[i]? = r.branch[i]? := by
    intro i hi
    unfold zeroOff; rw [hor]
    have : i ∉ (orderOf srt c).branchOff := off hi
    simp only [List.getElem?_mapIdx, this, if_false, Option.map_id']
  refine ⟨?_, ?_, ?_⟩
  · refine (filter_of_get (xs := c.bus) (p := busK) ?_ (fun k i hk => ?_) ?_).symm
    · refine List.ext_getElem? fun i => ?_
      rw [List.getElem?_map, List.getElem?_map]
      cases hx : c.bus[i]? with
      | none =>
        rw [List.getElem?_eq_none_iff] at hx
        rw [List.getElem?_eq_none_iff.2 (by rw [B.busLen]; exact hx)]; rfl
      | some b =>
        by_cases ht : b.typ = 4
        · rw [B.busOff i b hx ht]
          simp [ht, busK, Index.NONE]
        · obtain ⟨k, rfl⟩ := B.busOn i b hx ht
          obtain ⟨b', e1, -, e2, -⟩ := B.bus k
          rw [hx] at e1; cases e1
          rw [e2]
          simp [ht, busK, Index.NONE]
    · rw [zb, zb2]; exact k1 k i hk
    · rw [B2.busLen, h.bus']
  · refine (filter_of_get (xs := c.gen) (p := genK c.bus) ?_ (fun k i hk => ?_) ?_).symm
    · refine List.ext_getElem? fun i => ?_
      rw [List.getElem?_map, List.getElem?_map]
      cases hx : c.gen[i]? with
      | none =>
        rw [List.getElem?_eq_none_iff] at hx
        rw [List.getElem?_eq_none_iff.2 (by rw [B.genLen]; exact hx)]; rfl
      | some g =>
        have key : ∀ dt, (GenInService (zeroOff z r) { g with data := dt } ↔ GenInService c g) := by
          intro dt
          unfold Index.GenInService
          rw [B.connected]
        by_cases hin : GenInService c g
        · obtain ⟨k, rfl⟩ := B.genOn i g hx hin
          obtain ⟨g', e1, -, e2, -⟩ := B.gen k
          rw [hx] at e1; cases e1
          rw [e2]
          simp only [Option.map_some, key, Option.some.injEq]
          rw [Bool.eq_iff_iff, Index.genK_iff, decide_eq_true_iff]
        · rw [B.genOff i g hx hin]
          simp only [Option.map_some, key, Option.some.injEq]
          rw [Bool.eq_iff_iff, Index.genK_iff, decide_eq_true_iff]
    · rw [zg2, zg i (List.mem_of_getElem? hk)]; exact k2 k i hk
    · rw [B2.genLen, h.gen']
  · refine (filter_of_get (xs := c.branch) (p := brK c.bus) ?_ (fun k i hk => ?_) ?_).symm
    · refine List.ext_getElem? fun i => ?_
      rw [List.getElem?_map, List.getElem?_map]
      cases hx : c.branch[i]? with
      | none =>
        rw [List.getElem?_eq_none_iff] at hx
        rw [List.getElem?_eq_none_iff.2 (by rw [B.brLen]; exact hx)]; rfl
      | some l =>
        have key : ∀ dt, (BranchInService (zeroOff z r) { l with data := dt } ↔ BranchInService c l) := by
          intro dt
          unfold Index.BranchInService
          rw [B.connected, B.connected]
        by_cases hin : BranchInService c l
        · obtain ⟨k, rfl⟩ := B.brOn i l hx hin
          obtain ⟨g', e1, -, e2, -⟩ := B.branch k
          rw [hx] at e1; cases e1
          rw [e2]
          simp only [Option.map_some, key, Option.some.injEq]
          rw [Bool.eq_iff_iff, Index.brK_iff, decide_eq_true_iff]
        · rw [B.brOff i l hx hin]
          simp only [Option.map_some, key, Option.some.injEq]
          rw [Bool.eq_iff_iff, Index.brK_iff, decide_eq_true_iff]
    · rw [zl2, zl i (List.mem_of_getElem? hk)]; exact k3 k i hk
    · rw [B2.brLen, h.branch']

/-- The internal case of the tables without the equipment out of service, when the costs are the ones of the generators in service and there are no user matrices. -/
theorem strip_internal (hs : IsArgsort srt) (w : WF c) (w2 : WF s) (h : Stripped c s) (hc : SameCosts c s) (hA : c.A = none ∧ s.A = none) (hN : c.N = none ∧ s.N = none) :
    ∃ c' ar, Index.ext2int srt c = some c' ∧ c'.order = some (orderOf srt c) ∧
      Index.ext2int srt s = some { c' with areas := ar, gencost := c'.gencost, A := c'.A, N := c'.N, order := some (orderOf srt s) } := by
  obtain ⟨c', -, he, -⟩ := bridge_exists hs 0 w
  obtain ⟨ho, ar, gc, A, N, h1, h2, h3, h4⟩ := h.internal hs w w2 he
  refine ⟨c', ar, he, ho, ?_⟩
  obtain ⟨gen, gc', A', N', k1, -, k3, k4, k5⟩ := Index.ext2int_result hs w
  rw [he] at k1
  cases k1
  rw [h.gencost hs hc, k3] at h1
  cases h1
  rw [hA.1] at k4
  rw [hA.2] at h2
  rw [hN.1] at k5
  rw [hN.2] at h3
  cases k4; cases h2; cases k5; cases h3
  exact h4

variable (hs : IsArgsort srt) (w : WF c) (w2 : WF s) (h : Stripped c s)
include hs w w2 h

section
variable (hc : SameCosts c s) (hA : c.A = none ∧ s.A = none) (hN : c.N = none ∧ s.N = none)
include hc hA hN

/-- **C135 (DC optimal power flow).**  Taking the equipment out of service out of the tables (with its cost rows) changes nothing: the run raises if and only if it raised before,
the outcome and the cost are the same, and so is every result for the equipment in service. -/
theorem C135_opf_dc (E : Econ) (others : Bool) (p : PpOpt) (solve : AnySolver) : Option.Rel SameOn (runDc srt base E others p solve c) (runDc srt base E others p solve s) := by
  obtain ⟨c', ar, he1, ho, he2⟩ := strip_internal hs w w2 h hc hA hN
  unfold runDc opfDcEcon opfDc
  rw [he1, he2]
  generalize hcs : ({ c' with areas := ar, gencost := c'.gencost, A := c'.A, N := c'.N, order := some (orderOf srt s) } : Index.Case Tables) = cs
  simp only [Option.bind_eq_bind, Option.bind_some]
  subst hcs
  rw [show firstRef { c' with areas := ar, gencost := c'.gencost, A := c'.A, N := c'.N, order := some (orderOf srt s) } = firstRef c' from rfl]
  cases firstRef c' with
  | none => exact .none
  | some x =>
  cases p.dc others with
  | none => exact .none
  | some op =>
  simp only [Option.bind_some]
  rw [show readCase base { c' with areas := ar, gencost := c'.gencost, A := c'.A, N := c'.N, order := some (orderOf srt s) } = readCase base c' from rfl]
  cases readCase base c' with
  | none => exact .none
  | some d =>
  simp only [Option.bind_some]
  set S := econSetup base { E with ignoreAng := p.OPF_IGNORE_ANG_LIM, x0 := dcStart } with hS
  have hx : S.extra d { c' with areas := ar, gencost := c'.gencost, A := c'.A, N := c'.N, order := some (orderOf srt s) } = S.extra d c' := rfl
  rw [hx]
  cases OpfModel.run (dcOps d ++ S.extra d c') with
  | none => exact .none
  | some m =>
  simp only [Option.bind_some]
  have hsol : dcopfSolver d m (S.H { c' with areas := ar, gencost := c'.gencost, A := c'.A, N := c'.N, order := some (orderOf srt s) } m)
    (S.C { c' with areas := ar, gencost := c'.gencost, A := c'.A, N := c'.N, order := some (orderOf srt s) } m)
    (S.C0 { c' with areas := ar, gencost := c'.gencost, A := c'.A, N := c'.N, order := some (orderOf srt s) } m) op solve
    (S.x0 { c' with areas := ar, gencost := c'.gencost, A := c'.A, N := c'.N, order := some (orderOf srt s) } m) = dcopfSolver d m (S.H c' m) (S.C c' m) (S.C0 c' m) op solve (S.x0 c' m) := rfl
  rw [hsol]
  cases dcopfSolver d m (S.H c' m) (S.C c' m) (S.C0 c' m) op solve (S.x0 c' m) with
  | none => exact .none
  | some sl =>
  simp only [Option.bind_some]
  obtain ⟨_, -, he', -, hex⟩ := bridge_exists hs 0 w
  rw [he1] at he'; cases he'
  obtain ⟨r, hr⟩ := hex (dcUpd sl (S.post c' m sl))
  obtain ⟨r2, hr2, hren⟩ := results_strip hs w w2 h opfOff he1 he2 ho _ hr
  have hr2' : Index.int2ext (write { c' with areas := ar, gencost := c'.gencost, A := c'.A, N := c'.N, order := some (orderOf srt s) }
    (dcUpd sl (S.post { c' with areas := ar, gencost := c'.gencost, A := c'.A, N := c'.N, order := some (orderOf srt s) } m sl))) = some r2 := hr2
  rw [hr, hr2']
  exact .some ⟨rfl, rfl, rfl, rfl, rfl, hren⟩

/-- **C135 (AC optimal power flow).**  The same, with capability curves, power factors, angle limits, and costs and further constraints taken from the data in internal numbering. -/
theorem C135_opf_ac {K : Curves} (hK : InputsOnly K) (p : PpOpt) (solve : AnySolver) : Option.Rel SameOn (runAc srt base K p solve c) (runAc srt base K p solve s) := by
  obtain ⟨c', ar, he1, ho, he2⟩ := strip_internal hs w w2 h hc hA hN
  unfold runAc opfAcCurve
  rw [he1, he2]
  simp only [Option.bind_eq_bind, Option.bind_some]
  rw [show firstRef { c' with areas := ar, gencost := c'.gencost, A := c'.A, N := c'.N, order := some (orderOf srt s) } = firstRef c' from rfl]
  cases firstRef c' with
  | none => exact .none
  | some x =>
  cases p.ac with
  | none => exact .none
  | some op =>
  simp only [Option.bind_some]
  rw [show readCase base { c' with areas := ar, gencost := c'.gencost, A := c'.A, N := c'.N, order := some (orderOf srt s) } = readCase base c' from rfl]
  cases readCase base c' with
  | none => exact .none
  | some d =>
  simp only [Option.bind_some]
  have hsys : SameSystem { c' with areas := ar, gencost := c'.gencost, A := c'.A, N := c'.N, order := some (orderOf srt s) } c' := ⟨rfl, rfl, rfl, rfl, rfl, rfl⟩
  set K' : Curves := { K with ang := { K.ang with ignoreAng := p.OPF_IGNORE_ANG_LIM, x0 := acStart } } with hK'
  have hcost : K'.cost { c' with areas := ar, gencost := c'.gencost, A := c'.A, N := c'.N, order := some (orderOf srt s) } = K'.cost c' := hK.cost _ _ hsys
  have hmore : K'.more d { c' with areas := ar, gencost := c'.gencost, A := c'.A, N := c'.N, order := some (orderOf srt s) } = K'.more d c' :=
    hK.more d d _ _ ⟨rfl, fun _ _ => rfl, fun _ => ⟨rfl, rfl⟩⟩ hsys
  have hx : curveExtra K' d { c' with areas := ar, gencost := c'.gencost, A := c'.A, N := c'.N, order := some (orderOf srt s) } = curveExtra K' d c' := by
    unfold curveExtra
    rw [hmore]
    rfl
  rw [hx, hcost]
  cases OpfModel.run (acOps d ++ curveExtra K' d c') with
  | none => exact .none
  | some m =>
  simp only [Option.bind_some]
  rw [show acStart { c' with areas := ar, gencost := c'.gencost, A := c'.A, N := c'.N, order := some (orderOf srt s) } m = acStart c' m from rfl, show K'.cost c' = K.cost c' from rfl]
  cases pipsopfSolver d p.OPF_FLOW_LIM (K.cost c') m op solve (acStart c' m) with
  | none => exact .none
  | some sl =>
  simp only [Option.bind_some]
  rw [show curveMus base K' { c' with areas := ar, gencost := c'.gencost, A := c'.A, N := c'.N, order := some (orderOf srt s) } m sl = curveMus base K' c' m sl from rfl]
  cases curveMus base K' c' m sl with
  | none => exact .none
  | some mu =>
  simp only [Option.bind_some]
  obtain ⟨_, -, he', -, hex⟩ := bridge_exists hs 0 w
  rw [he1] at he'; cases he'
  obtain ⟨r, hr⟩ := hex (acUpd sl (curvePost K' c' m sl mu))
  obtain ⟨r2, hr2, hren⟩ := results_strip hs w w2 h opfOff he1 he2 ho _ hr
  have hr2' : Index.int2ext (write { c' with areas := ar, gencost := c'.gencost, A := c'.A, N := c'.N, order := some (orderOf srt s) }
    (acUpd sl (curvePost K' { c' with areas := ar, gencost := c'.gencost, A := c'.A, N := c'.N, order := some (orderOf srt s) } m sl mu))) = some r2 := hr2
  rw [hr, hr2']
  exact .some ⟨rfl, rfl, rfl, rfl, rfl, hren⟩

end

end

end Verif.Opf

namespace Verif.Runpf

open Verif.Opf (Tables write zeroOff results_strip)
open Verif.Index (IsArgsort WF Stripped orderOf)

section

variable {srt : List ℕ → List ℕ} {base : ℝ} {c s : Index.Case Tables}
  (hs : IsArgsort srt) (w : WF c) (w2 : WF s) (h : Stripped c s)
include hs w w2 h

/-- **C135 (AC power flow).**  Taking the equipment out of service out of the tables changes nothing: for every algorithm the run raises, diverges or succeeds as before, with the same
voltages, outputs and flows of the equipment in service. -/
theorem C135_pf_ac (o : PfOpt) (lib : PfLib) : Option.Rel SamePfOn (runpfAc srt base o lib c) (runpfAc srt base o lib s) := by
  obtain ⟨c', -, he1, -, hex⟩ := Opf.bridge_exists hs 0 w
  obtain ⟨ho, ar, gc, A, N, -, -, -, he2⟩ := h.internal hs w w2 he1
  unfold runpfAc
  rw [he1, he2]
  simp only [Option.bind_eq_bind, Option.bind_some]
  rw [show readPf base { c' with areas := ar, gencost := gc, A := A, N := N, order := some (orderOf srt s) } = readPf base c' from rfl]
  cases readPf base c' with
  | none => exact .none
  | some p =>
  simp only [Option.bind_some]
  cases runAC o.EPS o.viol o.qlim (pickSolver o lib p) p with
  | none => exact .none
  | some q =>
  cases q with
  | nan s => exact .some ⟨rfl, .none⟩
  | ok sl =>
  simp only [Option.bind_some]
  obtain ⟨r, hr⟩ := hex (acUpd sl)
  obtain ⟨r2, hr2, hren⟩ := results_strip hs w w2 h pfOff he1 he2 ho _ hr
  rw [hr, hr2]
  exact .some ⟨rfl, .some hren⟩

/-- **C135 (DC power flow).**  The same, whatever the linear solver returns. -/
theorem C135_pf_dc (lib : DcLib) : Option.Rel SamePfOn (runpfDc srt base lib c) (runpfDc srt base lib s) := by
  obtain ⟨c', -, he1, -, hex⟩ := Opf.bridge_exists hs 0 w
  obtain ⟨ho, ar, gc, A, N, -, -, -, he2⟩ := h.internal hs w w2 he1
  unfold runpfDc
  rw [he1, he2]
  simp only [Option.bind_eq_bind, Option.bind_some]
  rw [show readPf base { c' with areas := ar, gencost := gc, A := A, N := N, order := some (orderOf srt s) } = readPf base c' from rfl]
  cases readPf base c' with
  | none => exact .none
  | some p =>
  simp only [Option.bind_some]
  generalize hVa : Pfsoln.dcpf (· ∈ p.ref) lib (Network.Bbus p.branch) (Pfsoln.dcPbus p.baseMVA p.bus p.gen p.branch) (fun k => p.VA k * (Real.pi / 180)) = Va
  cases Pfsoln.dcPG p.baseMVA p.bus p.gen p.branch p.ref Va with
  | none => exact .none
  | some PG =>
  simp only [Option.bind_some]
  obtain ⟨r, hr⟩ := hex (dcUpd p Va PG)
  obtain ⟨r2, hr2, hren⟩ := results_strip hs w w2 h pfOff he1 he2 ho _ hr
  have hr2' : Index.int2ext (write { c' with areas := ar, gencost := gc, A := A, N := N, order := some (orderOf srt s) } (dcUpd p Va PG)) = some r2 := hr2
  rw [hr, hr2']
  exact .some ⟨rfl, .some hren⟩

end

/-! ### The hypotheses hold of a case with a bus, two generators and two branches out of service -/

/-- With one cost row per generator. -/
noncomputable def exFull (g1 g2 g3 g4 : Tables.cost) : Index.Case Tables := { Opf.exTables with gencost := some [g1, g2, g3, g4] }

/-- Bus 7, the generator at it, the generator switched off, the branch to bus 7 and the branch switched off are gone, and so are the cost rows of the two generators. -/
noncomputable def exOn (g1 g3 : Tables.cost) : Index.Case Tables where
  bus := [⟨9, 3, ⟨0, 0, 0, 0, 1, 5, 1.1, 0.9, 0, 0, 0, 0, []⟩⟩, ⟨2, 1, ⟨90, 30, 1, 2, 1, 0, 1.1, 0.9, 0, 0, 0, 0, [345]⟩⟩]
  gen := [⟨2, 1, ⟨10, 0, 50, -50, 1, 100, 10, 0, 0, 0, 0, []⟩⟩, ⟨9, 1, ⟨80, 0, 50, -50, 1, 200, 10, 0, 0, 0, 0, []⟩⟩]
  branch := [⟨9, 2, 1, ⟨0.01, 0.1, 0.02, 60, 0, 0, 0, 0, 0, 0, 0, 0, 0, 0, []⟩⟩]
  areas := none
  gencost := some [g1, g3]
  A := none
  N := none
  order := none

example (g1 g2 g3 g4 : Tables.cost) : WF (exFull g1 g2 g3 g4) ∧ WF (exOn g1 g3) ∧ Stripped (exFull g1 g2 g3 g4) (exOn g1 g3) ∧ Index.SameCosts (exFull g1 g2 g3 g4) (exOn g1 g3) := by
  classical
  refine ⟨?_, ?_, ?_, ?_⟩
  · have w := Opf.exTables_wf
    exact ⟨w.busNodup, w.typValid, w.someOn, w.genRef, w.fRef, w.tRef, w.areaRef, by simp [exFull, Opf.exTables], w.aCols, w.nCols, w.notInternal⟩
  · constructor <;> simp [exOn, Index.HasBus]
  · constructor <;> simp [exOn, exFull, Opf.exTables, Index.GenInService, Index.BranchInService, Index.Connected]
  · unfold Index.SameCosts
    simp [exOn, exFull, Opf.exTables, Index.ofGensOn, Index.GenInService, Index.Connected]

end Verif.Runpf
