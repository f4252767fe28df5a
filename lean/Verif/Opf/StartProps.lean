import Verif.Opf.StartAc
import Verif.Opf.CurveCases

/-!
# C125: the operating point stored in a case does not matter to an optimal power flow
-/

namespace Verif.Opf

open Verif.Index (BusRow GenRow BranchRow IsArgsort WF GenInService BranchInService Connected HasBus Solved)
open Verif.OpfModel Verif.Pips Verif.Network Verif.Cost

noncomputable section

variable {srt : List ℕ → List ℕ} (hs : IsArgsort srt) {base : ℝ} {solve : AnySolver} {p : PpOpt}

theorem SameResults.x0 {sb : BusRow BusD → BusRow BusD → Prop} {sg : GenRow GenD → GenRow GenD → Prop} {E : Econ} {r1 r2 : Ret} (h : SameResults sb sg E r1 r2)
    (x : Index.Case Tables → (m : Model) → Fin m.var.total → ℝ) : SameResults sb sg { E with x0 := x } r1 r2 :=
  ⟨h.success, h.f, h.tol, h.dual, h.size, h.busLen, h.genLen, h.brLen, h.bus, h.gen, h.branch⟩

include hs

omit hs in
theorem runDc_some {E : Econ} {others : Bool} {c : Index.Case Tables} {r : Ret} (hr : runDc srt base E others p solve c = some r) :
    ∃ c' o, Index.ext2int srt c = some c' ∧ (firstRef c').isSome ∧ p.dc others = some o ∧
      opfDc srt base (econSetup base { E with ignoreAng := p.OPF_IGNORE_ANG_LIM, x0 := dcStart }) o solve c = some r := by
  unfold runDc at hr
  obtain ⟨c', h1, hr⟩ := Option.bind_eq_some_iff.1 hr
  obtain ⟨x, h2, hr⟩ := Option.bind_eq_some_iff.1 hr
  obtain ⟨o, h3, hr⟩ := Option.bind_eq_some_iff.1 hr
  exact ⟨c', o, h1, Option.isSome_iff_exists.2 ⟨x, h2⟩, h3, hr⟩

/-- **C125 (DC).**  The outcome, the cost and all results of a DC optimal power flow are the same for any two cases of the same system, whatever operating point is stored in
them.  In particular, if one run raises, so does the other. -/
theorem C125_dc {E : Econ} {others : Bool} {c1 c2 : Index.Case Tables} (w1 : WF c1) (w2 : WF c2) (h : SameSystem c1 c2) {r1 : Ret}
    (hr : runDc srt base E others p solve c1 = some r1) :
    ∃ r2, runDc srt base E others p solve c2 = some r2 ∧ SameDcResults { E with ignoreAng := p.OPF_IGNORE_ANG_LIM } r1 r2 := by
  obtain ⟨c1', o, he, hf, ho, hr⟩ := runDc_some hr
  obtain ⟨r2, hr2, hsame⟩ := dc_same hs h w1 w2 (econ_blind base { E with ignoreAng := p.OPF_IGNORE_ANG_LIM })
    (E := { E with ignoreAng := p.OPF_IGNORE_ANG_LIM, x0 := dcStart }) (fun s hd hm k hk v w => econ_post s hd hm k hk v w) hr
  obtain ⟨c1'', c2', he1, he2, hc⟩ := h.internal hs w1 w2
  rw [he] at he1; cases he1
  rw [hc.firstRef] at hf
  obtain ⟨x, hx⟩ := Option.isSome_iff_exists.1 hf
  refine ⟨r2, ?_, hsame.x0 _⟩
  unfold runDc
  rw [he2, Option.bind_eq_bind, Option.bind_some, hx, Option.bind_eq_bind, Option.bind_some, ho, Option.bind_eq_bind, Option.bind_some]
  exact hr2

/-- **C125 (DC, failures).** -/
theorem C125_dc_raises {E : Econ} {others : Bool} {c1 c2 : Index.Case Tables} (w1 : WF c1) (w2 : WF c2) (h : SameSystem c1 c2) :
    runDc srt base E others p solve c1 = none ↔ runDc srt base E others p solve c2 = none := by
  constructor
  · intro hn
    cases e : runDc srt base E others p solve c2 with
    | none => rfl
    | some r =>
      obtain ⟨r1, h1, -⟩ := C125_dc hs w2 w1 h.symm e
      rw [hn] at h1; cases h1
  · intro hn
    cases e : runDc srt base E others p solve c1 with
    | none => rfl
    | some r =>
      obtain ⟨r1, h1, -⟩ := C125_dc hs w1 w2 h e
      rw [hn] at h1; cases h1

omit hs in
theorem runAc_some {K : Curves} {c : Index.Case Tables} {r : Ret} (hr : runAc srt base K p solve c = some r) :
    ∃ c' o, Index.ext2int srt c = some c' ∧ (firstRef c').isSome ∧ p.ac = some o ∧
      opfAcCurve srt base p.OPF_FLOW_LIM { K with ang := { K.ang with ignoreAng := p.OPF_IGNORE_ANG_LIM, x0 := acStart } } o solve c = some r := by
  unfold runAc at hr
  obtain ⟨c', h1, hr⟩ := Option.bind_eq_some_iff.1 hr
  obtain ⟨x, h2, hr⟩ := Option.bind_eq_some_iff.1 hr
  obtain ⟨o, h3, hr⟩ := Option.bind_eq_some_iff.1 hr
  exact ⟨c', o, h1, Option.isSome_iff_exists.2 ⟨x, h2⟩, h3, hr⟩

/-- **C125 (AC).**  The same for AC optimal power flows: stored voltages, outputs and voltage set points have no influence, not even as a starting point. -/
theorem C125_ac {K : Curves} (hK : InputsOnly K) {c1 c2 : Index.Case Tables} (w1 : WF c1) (w2 : WF c2) (h : SameSystem c1 c2) {r1 : Ret}
    (hr : runAc srt base K p solve c1 = some r1) :
    ∃ r2, runAc srt base K p solve c2 = some r2 ∧ SameAcResults { K.ang with ignoreAng := p.OPF_IGNORE_ANG_LIM } r1 r2 := by
  obtain ⟨c1', o, he, hf, ho, hr⟩ := runAc_some hr
  obtain ⟨r2, hr2, hsame⟩ := ac_same hs h w1 w2 (K := { K with ang := { K.ang with ignoreAng := p.OPF_IGNORE_ANG_LIM, x0 := acStart } }) ⟨hK.cost, hK.more⟩ rfl hr
  obtain ⟨c1'', c2', he1, he2, hc⟩ := h.internal hs w1 w2
  rw [he] at he1; cases he1
  rw [hc.firstRef] at hf
  obtain ⟨x, hx⟩ := Option.isSome_iff_exists.1 hf
  refine ⟨r2, ?_, hsame.x0 _⟩
  unfold runAc
  rw [he2, Option.bind_eq_bind, Option.bind_some, hx, Option.bind_eq_bind, Option.bind_some, ho, Option.bind_eq_bind, Option.bind_some]
  exact hr2

/-- **C125 (AC, failures).** -/
theorem C125_ac_raises {K : Curves} (hK : InputsOnly K) {c1 c2 : Index.Case Tables} (w1 : WF c1) (w2 : WF c2) (h : SameSystem c1 c2) :
    runAc srt base K p solve c1 = none ↔ runAc srt base K p solve c2 = none := by
  constructor
  · intro hn
    cases e : runAc srt base K p solve c2 with
    | none => rfl
    | some r =>
      obtain ⟨r1, h1, -⟩ := C125_ac hs hK w2 w1 h.symm e
      rw [hn] at h1; cases h1
  · intro hn
    cases e : runAc srt base K p solve c1 with
    | none => rfl
    | some r =>
      obtain ⟨r1, h1, -⟩ := C125_ac hs hK w1 w2 h e
      rw [hn] at h1; cases h1

/-! ### Running again on the results -/

omit hs in
theorem mem_zipWith_bus {f : BusRow BusD → BusRow BusD → BusRow BusD} (hf : ∀ a b, busGiven (f a b) = busGiven a ∨ busInput a ≠ busInput b) {xs ys : List (BusRow BusD)}
    (h : ys.map busInput = xs.map busInput) : (List.zipWith f xs ys).map busGiven = xs.map busGiven := by
  induction xs generalizing ys with
  | nil => simp
  | cons a xs ih =>
    cases ys with
    | nil => simp at h
    | cons b ys =>
      simp only [List.map_cons, List.cons.injEq, List.zipWith_cons_cons] at h ⊢
      refine ⟨(hf a b).resolve_right (not_not.2 h.1.symm), ih h.2⟩

/-- The tables returned describe the caller's system once the reference angles, which the solver meets within its tolerance only, are put back. -/
theorem returned_same {c c' t : Index.Case Tables} (h : WF c) (he : Index.ext2int srt c = some c') (u : Upd c'.bus.length c'.gen.length c'.branch.length)
    (ht : Index.int2ext (write c' u) = some t)
    (hin : (zeroOff opfOff t).bus.map busInput = c.bus.map busInput ∧ (zeroOff opfOff t).gen.map genInput = c.gen.map genInput ∧
      (zeroOff opfOff t).branch.map branchInput = c.branch.map branchInput) :
    SameSystem c (withRefs c (zeroOff opfOff t)) ∧ WF (withRefs c (zeroOff opfOff t)) := by
  obtain ⟨c1, he1, hc, -, hres⟩ := Index.results_posOf hs h
  rw [he] at he1; cases he1
  obtain ⟨r1, hr1, hR⟩ := hres _ (write_solved c' u)
  rw [ht] at hr1; cases hr1
  obtain ⟨c3, o3, pos3, apos3, he3, ho3, hi3, -⟩ := Index.ext2int_corr hs h
  rw [he] at he3; cases he3
  have hord : t.order = some { o3 with internal := false } := int2ext_order (c := write c' u) ho3 hi3 ht
  have hz : (zeroOff opfOff t).gencost = t.gencost ∧ (zeroOff opfOff t).A = t.A ∧ (zeroOff opfOff t).N = t.N ∧ (zeroOff opfOff t).areas = t.areas ∧ (zeroOff opfOff t).order = t.order := by
    simp [zeroOff, hord]
  obtain ⟨z1, z2, z3, z4, z5⟩ := hz
  have hsame : SameSystem c (withRefs c (zeroOff opfOff t)) := by
    refine ⟨?_, hin.2.1.symm, hin.2.2.symm, ?_, ?_, ?_⟩
    · refine (mem_zipWith_bus (fun a b => ?_) hin.1).symm
      by_cases e : busInput a = busInput b
      · left
        have ht : a.typ = b.typ := by
          have := congrArg BusRow.typ e
          exact this
        cases a with | mk n1 t1 x1 => cases x1; cases b with | mk n2 t2 x2 => cases x2; by_cases e3 : t2 = 3 <;> simp_all [busGiven, busInput]
      · exact .inr e
    · exact (z1.trans hR.gencost).symm
    · exact (z2.trans hR.A).symm
    · exact (z3.trans hR.N).symm
  refine ⟨hsame, hsame.wf h ?_ ?_⟩
  · intro as hA a ha
    have hA' : t.areas = some as := z4.symm.trans hA
    cases hca : c.areas with
    | none => rw [hR.areasNone (.inl hca)] at hA'; cases hA'
    | some as0 =>
      by_cases hnil : as0 = []
      · rw [hR.areasNone (.inr (by rw [hca, hnil]))] at hA'; cases hA'
      · cases hca' : c'.areas with
        | none =>
          rcases hc.arNone.1 hca' with k | k
          · rw [hca] at k; cases k
          · rw [hca] at k; exact absurd (Option.some_injective _ k) hnil
        | some as1 =>
          obtain ⟨ra, h1, h2⟩ := hR.areas as0 as1 hca hca'
          rw [hA'] at h1; cases h1
          obtain ⟨i, hi⟩ := List.getElem?_of_mem ha
          by_cases hip : i ∈ Index.aposOf c
          · obtain ⟨k, hk⟩ := List.getElem?_of_mem hip
            obtain ⟨new, old, -, q2, q3⟩ := h2.2.1 k i hk
            rw [hi] at q3
            have e := Option.some_injective _ q3
            rw [e]
            exact h.areaRef as0 hca old (List.mem_of_getElem? q2)
          · rw [h2.2.2 i hip] at hi
            exact h.areaRef as0 hca a (List.mem_of_getElem? hi)
  · intro o ho
    have : t.order = some o := z5.symm.trans ho
    rw [hord] at this
    cases this
    rfl

/-- **C125 (DC, again).**  Running a DC optimal power flow again on the tables it returned (with the reference angles of the caller) gives the same results. -/
theorem C125_dc_again {E : Econ} {others : Bool} {c : Index.Case Tables} (h : WF c) {r : Ret} (hr : runDc srt base E others p solve c = some r) :
    ∃ r2, runDc srt base E others p solve (withRefs c r.tables) = some r2 ∧ SameDcResults { E with ignoreAng := p.OPF_IGNORE_ANG_LIM } r r2 := by
  obtain ⟨c', o, he, -, -, hr'⟩ := runDc_some hr
  have hin := C86_dc_inputs hs h hr'
  unfold opfDc at hr'
  obtain ⟨c1, he1, hr'⟩ := Option.bind_eq_some_iff.1 hr'
  rw [he] at he1; cases he1
  obtain ⟨d, -, hr'⟩ := Option.bind_eq_some_iff.1 hr'
  obtain ⟨m, -, hr'⟩ := Option.bind_eq_some_iff.1 hr'
  obtain ⟨s, -, hr'⟩ := Option.bind_eq_some_iff.1 hr'
  obtain ⟨t, ht, hr'⟩ := Option.bind_eq_some_iff.1 hr'
  injection hr' with e
  subst e
  obtain ⟨h1, h2⟩ := returned_same hs h he _ ht ⟨hin.1, hin.2.1, hin.2.2.1⟩
  exact C125_dc hs h h2 h1 hr

/-- **C125 (AC, again).** -/
theorem C125_ac_again {K : Curves} (hK : InputsOnly K) {c : Index.Case Tables} (h : WF c) {r : Ret} (hr : runAc srt base K p solve c = some r) :
    ∃ r2, runAc srt base K p solve (withRefs c r.tables) = some r2 ∧ SameAcResults { K.ang with ignoreAng := p.OPF_IGNORE_ANG_LIM } r r2 := by
  obtain ⟨c', o, he, -, -, hr'⟩ := runAc_some hr
  unfold opfAcCurve at hr'
  obtain ⟨c1, he1, hr'⟩ := Option.bind_eq_some_iff.1 hr'
  rw [he] at he1; cases he1
  obtain ⟨d, hd, hr'⟩ := Option.bind_eq_some_iff.1 hr'
  obtain ⟨m, -, hr'⟩ := Option.bind_eq_some_iff.1 hr'
  obtain ⟨s, -, hr'⟩ := Option.bind_eq_some_iff.1 hr'
  obtain ⟨mu, -, hr'⟩ := Option.bind_eq_some_iff.1 hr'
  obtain ⟨t, ht, hr'⟩ := Option.bind_eq_some_iff.1 hr'
  injection hr' with e
  subst e
  obtain ⟨bp, gp, lp, B⟩ := bridge hs h he hd _ ht opfOff
  have hin := B.kept (fb := busInput) (fg := genInput) (fl := branchInput) (fun _ _ => rfl) (fun _ _ => rfl) (fun _ _ => rfl) (fun _ => ⟨rfl, rfl, rfl⟩) (fun _ => ⟨rfl, rfl, rfl, rfl, rfl⟩)
  obtain ⟨h1, h2⟩ := returned_same hs h he _ ht ⟨hin.1, hin.2.1, hin.2.2.1⟩
  exact C125_ac hs hK h h2 h1 hr

omit hs

/-! ### Other operating points -/

theorem map_mapIdx_same {α β : Type} (f : ℕ → α → α) (g : α → β) (hf : ∀ i a, g (f i a) = g a) (xs : List α) : (xs.mapIdx f).map g = xs.map g := by
  apply List.ext_getElem <;> simp [hf]

/-- Cases that differ in the stored operating point only are of the same system. -/
theorem C125_restate (vm va pg qg vg : ℕ → ℝ) (c : Index.Case Tables) (h : WF c) : SameSystem c (restate vm va pg qg vg c) ∧ WF (restate vm va pg qg vg c) := by
  have hsame : SameSystem c (restate vm va pg qg vg c) := by
    refine ⟨?_, ?_, rfl, rfl, rfl, rfl⟩
    · exact (map_mapIdx_same _ _ (fun i b => by by_cases e : b.typ = 3 <;> simp [busGiven, busInput, e]) _).symm
    · exact (map_mapIdx_same _ _ (fun i b => by simp [genInput]) _).symm
  exact ⟨hsame, hsame.wf h h.areaRef h.notInternal⟩

/-! ### The starting point -/

/-- **C125 (start).**  Every variable but angles and cost helpers starts strictly between its bounds, if there is room between them (and within `±1e10`), and at
its value if it is fixed. -/
theorem C125_interior {m : Model} {q : Linear} (hq : linearOf m = some q) {k : ℕ} (hy : inBlock m "y" k = false) (hv : inBlock m "Va" k = false) (ref y : ℝ) :
    (q.xmin k < q.xmax k → q.xmin k < (10 ^ 10 : ℝ) → ((-10 ^ 10 : ℝ) : EReal) < q.xmax k → q.xmin k < (interior m ref y k : ℝ) ∧ ((interior m ref y k : ℝ) : EReal) < q.xmax k) ∧
    ∀ v : ℝ, q.xmin k = (v : EReal) → q.xmax k = (v : EReal) → interior m ref y k = v := by
  unfold linearOf at hq
  obtain ⟨lc, -, hq⟩ := Option.bind_eq_some_iff.1 hq
  obtain ⟨b, hb, hq⟩ := Option.bind_eq_some_iff.1 hq
  injection hq with hq
  have e : interior m ref y k = (loProxy (q.xmin k) + hiProxy (q.xmax k)) / 2 := by
    subst hq
    simp only [interior, hy, hv, hb, Bool.false_eq_true, if_false]
  rw [e]
  generalize q.xmin k = lo
  generalize q.xmax k = hi
  clear hq e hb
  constructor
  · intro h1 h2 h3
    induction lo with
    | bot =>
      induction hi with
      | bot => exact absurd h1 (lt_irrefl _)
      | top => simp [loProxy, hiProxy]
      | coe b =>
        have hb : (-10 ^ 10 : ℝ) < b := by exact_mod_cast h3
        simp only [loProxy, hiProxy, if_true, EReal.coe_ne_top, if_false, EReal.toReal_coe]
        refine ⟨EReal.bot_lt_coe _, ?_⟩
        rw [EReal.coe_lt_coe_iff]
        linarith
    | top => exact absurd h1 (by simp)
    | coe a =>
      have ha : a < (10 ^ 10 : ℝ) := by exact_mod_cast h2
      induction hi with
      | bot => exact absurd h1 (by simp)
      | top =>
        simp only [loProxy, hiProxy, if_true, EReal.coe_ne_bot, if_false, EReal.toReal_coe]
        refine ⟨?_, EReal.coe_lt_top _⟩
        rw [EReal.coe_lt_coe_iff]
        linarith
      | coe b =>
        have hab : a < b := by exact_mod_cast h1
        simp only [loProxy, hiProxy, EReal.coe_ne_bot, EReal.coe_ne_top, if_false, EReal.toReal_coe, EReal.coe_lt_coe_iff]
        constructor <;> linarith
  · rintro v rfl rfl
    simp [loProxy, hiProxy]

/-! ### Options -/

/-- **C125 (options).**  A feasibility tolerance of zero stands for `OPF_VIOLATION`: the run is that with the tolerance written out. -/
theorem C125_violation (E : Econ) (K : Curves) (others : Bool) (c : Index.Case Tables) (h0 : p.PDIPM_FEASTOL = 0) :
    runDc srt base E others p solve c = runDc srt base E others { p with PDIPM_FEASTOL := p.OPF_VIOLATION } solve c ∧
    runAc srt base K p solve c = runAc srt base K { p with PDIPM_FEASTOL := p.OPF_VIOLATION } solve c := by
  have e : ({ p with PDIPM_FEASTOL := p.OPF_VIOLATION } : PpOpt).feastol = p.feastol := by
    simp [PpOpt.feastol, h0]
  constructor
  · simp only [runDc, PpOpt.dc, e]
  · simp only [runAc, PpOpt.ac, e]

/-- **C125 (options).**  `OPF_VIOLATION` has no effect if a feasibility tolerance is given; the options of the one kind of run have no effect on the other. -/
theorem C125_no_effect (E : Econ) (K : Curves) (others : Bool) (c : Index.Case Tables) (v : ℝ) (alg : ℕ) (lim : ℤ) :
    (p.PDIPM_FEASTOL ≠ 0 → runDc srt base E others { p with OPF_VIOLATION := v } solve c = runDc srt base E others p solve c ∧
      runAc srt base K { p with OPF_VIOLATION := v } solve c = runAc srt base K p solve c) ∧
    runDc srt base E others { p with OPF_ALG := alg, OPF_FLOW_LIM := lim } solve c = runDc srt base E others p solve c ∧
    runAc srt base K { p with OPF_ALG_DC := alg } solve c = runAc srt base K p solve c := by
  refine ⟨fun h => ⟨?_, ?_⟩, rfl, rfl⟩
  · have e : ({ p with OPF_VIOLATION := v } : PpOpt).feastol = p.feastol := by simp [PpOpt.feastol, h]
    simp only [runDc, PpOpt.dc, e]
  · have e : ({ p with OPF_VIOLATION := v } : PpOpt).feastol = p.feastol := by simp [PpOpt.feastol, h]
    simp only [runAc, PpOpt.ac, e]

/-- **C125 (no reference).**  Without a reference bus in service no run completes. -/
theorem C125_no_reference (hs : IsArgsort srt) (E : Econ) (K : Curves) (others : Bool) {c : Index.Case Tables} (h : WF c) (hn : ∀ b ∈ c.bus, b.typ ≠ 3) :
    runDc srt base E others p solve c = none ∧ runAc srt base K p solve c = none := by
  obtain ⟨c', pos, apos, he, hc, -⟩ := Index.C04_results_land_on_right_rows hs h
  have : firstRef c' = none := by
    unfold firstRef
    rw [Option.map_eq_none_iff, List.find?_eq_none]
    intro b hb
    obtain ⟨k, hk⟩ := List.getElem?_of_mem hb
    have hlt : k < (pos .bus).length := hc.busLen ▸ (List.getElem?_eq_some_iff.1 hk).1
    obtain ⟨b0, h1, h2⟩ := hc.busRow k _ (List.getElem?_eq_getElem hlt)
    rw [hk] at h2
    have e := Option.some_injective _ h2
    have := hn b0 (List.mem_of_getElem? h1)
    rw [e]
    simpa using this
  unfold runDc runAc
  rw [he]
  simp [this]

theorem firstRef_some (hs : IsArgsort srt) {c : Index.Case Tables} (h : WF c) (hr : ∃ b ∈ c.bus, b.typ = 3) : ∃ c', Index.ext2int srt c = some c' ∧ (firstRef c').isSome := by
  obtain ⟨c', pos, apos, he, hc, -⟩ := Index.C04_results_land_on_right_rows hs h
  refine ⟨c', he, ?_⟩
  obtain ⟨b, hb, ht⟩ := hr
  obtain ⟨i, hi⟩ := List.getElem?_of_mem hb
  have hip : i ∈ pos .bus := (hc.busIn i b hi).2 (by rw [ht]; decide)
  obtain ⟨k, hk⟩ := List.getElem?_of_mem hip
  obtain ⟨b0, h1, h2⟩ := hc.busRow k _ hk
  rw [hi] at h1; cases h1
  unfold firstRef
  rw [Option.isSome_map, List.find?_isSome]
  exact ⟨_, List.mem_of_getElem? h2, by simp [ht]⟩

/-- **C125 (runs).**  With a reference bus in service and PIPS chosen, a DC optimal power flow on proper input completes, whatever the other options and whatever
PIPS returns. -/
theorem C125_completes (hs : IsArgsort srt) (E : Econ) (others : Bool) {c : Index.Case Tables} (h : WF c) (hin : DcInputs base c) (hang : AngInputs { E with ignoreAng := p.OPF_IGNORE_ANG_LIM } c)
    (href : ∃ b ∈ c.bus, b.typ = 3) (hp : p.OPF_ALG_DC = 200 ∨ p.OPF_ALG_DC = 250 ∨ (p.OPF_ALG_DC = 0 ∧ others = false)) (solve : AnySolver) :
    ∃ r, runDc srt base E others p solve c = some r := by
  obtain ⟨c', he, hf⟩ := firstRef_some hs h href
  obtain ⟨x, hx⟩ := Option.isSome_iff_exists.1 hf
  have ho : ∃ o, p.dc others = some o := by
    unfold PpOpt.dc
    rcases hp with k | k | k <;> simp [k]
  obtain ⟨o, ho⟩ := ho
  obtain ⟨r, hr⟩ := (C96_completes hs h hin { E with ignoreAng := p.OPF_IGNORE_ANG_LIM, x0 := dcStart } hang).1 o solve
  refine ⟨r, ?_⟩
  unfold runDc
  rw [he, Option.bind_eq_bind, Option.bind_some, hx, Option.bind_eq_bind, Option.bind_some, ho, Option.bind_eq_bind, Option.bind_some]
  exact hr

/-! ### What success means in terms of the options -/

theorem resultTol {n : ℕ} {E I : Type} (r : Result n E I) (o : Opt) : ∃ k, 1 ≤ k ∧ r.tol o = o.feastol * k :=
  ⟨1 + max ‖r.x‖ r.slack, by have := le_max_of_le_left (c := r.slack) (norm_nonneg r.x); linarith, rfl⟩

theorem dc_tol {nb ng nl : ℕ} {d : Case nb ng nl} {m : Model} {H C C0} {o : Opt} {x0} {s : DcRes nb ng nl} (h : dcopfSolver d m H C C0 o solve x0 = some s) :
    ∃ k, 1 ≤ k ∧ s.tol = o.feastol * k := by
  unfold dcopfSolver at h
  obtain ⟨q, -, h⟩ := Option.bind_eq_some_iff.1 h
  obtain ⟨r, -, h⟩ := Option.bind_eq_some_iff.1 h
  obtain ⟨_, -, h⟩ := Option.bind_eq_some_iff.1 h
  obtain ⟨_, -, h⟩ := Option.bind_eq_some_iff.1 h
  obtain ⟨_, -, h⟩ := Option.bind_eq_some_iff.1 h
  obtain ⟨_, -, h⟩ := Option.bind_eq_some_iff.1 h
  obtain ⟨_, -, h⟩ := Option.bind_eq_some_iff.1 h
  injection h with h
  subst h
  exact resultTol r o

theorem ac_tol {nb ng nl : ℕ} {d : Case nb ng nl} {lim : ℤ} {m : Model} {D : OpfCost.AcData} {o : Opt} {x0} {s : AcRes nb ng nl} (h : pipsopfSolver d lim D m o solve x0 = some s) :
    ∃ k, 1 ≤ k ∧ s.tol = o.feastol * k := by
  unfold pipsopfSolver at h
  obtain ⟨q, -, h⟩ := Option.bind_eq_some_iff.1 h
  obtain ⟨_, -, h⟩ := Option.bind_eq_some_iff.1 h
  obtain ⟨_, -, h⟩ := Option.bind_eq_some_iff.1 h
  obtain ⟨_, -, h⟩ := Option.bind_eq_some_iff.1 h
  obtain ⟨_, -, h⟩ := Option.bind_eq_some_iff.1 h
  obtain ⟨_, -, h⟩ := Option.bind_eq_some_iff.1 h
  obtain ⟨_, -, h⟩ := Option.bind_eq_some_iff.1 h
  dsimp only at h
  split_ifs at h
  obtain ⟨r, -, h⟩ := Option.bind_eq_some_iff.1 h
  injection h with h
  subst h
  exact resultTol r o

/-- **C125 (tolerance).**  The tolerance in all theorems about limits and balance is `PDIPM_FEASTOL`, or `OPF_VIOLATION` if that is zero, times a factor of at least one (the size of the
variables and slacks). -/
theorem C125_tolerance (E : Econ) (K : Curves) (others : Bool) {c : Index.Case Tables} {r : Ret}
    (hr : runDc srt base E others p solve c = some r ∨ runAc srt base K p solve c = some r) :
    ∃ k, 1 ≤ k ∧ r.tol = (if p.PDIPM_FEASTOL = 0 then p.OPF_VIOLATION else p.PDIPM_FEASTOL) * k := by
  rcases hr with hr | hr
  · obtain ⟨c', o, -, -, ho, hr⟩ := runDc_some hr
    have hof : o.feastol = if p.PDIPM_FEASTOL = 0 then p.OPF_VIOLATION else p.PDIPM_FEASTOL := by
      unfold PpOpt.dc at ho
      split_ifs at ho <;> cases ho <;> rfl
    unfold opfDc at hr
    obtain ⟨c', -, hr⟩ := Option.bind_eq_some_iff.1 hr
    obtain ⟨d, -, hr⟩ := Option.bind_eq_some_iff.1 hr
    obtain ⟨m, -, hr⟩ := Option.bind_eq_some_iff.1 hr
    obtain ⟨s, hsol, hr⟩ := Option.bind_eq_some_iff.1 hr
    obtain ⟨t, -, hr⟩ := Option.bind_eq_some_iff.1 hr
    injection hr with e
    subst e
    rw [← hof]
    exact dc_tol hsol
  · obtain ⟨c', o, -, -, ho, hr⟩ := runAc_some hr
    have hof : o.feastol = if p.PDIPM_FEASTOL = 0 then p.OPF_VIOLATION else p.PDIPM_FEASTOL := by
      unfold PpOpt.ac at ho
      split_ifs at ho
      cases ho
      rfl
    unfold opfAcCurve at hr
    obtain ⟨c', -, hr⟩ := Option.bind_eq_some_iff.1 hr
    obtain ⟨d, -, hr⟩ := Option.bind_eq_some_iff.1 hr
    obtain ⟨m, -, hr⟩ := Option.bind_eq_some_iff.1 hr
    obtain ⟨s, hsol, hr⟩ := Option.bind_eq_some_iff.1 hr
    obtain ⟨mu, -, hr⟩ := Option.bind_eq_some_iff.1 hr
    obtain ⟨t, -, hr⟩ := Option.bind_eq_some_iff.1 hr
    injection hr with e
    subst e
    rw [← hof]
    exact ac_tol hsol

/-- **C125 (least cost).**  After a successful run with options that are not negative the reported cost is at least that of the returned dispatch and at most that of any feasible one, up to amounts made
of `PDIPM_GRADTOL`, `PDIPM_COMPTOL` and the tolerance of `C125_tolerance`; `y`: the values of the helper variables of piecewise linear costs. -/
theorem C125_least_cost (hs : IsArgsort srt) (hb : 0 < base) (E : Econ) (others : Bool) {c : Index.Case Tables} (h : WF c) (hin : DcInputs base c)
    (hang : AngInputs { E with ignoreAng := p.OPF_IGNORE_ANG_LIM } c) (hcost : EconCosts c) (hst : ∀ l ∈ c.branch, l.status = 0 ∨ l.status = 1)
    (h1 : 0 ≤ p.PDIPM_FEASTOL) (h2 : 0 ≤ p.OPF_VIOLATION) (h3 : 0 ≤ p.PDIPM_COMPTOL) {r : Ret} (hr : runDc srt base E others p solve c = some r) (hok : r.success = true) :
    dispatchCost c r.tables ≤ r.f + (pwlGens c).card * r.tol ∧
    ∃ y : ℕ → ℝ, ∀ t θ, DcFeasible base { E with ignoreAng := p.OPF_IGNORE_ANG_LIM } c t θ → ∀ M : ℝ, 0 ≤ M → (∀ i ∈ onBuses c, |vaAt r.tables i| ≤ M) →
      (∀ i ∈ onGens c, |pgAt r.tables i / base| ≤ M) → (∀ i ∈ pwlGens c, |y i| ≤ M) →
      r.f ≤ dispatchCost c t + (p.PDIPM_GRADTOL * (1 + r.dual) * dist base c r.tables t y + r.size * (r.dual * (r.tol + 1 / 2 ^ 52)) + p.PDIPM_COMPTOL * (1 + M)) := by
  obtain ⟨c', o, -, -, ho, hr⟩ := runDc_some hr
  have hof : o.costMult = 1 ∧ 0 ≤ o.feastol ∧ o.gradtol = p.PDIPM_GRADTOL ∧ o.comptol = p.PDIPM_COMPTOL := by
    have : 0 ≤ p.feastol := by unfold PpOpt.feastol; split_ifs <;> assumption
    unfold PpOpt.dc at ho
    split_ifs at ho <;> cases ho <;> exact ⟨rfl, this, rfl, rfl⟩
  obtain ⟨o1, o2, o3, o4⟩ := hof
  obtain ⟨y, -, -, q1, q2⟩ := C96_least_cost hs hb h hcost hst (by rw [o1]; norm_num) o2 (by rw [o4]; exact h3)
    (econ_wellposed hs h hin { E with ignoreAng := p.OPF_IGNORE_ANG_LIM, x0 := dcStart } hang) hr hok
  refine ⟨q1, y, fun t θ F M hM a b d => ?_⟩
  have := q2 t θ ⟨F.bus, F.gen, F.branch, F.angles, F.flows, F.balance, F.limits, F.rating, F.ref, F.angle, F.genOff, F.brOff⟩ M hM a b d
  rw [gap, o1, o3, o4, div_one] at this
  exact this

/-- Tolerances at which a starting point is accepted, as options of a run. -/
theorem exists_accepting {X Q I : Type} [Fintype X] [Fintype Q] [Fintype I] [DecidableEq X] [DecidableEq I] (P : Problem X Q I) (x0 : X → ℝ) (ign : Bool) :
    ∃ (p : PpOpt) (o : Opt), p.OPF_IGNORE_ANG_LIM = ign ∧ 0 < p.PDIPM_FEASTOL ∧ 0 < p.OPF_VIOLATION ∧ 0 < p.PDIPM_COMPTOL ∧ (∀ b, p.dc b = some o) ∧
      ∀ solve : Solver X Q, (pips P o solve x0).eflag = true := by
  let o1 : Opt := ⟨0, 0, 0, 0, 0, 0, false, 1⟩
  let s := Pips.init P o1 x0
  let p : PpOpt := ⟨0, 200, 1, 0, ign, |feascond P s.x s.z| + 1, |gradcond P o1 s.x s.lam s.mu| + 1, |compcond s.x s.z s.mu| + 1, costcond (Pips.cost P o1 s.x) s.f0 + 1, 0, 0⟩
  let o : Opt := ⟨|feascond P s.x s.z| + 1, |gradcond P o1 s.x s.lam s.mu| + 1, |compcond s.x s.z s.mu| + 1, costcond (Pips.cost P o1 s.x) s.f0 + 1, 0, 0, false, 1⟩
  have hne : |feascond P s.x s.z| + 1 ≠ 0 := by positivity
  refine ⟨p, o, rfl, by simp only [p]; positivity, by norm_num [p], by simp only [p]; positivity, fun b => ?_, fun solve => ?_⟩
  · simp only [PpOpt.dc, PpOpt.feastol, p, o, true_or, if_true, hne, if_false]
  have hc : conv P o (Pips.init P o x0) := by
    refine ⟨?_, ?_, ?_, ?_⟩
    · exact lt_of_le_of_lt (le_abs_self _) (lt_add_one _)
    · exact lt_of_le_of_lt (le_abs_self _) (lt_add_one _)
    · exact lt_of_le_of_lt (le_abs_self _) (lt_add_one _)
    · exact lt_add_one _
  simp [pips, Pips.run, hc]

/-- **C125 (success).**  On the same input there are positive tolerances with which the run succeeds, whatever the linear solver does. -/
theorem C125_succeeds (hs : IsArgsort srt) (E : Econ) (others : Bool) {c : Index.Case Tables} (h : WF c) (hin : DcInputs base c) (ign : Bool) (hang : AngInputs { E with ignoreAng := ign } c)
    (href : ∃ b ∈ c.bus, b.typ = 3) (solve : AnySolver) :
    ∃ p r, p.OPF_IGNORE_ANG_LIM = ign ∧ 0 < p.PDIPM_FEASTOL ∧ 0 < p.OPF_VIOLATION ∧ 0 < p.PDIPM_COMPTOL ∧ runDc srt base E others p solve c = some r ∧ r.success = true := by
  obtain ⟨c', he, hf⟩ := firstRef_some hs h href
  obtain ⟨x, hx⟩ := Option.isSome_iff_exists.1 hf
  let E' : Econ := { E with ignoreAng := ign, x0 := dcStart }
  have hang' : AngInputs E' c := hang
  obtain ⟨c1, d, he1, hd, -⟩ := bridge_exists hs base h
  rw [he] at he1; cases he1
  have g := econ_wellposed hs h hin E' hang' c' d he hd
  obtain ⟨m, hm⟩ := econ_runs (d := d) E' c' (readCase_valid hd E') (fun k : Fin c'.gen.length => pwl1Row (costAt c' k))
  have hm' : OpfModel.run (dcOps d ++ (econSetup base E').extra d c') = some m := hm
  obtain ⟨q, hq, -⟩ := linearOf_spec hm g
  obtain ⟨p, o, p1, p2, p3, p4, p5, p6⟩ := exists_accepting (problem (qp ((econSetup base E').H c' m) ((econSetup base E').C c' m)) q) ((econSetup base E').x0 c' m) ign
  obtain ⟨r, hr⟩ := (C96_completes hs h hin E' hang').1 o solve
  refine ⟨p, r, p1, p2, p3, p4, ?_, ?_⟩
  · unfold runDc
    rw [he, Option.bind_eq_bind, Option.bind_some, hx, Option.bind_eq_bind, Option.bind_some, p5, Option.bind_eq_bind, Option.bind_some, p1]
    exact hr
  · unfold opfDcEcon opfDc at hr
    simp only [he, hd, hm', Option.bind_eq_bind, Option.bind_some] at hr
    obtain ⟨s, hsol, hr⟩ := Option.bind_eq_some_iff.1 hr
    obtain ⟨t, -, hr⟩ := Option.bind_eq_some_iff.1 hr
    injection hr with e
    subst e
    obtain ⟨q', r', hq', hr', e1, -⟩ := dc_ofSolver hm' g hsol
    rw [hq] at hq'; cases hq'
    show s.success = true
    rw [e1, (ofFull hr').2.1]
    exact p6 _

/-! ### Examples -/

theorem exEcon_ref : ∃ b ∈ exEcon.bus, b.typ = 3 := ⟨_, List.mem_cons_self, rfl⟩

/-- `exEcon` and `exAlt` are of the same system though every voltage, output and flow differs, and a run on `exEcon` with the default options completes. -/
example : IsArgsort Index.stableArgsort ∧ WF exEcon ∧ WF exAlt ∧ SameSystem exEcon exAlt ∧ exEcon.gen.map (·.data.PG) ≠ exAlt.gen.map (·.data.PG) ∧
    ∃ r, runDc Index.stableArgsort 100 exE false PpOpt.default (fun _ _ _ _ => none) exEcon = some r := by
  have hsame : SameSystem exEcon exAlt := by
    refine ⟨?_, ?_, ?_, rfl, rfl, rfl⟩ <;> simp [exEcon, exAlt, exTables, busGiven, busInput, genInput, branchInput]
  refine ⟨Index.stableArgsort_isArgsort, exEcon_wf, ?_, hsame, ?_, ?_⟩
  · exact hsame.wf exEcon_wf (by simp [exAlt, exEcon, exTables]) (by simp [exAlt, exEcon, exTables])
  · norm_num [exEcon, exAlt, exTables]
  · exact C125_completes Index.stableArgsort_isArgsort exE false exEcon_wf exEcon_dc exE_ang exEcon_ref (by simp [PpOpt.default]) _

theorem exK_inputs : InputsOnly exK := by
  constructor
  · intro c1 c2 h
    have hb : c1.bus.length = c2.bus.length := by simpa using congrArg List.length h.bus
    have hg : c1.gen.length = c2.gen.length := by simpa using congrArg List.length h.gen
    simp only [exK, exAcSetup, hb, hg]
  · intros; rfl

/-- The hypotheses of the AC theorems hold on the example with the default options, from any stored operating point. -/
example (vm va pg qg vg : ℕ → ℝ) : InputsOnly exK ∧ WF exCurve ∧ WF (restate vm va pg qg vg exCurve) ∧ SameSystem exCurve (restate vm va pg qg vg exCurve) ∧
    ∃ r, runAc Index.stableArgsort 100 exK PpOpt.default (fun _ _ _ _ => none) exCurve = some r := by
  obtain ⟨h1, h2⟩ := C125_restate vm va pg qg vg exCurve exCurve_wf
  refine ⟨exK_inputs, exCurve_wf, h2, h1, ?_⟩
  obtain ⟨c', he, hf⟩ := firstRef_some Index.stableArgsort_isArgsort exCurve_wf ⟨_, List.mem_cons_self, rfl⟩
  obtain ⟨x, hx⟩ := Option.isSome_iff_exists.1 hf
  have ho : ∃ o, PpOpt.default.ac = some o := by
    have e : acSolver false PpOpt.default.OPF_ALG = some .pips := by decide
    exact ⟨_, if_pos e⟩
  obtain ⟨o, ho⟩ := ho
  obtain ⟨r, hr⟩ := (C120_completes_partial Index.stableArgsort_isArgsort exCurve_wf exCurve_ac { exK with ang := { exK.ang with ignoreAng := false, x0 := acStart } } exK_ang (fun _ _ => rfl) 0
    exCurve_costFits ⟨fun _ => exCurve_both.2, fun _ => exCurve_both.1⟩).1 o (fun _ _ _ _ => none)
  refine ⟨r, ?_⟩
  unfold runAc
  rw [he, Option.bind_eq_bind, Option.bind_some, hx, Option.bind_eq_bind, Option.bind_some, ho, Option.bind_eq_bind, Option.bind_some]
  exact hr

/-- The hypotheses of `C125_least_cost` hold on `exEcon`; another dispatch is feasible. -/
example : ∃ p r, (0 : ℝ) < 100 ∧ WF exEcon ∧ DcInputs 100 exEcon ∧ AngInputs { exE with ignoreAng := p.OPF_IGNORE_ANG_LIM } exEcon ∧ EconCosts exEcon ∧
    (∀ l ∈ exEcon.branch, l.status = 0 ∨ l.status = 1) ∧ 0 ≤ p.PDIPM_FEASTOL ∧ 0 ≤ p.OPF_VIOLATION ∧ 0 ≤ p.PDIPM_COMPTOL ∧
    runDc Index.stableArgsort 100 exE false p (fun _ _ _ _ => none) exEcon = some r ∧ r.success = true ∧ DcFeasible 100 { exE with ignoreAng := p.OPF_IGNORE_ANG_LIM } exEcon exAlt exθ := by
  obtain ⟨p, r, h1, h2, h3, h4, h5, h6⟩ := C125_succeeds Index.stableArgsort_isArgsort exE false exEcon_wf exEcon_dc false exE_ang exEcon_ref (fun _ _ _ _ => none)
  refine ⟨p, r, by norm_num, exEcon_wf, exEcon_dc, ?_, exEcon_costs, by simp [exEcon], h2.le, h3.le, h4.le, h5, h6, ?_⟩
  · rw [h1]; exact exE_ang
  · rw [h1]; exact exAlt_feasible

end

end Verif.Opf
