import Verif.Opf.StartRuns

/-! Lemmas: `dc_same` applies to runs with the costs of the case, and the same for AC. -/

namespace Verif.Opf

open Verif.Index (BusRow GenRow BranchRow IsArgsort WF GenInService BranchInService Connected HasBus)
open Verif.OpfModel Verif.Pips Verif.Network Verif.NumPy

noncomputable section

section same
variable {c1 c2 : Index.Case Tables} (h : SameSystem c1 c2)
include h

theorem SameSystem.angRows (E : Econ) : Opf.angRows E c1 = Opf.angRows E c2 := map_of_key h.branch fun a b e => by
  have h1 := branchInput_f e
  have h2 := branchInput_t e
  have h3 : a.data.rest = b.data.rest := by
    have := congrArg (fun l : BranchRow BrD => l.data.rest) e
    exact this
  rw [h1, h2, h3]

theorem SameSystem.angOps (E : Econ) (nb : ℕ) : Opf.angOps E nb c1 = Opf.angOps E nb c2 := by
  unfold Opf.angOps
  rw [h.angRows]

theorem SameSystem.costAt (p : ℕ) : Opf.costAt c1 p = Opf.costAt c2 p := by
  unfold Opf.costAt
  rw [h.gencost]

omit h in
theorem find_key {α γ : Type} {p : α → Bool} {k : α → γ} {xs ys : List α} (h : xs.map k = ys.map k) (hp : ∀ a b, k a = k b → p a = p b) :
    (xs.find? p).map k = (ys.find? p).map k := by
  induction xs generalizing ys with
  | nil => cases ys <;> simp_all
  | cons a xs ih =>
    cases ys with
    | nil => simp at h
    | cons b ys =>
      simp only [List.map_cons, List.cons.injEq] at h
      have := hp _ _ h.1
      cases hb : p b <;> simp [this, hb, h.1, ih h.2]

theorem SameSystem.firstRef : Opf.firstRef c1 = Opf.firstRef c2 := by
  have := find_key (p := fun b : BusRow BusD => b.typ == 3) h.bus fun a b e => by simp only [busGiven_typ e]
  unfold Opf.firstRef
  cases h1 : c1.bus.find? (fun b => b.typ == 3) with
  | none =>
    rw [h1] at this
    cases h2 : c2.bus.find? (fun b => b.typ == 3) with
    | none => rfl
    | some b2 => rw [h2] at this; cases this
  | some b1 =>
    rw [h1] at this
    cases h2 : c2.bus.find? (fun b => b.typ == 3) with
    | none => rw [h2] at this; cases this
    | some b2 =>
      rw [h2] at this
      have e := Option.some_injective _ this
      have t1 : b1.typ = 3 := by simpa using List.find?_some h1
      have t2 : b2.typ = 3 := by simpa using List.find?_some h2
      have := congrArg (fun b : BusRow BusD => b.data.VA) e
      simp only [busGiven, t1, t2, if_true] at this
      simp only [Option.map_some, this]

theorem SameSystem.dcStart (m : Model) {w : Dict (List EReal)} (hw : ∀ k, (w k).isSome = (m.v0 k).isSome) : Opf.dcStart c2 { m with v0 := w } = Opf.dcStart c1 m := by
  funext k
  have e : (List.ofFn fun p : Fin c2.gen.length => Cost.pwl1Row (Opf.costAt c2 p)) = List.ofFn fun p : Fin c1.gen.length => Cost.pwl1Row (Opf.costAt c1 p) := by
    have hl := map_eq_len h.gen
    refine List.ext_getElem (by simp [hl]) fun i h1 h2 => ?_
    simp only [List.getElem_ofFn, h.costAt]
  unfold Opf.dcStart
  rw [e, h.firstRef]
  exact interior_v0 m hw _ _ _

theorem SameSystem.acStart (m : Model) {w : Dict (List EReal)} (hw : ∀ k, (w k).isSome = (m.v0 k).isSome) : Opf.acStart c2 { m with v0 := w } = Opf.acStart c1 m := by
  funext k
  unfold Opf.acStart
  rw [h.gencost, h.firstRef]
  exact interior_v0 m hw _ _ _

end same

theorem objective_v0 (base : ℝ) {c1 c2 : Index.Case Tables} (h : SameSystem c1 c2) (m : Model) (w : Dict (List EReal)) :
    (if k : c2.bus.length + c2.gen.length ≤ m.var.total then some (OpfCost.HH (econData base c2 { m with v0 := w } k), OpfCost.CC (econData base c2 { m with v0 := w } k),
      OpfCost.C0 (econData base c2 { m with v0 := w } k)) else none) =
    if k : c1.bus.length + c1.gen.length ≤ m.var.total then some (OpfCost.HH (econData base c1 m k), OpfCost.CC (econData base c1 m k), OpfCost.C0 (econData base c1 m k)) else none := by
  have key : ∀ (nb1 ng1 nb2 ng2 n : ℕ) (gc1 : Fin ng1 → Cost.CostRow ℝ) (gc2 : Fin ng2 → Cost.CostRow ℝ), nb2 = nb1 → (e : ng2 = ng1) → (∀ k : Fin ng2, gc2 k = gc1 (k.cast e)) →
      (if k : nb2 + ng2 ≤ n then some (OpfCost.HH (dcData base gc2 (noUser n) nb2 (nb2 + ng2) k), OpfCost.CC (dcData base gc2 (noUser n) nb2 (nb2 + ng2) k),
        OpfCost.C0 (dcData base gc2 (noUser n) nb2 (nb2 + ng2) k)) else none) =
      if k : nb1 + ng1 ≤ n then some (OpfCost.HH (dcData base gc1 (noUser n) nb1 (nb1 + ng1) k), OpfCost.CC (dcData base gc1 (noUser n) nb1 (nb1 + ng1) k),
        OpfCost.C0 (dcData base gc1 (noUser n) nb1 (nb1 + ng1) k)) else none := by
    intro nb1 ng1 nb2 ng2 n gc1 gc2 e1 e2 hgc
    subst e1 e2
    have : gc2 = gc1 := funext hgc
    subst this
    rfl
  exact key _ _ _ _ _ _ _ (map_eq_len h.bus).symm (map_eq_len h.gen).symm fun k => congrArg Cost.pwl1Row (h.costAt _).symm

theorem econ_blind (base : ℝ) (E : Econ) : DcBlind (econSetup base { E with x0 := dcStart }) where
  extra := fun {nb ng nl} d1 d2 c1 c2 hd hc => by
    have hb : d2.base = d1.base := by rw [hd.rest]
    simp only [econSetup, hc.angOps, hb]
    have : (fun p : Fin ng => Cost.pwl1Row (costAt c1 p)) = fun p : Fin ng => Cost.pwl1Row (costAt c2 p) := funext fun p => by rw [hc.costAt]
    rw [this]
  H := fun c1 c2 m w hc => by
    have := objective_v0 base hc m w
    simp only [econSetup]
    split at this
    · rename_i k
      rw [dif_pos k]
      split at this
      · rename_i k'
        rw [dif_pos k']
        exact (Prod.mk.inj (Option.some_injective _ this)).1
      · cases this
    · rename_i k
      rw [dif_neg k]
      split at this
      · cases this
      · rename_i k'
        rw [dif_neg k']
  C := fun c1 c2 m w hc => by
    have := objective_v0 base hc m w
    simp only [econSetup]
    split at this
    · rename_i k
      rw [dif_pos k]
      split at this
      · rename_i k'
        rw [dif_pos k']
        exact (Prod.mk.inj (Prod.mk.inj (Option.some_injective _ this)).2).1
      · cases this
    · rename_i k
      rw [dif_neg k]
      split at this
      · cases this
      · rename_i k'
        rw [dif_neg k']
  C0 := fun c1 c2 m w hc => by
    have := objective_v0 base hc m w
    simp only [econSetup]
    split at this
    · rename_i k
      rw [dif_pos k]
      split at this
      · rename_i k'
        rw [dif_pos k']
        exact (Prod.mk.inj (Prod.mk.inj (Option.some_injective _ this)).2).2
      · cases this
    · rename_i k
      rw [dif_neg k]
      split at this
      · cases this
      · rename_i k'
        rw [dif_neg k']
  x0 := fun c1 c2 m w hw hc => hc.dcStart m hw
  post := fun c1 c2 m w {nb ng nl} s hc => by
    have e : c2.bus.length = c1.bus.length := (map_eq_len hc.bus).symm
    simp only [econSetup, angPost, hc.angRows, e]

/-- Limited branches get multipliers whatever the columns held before. -/
theorem ang_written {E : Econ} {base : ℝ} {c' : Index.Case Tables} {d : Case c'.bus.length c'.gen.length c'.branch.length} (hd : readCase base c' = some d) {ops : List Op} {m : Model}
    (hm : OpfModel.run ops = some m) (hin : ∀ a ∈ angOps E c'.bus.length c', a ∈ ops) (k : Fin c'.branch.length) (hk : AngLimited E c'.branch[k]) :
    ∃ L i1, Constr.makeAang E.ignoreAng c'.bus.length (angRows E c') = some L ∧ m.lin.i1 "ang" = some i1 ∧ k.val ∈ L.index := by
  obtain ⟨B, hB, -, -, -, -, -, -, ⟨L, hL, -⟩, hmem⟩ := ang_block E c'.bus.length c' (readCase_valid hd E)
  have hi := lin_keep (name := "ang") hm (.inr ⟨_, _, _, _, hin _ (by rw [hB]; exact List.mem_singleton.2 rfl)⟩)
  obtain ⟨i1, hi⟩ := Option.isSome_iff_exists.1 hi
  refine ⟨L, i1, hL, hi, (hmem L hL k _ ?_).2 hk⟩
  simp [angRows]

theorem econ_post {E : Econ} {base : ℝ} {c' : Index.Case Tables} {d : Case c'.bus.length c'.gen.length c'.branch.length} {m : Model} (s : DcRes c'.bus.length c'.gen.length c'.branch.length)
    (hd : readCase base c' = some d) (hm : OpfModel.run (dcOps d ++ (econSetup base E).extra d c') = some m) (k : Fin c'.branch.length) (hk : AngLimited E c'.branch[k]) (v w : ℝ) :
    ((econSetup base E).post c' m s).angmin k v = ((econSetup base E).post c' m s).angmin k w ∧
    ((econSetup base E).post c' m s).angmax k v = ((econSetup base E).post c' m s).angmax k w := by
  obtain ⟨L, i1, h1, h2, h3⟩ := ang_written hd hm (E := E) (fun a ha => List.mem_append_right _ (List.mem_append_left _ ha)) k hk
  simp only [econSetup, angPost, h1, h2, if_pos h3, and_self]

/-! ### AC -/

/-- Without the stored outputs. -/
def bare (g : Constr.Gen) : Constr.Gen := { g with pg := 0, qg := 0 }

theorem gather_bare {β : Type} (f : Constr.Gen → β) (hf : ∀ g, f (bare g) = f g) (gs : List Constr.Gen) (is : List ℕ) :
    (gather (gs.map bare) is).map (List.map f) = (gather gs is).map (List.map f) := by
  rw [gather_map]
  cases gather gs is with
  | none => rfl
  | some ys => simp [Function.comp_def, hf]

theorem halfRows_bare (base : ℝ) (mask : Constr.Gen → Bool) (half : Constr.Gen → Constr.Half) (hm : ∀ g, mask (bare g) = mask g) (hh : ∀ g, half (bare g) = half g)
    (gs : List Constr.Gen) : Constr.halfRows base mask half (gs.map bare) = Constr.halfRows base mask half gs := by
  have key : ∀ gs : List Constr.Gen, Constr.halfRows base mask half gs = ((gather gs (find (gs.map mask))).map (List.map half)).map fun hs =>
      ⟨(find (gs.map mask)).length, Constr.twoBlocks (find (gs.map mask)).length (find (gs.map mask)) ((find (gs.map mask)).map (· + gs.length))
        ((hs.map Constr.Half.normalise).map Constr.Half.a) ((hs.map Constr.Half.normalise).map Constr.Half.b),
      List.replicate (find (gs.map mask)).length ⊥, (hs.map Constr.Half.normalise).map fun h => ((h.ub / base : ℝ) : EReal), find (gs.map mask)⟩ := by
    intro gs
    unfold Constr.halfRows
    cases hq : gather gs (find (gs.map mask)) <;> simp [Function.comp_def, hq]
  have e : (gs.map bare).map mask = gs.map mask := by simp [Function.comp_def, hm]
  rw [key, key, e, gather_bare half hh, List.length_map]

theorem makeApq_bare (base : ℝ) (gs : List Constr.Gen) : Constr.makeApq base (gs.map bare) = Constr.makeApq base gs := by
  unfold Constr.makeApq
  rw [halfRows_bare base _ _ (fun _ => rfl) (fun _ => rfl), halfRows_bare base _ _ (fun _ => rfl) (fun _ => rfl)]

theorem makeAvl_bare (base : ℝ) (gs : List Constr.Gen) : Constr.makeAvl base (gs.map bare) = Constr.makeAvl base gs := by
  have key : ∀ gs : List Constr.Gen, Constr.makeAvl base gs = ((gather gs (find (gs.map (Constr.isVarLoad base)))).map
      (List.map fun g => Constr.arctan2 (Constr.qlim base g) (g.pmin / base))).map fun theta =>
      ⟨(find (gs.map (Constr.isVarLoad base))).length, Constr.twoBlocks (find (gs.map (Constr.isVarLoad base))).length (find (gs.map (Constr.isVarLoad base)))
        ((find (gs.map (Constr.isVarLoad base))).map (· + gs.length)) (theta.map Real.sin) (theta.map fun t => -Real.cos t),
      List.replicate (find (gs.map (Constr.isVarLoad base))).length 0, List.replicate (find (gs.map (Constr.isVarLoad base))).length 0, find (gs.map (Constr.isVarLoad base))⟩ := by
    intro gs
    unfold Constr.makeAvl
    cases hq : gather gs (find (gs.map (Constr.isVarLoad base))) <;> simp [Function.comp_def, hq]
  have e : (gs.map bare).map (Constr.isVarLoad base) = gs.map (Constr.isVarLoad base) := by
    rw [List.map_map]; rfl
  rw [key, key, e, gather_bare _ (fun _ => rfl), List.length_map]

theorem apqData_bare (gs : List Constr.Gen) : Mupq.apqData (gs.map bare) = Mupq.apqData gs := by
  have key : ∀ gs : List Constr.Gen, Mupq.apqData gs = ((gather gs (find (gs.map Constr.hasPQcapU))).map (List.map fun g => (Constr.upperHalf g).normalise)).bind fun h =>
      ((gather gs (find (gs.map Constr.hasPQcapL))).map (List.map fun g => (Constr.lowerHalf g).normalise)).map fun l =>
      ⟨find (gs.map Constr.hasPQcapU), find (gs.map Constr.hasPQcapL), h, l⟩ := by
    intro gs
    unfold Mupq.apqData
    cases gather gs (find (gs.map Constr.hasPQcapU)) <;> cases gather gs (find (gs.map Constr.hasPQcapL)) <;> rfl
  have e1 : (gs.map bare).map Constr.hasPQcapU = gs.map Constr.hasPQcapU := by rw [List.map_map]; rfl
  have e2 : (gs.map bare).map Constr.hasPQcapL = gs.map Constr.hasPQcapL := by rw [List.map_map]; rfl
  rw [key, key, e1, e2, gather_bare _ (fun _ => rfl), gather_bare _ (fun _ => rfl)]

theorem execute_bare (base : ℝ) (gs : List Constr.Gen) : Mupq.execute base (gs.map bare) = Mupq.execute base gs := by
  funext mu lh uh ll ul
  unfold Mupq.execute
  rw [apqData_bare]

theorem SameSystem.rows {c1 c2 : Index.Case Tables} (h : SameSystem c1 c2) (K : Curves) : (K.rows c1).map bare = (K.rows c2).map bare := by
  unfold Curves.rows
  rw [List.map_map, List.map_map]
  refine map_of_key h.gen fun a b e => ?_
  cases a with | mk n1 t1 x1 => cases x1; cases b with | mk n2 t2 x2 => cases x2; simp_all [genInput, Curves.row, bare]

theorem SameSystem.apq {c1 c2 : Index.Case Tables} (h : SameSystem c1 c2) (K : Curves) (base : ℝ) : Constr.makeApq base (K.rows c1) = Constr.makeApq base (K.rows c2) := by
  rw [← makeApq_bare, h.rows, makeApq_bare]

theorem SameSystem.avl {c1 c2 : Index.Case Tables} (h : SameSystem c1 c2) (K : Curves) (base : ℝ) : Constr.makeAvl base (K.rows c1) = Constr.makeAvl base (K.rows c2) := by
  rw [← makeAvl_bare, h.rows, makeAvl_bare]

theorem SameSystem.execute {c1 c2 : Index.Case Tables} (h : SameSystem c1 c2) (K : Curves) (base : ℝ) : Mupq.execute base (K.rows c1) = Mupq.execute base (K.rows c2) := by
  rw [← execute_bare, h.rows, execute_bare]

theorem ac_bus {nb ng nl : ℕ} (s : AcRes nb ng nl) (p : PostMu ng nl) (k : Fin nb) (b1 b2 : BusRow BusD) (e : busGiven b1 = busGiven b2) :
    ({ b1 with data := (acUpd s p).bus k b1.data } : BusRow BusD) = { b2 with data := (acUpd s p).bus k b2.data } := by
  cases b1 with | mk n1 t1 x1 => cases x1; cases b2 with | mk n2 t2 x2 => cases x2; simp_all [busGiven, busInput, acUpd]

theorem ac_gen {nb ng nl : ℕ} (s : AcRes nb ng nl) (p : PostMu ng nl) (k : Fin ng) (b1 b2 : GenRow GenD) (e : genInput b1 = genInput b2) :
    ({ b1 with data := (acUpd s p).gen k b1.data } : GenRow GenD) = { b2 with data := (acUpd s p).gen k b2.data } := by
  cases b1 with | mk n1 t1 x1 => cases x1; cases b2 with | mk n2 t2 x2 => cases x2; simp_all [genInput, acUpd]

theorem ac_br {nb ng nl : ℕ} (s : AcRes nb ng nl) (p : PostMu ng nl) (k : Fin nl) (l1 l2 : BranchRow BrD) (e : branchInput l1 = branchInput l2) (ang : Prop)
    (h : ang → s.success = true ∧ ∀ v w, p.angmin k v = p.angmin k w ∧ p.angmax k v = p.angmax k w) :
    SameBranch ang { l1 with data := (acUpd s p).branch k l1.data } { l2 with data := (acUpd s p).branch k l2.data } := by
  refine ⟨?_, fun hA => ?_⟩
  · clear h
    cases l1 with | mk n1 t1 f1 x1 => cases x1; cases l2 with | mk n2 t2 f2 x2 => cases x2; simp_all [branchInput, acUpd]
  · obtain ⟨ok, h⟩ := h hA
    have k1 := (h l1.data.MU_ANGMIN l2.data.MU_ANGMIN).1
    have k2 := (h l1.data.MU_ANGMAX l2.data.MU_ANGMAX).2
    clear h hA
    cases l1 with | mk n1 t1 f1 x1 => cases x1; cases l2 with | mk n2 t2 f2 x2 => cases x2; simp_all [branchInput, acUpd]

/-- As `dc_same`. -/
theorem ac_same {srt : List ℕ → List ℕ} (hs : IsArgsort srt) {c1 c2 : Index.Case Tables} (h : SameSystem c1 c2) (w1 : WF c1) (w2 : WF c2) {base : ℝ} {lim : Int} {K : Curves}
    (hK : InputsOnly K) (hx : K.ang.x0 = acStart) {o : Opt} {solve : AnySolver} {r1 : Ret} (hr : opfAcCurve srt base lim K o solve c1 = some r1) :
    ∃ r2, opfAcCurve srt base lim K o solve c2 = some r2 ∧ SameAcResults K.ang r1 r2 := by
  obtain ⟨c1', c2', he1, he2, hc⟩ := h.internal hs w1 w2
  have hb : c2'.bus.length = c1'.bus.length := (map_eq_len hc.bus).symm
  have hg : c2'.gen.length = c1'.gen.length := (map_eq_len hc.gen).symm
  have hl : c2'.branch.length = c1'.branch.length := (map_eq_len hc.branch).symm
  rw [opfAcCurve_as he1 rfl rfl rfl] at hr
  obtain ⟨d1, hd1, hr⟩ := Option.bind_eq_some_iff.1 hr
  obtain ⟨m, hm, hr⟩ := Option.bind_eq_some_iff.1 hr
  obtain ⟨s, hsol, hr⟩ := Option.bind_eq_some_iff.1 hr
  obtain ⟨mu, hmu, hr⟩ := Option.bind_eq_some_iff.1 hr
  obtain ⟨t1, ht1, hr⟩ := Option.bind_eq_some_iff.1 hr
  injection hr with hr
  subst hr
  obtain ⟨d2, hd2, hd⟩ := read_same (h2b := hb) (h2g := hg) (h2l := hl) hc hd1
  have hbase : d2.base = d1.base := by rw [hd.rest]
  have hops : List.Forall₂ SameOp (acOps d1 ++ curveExtra K d1 c1') (acOps d2 ++ curveExtra K d2 c2') := by
    have : curveExtra K d1 c1' = curveExtra K d2 c2' := by
      unfold curveExtra curveOps
      rw [hK.more d1 d2 c1' c2' hd hc, hc.angOps, hc.apq, hc.avl, hbase]
    rw [this]
    exact forall₂_append (acOps_same hd) (forall₂_refl _)
  obtain ⟨w, hm2, hw⟩ := run_same hops hm
  obtain ⟨t2, ht2⟩ := exists_as hs w2 he2 (hb := hb) (hg := hg) (hl := hl) (acUpd s (curvePost K c1' m s mu))
  have hsol2 : pipsopfSolver d2 lim (K.cost c2') { m with v0 := w } o solve (K.ang.x0 c2' { m with v0 := w }) = some s := by
    rw [hx] at hsol ⊢
    rw [hc.acStart m hw, pipsopfSolver_same hd lim _ m hw, ← hK.cost c1' c2' hc, hsol]
  have hmu2 : curveMus base K c2' { m with v0 := w } s = some mu := by
    rw [← hmu]
    unfold curveMus curveMu
    rw [hc.apq, hc.execute]
  have hpost : curvePost K c2' { m with v0 := w } s mu = curvePost K c1' m s mu := by
    simp only [curvePost, hc.angRows, hb]
  refine ⟨⟨s.success, s.f, s.tol, s.dual, m.var.total + m.lin.total, zeroOff opfOff t2⟩, ?_, ?_⟩
  · rw [opfAcCurve_as he2 hb hg hl, hd2, Option.bind_some, hm2, Option.bind_some, hsol2, Option.bind_some, hmu2, Option.bind_some, hpost, ht2]
    rfl
  · refine results_same hs h w1 w2 he1 he2 (h1b := rfl) (h1g := rfl) (h1l := rfl) hd1 hd2 ht1 ht2 ?_ ?_ ?_
    · intro k b1 b2 e
      exact ac_bus s _ k b1 b2 e
    · intro k b1 b2 e
      exact ac_gen s _ k b1 b2 e
    · intro k l1 l2 e hk
      refine ac_br s _ k l1 l2 e _ fun hA => ⟨hA.1, ?_⟩
      have hA' : s.success = true ∧ AngLimited K.ang l1 := hA
      obtain ⟨L, i1, q1, q2, q3⟩ := ang_written (E := K.ang) (base := base) (c' := c1') (d := d1) hd1 hm
        (fun a ha => List.mem_append_right _ (List.mem_append_right _ (List.mem_append_left _ ha))) k
        ⟨hA'.2.1, by have := hA'.2.2; rw [hk] at this; exact this⟩
      intro v w
      simp only [curvePost, q1, q2, if_pos q3, and_self]

end

end Verif.Opf
