import Verif.Opf.StartSolve

/-! Lemmas: the runs of two cases of the same system agree. -/

namespace Verif.Opf

open Verif.Index (BusRow GenRow BranchRow IsArgsort WF GenInService BranchInService Connected HasBus)
open Verif.OpfModel Verif.Pips Verif.Network Verif.NumPy

noncomputable section

variable {nb ng nl : ℕ}

/-! ### Tables of given lengths -/

/-- `readCase`, with the lengths of the tables given. -/
def readAs (base : ℝ) (c : Index.Case Tables) (hb : c.bus.length = nb) (hg : c.gen.length = ng) (hl : c.branch.length = nl) : Option (Case nb ng nl) :=
  if h : (∀ k : Fin ng, (c.gen[(k : ℕ)]'(hg ▸ k.isLt)).bus < nb) ∧
      (∀ k : Fin nl, (c.branch[(k : ℕ)]'(hl ▸ k.isLt)).f < nb ∧ (c.branch[(k : ℕ)]'(hl ▸ k.isLt)).t < nb) then
    some {
      base := base
      bus := fun k => ⟨(c.bus[(k : ℕ)]'(hb ▸ k.isLt)).data.PD, (c.bus[(k : ℕ)]'(hb ▸ k.isLt)).data.QD, (c.bus[(k : ℕ)]'(hb ▸ k.isLt)).data.GS, (c.bus[(k : ℕ)]'(hb ▸ k.isLt)).data.BS⟩
      isRef := fun k => (c.bus[(k : ℕ)]'(hb ▸ k.isLt)).typ == 3
      va := fun k => (c.bus[(k : ℕ)]'(hb ▸ k.isLt)).data.VA
      vm := fun k => (c.bus[(k : ℕ)]'(hb ▸ k.isLt)).data.VM
      vmin := fun k => (c.bus[(k : ℕ)]'(hb ▸ k.isLt)).data.VMIN
      vmax := fun k => (c.bus[(k : ℕ)]'(hb ▸ k.isLt)).data.VMAX
      gen := fun k => ⟨⟨(c.gen[(k : ℕ)]'(hg ▸ k.isLt)).bus, h.1 k⟩, (c.gen[(k : ℕ)]'(hg ▸ k.isLt)).data.PG, (c.gen[(k : ℕ)]'(hg ▸ k.isLt)).data.QG, (c.gen[(k : ℕ)]'(hg ▸ k.isLt)).status⟩
      pmin := fun k => (c.gen[(k : ℕ)]'(hg ▸ k.isLt)).data.PMIN
      pmax := fun k => (c.gen[(k : ℕ)]'(hg ▸ k.isLt)).data.PMAX
      qmin := fun k => (c.gen[(k : ℕ)]'(hg ▸ k.isLt)).data.QMIN
      qmax := fun k => (c.gen[(k : ℕ)]'(hg ▸ k.isLt)).data.QMAX
      branch := fun k => ⟨⟨(c.branch[(k : ℕ)]'(hl ▸ k.isLt)).f, (h.2 k).1⟩, ⟨(c.branch[(k : ℕ)]'(hl ▸ k.isLt)).t, (h.2 k).2⟩, (c.branch[(k : ℕ)]'(hl ▸ k.isLt)).data.r,
        (c.branch[(k : ℕ)]'(hl ▸ k.isLt)).data.x, (c.branch[(k : ℕ)]'(hl ▸ k.isLt)).data.b,
        (c.branch[(k : ℕ)]'(hl ▸ k.isLt)).data.tap, (c.branch[(k : ℕ)]'(hl ▸ k.isLt)).data.shift, (c.branch[(k : ℕ)]'(hl ▸ k.isLt)).status⟩
      rateA := fun k => (c.branch[(k : ℕ)]'(hl ▸ k.isLt)).data.rateA }
  else none

theorem readAs_eq (base : ℝ) (c : Index.Case Tables) : readAs base c rfl rfl rfl = readCase base c := rfl

/-- `write`, with the lengths of the tables given. -/
def writeAs (c : Index.Case Tables) (hb : c.bus.length = nb) (hg : c.gen.length = ng) (hl : c.branch.length = nl) (u : Upd nb ng nl) : Index.Case Tables :=
  { c with
    bus := List.ofFn fun k : Fin nb => { c.bus[k.cast hb.symm] with data := u.bus k c.bus[k.cast hb.symm].data }
    gen := List.ofFn fun k : Fin ng => { c.gen[k.cast hg.symm] with data := u.gen k c.gen[k.cast hg.symm].data }
    branch := List.ofFn fun k : Fin nl => { c.branch[k.cast hl.symm] with data := u.branch k c.branch[k.cast hl.symm].data } }

theorem writeAs_eq (c : Index.Case Tables) (u : Upd c.bus.length c.gen.length c.branch.length) : writeAs c rfl rfl rfl u = write c u := rfl

theorem getElem_key {α β : Type} {f : α → β} {xs ys : List α} (h : xs.map f = ys.map f) {k : ℕ} (h1 : k < xs.length) (h2 : k < ys.length) : f xs[k] = f ys[k] := by
  have : (xs.map f)[k]? = (ys.map f)[k]? := by rw [h]
  simpa [h1, h2] using this

/-- Two cases of the same system are read in the same way, but for stored voltages and outputs. -/
theorem read_same {base : ℝ} {c1 c2 : Index.Case Tables} (h : SameSystem c1 c2) {h1b : c1.bus.length = nb} {h1g : c1.gen.length = ng} {h1l : c1.branch.length = nl}
    {h2b : c2.bus.length = nb} {h2g : c2.gen.length = ng} {h2l : c2.branch.length = nl} {d1 : Case nb ng nl} (hd : readAs base c1 h1b h1g h1l = some d1) :
    ∃ d2, readAs base c2 h2b h2g h2l = some d2 ∧ SameCase d1 d2 := by
  have hb : ∀ k : Fin nb, busGiven (c1.bus[(k : ℕ)]'(h1b ▸ k.isLt)) = busGiven (c2.bus[(k : ℕ)]'(h2b ▸ k.isLt)) := fun k => getElem_key h.bus _ _
  have hg : ∀ k : Fin ng, genInput (c1.gen[(k : ℕ)]'(h1g ▸ k.isLt)) = genInput (c2.gen[(k : ℕ)]'(h2g ▸ k.isLt)) := fun k => getElem_key h.gen _ _
  have hl : ∀ k : Fin nl, branchInput (c1.branch[(k : ℕ)]'(h1l ▸ k.isLt)) = branchInput (c2.branch[(k : ℕ)]'(h2l ▸ k.isLt)) := fun k => getElem_key h.branch _ _
  unfold readAs at hd
  split at hd
  swap
  · cases hd
  rename_i hv
  injection hd with hd
  have hv2 : (∀ k : Fin ng, (c2.gen[(k : ℕ)]'(h2g ▸ k.isLt)).bus < nb) ∧
      (∀ k : Fin nl, (c2.branch[(k : ℕ)]'(h2l ▸ k.isLt)).f < nb ∧ (c2.branch[(k : ℕ)]'(h2l ▸ k.isLt)).t < nb) :=
    ⟨fun k => genInput_bus (hg k) ▸ hv.1 k, fun k => ⟨branchInput_f (hl k) ▸ (hv.2 k).1, branchInput_t (hl k) ▸ (hv.2 k).2⟩⟩
  unfold readAs
  rw [dif_pos hv2]
  refine ⟨_, rfl, ?_, ?_, ?_⟩
  · subst hd
    simp only [Case.mk.injEq, true_and]
    have b := fun k => hb k
    have g := fun k => hg k
    have l := fun k => hl k
    simp only [busGiven, busInput, genInput, branchInput, BusRow.mk.injEq, GenRow.mk.injEq, BranchRow.mk.injEq, BusD.mk.injEq, GenD.mk.injEq, BrD.mk.injEq] at b g l
    refine ⟨funext fun k => ?_, funext fun k => ?_, funext fun k => ?_, funext fun k => ?_, funext fun k => ?_, funext fun k => ?_, funext fun k => ?_, funext fun k => ?_,
      funext fun k => ?_, funext fun k => ?_⟩
    · have := b k; simp [this]
    · have := b k; simp [this]
    · have := b k; simp [this]
    · have := b k; simp [this]
    · have := g k; simp [this]
    · have := g k; simp [this]
    · have := g k; simp [this]
    · have := g k; simp [this]
    · have := l k; simp [this]
    · have := l k; simp [this]
  · subst hd
    intro k hr
    have b := hb k
    have ht := busGiven_typ b
    have ht1 : (c1.bus[(k : ℕ)]'(h1b ▸ k.isLt)).typ = 3 := by simpa using hr
    simp only [busGiven, BusRow.mk.injEq, BusD.mk.injEq, ← ht, ht1, if_true] at b
    exact b.2.2.2.2.2.2.2.1.symm
  · subst hd
    intro k
    exact ⟨Fin.ext (genInput_bus (hg k)).symm, by simp only [genInput_status (hg k)]⟩

theorem bridge_as {srt : List ℕ → List ℕ} (hs : IsArgsort srt) {c : Index.Case Tables} (h : WF c) {c' r : Index.Case Tables}
    (he : Index.ext2int srt c = some c') {hb : c'.bus.length = nb} {hg : c'.gen.length = ng} {hl : c'.branch.length = nl} {base : ℝ} {d : Case nb ng nl}
    (hd : readAs base c' hb hg hl = some d) (u : Upd nb ng nl) (hr : Index.int2ext (writeAs c' hb hg hl u) = some r) (z : Off) :
    ∃ bp gp lp, Bridge c (zeroOff z r) z d u bp gp lp ∧ (∀ k : Fin nl, ∃ l, c.branch[lp k]? = some l ∧ (c'.branch[(k : ℕ)]'(hl ▸ k.isLt)).data = l.data) ∧
      (∀ k : Fin nb, (Index.posOf srt c .bus)[(k : ℕ)]? = some (bp k)) ∧ (∀ k : Fin ng, (Index.posOf srt c .gen)[(k : ℕ)]? = some (gp k)) ∧
      (∀ k : Fin nl, (Index.posOf srt c .branch)[(k : ℕ)]? = some (lp k)) := by
  subst hb hg hl
  obtain ⟨bp, gp, lp, h1, -, -, -, h5, -, h6⟩ := bridge_at hs h he hd u hr z
  refine ⟨bp, gp, lp, h1, fun k => ?_, h6⟩
  obtain ⟨l, k1, k2, -⟩ := h5 k
  exact ⟨l, k1, k2⟩

theorem exists_as {srt : List ℕ → List ℕ} (hs : IsArgsort srt) {c : Index.Case Tables} (h : WF c) {c' : Index.Case Tables}
    (he : Index.ext2int srt c = some c') {hb : c'.bus.length = nb} {hg : c'.gen.length = ng} {hl : c'.branch.length = nl} (u : Upd nb ng nl) :
    ∃ r, Index.int2ext (writeAs c' hb hg hl u) = some r := by
  subst hb hg hl
  obtain ⟨c2, d, he2, -, hr⟩ := bridge_exists hs 0 h
  rw [he] at he2; cases he2
  exact hr u

/-! ### Results -/

/-- Updates that give the same rows, on cases of the same system, give the same results. -/
theorem results_same {srt : List ℕ → List ℕ} (hs : IsArgsort srt) {c1 c2 : Index.Case Tables} (h : SameSystem c1 c2) (w1 : WF c1) (w2 : WF c2)
    {c1' c2' t1 t2 : Index.Case Tables} (he1 : Index.ext2int srt c1 = some c1') (he2 : Index.ext2int srt c2 = some c2')
    {h1b : c1'.bus.length = nb} {h1g : c1'.gen.length = ng} {h1l : c1'.branch.length = nl}
    {h2b : c2'.bus.length = nb} {h2g : c2'.gen.length = ng} {h2l : c2'.branch.length = nl}
    {base : ℝ} {d1 d2 : Case nb ng nl} (hd1 : readAs base c1' h1b h1g h1l = some d1) (hd2 : readAs base c2' h2b h2g h2l = some d2) {u1 u2 : Upd nb ng nl}
    (hr1 : Index.int2ext (writeAs c1' h1b h1g h1l u1) = some t1) (hr2 : Index.int2ext (writeAs c2' h2b h2g h2l u2) = some t2)
    {sb : BusRow BusD → BusRow BusD → Prop} {sg : GenRow GenD → GenRow GenD → Prop} {E : Econ} {ok : Bool} {f tol dual : ℝ} {size : ℕ}
    (hub : ∀ k b1 b2, busGiven b1 = busGiven b2 → sb { b1 with data := u1.bus k b1.data } { b2 with data := u2.bus k b2.data })
    (hug : ∀ k g1 g2, genInput g1 = genInput g2 → sg { g1 with data := u1.gen k g1.data } { g2 with data := u2.gen k g2.data })
    (hul : ∀ (k : Fin nl) l1 l2, branchInput l1 = branchInput l2 → l1.data = (c1'.branch[(k : ℕ)]'(h1l ▸ k.isLt)).data →
      SameBranch (ok = true ∧ AngLimited E { l1 with data := u1.branch k l1.data }) { l1 with data := u1.branch k l1.data } { l2 with data := u2.branch k l2.data }) :
    SameResults sb sg E ⟨ok, f, tol, dual, size, zeroOff opfOff t1⟩ ⟨ok, f, tol, dual, size, zeroOff opfOff t2⟩ := by
  obtain ⟨bp, gp, lp, B1, hl1, pb1, pg1, pl1⟩ := bridge_as hs w1 he1 hd1 u1 hr1 opfOff
  obtain ⟨bp2, gp2, lp2, B2, -, pb2, pg2, pl2⟩ := bridge_as hs w2 he2 hd2 u2 hr2 opfOff
  have e1 : bp2 = bp := funext fun k => Option.some_injective _ ((pb2 k).symm.trans (by rw [← h.pos]; exact pb1 k))
  have e2 : gp2 = gp := funext fun k => Option.some_injective _ ((pg2 k).symm.trans (by rw [← h.pos]; exact pg1 k))
  have e3 : lp2 = lp := funext fun k => Option.some_injective _ ((pl2 k).symm.trans (by rw [← h.pos]; exact pl1 k))
  subst e1 e2 e3
  refine ⟨rfl, rfl, rfl, rfl, rfl, ?_, ?_, ?_, ?_, ?_, ?_⟩
  · exact B1.busLen.trans ((map_eq_len h.bus).trans B2.busLen.symm)
  · exact B1.genLen.trans ((map_eq_len h.gen).trans B2.genLen.symm)
  · exact B1.brLen.trans ((map_eq_len h.branch).trans B2.brLen.symm)
  · intro i b1 b2 h1 h2 ht
    obtain ⟨a1, k1, -, k2, k3, -⟩ := B1.bus_at h1
    obtain ⟨k, rfl, rfl⟩ := k3 (k2 ▸ ht)
    obtain ⟨a2, k4, -, k5, -⟩ := B2.bus k
    rw [k5] at h2; cases h2
    refine hub k a1 a2 ?_
    obtain ⟨_, q1⟩ := List.getElem?_eq_some_iff.1 k1
    obtain ⟨_, q2⟩ := List.getElem?_eq_some_iff.1 k4
    rw [← q1, ← q2]
    exact getElem_key h.bus _ _
  · intro i b1 b2 h1 h2 ht
    obtain ⟨a1, k1, k2, k2', k3, -⟩ := B1.gen_at h1
    obtain ⟨k, rfl, rfl⟩ := k3 ((B1.genIn_iff k2 k2').1 ht)
    obtain ⟨a2, k4, -, k5, -⟩ := B2.gen k
    rw [k5] at h2; cases h2
    refine hug k a1 a2 ?_
    obtain ⟨_, q1⟩ := List.getElem?_eq_some_iff.1 k1
    obtain ⟨_, q2⟩ := List.getElem?_eq_some_iff.1 k4
    rw [← q1, ← q2]
    exact getElem_key h.gen _ _
  · intro i b1 b2 h1 h2 ht
    obtain ⟨a1, k1, k2, k2', k2'', k3, -⟩ := B1.branch_at h1
    obtain ⟨k, rfl, rfl⟩ := k3 ((B1.brIn_iff k2 k2' k2'').1 ht)
    obtain ⟨a2, k4, -, k5, -⟩ := B2.branch k
    rw [k5] at h2; cases h2
    refine hul k a1 a2 ?_ ?_
    · obtain ⟨_, q1⟩ := List.getElem?_eq_some_iff.1 k1
      obtain ⟨_, q2⟩ := List.getElem?_eq_some_iff.1 k4
      rw [← q1, ← q2]
      exact getElem_key h.branch _ _
    · obtain ⟨l, q1, q2⟩ := hl1 k
      rw [k1] at q1; cases q1
      exact q2.symm

/-! ### Runs -/

theorem opfDc_as {srt : List ℕ → List ℕ} {base : ℝ} {S : DcSetup} {o : Opt} {solve : AnySolver} {c c' : Index.Case Tables} (he : Index.ext2int srt c = some c')
    (hb : c'.bus.length = nb) (hg : c'.gen.length = ng) (hl : c'.branch.length = nl) :
    opfDc srt base S o solve c = (readAs base c' hb hg hl).bind fun d => (OpfModel.run (dcOps d ++ S.extra d c')).bind fun m =>
      (dcopfSolver d m (S.H c' m) (S.C c' m) (S.C0 c' m) o solve (S.x0 c' m)).bind fun s =>
      (Index.int2ext (writeAs c' hb hg hl (dcUpd s (S.post c' m s)))).bind fun r =>
      some ⟨s.success, s.f, s.tol, s.dual, m.var.total + m.lin.total, zeroOff opfOff r⟩ := by
  subst hb hg hl
  unfold opfDc
  rw [he]
  rfl

theorem opfAcCurve_as {srt : List ℕ → List ℕ} {base : ℝ} {lim : Int} {K : Curves} {o : Opt} {solve : AnySolver} {c c' : Index.Case Tables}
    (he : Index.ext2int srt c = some c') (hb : c'.bus.length = nb) (hg : c'.gen.length = ng) (hl : c'.branch.length = nl) :
    opfAcCurve srt base lim K o solve c = (readAs base c' hb hg hl).bind fun d => (OpfModel.run (acOps d ++ curveExtra K d c')).bind fun m =>
      (pipsopfSolver d lim (K.cost c') m o solve (K.ang.x0 c' m)).bind fun s => (curveMus base K c' m s).bind fun mu =>
      (Index.int2ext (writeAs c' hb hg hl (acUpd s (curvePost K c' m s mu)))).bind fun r =>
      some ⟨s.success, s.f, s.tol, s.dual, m.var.total + m.lin.total, zeroOff opfOff r⟩ := by
  subst hb hg hl
  unfold opfAcCurve
  rw [he]
  rfl

/-! ### What a run reads -/

/-- What is added to the formulation, the objective and the starting point depend on the system only. -/
structure DcBlind (S : DcSetup) : Prop where
  extra : ∀ {nb ng nl : ℕ} (d1 d2 : Case nb ng nl) (c1 c2 : Index.Case Tables), SameCase d1 d2 → SameSystem c1 c2 → S.extra d1 c1 = S.extra d2 c2
  H : ∀ (c1 c2 : Index.Case Tables) (m : Model) w, SameSystem c1 c2 → S.H c2 { m with v0 := w } = S.H c1 m
  C : ∀ (c1 c2 : Index.Case Tables) (m : Model) w, SameSystem c1 c2 → S.C c2 { m with v0 := w } = S.C c1 m
  C0 : ∀ (c1 c2 : Index.Case Tables) (m : Model) w, SameSystem c1 c2 → S.C0 c2 { m with v0 := w } = S.C0 c1 m
  x0 : ∀ (c1 c2 : Index.Case Tables) (m : Model) w, (∀ k, (w k).isSome = (m.v0 k).isSome) → SameSystem c1 c2 → S.x0 c2 { m with v0 := w } = S.x0 c1 m
  post : ∀ (c1 c2 : Index.Case Tables) (m : Model) w {nb ng nl : ℕ} (s : DcRes nb ng nl), SameSystem c1 c2 → S.post c2 { m with v0 := w } s = S.post c1 m s

theorem forall₂_append {α β : Type} {R : α → β → Prop} {a c : List α} {b d : List β} (h1 : List.Forall₂ R a b) (h2 : List.Forall₂ R c d) :
    List.Forall₂ R (a ++ c) (b ++ d) := by
  induction h1 with
  | nil => exact h2
  | cons h _ ih => exact .cons h ih

theorem forall₂_refl : ∀ a : List Op, List.Forall₂ SameOp a a
  | [] => .nil
  | a :: as => .cons (.refl a) (forall₂_refl as)

theorem lin_keep {ops : List Op} {name : String} : ∀ {m m' : Model}, ops.foldlM step m = some m' →
    ((m.lin.i1 name).isSome ∨ ∃ A l u vs, Op.addLin name A l u vs ∈ ops) → (m'.lin.i1 name).isSome := by
  have set : ∀ (d : Dict ℕ) (k : String) (v : ℕ), (d name).isSome → (d.set k v name).isSome := by
    intro d k v hd
    unfold Dict.set
    split
    · rfl
    · exact hd
  have one : ∀ {m m' : Model} {a : Op}, step m a = some m' → ((m.lin.i1 name).isSome ∨ ∃ A l u vs, Op.addLin name A l u vs = a) → (m'.lin.i1 name).isSome := by
    intro m m' a h hk
    cases a with
    | addVars =>
      injection h with h
      subst h
      rcases hk with hk | ⟨_, _, _, _, e⟩
      · exact hk
      · cases e
    | addNln =>
      injection h with h
      subst h
      rcases hk with hk | ⟨_, _, _, _, e⟩
      · exact hk
      · cases e
    | addLin n A l u vs =>
      obtain ⟨_, -, h2⟩ := Option.bind_eq_some_iff.1 h
      injection h2 with h2
      subst h2
      rcases hk with hk | ⟨_, _, _, _, e⟩
      · exact set _ _ _ hk
      · cases e
        simp [Idx.add, Dict.set]
    | addCosts n cp vs =>
      obtain ⟨_, -, h2⟩ := Option.bind_eq_some_iff.1 h
      simp only at h2
      split at h2
      · cases h2
      split at h2
      · cases h2
      split at h2
      · cases h2
      injection h2 with h2
      subst h2
      rcases hk with hk | ⟨_, _, _, _, e⟩
      · exact hk
      · cases e
  induction ops with
  | nil =>
    intro m m' h hk
    cases h
    rcases hk with hk | ⟨_, _, _, _, hm⟩
    · exact hk
    · cases hm
  | cons a as ih =>
    intro m m' h hk
    rw [List.foldlM_cons] at h
    obtain ⟨m1, h1, h2⟩ := Option.bind_eq_some_iff.1 h
    refine ih h2 ?_
    rcases hk with hk | ⟨A, l, u, vs, hm⟩
    · exact .inl (one h1 (.inl hk))
    · rcases List.mem_cons.1 hm with hm | hm
      · exact .inl (one h1 (.inr ⟨A, l, u, vs, hm⟩))
      · exact .inr ⟨A, l, u, vs, hm⟩

/-- `results_same` for runs with `opfDc`. -/
theorem dc_same {srt : List ℕ → List ℕ} (hs : IsArgsort srt) {c1 c2 : Index.Case Tables} (h : SameSystem c1 c2) (w1 : WF c1) (w2 : WF c2) {base : ℝ} {S : DcSetup}
    (hS : DcBlind S) {E : Econ} {o : Opt} {solve : AnySolver}
    (hpost : ∀ {c' : Index.Case Tables} {d : Case c'.bus.length c'.gen.length c'.branch.length} {m : Model} (s : DcRes c'.bus.length c'.gen.length c'.branch.length),
      readCase base c' = some d → OpfModel.run (dcOps d ++ S.extra d c') = some m → ∀ k : Fin c'.branch.length, AngLimited E c'.branch[k] →
      ∀ v w, (S.post c' m s).angmin k v = (S.post c' m s).angmin k w ∧ (S.post c' m s).angmax k v = (S.post c' m s).angmax k w)
    {r1 : Ret} (hr : opfDc srt base S o solve c1 = some r1) : ∃ r2, opfDc srt base S o solve c2 = some r2 ∧ SameDcResults E r1 r2 := by
  obtain ⟨c1', c2', he1, he2, hc⟩ := h.internal hs w1 w2
  have hb : c2'.bus.length = c1'.bus.length := (map_eq_len hc.bus).symm
  have hg : c2'.gen.length = c1'.gen.length := (map_eq_len hc.gen).symm
  have hl : c2'.branch.length = c1'.branch.length := (map_eq_len hc.branch).symm
  rw [opfDc_as he1 rfl rfl rfl] at hr
  obtain ⟨d1, hd1, hr⟩ := Option.bind_eq_some_iff.1 hr
  obtain ⟨m, hm, hr⟩ := Option.bind_eq_some_iff.1 hr
  obtain ⟨s, hsol, hr⟩ := Option.bind_eq_some_iff.1 hr
  obtain ⟨t1, ht1, hr⟩ := Option.bind_eq_some_iff.1 hr
  injection hr with hr
  subst hr
  obtain ⟨d2, hd2, hd⟩ := read_same (h2b := hb) (h2g := hg) (h2l := hl) hc hd1
  have hops : List.Forall₂ SameOp (dcOps d1 ++ S.extra d1 c1') (dcOps d2 ++ S.extra d2 c2') := by
    rw [hS.extra d1 d2 c1' c2' hd hc]
    exact forall₂_append (dcOps_same hd) (forall₂_refl _)
  obtain ⟨w, hm2, hw⟩ := run_same hops hm
  obtain ⟨t2, ht2⟩ := exists_as hs w2 he2 (hb := hb) (hg := hg) (hl := hl) (dcUpd s (S.post c1' m s))
  have hsol2 : dcopfSolver d2 { m with v0 := w } (S.H c2' { m with v0 := w }) (S.C c2' { m with v0 := w }) (S.C0 c2' { m with v0 := w }) o solve (S.x0 c2' { m with v0 := w }) = some s := by
    rw [hS.H c1' c2' m w hc, hS.C c1' c2' m w hc, hS.C0 c1' c2' m w hc, hS.x0 c1' c2' m w hw hc, dcopfSolver_same hd m hw, hsol]
  refine ⟨⟨s.success, s.f, s.tol, s.dual, m.var.total + m.lin.total, zeroOff opfOff t2⟩, ?_, ?_⟩
  · rw [opfDc_as he2 hb hg hl, hd2, Option.bind_some, hm2, Option.bind_some, hsol2, Option.bind_some, hS.post c1' c2' m w s hc, ht2]
    rfl
  · refine results_same hs h w1 w2 he1 he2 (h1b := rfl) (h1g := rfl) (h1l := rfl) hd1 hd2 ht1 ht2 ?_ ?_ ?_
    · intro k b1 b2 e
      cases b1 with | mk n1 t1 x1 => cases x1; cases b2 with | mk n2 t2 x2 => cases x2; simp_all [busGiven, busInput, dcUpd]
    · intro k b1 b2 e
      cases b1 with | mk n1 t1 x1 => cases x1; cases b2 with | mk n2 t2 x2 => cases x2; simp_all [genInput, dcUpd]
    · intro k l1 l2 e hk
      have key : s.success = true ∧ AngLimited E l1 → ∀ v w, (S.post c1' m s).angmin k v = (S.post c1' m s).angmin k w ∧ (S.post c1' m s).angmax k v = (S.post c1' m s).angmax k w := by
        rintro ⟨-, hA⟩
        refine hpost s hd1 hm k ?_
        show _ ∧ _
        exact ⟨hA.1, by have := hA.2; rw [hk] at this; exact this⟩
      refine ⟨?_, fun hA => ?_⟩
      · cases l1 with | mk n1 t1 f1 x1 => cases x1; cases l2 with | mk n2 t2 f2 x2 => cases x2; simp_all [branchInput, dcUpd]
      · have hA' : s.success = true ∧ AngLimited E l1 := hA
        have := key hA'
        clear key hk hA
        have ok := hA'.1
        have k1 := (this l1.data.MU_ANGMIN l2.data.MU_ANGMIN).1
        have k2 := (this l1.data.MU_ANGMAX l2.data.MU_ANGMAX).2
        clear this hA'
        cases l1 with | mk n1 t1 f1 x1 => cases x1; cases l2 with | mk n2 t2 f2 x2 => cases x2; simp_all [branchInput, dcUpd]

end

end Verif.Opf
