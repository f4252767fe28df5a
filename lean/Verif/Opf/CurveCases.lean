import Verif.Opf.CurveProps

/-!
# C120: when runs with capability curves return, and an example
-/

namespace Verif.Opf

open Verif.Index (BusRow GenRow BranchRow IsArgsort WF GenInService BranchInService Connected)
open Verif.OpfModel Verif.Pips Verif.Network Verif.OpfCost Verif.NumPy

section some_iff
variable {srt : List ℕ → List ℕ} (hs : IsArgsort srt) {base : ℝ} {c : Index.Case Tables} (h : WF c) (K : Curves)
  {c' : Index.Case Tables} {d : Case c'.bus.length c'.gen.length c'.branch.length} (he : Index.ext2int srt c = some c') (hd : readCase base c' = some d)

include hs h he hd

theorem rows_iff (p : Constr.Gen → Prop) : (∃ g ∈ K.rows c', p g) ↔ ∃ g ∈ c.gen, GenInService c g ∧ p (K.row g.data) := by
  obtain ⟨c1, d1, he1, hd1, hw⟩ := bridge_exists hs base h
  rw [he] at he1; cases he1
  obtain ⟨r, hr⟩ := hw ⟨fun _ b => b, fun _ g => g, fun _ l => l⟩
  obtain ⟨bp, gp, lp, B, -, -, hge, -⟩ := bridge_full hs h he hd _ hr opfOff
  constructor
  · rintro ⟨g, hg, hp⟩
    obtain ⟨g', hg', rfl⟩ := List.mem_map.1 hg
    obtain ⟨k, hk, rfl⟩ := List.mem_iff_getElem.1 hg'
    obtain ⟨g0, e0, -, e1, -⟩ := hge ⟨k, hk⟩
    obtain ⟨g1, h1, hon, -⟩ := B.gen ⟨k, hk⟩
    rw [e0] at h1; cases h1
    simp only [Fin.getElem_fin] at e1
    rw [e1] at hp
    exact ⟨g0, List.mem_of_getElem? e0, hon, hp⟩
  · rintro ⟨g, hg, hon, hp⟩
    obtain ⟨i, hi⟩ := List.getElem?_of_mem hg
    obtain ⟨k, rfl⟩ := B.genOn i g hi hon
    obtain ⟨g0, e0, -, e1, -⟩ := hge k
    rw [hi] at e0; cases e0
    refine ⟨K.row g.data, List.mem_map.2 ⟨c'.gen[k], List.getElem_mem _, by rw [e1]⟩, hp⟩

theorem upper_iff : (∃ g ∈ K.rows c', Constr.hasPQcapU g = true) ↔ SomeUpper K c := by
  simp only [capU_iff]
  exact rows_iff hs h K he hd CutsUpper

theorem lower_iff : (∃ g ∈ K.rows c', Constr.hasPQcapL g = true) ↔ SomeLower K c := by
  simp only [capL_iff]
  exact rows_iff hs h K he hd CutsLower

end some_iff

theorem none_of {gen : List Constr.Gen} {p : Constr.Gen → Bool} (h : ¬ ∃ g ∈ gen, p g = true) : ∀ g ∈ gen, p g = false := by
  intro g hg
  by_contra hp
  exact h ⟨g, hg, by simpa using hp⟩

/-- **C120 (negation).**  When the upper corner of some generator in service is cut off but no lower corner is, or the other way round, no AC optimal power flow of the
case ever succeeds: a run that converges raises while its multipliers are translated. -/
theorem C120_negation {srt : List ℕ → List ℕ} (hs : IsArgsort srt) {base : ℝ} {c : Index.Case Tables} (h : WF c) (K : Curves)
    (hone : (SomeUpper K c ∧ ¬ SomeLower K c) ∨ (SomeLower K c ∧ ¬ SomeUpper K c)) :
    ∀ (lim : Int) (o : Opt) (solve : AnySolver) (r : Ret), opfAcCurve srt base lim K o solve c = some r → r.success = false := by
  intro lim o solve r hrun
  unfold opfAcCurve at hrun
  simp only [Option.bind_eq_bind, Option.bind_eq_some_iff] at hrun
  obtain ⟨c', hc', d, hd, m, hm, s, hs', mu, hmu, r1, hr, e⟩ := hrun
  injection e with e
  subst e
  by_contra hne
  have hok : s.success = true := by simpa using hne
  rw [curveMus, if_pos hok] at hmu
  unfold curveMu at hmu
  simp only [Option.bind_eq_bind, Option.bind_eq_some_iff] at hmu
  obtain ⟨⟨hh, ll⟩, -, ih, -, il, -, hex⟩ := hmu
  rw [Mupq.C64_negation] at hex
  · cases hex
  · rw [← upper_iff hs h K hc' hd, ← lower_iff hs h K hc' hd] at hone
    rcases hone with ⟨h1, h2⟩ | ⟨h1, h2⟩
    · exact Or.inl ⟨h1, none_of h2⟩
    · exact Or.inr ⟨h1, none_of h2⟩

/-! ### Runs exist -/

section complete
variable {c' : Index.Case Tables} {d : Case c'.bus.length c'.gen.length c'.branch.length} (K : Curves) (hv : ∀ b ∈ angRows K.ang c', b.f < c'.bus.length ∧ b.t < c'.bus.length)
  (hmore : K.more d c' = [])

include hv hmore

theorem curve_runs : ∃ m, OpfModel.run (acOps d ++ curveExtra K d c') = some m := by
  obtain ⟨B, hB, hvs, -⟩ := ang_block K.ang c'.bus.length c' hv
  obtain ⟨H, L, V, -, -, -, -, -, -, -, hops, hH, hL, hV⟩ := curve_blocks d.base K c' rfl
  have hlen : (K.rows c').length = c'.gen.length := by simp [Curves.rows]
  unfold curveExtra
  rw [hB, hvs, hops, hmore, hH.vs, hL.vs, hV.vs]
  simp only [OpfModel.run, acOps, List.cons_append, List.nil_append, List.foldlM_cons, List.foldlM_nil, step, Model.addLin, storeVs, Model.resolve, Model.addVars,
    Model.addNln, Idx.add, Model.init, Idx.empty]
  simp [Model.width, Dict.set]

theorem curve_good (hd : d.AcOK) (hang : ∀ b ∈ angRows K.ang c', |b.angmin * Real.pi / 180| < 10 ^ 10 ∧ |b.angmax * Real.pi / 180| < 10 ^ 10 ∧
    (b.angmin ≠ 0 → b.angmax ≠ 0 → b.angmin ≤ b.angmax)) :
    Good (acOps d ++ curveExtra K d c') ∧ (names (nlnBlocks (acOps d ++ curveExtra K d c'))).Nodup := by
  obtain ⟨B, hB, hvs, hcols, hl, hu, hrow, -⟩ := ang_block K.ang c'.bus.length c' hv
  obtain ⟨H, L, V, -, -, -, -, -, -, -, hops, hH, hL, hV⟩ := curve_blocks d.base K c' rfl
  have hlen : (K.rows c').length = c'.gen.length := by simp [Curves.rows]
  obtain ⟨g, hn⟩ := hd.good
  have hex : curveExtra K d c' = [.addLin "PQh" H.A H.l H.u H.vs, .addLin "PQl" L.A L.l L.u L.vs, .addLin "vl" V.A V.l V.u V.vs, .addLin "ang" B.A B.l B.u B.vs] := by
    unfold curveExtra; rw [hB, hops, hmore]; rfl
  have hvb' : varBlocks (acOps d ++ curveExtra K d c') = varBlocks (acOps d) := by rw [hex]; simp [varBlocks]
  have hvv : varVals (acOps d ++ curveExtra K d c') = varVals (acOps d) := by rw [hex]; simp [varVals]
  have hnb : nlnBlocks (acOps d ++ curveExtra K d c') = nlnBlocks (acOps d) := by rw [hex]; simp [nlnBlocks]
  have hlb : linBlks (acOps d ++ curveExtra K d c') = [("PQh", H), ("PQl", L), ("vl", V), ("ang", B)] := by
    rw [ac_linBlks, hex]; simp [linBlks]
  have hvb := ac_varBlocks d []
  rw [List.append_nil] at hvb
  have fits : ∀ {mask : Constr.Gen → Bool} {va vb : Constr.Gen → ℝ} {lo hi : Constr.Gen → EReal} {X : LinBlk}, PqBlock (K.rows c') (K.rows c').length mask va vb lo hi X →
      LinFits (varBlocks (acOps d)) X := by
    intro mask va vb lo hi X hX
    refine ⟨?_, ?_, hX.l, hX.u⟩
    · rw [hX.vs]; simp
    · rw [hX.vs, hX.cols, hvb, hlen]; simp [widthOf, eff, size, varBlocks]; omega
  have at_row : ∀ {mask : Constr.Gen → Bool} {va vb : Constr.Gen → ℝ} {lo hi : Constr.Gen → EReal} {X : LinBlk}, PqBlock (K.rows c') (K.rows c').length mask va vb lo hi X →
      ∀ i < X.A.rows, ∃ g, LinBlk.lo X i = lo g ∧ LinBlk.hi X i = hi g := by
    intro mask va vb lo hi X hX i hi'
    rw [hX.rows] at hi'
    obtain ⟨g, h1, -, -⟩ := Constr.find_row (K.rows c') mask i _ (List.getElem?_eq_getElem hi')
    obtain ⟨-, h3, h4⟩ := hX.row i _ g (List.getElem?_eq_getElem hi') h1
    exact ⟨g, h3, h4⟩
  refine ⟨⟨?_, ?_, ?_, ?_, ?_, ?_⟩, ?_⟩
  · rw [hvb']; exact g.varNames
  · rw [hlb]; simp [names]
  · rw [hvv]; exact g.varFits
  · rw [hlb, hvb']
    simp only [List.mem_cons, List.not_mem_nil, or_false, forall_eq_or_imp, forall_eq]
    refine ⟨fits hH, fits hL, fits hV, ?_, ?_, Or.inr hl, Or.inr hu⟩
    · rw [hvs]; simp
    · rw [hvs, hcols, hvb]; simp [widthOf, eff, size]
  · rw [hvv]; exact g.varSane
  · rw [hlb]
    simp only [List.mem_cons, List.not_mem_nil, or_false, forall_eq_or_imp, forall_eq]
    refine ⟨?_, ?_, ?_, ?_⟩
    · intro i hi
      obtain ⟨g, h1, h2⟩ := at_row hH i hi
      rw [h1, h2]
      exact sane_bot (EReal.coe_ne_bot _)
    · intro i hi
      obtain ⟨g, h1, h2⟩ := at_row hL i hi
      rw [h1, h2]
      exact sane_bot (EReal.coe_ne_bot _)
    · intro i hi
      obtain ⟨g, h1, h2⟩ := at_row hV i hi
      rw [h1, h2]
      exact sane_real le_rfl (finite_of_abs (by norm_num)) (finite_of_abs (by norm_num))
    · intro i hi
      obtain ⟨a, ha, -, -, h3⟩ := hrow i hi
      obtain ⟨a1, a2, a3⟩ := hang a ha
      rw [h3.lo, h3.hi]
      by_cases c1 : a.angmin = 0
      · rw [if_neg (by simpa using c1)]
        refine sane_bot ?_
        split_ifs
        · exact EReal.coe_ne_bot _
        · simp
      · rw [if_pos (by simpa using c1)]
        by_cases c2 : a.angmax = 0
        · rw [if_neg (by simpa using c2)]
          exact ⟨le_top, by simp, EReal.coe_ne_top _, by rintro ⟨x, y, -, hy, -⟩; exact absurd hy (EReal.top_ne_coe y)⟩
        · rw [if_pos (by simpa using c2)]
          refine sane_real ?_ (finite_of_abs a1) (finite_of_abs a2)
          have := mul_le_mul_of_nonneg_right (a3 c1 c2) Real.pi_pos.le
          linarith
  · rw [hnb]; exact hn

end complete

/-- The translation of the multipliers does not raise with rows of both kinds or of none. -/
theorem curveMu_some {base : ℝ} (K : Curves) {c' : Index.Case Tables} {d : Case c'.bus.length c'.gen.length c'.branch.length} {m : Model}
    (hm : OpfModel.run (acOps d ++ curveExtra K d c') = some m) (g : Good (acOps d ++ curveExtra K d c'))
    (hiff : (∃ g ∈ K.rows c', Constr.hasPQcapU g = true) ↔ ∃ g ∈ K.rows c', Constr.hasPQcapL g = true)
    (s : AcRes c'.bus.length c'.gen.length c'.branch.length) : ∃ mu, curveMu base K c' m s = some mu := by
  have r := Rep.run hm
  have hl := (foldIdx_lookup (linBlocks (acOps d ++ curveExtra K d c')) (by rw [linBlocks_names]; exact g.linNames)).1
  obtain ⟨H, L, V, -, -, -, -, -, -, -, hops, -⟩ := curve_blocks d.base K c' rfl
  have hin : ∀ n ∈ ["PQh", "PQl"], n ∈ names (linBlocks (acOps d ++ curveExtra K d c')) := by
    intro n hn
    rw [linBlocks_names, ac_linBlks]
    unfold curveExtra
    rw [hops]
    simp only [List.mem_cons, List.not_mem_nil, or_false] at hn
    rcases hn with rfl | rfl <;> simp [linBlks, names]
  obtain ⟨-, -, -, h, l, hA, -⟩ := curve_blocks base K c' rfl
  have i1 := (hl "PQh" (hin _ (by simp))).1
  have i2 := (hl "PQl" (hin _ (by simp))).1
  rw [← r.lin] at i1 i2
  unfold curveMu
  simp only [hA, i1, i2, Option.bind_eq_bind, Option.bind_some]
  by_cases hU : ∃ g ∈ K.rows c', Constr.hasPQcapU g = true
  · obtain ⟨mu, hmu, -⟩ := Mupq.C64_partial base (K.rows c') (List.ofFn fun k : Fin c'.gen.length => ⟨s.MU_PMAX k, s.MU_PMIN k, s.MU_QMAX k, s.MU_QMIN k⟩)
      (by simp [Curves.rows]) (muSlice s.mu_l (start (linBlocks (acOps d ++ curveExtra K d c')) "PQh") h.n) (muSlice s.mu_u (start (linBlocks (acOps d ++ curveExtra K d c')) "PQh") h.n)
      (muSlice s.mu_l (start (linBlocks (acOps d ++ curveExtra K d c')) "PQl") l.n) (muSlice s.mu_u (start (linBlocks (acOps d ++ curveExtra K d c')) "PQl") l.n) hU (hiff.1 hU) h l hA (by simp [muSlice]) (by simp [muSlice]) (by simp [muSlice]) (by simp [muSlice])
    exact ⟨mu, hmu⟩
  · exact ⟨_, Mupq.C64_none base _ _ _ _ _ _ (none_of hU) (none_of fun hL => hU (hiff.2 hL))⟩

/-- `pipsopf_solver` returns, with extra linear constraints. -/
theorem pipsopf_returns {nb ng nl : ℕ} (d : Case nb ng nl) (extra : List Op) {m : Model} (hm : OpfModel.run (acOps d ++ extra) = some m) (g : Good (acOps d ++ extra))
    (hn : (names (nlnBlocks (acOps d ++ extra))).Nodup) (lim : Int) (c : AcData) (hA : AcOk (acNl d lim c).cost) (hlen : c.gencost.length = ng)
    (hk : c.kind ≠ .pyFloat ∨ ∃ i, i < c.gencost.length ∧ (c.row i).model = 2) (hl : ∃ l, d.rateA l ≠ 0 ∧ d.rateA l < 10 ^ 10) (o : Opt) (solve : AnySolver)
    (x0 : Fin m.var.total → ℝ) : ∃ s, pipsopfSolver d lim c m o solve x0 = some s := by
  obtain ⟨q, hq, -, -, -, -, hok⟩ := linearOf_spec hm g
  obtain ⟨r, hr⟩ := C76_returns (callbacks (acNl d lim c) m.var.total) q o (solve _ _) x0 hok
  obtain ⟨i1, i2, i3, i4, i5, i6⟩ := ac_idx hm g hn
  have hil : d.il.length ≠ 0 := by
    obtain ⟨l, hl⟩ := hl
    have := List.length_pos_of_mem ((mem_il d l).2 hl)
    omega
  have hE : Evaluable (acNl d lim c) := evaluable (acNl d lim c) (acNl_layout d lim c) hA hlen hil hk
  unfold pipsopfSolver
  simp only [hq, i1, i2, i3, i4, i5, i6, Option.bind_eq_bind, Option.bind_some]
  rw [if_neg (not_not.2 hE), hr]
  exact ⟨_, rfl⟩

/-- The cost data handed to the AC solver fit the case in internal numbering. -/
def CurveCostFits (srt : List ℕ → List ℕ) (base : ℝ) (lim : Int) (K : Curves) (c : Index.Case Tables) : Prop :=
  ∀ c' d, Index.ext2int srt c = some c' → readCase base c' = some d →
    OpfCost.AcOk (acNl d lim (K.cost c')).cost ∧ (K.cost c').gencost.length = c'.gen.length ∧
      ((K.cost c').kind ≠ .pyFloat ∨ ∃ i, i < (K.cost c').gencost.length ∧ ((K.cost c').row i).model = 2)

section
variable {srt : List ℕ → List ℕ} (hs : IsArgsort srt) {base : ℝ} {c : Index.Case Tables} (h : WF c) (hin : AcInputs base c) (K : Curves) (hang : AngInputs K.ang c)
  (hmore : ∀ {nb ng nl : ℕ} (d : Case nb ng nl) c', K.more d c' = [])

include hs h hin hang hmore

theorem curve_wellposed : ∀ c' d, Index.ext2int srt c = some c' → readCase base c' = some d →
    Good (acOps d ++ curveExtra K d c') ∧ (names (nlnBlocks (acOps d ++ curveExtra K d c'))).Nodup := by
  intro c' d he hd
  obtain ⟨c1, d1, he1, hd1, hw⟩ := bridge_exists hs base h
  rw [he] at he1; cases he1
  obtain ⟨r, hr⟩ := hw ⟨fun _ b => b, fun _ g => g, fun _ l => l⟩
  obtain ⟨bp, gp, lp, B, -, -, -, hbr, -⟩ := bridge_full hs h he hd _ hr opfOff
  refine curve_good K (readCase_valid hd K.ang) (hmore d c') (acInputs_ok hs h hin he hd).1 ?_
  intro b hb
  obtain ⟨l', hl', rfl⟩ := List.mem_map.1 hb
  obtain ⟨k, hk, rfl⟩ := List.mem_iff_getElem.1 hl'
  obtain ⟨l, e0, e1, -⟩ := hbr ⟨k, hk⟩
  obtain ⟨l0, h0, hon, -⟩ := B.branch ⟨k, hk⟩
  rw [e0] at h0; cases h0
  simp only [Fin.getElem_fin] at e1
  simp only [e1]
  exact hang l (List.mem_of_getElem? e0) hon

/-- **C120 (completes, partial).**  On every well-formed case with data in range, at least one limited branch and costs of active power only, in which upper and lower
corners are cut off for some generators in service or for none, the AC optimal power flow returns; with tolerances wide enough for the starting point it succeeds.
Missing: cases with one kind of corner only, see `C120_negation`. -/
theorem C120_completes_partial (lim : Int) (hC : CurveCostFits srt base lim K c) (hboth : SomeUpper K c ↔ SomeLower K c) :
    (∀ (o : Opt) (solve : AnySolver), ∃ r, opfAcCurve srt base lim K o solve c = some r) ∧
    ∀ solve : AnySolver, ∃ o r, 0 < o.costMult ∧ opfAcCurve srt base lim K o solve c = some r ∧ r.success = true := by
  obtain ⟨c', d, he, hd, hw⟩ := bridge_exists hs base h
  obtain ⟨hok, hl⟩ := acInputs_ok hs h hin he hd
  obtain ⟨c1, c2, c3⟩ := hC c' d he hd
  obtain ⟨g, hn⟩ := curve_wellposed hs h hin K hang hmore c' d he hd
  obtain ⟨m, hm⟩ := curve_runs K (readCase_valid hd K.ang) (hmore d c')
  rw [← upper_iff hs h K he hd, ← lower_iff hs h K he hd] at hboth
  have mus : ∀ s : AcRes c'.bus.length c'.gen.length c'.branch.length, ∃ mu, curveMus base K c' m s = some mu := by
    intro s
    unfold curveMus
    split_ifs
    · exact curveMu_some K hm g hboth s
    · exact ⟨_, rfl⟩
  have sol := pipsopf_returns d _ hm g hn lim (K.cost c') c1 c2 c3 hl
  constructor
  · intro o solve
    obtain ⟨s, hs'⟩ := sol o solve (K.ang.x0 c' m)
    obtain ⟨mu, hmu⟩ := mus s
    obtain ⟨r, hr⟩ := hw (acUpd s (curvePost K c' m s mu))
    unfold opfAcCurve
    simp only [he, hd, hm, hs', hmu, hr, Option.bind_eq_bind, Option.bind_some]
    exact ⟨_, rfl⟩
  · intro solve
    obtain ⟨q, hq, -, -, -, -, -⟩ := linearOf_spec hm g
    obtain ⟨o, h1, -, h2⟩ := exists_success (problem (callbacks (acNl d lim (K.cost c')) m.var.total) q) (K.ang.x0 c' m)
    obtain ⟨s, hs'⟩ := sol o solve (K.ang.x0 c' m)
    obtain ⟨mu, hmu⟩ := mus s
    obtain ⟨r, hr⟩ := hw (acUpd s (curvePost K c' m s mu))
    obtain ⟨-, q', r', hq', hr', e1, -⟩ := ac_ofSolver hm g hn hok.base.ne' hs'
    rw [hq] at hq'; cases hq'
    refine ⟨o, ⟨s.success, s.f, s.tol, s.dual, m.var.total + m.lin.total, zeroOff opfOff r⟩, h1, ?_, ?_⟩
    · unfold opfAcCurve
      simp only [he, hd, hm, hs', hmu, hr, Option.bind_eq_bind, Option.bind_some]
    · show s.success = true
      rw [e1, (ofFull hr').2.1]; exact h2 _

end

/-! ### The example -/

noncomputable section

/-- The tables of C86 with a generator whose curve cuts off both corners, a dispatchable load with one reactive limit and one with two, and an angle limit of 30 degrees on
the first branch. -/
def exCurve : Index.Case Tables :=
  { exTables with
    gen := [⟨2, 1, ⟨10, 0, 50, -50, 1, 100, 10, 0, 0, 0, 0, [0, 100, -50, -20, 50, 20]⟩⟩, ⟨7, 1, ⟨5, 1, 50, -50, 1, 100, 10, 0, 0, 0, 0, []⟩⟩,
      ⟨9, 1, ⟨-80, -40, 0, -50, 1, 0, -100, 0, 0, 0, 0, []⟩⟩, ⟨9, 1, ⟨-20, 0, 10, -10, 1, 0, -40, 0, 0, 0, 0, []⟩⟩]
    branch := exEcon.branch }

/-- As `exCurve`, but the lower line does not cut off anything. -/
def exOne : Index.Case Tables :=
  { exCurve with gen := [⟨2, 1, ⟨10, 0, 50, -50, 1, 100, 10, 0, 0, 0, 0, [0, 100, -50, -50, 50, 20]⟩⟩] }

def exK : Curves where
  pc1 := fun l => l.getD 0 0
  pc2 := fun l => l.getD 1 0
  qc1min := fun l => l.getD 2 0
  qc2min := fun l => l.getD 3 0
  qc1max := fun l => l.getD 4 0
  qc2max := fun l => l.getD 5 0
  ang := { exE with x0 := fun _ _ => 1 }
  cost := exAcSetup.cost
  more := fun _ _ => []

theorem exCurve_wf : WF exCurve :=
  { exTables_wf with
    genRef := by simp [exCurve, exTables, Index.HasBus]
    fRef := by simp [exCurve, exEcon, exTables, Index.HasBus]
    tRef := by simp [exCurve, exEcon, exTables, Index.HasBus]
    costRows := by simp [exCurve, exTables]
    aCols := by simp [exCurve, exTables]
    nCols := by simp [exCurve, exTables]
    notInternal := by simp [exCurve, exTables] }

theorem exOne_wf : WF exOne :=
  { exCurve_wf with
    genRef := by simp [exOne, exCurve, exTables, Index.HasBus]
    costRows := by simp [exOne, exCurve, exTables]
    aCols := by simp [exOne, exCurve, exTables]
    nCols := by simp [exOne, exCurve, exTables]
    notInternal := by simp [exOne, exCurve, exTables] }

theorem exCurve_ac : AcInputs 100 exCurve where
  pos := by norm_num
  bus := exTables_ac.bus
  gen := by
    simp only [exCurve, List.mem_cons, List.not_mem_nil, or_false, forall_eq_or_imp, forall_eq]
    norm_num [abs_of_pos]
  limited := by
    refine ⟨_, List.mem_cons_self, ?_, by norm_num, by norm_num⟩
    simp [BranchInService, Connected, exCurve, exTables]

theorem exK_ang : AngInputs exK.ang exCurve := exE_ang

theorem exCurve_costFits : CurveCostFits Index.stableArgsort 100 0 exK exCurve := by
  intro c' d he hd
  have hg : 0 < c'.gen.length := by
    obtain ⟨c1, d1, he1, hd1, hw⟩ := bridge_exists Index.stableArgsort_isArgsort 100 exCurve_wf
    rw [he] at he1; cases he1
    obtain ⟨r, hr⟩ := hw ⟨fun _ b => b, fun _ g => g, fun _ l => l⟩
    obtain ⟨bp, gp, lp, B⟩ := bridge Index.stableArgsort_isArgsort exCurve_wf he hd1 _ hr opfOff
    obtain ⟨k, -⟩ := B.genOn 0 _ rfl (by simp [GenInService, Connected, exCurve, exTables])
    exact k.pos
  refine ⟨⟨?_, ?_, ?_, ?_, ?_, ?_⟩, ?_, Or.inr ⟨0, ?_, ?_⟩⟩
  · simp [exK, exAcSetup, nlOf]; omega
  · intro r hr hm
    simp only [exK, exAcSetup, nlOf, List.mem_replicate] at hr
    rw [hr.2]
    exact ⟨rfl, by simp, by simp⟩
  · simp [exK, exAcSetup, nlOf]; omega
  · simp [exK, exAcSetup, nlOf]; omega
  · simp [exK, exAcSetup, nlOf]
  · simp [nlOf]
  · simp [exK, exAcSetup]
  · simpa [exK, exAcSetup] using hg
  · simp [exK, exAcSetup, OpfCost.AcData.row, hg]

theorem exCurve_both : SomeUpper exK exCurve ∧ SomeLower exK exCurve := by
  constructor
  · refine ⟨_, List.mem_cons_self, by simp [GenInService, Connected, exCurve, exTables], ?_⟩
    norm_num [CutsUpper, Constr.BelowUpper, Curves.row, exK]
  · refine ⟨_, List.mem_cons_self, by simp [GenInService, Connected, exCurve, exTables], ?_⟩
    norm_num [CutsLower, Constr.AboveLower, Curves.row, exK]

theorem exOne_one : SomeUpper exK exOne ∧ ¬ SomeLower exK exOne := by
  constructor
  · refine ⟨_, List.mem_cons_self, by simp [GenInService, Connected, exOne, exCurve, exTables], ?_⟩
    norm_num [CutsUpper, Constr.BelowUpper, Curves.row, exK]
  · rintro ⟨g, hg, -, hc⟩
    simp only [exOne, List.mem_cons, List.not_mem_nil, or_false] at hg
    subst hg
    norm_num [CutsLower, Constr.AboveLower, Curves.row, exK] at hc

/-- The hypotheses of the theorems about successful runs hold on the example: it succeeds; the first generator has valid data in range, the third is a load with one nonzero
limit, the fourth one with two, the first branch is limited. -/
example : ∃ o r, WF exCurve ∧ (∀ c' d, Index.ext2int Index.stableArgsort exCurve = some c' → readCase 100 c' = some d →
      Good (acOps d ++ curveExtra exK d c') ∧ (names (nlnBlocks (acOps d ++ curveExtra exK d c'))).Nodup) ∧
    opfAcCurve Index.stableArgsort 100 0 exK o (fun _ _ _ _ => none) exCurve = some r ∧ r.success = true := by
  obtain ⟨o, r, -, h1, h2⟩ := (C120_completes_partial Index.stableArgsort_isArgsort exCurve_wf exCurve_ac exK exK_ang (fun _ _ => rfl) 0 exCurve_costFits
    ⟨fun _ => exCurve_both.2, fun _ => exCurve_both.1⟩).2 (fun _ _ _ _ => none)
  exact ⟨o, r, exCurve_wf, curve_wellposed Index.stableArgsort_isArgsort exCurve_wf exCurve_ac exK exK_ang (fun _ _ => rfl), h1, h2⟩

example : ∀ g : GenD, g = ⟨10, 0, 50, -50, 1, 100, 10, 0, 0, 0, 0, [0, 100, -50, -20, 50, 20]⟩ → Constr.ValidCurve (exK.row g) ∧ CurveRange 100 (exK.row g) := by
  rintro g rfl
  constructor
  · constructor <;> norm_num [Curves.row, exK]
  · constructor <;> norm_num [Curves.row, exK]

example : ∀ g : GenD, g = ⟨-80, -40, 0, -50, 1, 0, -100, 0, 0, 0, 0, []⟩ → Constr.VarLoad (exK.row g) ∧ Constr.PfLimit (exK.row g) (-50) := by
  rintro g rfl
  norm_num [Constr.VarLoad, Constr.PfLimit, Curves.row]

example : ∀ g : GenD, g = ⟨-20, 0, 10, -10, 1, 0, -40, 0, 0, 0, 0, []⟩ → Constr.VarLoad (exK.row g) ∧ g.QMIN ≠ 0 ∧ g.QMAX ≠ 0 := by
  rintro g rfl
  norm_num [Constr.VarLoad, Curves.row]

example : Constr.Limited ⟨9, 2, exK.ang.angmin [-30, 30], exK.ang.angmax [-30, 30]⟩ := by
  norm_num [Constr.Limited, exK, exE]

/-- The hypotheses of `C120_negation` hold on the other example. -/
example : WF exOne ∧ ((SomeUpper exK exOne ∧ ¬ SomeLower exK exOne) ∨ (SomeLower exK exOne ∧ ¬ SomeUpper exK exOne)) := ⟨exOne_wf, Or.inl exOne_one⟩

end

end Verif.Opf
