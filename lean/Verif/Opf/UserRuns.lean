import Verif.Opf.UserProps

/-!
# C109: runs with user data exist, and when they do not
-/

namespace Verif.Opf

open Verif.Index (BusRow GenRow BranchRow IsArgsort WF GenInService BranchInService Connected posOf orderOf)
open Verif.OpfModel Verif.Pips Verif.Network Verif.Cost Verif.OpfCost

section
variable {nb ng nl : ℕ} (d : Case nb ng nl) (E : Econ) (c' : Index.Case Tables) (gc : Fin ng → CostRow ℝ) (W : UData)

/-- Internal: the calls of the formulation are accepted. -/
theorem user_runs (hv : ∀ b ∈ angRows E c', b.f < nb ∧ b.t < nb) (hf : W.Fits nb ng) : ∃ m, OpfModel.run (dcOps d ++ (angOps E nb c' ++ (pwlOps d.base gc ++ W.ops))) = some m := by
  obtain ⟨B, hB, hvs, -⟩ := ang_block E nb c' hv
  rw [hB, hvs]
  have hfp : ∀ (f : ℝ × ℝ × ℝ × ℝ → ℝ), W.N.rows ≠ 0 → badLen W.N.rows (if W.dat.fparm = [] then none else some (W.dat.fparm.map f)) = false := by
    intro f hn
    rcases hf.fparm hn with h | h
    · simp [h, badLen]
    · by_cases h0 : W.dat.fparm = []
      · simp [h0, badLen]
      · simp [h0, badLen, h]
  have hH : W.N.rows ≠ 0 → badH W.N.rows W.dat.H = false := by
    intro hn
    obtain ⟨h, e, h1, h2⟩ := hf.H hn
    simp [e, badH, h1, h2]
  by_cases hy : nyOf gc = 0 <;> by_cases hz : W.nz = 0 <;> by_cases hr : W.A.rows = 0 <;> by_cases hn : W.N.rows = 0
  all_goals
    unfold pwlOps UData.ops
    simp only [hy, hz, hr, hn, if_true, if_false, List.append_nil, UData.vs]
    simp only [OpfModel.run, dcOps, List.cons_append, List.nil_append, List.foldlM_cons, List.foldlM_nil, step, Model.addLin, Model.addCosts, storeVs, Model.resolve,
      Model.addVars, Idx.add, Model.init, Idx.empty]
    first
      | simp [Model.width, Dict.set, ayMat]; done
      | simp [Model.width, Dict.set, ayMat, UData.cp, hf.Cw hn, hH hn, hfp _ hn, hn]

/-- What the bounds of the user data have to be. -/
structure UData.BoundsOK (W : UData) : Prop where
  l : W.dat.l = [] ∨ W.dat.l.length = W.A.rows
  u : W.dat.u = [] ∨ W.dat.u.length = W.A.rows
  zl : W.dat.zl = [] ∨ W.dat.zl.length = W.nz
  zu : W.dat.zu = [] ∨ W.dat.zu.length = W.nz
  rows : ∀ i < W.A.rows, Sane (lowAt W.dat.l i) (uppAt W.dat.u i)
  vars : ∀ k < W.nz, Sane (lowAt W.dat.zl k) (uppAt W.dat.zu k)

/-- Internal: the formulation with user data is well posed if that without is. -/
theorem user_good (hv : ∀ b ∈ angRows E c', b.f < nb ∧ b.t < nb) (g : Good (dcOps d ++ (angOps E nb c' ++ (pwlOps d.base gc ++ [])))) (hf : W.Fits nb ng) (hb : W.BoundsOK) :
    Good (dcOps d ++ (angOps E nb c' ++ (pwlOps d.base gc ++ W.ops))) := by
  have hlin := angOps_varBlocks (nb := nb) E c'
  have hvb : varBlocks (dcOps d ++ (angOps E nb c' ++ (pwlOps d.base gc ++ W.ops))) =
      varBlocks (dcOps d ++ (angOps E nb c' ++ (pwlOps d.base gc ++ []))) ++ if W.nz = 0 then [] else [("z", W.nz)] := by
    rw [W.blocks d gc _ hlin, econ_varBlocks]
    simp
  have hvv : varVals (dcOps d ++ (angOps E nb c' ++ (pwlOps d.base gc ++ W.ops))) =
      varVals (dcOps d ++ (angOps E nb c' ++ (pwlOps d.base gc ++ []))) ++ if W.nz = 0 then [] else [("z", W.vars)] := by
    simp only [varVals_append, W.varVals_eq, List.append_assoc]
    rfl
  have hlb : linBlks (dcOps d ++ (angOps E nb c' ++ (pwlOps d.base gc ++ W.ops))) =
      linBlks (dcOps d ++ (angOps E nb c' ++ (pwlOps d.base gc ++ []))) ++ if W.A.rows = 0 then [] else [("usr", W.blk)] := by
    simp only [linBlks_append, W.linBlks_eq, List.append_assoc]
    rfl
  -- the other blocks
  have hold : ∀ b ∈ linBlks (dcOps d ++ (angOps E nb c' ++ (pwlOps d.base gc ++ []))), b.2.vs ≠ [] ∧ "z" ∉ b.2.vs ∧ b.1 ∈ ["Pmis", "Pf", "Pt", "ang", "ycon"] := by
    obtain ⟨B, hB, hvs, -⟩ := ang_block E nb c' hv
    have hlb0 : linBlks (dcOps d) = [("Pmis", ⟨hcat (Bbus d.branch) d.negCg, vec d.bmis, vec d.bmis, ["Va", "Pg"]⟩),
      ("Pf", ⟨matOf d.BfIl, List.replicate d.il.length ⊥, vec d.upf, ["Va"]⟩),
      ("Pt", ⟨matOf (-d.BfIl), List.replicate d.il.length ⊥, vec d.upt, ["Va"]⟩)] := rfl
    rw [linBlks_append, linBlks_append, linBlks_append, hlb0, hB]
    by_cases hy : nyOf gc = 0
    · rw [show pwlOps d.base gc = [] by unfold pwlOps; rw [if_pos hy]]
      simp [linBlks, hvs]
    · rw [pwlOps_linBlks _ _ hy]
      simp [linBlks, hvs]
  have hsize : ∀ v, v ≠ "z" → size (varBlocks (dcOps d ++ (angOps E nb c' ++ (pwlOps d.base gc ++ []))) ++ if W.nz = 0 then [] else [("z", W.nz)]) v =
      size (varBlocks (dcOps d ++ (angOps E nb c' ++ (pwlOps d.base gc ++ [])))) v := by
    intro v hv'
    unfold size
    rw [List.find?_append]
    have : List.find? (fun b : String × ℕ => decide (b.1 = v)) (if W.nz = 0 then [] else [("z", W.nz)]) = none := by
      split_ifs <;> simp [Ne.symm hv']
    rw [this, Option.or_none]
  refine ⟨?_, ?_, ?_, ?_, ?_, ?_⟩
  · rw [hvb, econ_varBlocks]
    split_ifs <;> simp [names]
  · rw [hlb]
    split_ifs with hr
    · rw [List.append_nil]; exact g.linNames
    rw [names, List.map_append, List.nodup_append]
    refine ⟨g.linNames, by simp, ?_⟩
    rintro a ha b hb rfl
    obtain ⟨x, hx, rfl⟩ := List.mem_map.1 ha
    have := (hold x hx).2.2
    simp at hb this
    simp [hb] at this
  · rw [hvv]
    intro b hb'
    rcases List.mem_append.1 hb' with hb' | hb'
    · exact g.varFits b hb'
    · split_ifs at hb' with hz
      · simp at hb'
      rw [List.mem_singleton] at hb'
      subst hb'
      have key : ∀ (a : EReal) (l : List EReal), l = [] ∨ l.length = W.nz → (orDefault W.nz a (some l)).length = W.nz := by
        rintro a l (rfl | h)
        · simp [orDefault]
        · rw [orDefault_ne (by rintro rfl; exact hz h.symm)]
          exact h
      exact ⟨key _ _ hb.zl, key _ _ hb.zu⟩
  · intro b hb'
    rw [hlb] at hb'
    rcases List.mem_append.1 hb' with hb' | hb'
    · rw [hvb]
      obtain ⟨h1, h2, -⟩ := hold b hb'
      obtain ⟨f1, f2, f3, f4⟩ := g.linFits b hb'
      refine ⟨f1, f2.trans ?_, f3, f4⟩
      unfold eff widthOf
      rw [if_neg h1, if_neg h1]
      congr 1
      refine List.map_congr_left fun v hv' => (hsize v ?_).symm
      rintro rfl
      exact h2 hv'
    · split_ifs at hb' with hr
      · simp at hb'
      rw [List.mem_singleton] at hb'
      subst hb'
      exact ⟨W.vs_nodup, (hf.A hr).trans (W.width d gc _ hlin).symm, hb.l, hb.u⟩
  · rw [hvv]
    intro b hb'
    rcases List.mem_append.1 hb' with hb' | hb'
    · exact g.varSane b hb'
    · split_ifs at hb' with hz
      · simp at hb'
      rw [List.mem_singleton] at hb'
      subst hb'
      intro i hi
      have hi' : i < W.nz := hi
      have e1 : VarVals.lo W.vars i = lowAt W.dat.zl i := (orDefault_low W.nz W.dat.zl hi').1
      have e2 : VarVals.hi W.vars i = uppAt W.dat.zu i := (orDefault_low W.nz W.dat.zu hi').2
      simp only [e1, e2]
      exact hb.vars i hi'
  · rw [hlb]
    intro b hb'
    rcases List.mem_append.1 hb' with hb' | hb'
    · exact g.linSane b hb'
    · split_ifs at hb' with hr
      · simp at hb'
      rw [List.mem_singleton] at hb'
      subst hb'
      intro i hi
      exact hb.rows i hi

end

theorem gather_sub {α : Type} (xs : List α) : ∀ (is : List ℕ) (r : List α), NumPy.gather xs is = some r → r.length = is.length ∧ ∀ x ∈ r, x ∈ xs := by
  intro is
  induction is with
  | nil => intro r h; simp [NumPy.gather] at h; subst h; simp
  | cons i is ih =>
    intro r h
    unfold NumPy.gather at h
    cases hx : xs[i]? with
    | none => simp [hx] at h
    | some x =>
      cases hr : NumPy.gather xs is with
      | none => simp [hx, hr] at h
      | some r' =>
        simp only [hx, hr, Option.some.injEq] at h
        subst h
        obtain ⟨h1, h2⟩ := ih r' hr
        refine ⟨by simp [h1], fun y hy => ?_⟩
        rcases List.mem_cons.1 hy with rfl | hy
        · exact List.mem_of_getElem? hx
        · exact h2 y hy

/-- A dense user matrix keeps its rows. -/
theorem dense_rows {srt : List ℕ → List ℕ} (hs : IsArgsort srt) {c : Index.Case Tables} (h : WF c) {a : Index.UserMat (List ℝ)} (hd : a.sparse = false) (hr : rowsOf a.cols ≠ 0)
    (hrect : ∀ x ∈ a.cols, ∀ y ∈ a.cols, x.length = y.length) {M : Option (Index.UserMat (List ℝ))}
    (e : Index.e2iMat (P := Tables) (orderOf srt c) (Index.isDC c) (some a) = some M) : ∃ b, M = some b ∧ b.sparse = false ∧ rowsOf b.cols ≠ 0 := by
  simp only [Index.e2iMat, Option.map_eq_some_iff] at e
  obtain ⟨cs, e1, rfl⟩ := e
  refine ⟨_, rfl, hd, ?_⟩
  unfold Index.e2iList at e1
  split at e1
  · simp at e1
  rename_i r hb
  rw [hd] at e1
  simp only [Bool.false_eq_true, if_false, Option.some.injEq] at e1
  subst e1
  obtain ⟨rest, hrest⟩ : ∃ rest, Index.matOrdering (Index.isDC c) = .bus :: rest := by
    unfold Index.matOrdering
    split_ifs <;> exact ⟨_, rfl⟩
  rw [hrest, Index.e2iBlocks] at hb
  split at hb
  · simp at hb
  rename_i v hv
  split at hb
  swap
  · simp at hb
  rename_i w r' hw hr'
  simp only [Option.some.injEq] at hb
  rw [Index.e2iSet_eq hs] at hw
  obtain ⟨h1, h2⟩ := gather_sub _ _ _ hw
  obtain ⟨-, h3⟩ := gather_sub _ _ _ hv
  have hne : w ≠ [] := by
    obtain ⟨b, hbm, hb4⟩ := h.someOn
    obtain ⟨i, hi, rfl⟩ := List.mem_iff_getElem.1 hbm
    have : i ∈ posOf srt c .bus := ((rowOrder hs h).bus i).2 (by
      simp only [onBuses, Finset.mem_filter, Finset.mem_range]
      exact ⟨hi, _, List.getElem?_eq_getElem hi, hb4⟩)
    intro h0
    rw [h0] at h1
    rw [List.eq_nil_of_length_eq_zero h1.symm] at this
    simp at this
  obtain ⟨x, w', rfl⟩ := List.exists_cons_of_ne_nil hne
  rw [← hb]
  show (x : List ℝ).length ≠ 0
  have hx : x ∈ a.cols := h3 x (h2 x (by simp))
  cases hc : a.cols with
  | nil => rw [hc] at hx; simp at hx
  | cons y ys =>
    rw [hc] at hr
    rw [hrect x hx y (by rw [hc]; simp)]
    exact hr

section
variable {srt : List ℕ → List ℕ} (hs : IsArgsort srt) {base : ℝ} {c : Index.Case Tables} (h : WF c) {U : UserIn}

include hs h in
/-- **C109 (dense matrices).**  A user matrix that is not sparse ends the run with an exception. -/
theorem C109_dense (hd : (∃ a, c.A = some a ∧ a.sparse = false ∧ rowsOf a.cols ≠ 0) ∨ ∃ a, c.N = some a ∧ a.sparse = false ∧ rowsOf a.cols ≠ 0)
    (hrect : ∀ a, (c.A = some a ∨ c.N = some a) → ∀ x ∈ a.cols, ∀ y ∈ a.cols, x.length = y.length) (E : Econ) (o : Opt) (solve : AnySolver) :
    opfDcUser srt base E U o solve c = none := by
  by_contra hne
  obtain ⟨⟨ret, out⟩, hrun⟩ := Option.ne_none_iff_exists'.1 hne
  unfold opfDcUser at hrun
  simp only [Option.bind_eq_bind, Option.bind_eq_some_iff] at hrun
  obtain ⟨c', hc', d, hd', hrun⟩ := hrun
  obtain ⟨gen, gc, A, N, h1, -, -, h2, h3⟩ := Index.ext2int_result hs h
  rw [hc'] at h1
  injection h1 with h1
  have key : ∀ b : Index.UserMat (List ℝ), b.sparse = false → rowsOf b.cols ≠ 0 → sparseOk (some b) = false := by
    intro b hb1 hb2
    simp [sparseOk, hb1, hb2]
  have hno : (sparseOk c'.A && sparseOk c'.N) = false := by
    rw [h1]
    rcases hd with ⟨a, ha, ha1, ha2⟩ | ⟨a, ha, ha1, ha2⟩
    · rw [ha] at h2
      obtain ⟨b, rfl, hb1, hb2⟩ := dense_rows hs h ha1 ha2 (hrect a (Or.inl ha)) h2
      rw [show sparseOk (Index.intCase srt c gen gc (some b) N).A = false from key b hb1 hb2]
      rfl
    · rw [ha] at h3
      obtain ⟨b, rfl, hb1, hb2⟩ := dense_rows hs h ha1 ha2 (hrect a (Or.inr ha)) h3
      rw [show sparseOk (Index.intCase srt c gen gc A (some b)).N = false from key b hb1 hb2, Bool.and_false]
  rw [hno] at hrun
  simp at hrun

include hs h in
/-- **C109 (costs without `H`).**  User costs without a quadratic part end the run with an exception. -/
theorem C109_noH (hA : ∀ a, c.A = some a → a.sparse = true) (hN : ∀ a, c.N = some a → a.sparse = true) (hn : rowsOf (colsOf c.N) ≠ 0) (hH : U.H = none)
    (E : Econ) (o : Opt) (solve : AnySolver) : opfDcUser srt base E U o solve c = none := by
  by_contra hne
  obtain ⟨⟨ret, out⟩, hrun⟩ := Option.ne_none_iff_exists'.1 hne
  unfold opfDcUser at hrun
  simp only [Option.bind_eq_bind, Option.bind_eq_some_iff] at hrun
  obtain ⟨c', hc', d, hd, hrun⟩ := hrun
  obtain ⟨-, e⟩ := int_mats hs h hA hN hc'
  have e' : (userData c'.bus.length c'.gen.length c' U).N.rows = rowsOf (colsOf c.N) := by rw [← e]; rfl
  rw [e', hH] at hrun
  simp [hn] at hrun

variable (hin : DcInputs base c) (E : Econ) (hang : AngInputs E c) (hu : UserInputs c U)

include hs h hin hang hu

theorem user_extra {c' : Index.Case Tables} {d} (he : Index.ext2int srt c = some c') (hd : readCase base c' = some d) :
    userData c'.bus.length c'.gen.length c' U = uW c c' U ∧ (uW c c' U).Fits c'.bus.length c'.gen.length ∧
    (userSetup base E U).extra d c' = angOps E c'.bus.length c' ++ (pwlOps d.base (gcOf c') ++ (uW c c' U).ops) ∧
      Good (dcOps d ++ (userSetup base E U).extra d c') := by
  obtain ⟨hA, hN⟩ := int_mats hs h hu.shape.sparseA hu.shape.sparseN he
  obtain ⟨hbl, hgl, hbl', hgl'⟩ := int_sizes hs h he
  have hW : userData c'.bus.length c'.gen.length c' U = uW c c' U := by
    unfold uW userData
    rw [hA, hN]
  have hfits : (uW c c' U).Fits c'.bus.length c'.gen.length := by
    have := user_fits h hu.shape
    rw [← hbl', ← hgl'] at this
    exact this
  have hextra : (userSetup base E U).extra d c' = angOps E c'.bus.length c' ++ (pwlOps d.base (gcOf c') ++ (uW c c' U).ops) := by
    rw [← hW]; rfl
  have hnz : (uW c c' U).nz = nUser (onBuses c).card (onGens c).card (colsOf c.A) := by rw [uW, nUser_eq, hbl', hgl']
  refine ⟨hW, hfits, hextra, ?_⟩
  rw [hextra]
  refine user_good d E c' (gcOf c') _ (readCase_valid hd E) (econ_wellposed hs h hin E hang c' d he hd) hfits ⟨hu.l, hu.u, ?_, ?_, hu.rows, ?_⟩
  · rw [hnz]; exact hu.zl
  · rw [hnz]; exact hu.zu
  · rw [hnz]; exact hu.vars

/-- Internal: the formulation is well posed. -/
theorem user_wellposed : ∀ c' d, Index.ext2int srt c = some c' → readCase base c' = some d → Good (dcOps d ++ (userSetup base E U).extra d c') :=
  fun _ _ he hd => (user_extra hs h hin E hang hu he hd).2.2.2

/-- A run exists as soon as the solver has returned; the model and its problem do not depend on the starting point. -/
theorem user_core : ∃ c' d m, Index.ext2int srt c = some c' ∧ readCase base c' = some d ∧ OpfModel.run (dcOps d ++ (userSetup base E U).extra d c') = some m ∧
    Good (dcOps d ++ (userSetup base E U).extra d c') ∧
    ∀ (x0 : ∀ (_ : Index.Case Tables) (m : Model), Fin m.var.total → ℝ) (o : Opt) (solve : AnySolver) s,
      dcopfSolver d m ((userSetup base E U).H c' m) ((userSetup base E U).C c' m) ((userSetup base E U).C0 c' m) o solve (x0 c' m) = some s →
      ∃ ret out, opfDcUser srt base { E with x0 := x0 } U o solve c = some (ret, out) ∧ ret.success = s.success ∧ ret.tol = s.tol := by
  obtain ⟨c', d, he, hd, hw⟩ := bridge_exists hs base h
  obtain ⟨hW, hf, hextra, g⟩ := user_extra hs h hin E hang hu he hd
  set W := uW c c' U with hWdef
  obtain ⟨m, hm⟩ := user_runs d E c' (gcOf c') W (readCase_valid hd E) hf
  have hm' : OpfModel.run (dcOps d ++ (userSetup base E U).extra d c') = some m := by rw [hextra]; exact hm
  have g' := g
  rw [hextra] at g'
  obtain ⟨P, hP1, hP2⟩ := user_params W d (gcOf c') _ (angOps_varBlocks E c') (ang_costBlks E _ c') hf m hm g'
  have hidx : W.nz ≠ 0 → m.var.i1 "z" = some (iROf c') := by
    intro hz
    have hvn := (foldIdx_lookup (varBlocks (userCalls E c' d W)) g'.varNames).1
    rw [(Rep.run hm).var, (hvn "z" (by rw [W.blocks d _ _ (angOps_varBlocks E c'), if_neg hz]; simp [names])).1, (W.start_z d _ _ (angOps_varBlocks E c') hz).1]
  have hln := (foldIdx_lookup (linBlocks (userCalls E c' d W)) (by rw [linBlocks_names]; exact g'.linNames)).1
  have hj : W.A.rows ≠ 0 → m.lin.i1 "usr" = some (start (linBlocks (userCalls E c' d W)) "usr") := by
    intro hr
    rw [(Rep.run hm).lin, (hln "usr" ?_).1]
    rw [linBlocks_names, userCalls, linBlks_append, linBlks_append, linBlks_append, W.linBlks_eq, if_neg hr]
    simp [names]
  have sl : ∀ {n : ℕ} {i1 : Option ℕ} {i : ℕ} (v : ℕ → ℝ), (n ≠ 0 → i1 = some i) → ∃ L, slice n i1 v = some L := by
    intro n i1 i v hi
    unfold slice
    split_ifs with h0
    · exact ⟨_, rfl⟩
    · rw [hi h0]; exact ⟨_, rfl⟩
  have res : ∀ s : DcRes c'.bus.length c'.gen.length c'.branch.length, ∃ out, userResults W m { m with params := some P } s = some out := by
    intro s
    obtain ⟨z, hz⟩ := sl s.x hidx
    obtain ⟨zl, hzl⟩ := sl s.lower hidx
    obtain ⟨zu, hzu⟩ := sl s.upper hidx
    obtain ⟨l, hl⟩ := sl s.mu_l hj
    obtain ⟨u, hu'⟩ := sl s.mu_u hj
    have hc : ∃ f, userCostOut W.N.rows { m with params := some P } s.x = some f := by
      unfold userCostOut
      split_ifs with hn
      · exact ⟨_, rfl⟩
      · obtain ⟨mm, e⟩ := user_computeCost W d (gcOf c') _ (angOps_varBlocks E c') (ang_costBlks E _ c') hf m hm g' hn hP1 s.x
        rw [e]; exact ⟨_, rfl⟩
    obtain ⟨f, hf'⟩ := hc
    unfold userResults
    simp only [hz, hzl, hzu, hl, hu', hf', Option.bind_eq_bind, Option.bind_some]
    exact ⟨_, rfl⟩
  obtain ⟨hA, hN⟩ := int_mats hs h hu.shape.sparseA hu.shape.sparseN he
  have hcond : (sparseOk c'.A && sparseOk c'.N && ((uW c c' U).N.rows == 0 || U.H.isSome)) = true := by
    have k : ∀ M : Option (Index.UserMat (List ℝ)), (∀ a, M = some a → a.sparse = true) → sparseOk M = true := by
      intro M hM
      cases M with
      | none => rfl
      | some a => simp [sparseOk, hM a rfl]
    rw [hA, hN, k _ hu.shape.sparseA, k _ hu.shape.sparseN]
    by_cases hn : (uW c c' U).N.rows = 0
    · simp [hn]
    · obtain ⟨H, e, -⟩ := hu.shape.H hn
      simp [e]
  refine ⟨c', d, m, he, hd, hm', g, fun x0 o solve s hs' => ?_⟩
  obtain ⟨t, ht⟩ := hw (dcUpd s (angPost E c' m s))
  obtain ⟨out, hout⟩ := res s
  refine ⟨⟨s.success, s.f, s.tol, s.dual, m.var.total + m.lin.total, zeroOff opfOff t⟩, out, ?_, rfl, rfl⟩
  have hm2 : OpfModel.run (dcOps d ++ (userSetup base { E with x0 := x0 } U).extra d c') = some m := hm'
  have hs2 : dcopfSolver d m ((userSetup base { E with x0 := x0 } U).H c' m) ((userSetup base { E with x0 := x0 } U).C c' m)
    ((userSetup base { E with x0 := x0 } U).C0 c' m) o solve (x0 c' m) = some s := hs'
  have ht2 : Index.int2ext (write c' (dcUpd s (angPost { E with x0 := x0 } c' m s))) = some t := ht
  unfold opfDcUser
  simp only [he, hd, hW, Option.bind_eq_bind, Option.bind_some]
  rw [if_pos hcond]
  simp only [hm2, hP1, hs2, hout, ht2, Option.bind_some]

/-- **C109 (completes).**  On every well-formed case with data, angle limits and user data in range, whatever the cost table, the DC optimal power flow with user data returns,
whatever the linear solver does; with tolerances wide enough for the starting point it succeeds. -/
theorem C109_completes : (∀ (o : Opt) (solve : AnySolver), ∃ x, opfDcUser srt base E U o solve c = some x) ∧
    ∀ solve : AnySolver, ∃ o ret out, 0 < o.costMult ∧ 0 < o.feastol ∧ 0 < o.gradtol ∧ 0 < o.comptol ∧ opfDcUser srt base E U o solve c = some (ret, out) ∧
      ret.success = true := by
  obtain ⟨c', d, m, he, hd, hm, g, all⟩ := user_core hs h hin E hang hu
  obtain ⟨q, hq, -, -, -, -, hok⟩ := linearOf_spec hm g
  obtain ⟨i1, i2, i3, i4, i5⟩ := dc_idx hm g
  have sol : ∀ (o : Opt) (solve : AnySolver), ∃ s, dcopfSolver d m ((userSetup base E U).H c' m) ((userSetup base E U).C c' m)
      ((userSetup base E U).C0 c' m) o solve (E.x0 c' m) = some s := by
    intro o solve
    obtain ⟨x, hx⟩ := C76_returns (qp ((userSetup base E U).H c' m) ((userSetup base E U).C c' m)) q o (solve _ _) (E.x0 c' m) hok
    unfold dcopfSolver
    simp only [hq, hx, i1, i2, i3, i4, i5, Option.bind_eq_bind, Option.bind_some]
    exact ⟨_, rfl⟩
  constructor
  · intro o solve
    obtain ⟨s, hs'⟩ := sol o solve
    obtain ⟨ret, out, h1, -⟩ := all E.x0 o solve s hs'
    exact ⟨_, h1⟩
  · intro solve
    obtain ⟨o, h1, h3, h4, h5, h2⟩ := exists_success_nonneg (problem (qp ((userSetup base E U).H c' m) ((userSetup base E U).C c' m)) q) (E.x0 c' m)
    obtain ⟨s, hs'⟩ := sol o solve
    obtain ⟨ret, out, h6, h7, -⟩ := all E.x0 o solve s hs'
    obtain ⟨q', r', hq', hr', e1, -⟩ := dc_ofSolver hm g hs'
    rw [hq] at hq'; cases hq'
    refine ⟨o, ret, out, h1, h3, h4, h5, h6, ?_⟩
    rw [h7, e1, (ofFull hr').2.1]
    exact h2 _

end

end Verif.Opf
