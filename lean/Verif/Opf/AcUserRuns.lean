import Verif.Opf.AcUserProps
import Verif.Opf.CurveCases

/-!
# C126: runs of the AC optimal power flow with user data complete

For costs of active power without helper variables (`K.more` empty).
-/

namespace Verif.Opf

open Verif.Index (BusRow GenRow BranchRow IsArgsort WF GenInService BranchInService Connected posOf orderOf)
open Verif.OpfModel Verif.Pips Verif.Network Verif.OpfCost

/-- User data with which a run completes: of the documented shape, with vectors of bounds that are absent or complete, lower bounds at most upper bounds, and equal bounds not beyond
`±1e10`. -/
structure AcUserInputs (c : Index.Case Tables) (U : UserIn) : Prop where
  shape : AcUserShape c
  l : U.l = [] ∨ U.l.length = rowsOf (colsOf c.A)
  u : U.u = [] ∨ U.u.length = rowsOf (colsOf c.A)
  zl : U.zl = [] ∨ U.zl.length = nUserAc (onBuses c).card (onGens c).card (colsOf c.A)
  zu : U.zu = [] ∨ U.zu.length = nUserAc (onBuses c).card (onGens c).card (colsOf c.A)
  rows : ∀ i < rowsOf (colsOf c.A), Pips.Sane (lowAt U.l i) (uppAt U.u i)
  vars : ∀ k < nUserAc (onBuses c).card (onGens c).card (colsOf c.A), Pips.Sane (lowAt U.zl k) (uppAt U.zu k)

theorem AUData.vs_nodup (W : AUData) : W.vs.Nodup := by
  unfold AUData.vs
  split_ifs <;> simp

/-- What the bounds of the user data have to be. -/
structure AUData.BoundsOK (W : AUData) : Prop where
  l : W.dat.l = [] ∨ W.dat.l.length = W.A.rows
  u : W.dat.u = [] ∨ W.dat.u.length = W.A.rows
  zl : W.dat.zl = [] ∨ W.dat.zl.length = W.nz
  zu : W.dat.zu = [] ∨ W.dat.zu.length = W.nz
  rows : ∀ i < W.A.rows, Sane (lowAt W.dat.l i) (uppAt W.dat.u i)
  vars : ∀ k < W.nz, Sane (lowAt W.dat.zl k) (uppAt W.dat.zu k)

section good
variable {c' : Index.Case Tables} {d : Case c'.bus.length c'.gen.length c'.branch.length} (K : Curves) (hv : ∀ b ∈ angRows K.ang c', b.f < c'.bus.length ∧ b.t < c'.bus.length)
  (hmore : K.more d c' = []) (W : AUData) (hf : W.A.rows ≠ 0 → W.A.cols = 2 * c'.bus.length + 2 * c'.gen.length + W.nz)

include hv hmore hf

/-- The calls of a case with user data can be made. -/
theorem acUser_runs : ∃ m, OpfModel.run (acOps d ++ (curveExtra K d c' ++ W.ops)) = some m := by
  obtain ⟨B, hB, hvs, -⟩ := ang_block K.ang c'.bus.length c' hv
  obtain ⟨H, L, V, -, -, -, -, -, -, -, hops, hH, hL, hV⟩ := curve_blocks d.base K c' rfl
  unfold curveExtra
  rw [hB, hvs, hops, hmore, hH.vs, hL.vs, hV.vs]
  by_cases hz : W.nz = 0 <;> by_cases hr : W.A.rows = 0
  all_goals
    unfold AUData.ops
    simp only [hz, hr, if_true, if_false, List.append_nil, AUData.vs]
    simp only [OpfModel.run, acOps, List.cons_append, List.nil_append, List.foldlM_cons, List.foldlM_nil, step, Model.addLin, storeVs, Model.resolve, Model.addVars,
      Model.addNln, Idx.add, Model.init, Idx.empty]
    simp [Model.width, Dict.set]

/-- The formulation with user data is well posed if that without is. -/
theorem acUser_good (g : Good (acOps d ++ curveExtra K d c')) (hn : (names (nlnBlocks (acOps d ++ curveExtra K d c'))).Nodup) (hb : W.BoundsOK) :
    Good (acOps d ++ (curveExtra K d c' ++ W.ops)) ∧ (names (nlnBlocks (acOps d ++ (curveExtra K d c' ++ W.ops)))).Nodup := by
  obtain ⟨B, hB, hvs, -⟩ := ang_block K.ang c'.bus.length c' hv
  obtain ⟨H, L, V, -, -, -, -, -, -, -, hops, hH, hL, hV⟩ := curve_blocks d.base K c' rfl
  have hex : curveExtra K d c' = [.addLin "PQh" H.A H.l H.u H.vs, .addLin "PQl" L.A L.l L.u L.vs, .addLin "vl" V.A V.l V.u V.vs, .addLin "ang" B.A B.l B.u B.vs] := by
    unfold curveExtra; rw [hB, hops, hmore]; rfl
  have hvb0 : varBlocks (acOps d ++ curveExtra K d c') = [("Va", c'.bus.length), ("Vm", c'.bus.length), ("Pg", c'.gen.length), ("Qg", c'.gen.length)] := by
    rw [ac_varBlocks, hex]; simp [varBlocks]
  have hvb : varBlocks (acOps d ++ (curveExtra K d c' ++ W.ops)) = varBlocks (acOps d ++ curveExtra K d c') ++ if W.nz = 0 then [] else [("z", W.nz)] := by
    rw [← List.append_assoc, varBlocks_append, W.varBlocks_eq]
  have hvv : varVals (acOps d ++ (curveExtra K d c' ++ W.ops)) = varVals (acOps d ++ curveExtra K d c') ++ if W.nz = 0 then [] else [("z", W.vars)] := by
    rw [← List.append_assoc, varVals_append, W.varVals_eq]
  have hlb0 : linBlks (acOps d ++ curveExtra K d c') = [("PQh", H), ("PQl", L), ("vl", V), ("ang", B)] := by
    rw [ac_linBlks, hex]; simp [linBlks]
  have hlb : linBlks (acOps d ++ (curveExtra K d c' ++ W.ops)) = linBlks (acOps d ++ curveExtra K d c') ++ if W.A.rows = 0 then [] else [("usr", W.blk)] := by
    rw [← List.append_assoc, linBlks_append, W.linBlks_eq]
  have hold : ∀ b ∈ linBlks (acOps d ++ curveExtra K d c'), b.2.vs ≠ [] ∧ "z" ∉ b.2.vs ∧ b.1 ≠ "usr" := by
    rw [hlb0]
    simp only [List.mem_cons, List.not_mem_nil, or_false, forall_eq_or_imp, forall_eq, hH.vs, hL.vs, hV.vs, hvs]
    simp
  have hsize : ∀ v, v ≠ "z" → size (varBlocks (acOps d ++ curveExtra K d c') ++ if W.nz = 0 then [] else [("z", W.nz)]) v = size (varBlocks (acOps d ++ curveExtra K d c')) v := by
    intro v hv'
    unfold size
    rw [List.find?_append]
    have : List.find? (fun b : String × ℕ => decide (b.1 = v)) (if W.nz = 0 then [] else [("z", W.nz)]) = none := by
      split_ifs <;> simp [Ne.symm hv']
    rw [this, Option.or_none]
  refine ⟨⟨?_, ?_, ?_, ?_, ?_, ?_⟩, ?_⟩
  · rw [hvb, hvb0]
    split_ifs <;> simp [names]
  · rw [hlb]
    split_ifs with hr
    · rw [List.append_nil]; exact g.linNames
    rw [names, List.map_append, List.nodup_append]
    refine ⟨g.linNames, by simp, ?_⟩
    rintro a ha b hb rfl
    obtain ⟨x, hx, rfl⟩ := List.mem_map.1 ha
    have := (hold x hx).2.2
    simp at hb this
    exact this hb
  · rw [hvv]
    intro b hb'
    rcases List.mem_append.1 hb' with hb' | hb'
    · exact g.varFits b hb'
    · split_ifs at hb' with hz
      · simp at hb'
      rw [List.mem_singleton] at hb'
      subst hb'
      have key : ∀ (a : EReal) (l : List EReal), l = [] ∨ l.length = W.nz → (orDefault W.nz a (some l)).length = W.nz := by
        rintro a l (rfl | h)
        · simp [orDefault]
        · rw [orDefault_ne (by rintro rfl; exact hz h.symm)]
          exact h
      exact ⟨key _ _ hb.zl, key _ _ hb.zu⟩
  · intro b hb'
    rw [hlb] at hb'
    rcases List.mem_append.1 hb' with hb' | hb'
    · rw [hvb]
      obtain ⟨h1, h2, -⟩ := hold b hb'
      obtain ⟨f1, f2, f3, f4⟩ := g.linFits b hb'
      refine ⟨f1, f2.trans ?_, f3, f4⟩
      unfold eff widthOf
      rw [if_neg h1, if_neg h1]
      congr 1
      refine List.map_congr_left fun v hv' => (hsize v ?_).symm
      rintro rfl
      exact h2 hv'
    · split_ifs at hb' with hr
      · simp at hb'
      rw [List.mem_singleton] at hb'
      subst hb'
      refine ⟨W.vs_nodup, (hf hr).trans ?_, hb.l, hb.u⟩
      rw [hvb, hvb0]
      show _ = widthOf _ (eff _ W.vs)
      unfold eff
      rw [if_neg W.vs_ne]
      unfold AUData.vs widthOf
      split_ifs with hz
      · simp [size, hz]; omega
      · simp [size]; omega
  · rw [hvv]
    intro b hb'
    rcases List.mem_append.1 hb' with hb' | hb'
    · exact g.varSane b hb'
    · split_ifs at hb' with hz
      · simp at hb'
      rw [List.mem_singleton] at hb'
      subst hb'
      intro i hi
      have hi' : i < W.nz := hi
      have e1 : VarVals.lo W.vars i = lowAt W.dat.zl i := (orDefault_low W.nz W.dat.zl hi').1
      have e2 : VarVals.hi W.vars i = uppAt W.dat.zu i := (orDefault_low W.nz W.dat.zu hi').2
      simp only [e1, e2]
      exact hb.vars i hi'
  · rw [hlb]
    intro b hb'
    rcases List.mem_append.1 hb' with hb' | hb'
    · exact g.linSane b hb'
    · split_ifs at hb' with hr
      · simp at hb'
      rw [List.mem_singleton] at hb'
      subst hb'
      intro i hi
      exact hb.rows i hi
  · have : nlnBlocks W.ops = [] := by
      unfold AUData.ops
      split_ifs <;> rfl
    rw [← List.append_assoc, show nlnBlocks (acOps d ++ curveExtra K d c' ++ W.ops) = nlnBlocks (acOps d ++ curveExtra K d c') ++ nlnBlocks W.ops by
      simp [nlnBlocks, List.filterMap_append], this, List.append_nil]
    exact hn

end good

section
variable {srt : List ℕ → List ℕ} (hs : IsArgsort srt) {base : ℝ} {c : Index.Case Tables} (h : WF c) (hin : AcInputs base c) (K : Curves) (hang : AngInputs K.ang c)
  (hmore : ∀ {nb ng nl : ℕ} (d : Case nb ng nl) c', K.more d c' = []) {U : UserIn} (hu : AcUserInputs c U)

include hs h hin hang hmore hu

/-- The calls of a case with user data, and that they are well posed. -/
theorem acUser_extra {c' : Index.Case Tables} {d} (he : Index.ext2int srt c = some c') (hd : readCase base c' = some d) :
    acUser c'.bus.length c'.gen.length c' U = aW c c' U ∧ curveExtra (withUser K U) d c' = curveExtra K d c' ++ (aW c c' U).ops ∧
    ((aW c c' U).A.rows ≠ 0 → (aW c c' U).A.cols = 2 * c'.bus.length + 2 * c'.gen.length + (aW c c' U).nz) ∧
    Good (acOps d ++ curveExtra (withUser K U) d c') ∧ (names (nlnBlocks (acOps d ++ curveExtra (withUser K U) d c'))).Nodup := by
  have hA := int_matA hs h hu.shape.sparse he
  obtain ⟨hbl, hgl, hbl', hgl'⟩ := int_sizes hs h he
  have hW : acUser c'.bus.length c'.gen.length c' U = aW c c' U := by
    unfold aW acUser
    rw [hA]
  have hex : curveExtra (withUser K U) d c' = curveExtra K d c' ++ (aW c c' U).ops := by
    unfold curveExtra
    show _ ++ (_ ++ (K.more d c' ++ (acUser c'.bus.length c'.gen.length c' U).ops)) = _
    rw [hW, hmore]
    simp
    rfl
  have hf : (aW c c' U).A.rows ≠ 0 → (aW c c' U).A.cols = 2 * c'.bus.length + 2 * c'.gen.length + (aW c c' U).nz := by
    intro hr
    have hr' : rowsOf (colsOf c.A) ≠ 0 := hr
    have := hu.shape.cols hr'
    rw [← hbl', ← hgl'] at this
    have e : (aW c c' U).nz = (colsOf c.A).length - (2 * c'.bus.length + 2 * c'.gen.length) := if_neg hr'
    show (colsOf c.A).length = _
    omega
  have hnz : (aW c c' U).nz = nUserAc (onBuses c).card (onGens c).card (colsOf c.A) := by
    unfold nUserAc
    rw [← hbl', ← hgl']
    rfl
  obtain ⟨g, hn⟩ := curve_wellposed hs h hin K hang hmore c' d he hd
  refine ⟨hW, hex, hf, ?_⟩
  rw [hex]
  refine acUser_good K (readCase_valid hd K.ang) (hmore d c') _ hf g hn ⟨hu.l, hu.u, ?_, ?_, hu.rows, ?_⟩
  · rw [hnz]; exact hu.zl
  · rw [hnz]; exact hu.zu
  · rw [hnz]; exact hu.vars

/-- Internal: the formulation is well posed. -/
theorem acUser_wellposed : ∀ c' d, Index.ext2int srt c = some c' → readCase base c' = some d →
    Good (acOps d ++ curveExtra (withUser K U) d c') ∧ (names (nlnBlocks (acOps d ++ curveExtra (withUser K U) d c'))).Nodup :=
  fun _ _ he hd => (acUser_extra hs h hin K hang hmore hu he hd).2.2.2

/-- A run exists as soon as the solver has returned. -/
theorem acUser_core (hboth : SomeUpper K c ↔ SomeLower K c) :
    ∃ c' d m, Index.ext2int srt c = some c' ∧ readCase base c' = some d ∧ OpfModel.run (acOps d ++ curveExtra (withUser K U) d c') = some m ∧
      ∀ (x0 : ∀ (_ : Index.Case Tables) (m : Model), Fin m.var.total → ℝ) (lim : Int) (o : Opt) (solve : AnySolver) s, pipsopfSolver d lim (K.cost c') m o solve (x0 c' m) = some s →
        ∃ ret out, opfAcUser srt base lim { K with ang := { K.ang with x0 := x0 } } U o solve c = some (ret, out) ∧ ret.success = s.success ∧ ret.tol = s.tol := by
  obtain ⟨c', d, he, hd, hw⟩ := bridge_exists hs base h
  obtain ⟨hW, hex, hf, g, hn⟩ := acUser_extra hs h hin K hang hmore hu he hd
  have g' := g
  rw [hex] at g'
  obtain ⟨m, hm⟩ := acUser_runs (d := d) K (readCase_valid hd K.ang) (hmore d c') _ hf
  have hm' : OpfModel.run (acOps d ++ curveExtra (withUser K U) d c') = some m := by rw [hex]; exact hm
  rw [← upper_iff hs h K he hd, ← lower_iff hs h K he hd] at hboth
  have mus : ∀ s : AcRes c'.bus.length c'.gen.length c'.branch.length, ∃ mu, curveMus base K c' m s = some mu := by
    intro s
    unfold curveMus
    split_ifs
    · exact curveMu_some (withUser K U) hm' g hboth s
    · exact ⟨_, rfl⟩
  set W := aW c c' U with hWdef
  have hidx : W.nz ≠ 0 → m.var.i1 "z" = some (start (varBlocks (acUserCalls K U c' d)) "z") := by
    intro hz
    have hvn := (foldIdx_lookup (varBlocks (acUserCalls K U c' d)) g.varNames).1
    have := (withUser_z K U d c' W hW hz).1
    rw [(Rep.run hm').var, (hvn "z" (by rw [acUserCalls, ac_varBlocks]; exact List.mem_map.2 ⟨_, List.mem_cons_of_mem _ (List.mem_cons_of_mem _ (List.mem_cons_of_mem _ (List.mem_cons_of_mem _ this))), rfl⟩)).1]
  have hj : W.A.rows ≠ 0 → m.lin.i1 "usr" = some (start (linBlocks (acUserCalls K U c' d)) "usr") := by
    intro hr
    have hln := (foldIdx_lookup (linBlocks (acUserCalls K U c' d)) (by rw [linBlocks_names]; exact g.linNames)).1
    have := withUser_usr K U d c' W hW hr
    rw [(Rep.run hm').lin, (hln "usr" (by rw [linBlocks_names, acUserCalls, ac_linBlks]; exact List.mem_map.2 ⟨_, this, rfl⟩)).1]
  have sl : ∀ {n : ℕ} {i1 : Option ℕ} {i : ℕ} (v : ℕ → ℝ), (n ≠ 0 → i1 = some i) → ∃ L, slice n i1 v = some L := by
    intro n i1 i v hi
    unfold slice
    split_ifs with h0
    · exact ⟨_, rfl⟩
    · rw [hi h0]; exact ⟨_, rfl⟩
  have hsp : sparseOk c'.A = true := by
    rw [int_matA hs h hu.shape.sparse he]
    cases hA : c.A with
    | none => rfl
    | some a => simp [sparseOk, hu.shape.sparse a hA]
  refine ⟨c', d, m, he, hd, hm', ?_⟩
  intro x0 lim o solve s hs'
  obtain ⟨z, hz⟩ := sl s.x hidx
  obtain ⟨zl, hzl⟩ := sl s.muVarL hidx
  obtain ⟨zu, hzu⟩ := sl s.muVarU hidx
  obtain ⟨l, hl⟩ := sl s.mu_l hj
  obtain ⟨u, hu'⟩ := sl s.mu_u hj
  obtain ⟨mu, hmu⟩ := mus s
  obtain ⟨r, hr⟩ := hw (acUpd s (curvePost K c' m s mu))
  have hres : acUserResults (acUser c'.bus.length c'.gen.length c' U) m s = some ⟨(List.range m.var.total).map s.x, z, zl, zu, l, u⟩ := by
    rw [hW]
    unfold acUserResults
    simp only [hz, hzl, hzu, hl, hu', Option.bind_eq_bind, Option.bind_some]
  refine ⟨⟨s.success, s.f, s.tol, s.dual, m.var.total + m.lin.total, zeroOff opfOff r⟩, ⟨(List.range m.var.total).map s.x, z, zl, zu, l, u⟩, ?_, rfl, rfl⟩
  unfold opfAcUser
  simp only [he, hd, Option.bind_eq_bind, Option.bind_some]
  rw [if_pos hsp]
  show (OpfModel.run (acOps d ++ curveExtra (withUser K U) d c')).bind _ = _
  rw [hm', Option.bind_some]
  show (pipsopfSolver d lim (K.cost c') m o solve (x0 c' m)).bind _ = _
  rw [hs', Option.bind_some, hres, Option.bind_some]
  show (curveMus base K c' m s).bind _ = _
  rw [hmu, Option.bind_some]
  show (Index.int2ext (write c' (acUpd s (curvePost K c' m s mu)))).bind _ = _
  rw [hr, Option.bind_some]

/-- **C126 (completes).**  On well-formed cases with data in range, at least one limited branch, costs of active power without helper variables, cut-off corners of both kinds or none, and
user data of the documented shape, the run returns whatever the options; with tolerances wide enough for the starting point it succeeds. -/
theorem C126_completes (lim : Int) (hC : CurveCostFits srt base lim K c) (hboth : SomeUpper K c ↔ SomeLower K c) :
    (∀ (o : Opt) (solve : AnySolver), ∃ r, opfAcUser srt base lim K U o solve c = some r) ∧
    ∀ solve : AnySolver, ∃ o ret out, 0 < o.costMult ∧ opfAcUser srt base lim K U o solve c = some (ret, out) ∧ ret.success = true := by
  obtain ⟨c', d, m, he, hd, hm, hrun⟩ := acUser_core hs h hin K hang hmore hu hboth
  obtain ⟨hok, hl⟩ := acInputs_ok hs h hin he hd
  obtain ⟨c1, c2, c3⟩ := hC c' d he hd
  obtain ⟨-, -, -, g, hn⟩ := acUser_extra hs h hin K hang hmore hu he hd
  have sol := pipsopf_returns d _ hm g hn lim (K.cost c') c1 c2 c3 hl
  constructor
  · intro o solve
    obtain ⟨s, hs'⟩ := sol o solve (K.ang.x0 c' m)
    obtain ⟨ret, out, hr, -⟩ := hrun K.ang.x0 lim o solve s hs'
    exact ⟨_, hr⟩
  · intro solve
    obtain ⟨q, hq, -, -, -, -, -⟩ := linearOf_spec hm g
    obtain ⟨o, h1, -, h2⟩ := exists_success (problem (callbacks (acNl d lim (K.cost c')) m.var.total) q) (K.ang.x0 c' m)
    obtain ⟨s, hs'⟩ := sol o solve (K.ang.x0 c' m)
    obtain ⟨-, q', r', hq', hr', e1, -⟩ := ac_ofSolver hm g hn hok.base.ne' hs'
    rw [hq] at hq'; cases hq'
    obtain ⟨ret, out, hr, e2, -⟩ := hrun K.ang.x0 lim o solve s hs'
    refine ⟨o, ret, out, h1, hr, ?_⟩
    rw [e2, e1, (ofFull hr').2.1]; exact h2 _

end

end Verif.Opf
