import Verif.Opf.UserBlocks
import Verif.Opf.UserOrder
import Verif.Opf.ResLemmas

/-! # A run of the DC optimal power flow with user data, in internal numbering -/

namespace Verif.Opf

open Verif.Index (IsArgsort WF GenInService posOf orderOf)
open Verif.OpfModel Verif.Pips Verif.Network Verif.Cost Verif.OpfCost Verif.NumPy

noncomputable section

/-! ### Columns -/

theorem dcCols_length (nb ng : ℕ) (cols : List (List ℝ)) :
    (dcCols nb ng cols).length = if cols.length < 2 * nb + 2 * ng then cols.length else cols.length - (nb + ng) := by
  unfold dcCols
  split_ifs with h h' h'
  · omega
  · simp only [List.length_append, List.length_take, List.length_drop]
    omega
  · rfl
  · omega

/-- A sum over the columns of the reduced matrix is a sum over the columns of the matrix. -/
theorem dcCols_sum (nb ng : ℕ) (cols : List (List ℝ)) (f : ℕ → ℝ) (i : ℕ) :
    ∑ j ∈ Finset.range (dcCols nb ng cols).length, ((dcCols nb ng cols).getD j []).getD i 0 * f j =
      ∑ j ∈ Finset.range cols.length, (cols.getD j []).getD i 0 *
        (if cols.length < 2 * nb + 2 * ng then f j else if j < nb then f j else if j < 2 * nb then 0 else if j < 2 * nb + ng then f (j - nb)
          else if j < 2 * nb + 2 * ng then 0 else f (j - nb - ng)) := by
  by_cases h : cols.length < 2 * nb + 2 * ng
  · simp only [if_pos h]
    rw [show dcCols nb ng cols = cols by unfold dcCols; rw [if_neg (by omega)]]
  · simp only [if_neg h]
    obtain ⟨r, hr⟩ : ∃ r, cols.length = nb + nb + ng + ng + r := ⟨cols.length - (nb + nb + ng + ng), by omega⟩
    have hl : (dcCols nb ng cols).length = nb + ng + r := by rw [dcCols_length, if_neg h]; omega
    have hd : dcCols nb ng cols = cols.take nb ++ ((cols.drop (2 * nb)).take ng ++ cols.drop (2 * nb + 2 * ng)) := by unfold dcCols; rw [if_pos (by omega)]
    have e1 : ∀ j < nb, (dcCols nb ng cols).getD j [] = cols.getD j [] := by
      intro j hj
      rw [hd, List.getD_append _ _ _ _ (by simp; omega)]
      simp only [List.getD_eq_getElem?_getD, List.getElem?_take, if_pos hj]
    have e2 : ∀ j < ng, (dcCols nb ng cols).getD (nb + j) [] = cols.getD (2 * nb + j) [] := by
      intro j hj
      have hn : (cols.take nb).length = nb := by simp; omega
      rw [hd, List.getD_append_right _ _ _ _ (by rw [hn]; omega), hn, List.getD_append _ _ _ _ (by simp; omega), show nb + j - nb = j by omega]
      simp only [List.getD_eq_getElem?_getD, List.getElem?_take, if_pos hj, List.getElem?_drop]
    have e3 : ∀ j, (dcCols nb ng cols).getD (nb + ng + j) [] = cols.getD (2 * nb + 2 * ng + j) [] := by
      intro j
      have hn : (cols.take nb).length = nb := by simp; omega
      have hn' : ((cols.drop (2 * nb)).take ng).length = ng := by simp; omega
      rw [hd, List.getD_append_right _ _ _ _ (by rw [hn]; omega), hn, List.getD_append_right _ _ _ _ (by rw [hn']; omega), hn', show nb + ng + j - nb - ng = j by omega]
      simp only [List.getD_eq_getElem?_getD, List.getElem?_drop]
    rw [hl, hr, Finset.sum_range_add, Finset.sum_range_add, Finset.sum_range_add, Finset.sum_range_add, Finset.sum_range_add, Finset.sum_range_add]
    have z1 : ∑ x ∈ Finset.range nb, (cols.getD (nb + x) []).getD i 0 * (if nb + x < nb then f (nb + x) else if nb + x < 2 * nb then 0 else if nb + x < 2 * nb + ng then f (nb + x - nb)
          else if nb + x < 2 * nb + 2 * ng then 0 else f (nb + x - nb - ng)) = 0 := by
      refine Finset.sum_eq_zero fun x hx => ?_
      rw [Finset.mem_range] at hx
      rw [if_neg (by omega), if_pos (by omega), mul_zero]
    have z2 : ∑ x ∈ Finset.range ng, (cols.getD (nb + nb + ng + x) []).getD i 0 * (if nb + nb + ng + x < nb then f (nb + nb + ng + x) else if nb + nb + ng + x < 2 * nb then 0 else
          if nb + nb + ng + x < 2 * nb + ng then f (nb + nb + ng + x - nb)
          else if nb + nb + ng + x < 2 * nb + 2 * ng then 0 else f (nb + nb + ng + x - nb - ng)) = 0 := by
      refine Finset.sum_eq_zero fun x hx => ?_
      rw [Finset.mem_range] at hx
      rw [if_neg (by omega), if_neg (by omega), if_neg (by omega), if_pos (by omega), mul_zero]
    rw [z1, z2, add_zero, add_zero]
    congr 1
    · congr 1
      · refine Finset.sum_congr rfl fun j hj => ?_
        rw [Finset.mem_range] at hj
        rw [e1 j hj, if_pos hj]
      · refine Finset.sum_congr rfl fun j hj => ?_
        rw [Finset.mem_range] at hj
        rw [e2 j hj, if_neg (by omega), if_neg (by omega), if_pos (by omega), show 2 * nb + j = nb + nb + j by omega, show nb + nb + j - nb = nb + j by omega]
    · refine Finset.sum_congr rfl fun j _ => ?_
      rw [e3, if_neg (by omega), if_neg (by omega), if_neg (by omega), if_neg (by omega), show 2 * nb + 2 * ng + j = nb + nb + ng + ng + j by omega,
        show nb + nb + ng + ng + j - nb - ng = nb + ng + j by omega]

theorem nUser_eq (c : Index.Case Tables) (U : UserIn) (nb ng : ℕ) : (userData nb ng c U).nz = nUser nb ng (colsOf c.A) := by
  unfold userData nUser
  simp only [colMat, dcCols_length]
  split_ifs <;> omega

/-- The user data as the formulation sees them. -/
abbrev uW (c c' : Index.Case Tables) (U : UserIn) : UData := userData c'.bus.length c'.gen.length c U

/-- The calls of a run. -/
abbrev userCalls (E : Econ) (c' : Index.Case Tables) (d : Case c'.bus.length c'.gen.length c'.branch.length) (W : UData) : List Op :=
  dcOps d ++ (angOps E c'.bus.length c' ++ (pwlOps d.base (gcOf c') ++ W.ops))

/-- What a run amounts to in internal numbering. -/
structure UserRun (srt : List ℕ → List ℕ) (bs : ℝ) (E : Econ) (U : UserIn) (o : Opt) (solve : AnySolver) (c : Index.Case Tables)
    (ret : Ret) (out : UserOut) (c' : Index.Case Tables) (d : Case c'.bus.length c'.gen.length c'.branch.length) (m : Model)
    (s : DcRes c'.bus.length c'.gen.length c'.branch.length) (P : Params) (p : PostMu c'.gen.length c'.branch.length) (bp : Fin c'.bus.length → ℕ)
    (gp : Fin c'.gen.length → ℕ) (lp : Fin c'.branch.length → ℕ) : Prop
    extends DcRun bs E c ret c' d s p bp gp lp where
  run : OpfModel.run (userCalls E c' d (uW c c' U)) = some m
  good : Good (userCalls E c' d (uW c c' U))
  fits : (uW c c' U).Fits c'.bus.length c'.gen.length
  par : UParams (uW c c' U) c'.bus.length c'.gen.length (nyOf (gcOf c')) m.var.total P
  sol : dcopfSolver d m (HH (dcData d.base (gcOf c') (userOf P m.var.total) c'.bus.length (c'.bus.length + c'.gen.length) (dc_width run good)))
    (CC (dcData d.base (gcOf c') (userOf P m.var.total) c'.bus.length (c'.bus.length + c'.gen.length) (dc_width run good)))
    (C0 (dcData d.base (gcOf c') (userOf P m.var.total) c'.bus.length (c'.bus.length + c'.gen.length) (dc_width run good)))
    o solve (E.x0 c' m) = some s
  size : ret.size = m.var.total + m.lin.total
  bpos : ∀ k : Fin c'.bus.length, (posOf srt c .bus)[(k : ℕ)]? = some (bp k)
  gpos : ∀ k : Fin c'.gen.length, (posOf srt c .gen)[(k : ℕ)]? = some (gp k)
  blen : c'.bus.length = (posOf srt c .bus).length
  glen : c'.gen.length = (posOf srt c .gen).length
  z : out.z = (List.range (uW c c' U).nz).map fun k => s.x (iROf c' + k)
  z_mu_l : out.z_mu_l = (List.range (uW c c' U).nz).map fun k => s.lower (iROf c' + k)
  z_mu_u : out.z_mu_u = (List.range (uW c c' U).nz).map fun k => s.upper (iROf c' + k)
  mu_l : out.mu_l = (List.range (uW c c' U).A.rows).map fun k => s.mu_l (start (linBlocks (userCalls E c' d (uW c c' U))) "usr" + k)
  mu_u : out.mu_u = (List.range (uW c c' U).A.rows).map fun k => s.mu_u (start (linBlocks (userCalls E c' d (uW c c' U))) "usr" + k)
  ucost : out.cost = (uW c c' U).cost c'.bus.length c'.gen.length (nyOf (gcOf c')) s.x
  ext : Index.ext2int srt c = some c'
  read : readCase bs c' = some d
  solved : dcopfSolver d m ((userSetup bs E U).H c' m) ((userSetup bs E U).C c' m) ((userSetup bs E U).C0 c' m) o solve (E.x0 c' m) = some s

section
variable {srt : List ℕ → List ℕ} (hs : IsArgsort srt) {base : ℝ} {E : Econ} {U : UserIn} {o : Opt} {solve : AnySolver} {c : Index.Case Tables} (h : WF c)

include hs h in
theorem int_sizes {c' : Index.Case Tables} (he : Index.ext2int srt c = some c') :
    c'.bus.length = (posOf srt c .bus).length ∧ c'.gen.length = (posOf srt c .gen).length ∧ c'.bus.length = (onBuses c).card ∧ c'.gen.length = (onGens c).card := by
  obtain ⟨c1, o1, pos, apos, h1, h2, -, h3, rfl, rfl⟩ := Index.ext2int_corr hs h
  rw [he] at h1; cases h1
  have R := rowOrder hs h
  have e1 : (posOf srt c .bus).length = (onBuses c).card := by
    rw [← List.toFinset_card_of_nodup (R.busOrder.imp fun h => h.ne)]
    congr 1
    ext i
    rw [List.mem_toFinset, R.bus]
  have e2 : (posOf srt c .gen).length = (onGens c).card := by
    rw [← List.toFinset_card_of_nodup R.genNodup]
    congr 1
    ext i
    rw [List.mem_toFinset, R.gen]
  exact ⟨h3.busLen, h3.genLen, h3.busLen.trans e1, h3.genLen.trans e2⟩

include hs h in
/-- Sparse user matrices are left alone by the conversion of the numbering. -/
theorem int_mats (hA : ∀ a, c.A = some a → a.sparse = true) (hN : ∀ a, c.N = some a → a.sparse = true) {c' : Index.Case Tables} (he : Index.ext2int srt c = some c') :
    c'.A = c.A ∧ c'.N = c.N := by
  obtain ⟨gen, gc, A, N, h1, -, -, h2, h3⟩ := Index.ext2int_result hs h
  rw [he] at h1
  injection h1 with h1
  have key : ∀ (M M' : Option (Index.UserMat (List ℝ))), (∀ a, M = some a → a.sparse = true) →
      Index.e2iMat (P := Tables) (orderOf srt c) (Index.isDC c) M = some M' → M' = M := by
    intro M M' hM e
    cases M with
    | none => simpa [Index.e2iMat] using e.symm
    | some a =>
      simp only [Index.e2iMat, Option.map_eq_some_iff] at e
      obtain ⟨cs, e1, rfl⟩ := e
      rw [hM a rfl] at e1
      rw [Index.C07_sparse_unchanged _ _ _ _ e1]
  rw [h1]
  exact ⟨key _ _ hA h2, key _ _ hN h3⟩

include h in
/-- The matrix of the user constraints has a column for every standard quantity. -/
theorem aCols_le (hr : rowsOf (colsOf c.A) ≠ 0) : c.bus.length + c.gen.length ≤ (colsOf c.A).length := by
  cases hA : c.A with
  | none => simp [hA, colsOf, rowsOf] at hr
  | some a =>
    have := h.aCols a hA
    unfold Index.minCols at this
    simp only [colsOf, Option.map_some, Option.getD_some]
    split_ifs at this <;> omega

theorem onBuses_card_le (c : Index.Case Tables) : (onBuses c).card ≤ c.bus.length := by
  have : (onBuses c).card ≤ (Finset.range c.bus.length).card := Finset.card_le_card fun i hi => (@Finset.mem_filter _ _ (Classical.decPred _) _ _ |>.1 hi).1
  rwa [Finset.card_range] at this

theorem onGens_card_le (c : Index.Case Tables) : (onGens c).card ≤ c.gen.length := by
  have : (onGens c).card ≤ (Finset.range c.gen.length).card := Finset.card_le_card fun i hi => (@Finset.mem_filter _ _ (Classical.decPred _) _ _ |>.1 hi).1
  rwa [Finset.card_range] at this

include h in
theorem user_fits (hu : UserShape (onBuses c).card (onGens c).card c U) : (userData (onBuses c).card (onGens c).card c U).Fits (onBuses c).card (onGens c).card := by
  have hb := onBuses_card_le c
  have hg := onGens_card_le c
  refine ⟨?_, ?_, hu.Cw, hu.H, hu.fparm⟩
  · intro hr
    have hr' : rowsOf (colsOf c.A) ≠ 0 := hr
    have := aCols_le h hr'
    simp only [userData, colMat, dcCols_length, if_neg hr']
    split_ifs <;> omega
  · intro hr
    have hr' : rowsOf (colsOf c.N) ≠ 0 := hr
    have hN := hu.N hr'
    simp only [userData, colMat, dcCols_length]
    by_cases hA : rowsOf (colsOf c.A) = 0
    · rw [if_pos hA] at hN
      rw [if_pos hA]
      split_ifs <;> omega
    · rw [if_neg hA] at hN
      have := aCols_le h hA
      rw [if_neg hA, hN]
      split_ifs <;> omega

variable (hgc : c.gencost.isSome) (hu : UserShape (onBuses c).card (onGens c).card c U)

include hs h hgc hu in
theorem user_run (hgood : ∀ c' d, Index.ext2int srt c = some c' → readCase base c' = some d → Good (dcOps d ++ (userSetup base E U).extra d c'))
    {ret : Ret} {out : UserOut} (hrun : opfDcUser srt base E U o solve c = some (ret, out)) :
    ∃ c' d m s P p bp gp lp, UserRun srt base E U o solve c ret out c' d m s P p bp gp lp := by
  unfold opfDcUser at hrun
  simp only [Option.bind_eq_bind, Option.bind_eq_some_iff] at hrun
  obtain ⟨c', hc', d, hd, hrun⟩ := hrun
  split at hrun
  swap
  · exact absurd hrun (by simp)
  simp only [Option.bind_eq_some_iff] at hrun
  obtain ⟨m, hm, m', hm', s, hs', out', hout, t, ht, e⟩ := hrun
  injection e with e
  obtain ⟨e1, e2⟩ := Prod.mk.inj e
  subst e1 e2
  obtain ⟨bp, gp, lp, B, -, -, hgen, hbr, hco, hbp, hgp, -⟩ := bridge_at hs h hc' hd _ ht opfOff
  have hbase := readCase_base hd
  have hval := readCase_valid hd E
  obtain ⟨hA, hN⟩ := int_mats hs h hu.sparseA hu.sparseN hc'
  obtain ⟨hbl, hgl, hbl', hgl'⟩ := int_sizes hs h hc'
  have hW : userData c'.bus.length c'.gen.length c' U = uW c c' U := by
    unfold uW userData
    rw [hA, hN]
  have hfits : (uW c c' U).Fits c'.bus.length c'.gen.length := by
    have := user_fits h hu
    rw [← hbl', ← hgl'] at this
    exact this
  have hextra : (userSetup base E U).extra d c' = angOps E c'.bus.length c' ++ (pwlOps d.base (gcOf c') ++ (uW c c' U).ops) := by
    rw [← hW]; rfl
  have g := hgood c' d hc' hd
  rw [hextra] at g hm
  rw [hW] at hout
  have hw := dc_width hm g
  obtain ⟨P, hP1, hP2⟩ := user_params (uW c c' U) d (gcOf c') _ (angOps_varBlocks E c') (ang_costBlks E _ c') hfits m hm g
  have hpar : resParams m = some P := by unfold resParams; rw [hP1]; rfl
  subst hbase
  set W := uW c c' U with hWdef
  -- where the blocks are
  have hidx : W.nz ≠ 0 → m.var.i1 "z" = some (iROf c') := by
    intro hz
    have hvn := (foldIdx_lookup (varBlocks (userCalls E c' d W)) g.varNames).1
    rw [(Rep.run hm).var, (hvn "z" (by rw [W.blocks d _ _ (angOps_varBlocks E c'), if_neg hz]; simp [names])).1, (W.start_z d _ _ (angOps_varBlocks E c') hz).1]
  have hln := (foldIdx_lookup (linBlocks (userCalls E c' d W)) (by rw [linBlocks_names]; exact g.linNames)).1
  have hj : W.A.rows ≠ 0 → m.lin.i1 "usr" = some (start (linBlocks (userCalls E c' d W)) "usr") := by
    intro hr
    rw [(Rep.run hm).lin, (hln "usr" ?_).1]
    rw [linBlocks_names, userCalls, linBlks_append, linBlks_append, linBlks_append, W.linBlks_eq, if_neg hr]
    simp [names]
  have sl : ∀ {n : ℕ} {i1 : Option ℕ} {i : ℕ} {v : ℕ → ℝ} {L : List ℝ}, (n ≠ 0 → i1 = some i) → slice n i1 v = some L → L = (List.range n).map fun k => v (i + k) := by
    intro n i1 i v L hi hL
    unfold slice at hL
    split_ifs at hL with h0
    · subst h0
      simpa using hL.symm
    · rw [hi h0] at hL
      simpa using hL.symm
  unfold userResults at hout
  simp only [Option.bind_eq_bind, Option.bind_eq_some_iff] at hout
  obtain ⟨z, hz, zl, hzl, zu, hzu, l, hl, u, hu', f, hf, e⟩ := hout
  injection e with e
  refine ⟨c', d, m, s, P, _, bp, gp, lp, ⟨⟨B, rfl, hval, rfl, rfl, rfl, rfl, ?_, hbr⟩, hm, g, hfits, hP2, ?_, rfl, hbp, hgp, hbl, hgl, ?_, ?_, ?_, ?_, ?_, ?_, hc', hd, hs'⟩⟩
  · obtain ⟨gc, hgc⟩ := Option.isSome_iff_exists.1 hgc
    obtain ⟨gc', h1, h2⟩ := hco gc hgc
    intro k
    simp only [costAt, hgc, h1, Option.getD_some, List.getD_eq_getElem?_getD, h2]
  · simp only [userSetup, hpar, dif_pos hw] at hs'
    exact hs'
  · rw [← e]; exact sl hidx hz
  · rw [← e]; exact sl hidx hzl
  · rw [← e]; exact sl hidx hzu
  · rw [← e]; exact sl hj hl
  · rw [← e]; exact sl hj hu'
  · rw [← e]
    show f = _
    unfold userCostOut at hf
    by_cases hn : W.N.rows = 0
    · rw [if_pos hn] at hf
      injection hf with hf
      rw [← hf]
      unfold UData.cost
      rw [hn]
      simp
    · rw [if_neg hn] at hf
      obtain ⟨mm, hc⟩ := user_computeCost W d (gcOf c') _ (angOps_varBlocks E c') (ang_costBlks E _ c') hfits m hm g hn hm' s.x
      rw [hc] at hf
      simpa using hf.symm

end

end

end Verif.Opf
