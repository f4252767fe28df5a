import Verif.Opf.AcUserSpec
import Verif.Opf.UserPoint
import Verif.Opf.CurveProps

/-! # Lemmas about user data in the AC formulation -/

namespace Verif.Opf

open Verif.Index (BusRow GenRow BranchRow IsArgsort WF GenInService BranchInService Connected posOf orderOf)
open Verif.OpfModel Verif.Pips Verif.Network Verif.OpfCost

noncomputable section

variable {nb ng nl : ℕ}

def AUData.blk (W : AUData) : LinBlk := ⟨W.A, W.dat.l, W.dat.u, W.vs⟩
def AUData.vars (W : AUData) : VarVals := ⟨W.nz, some W.dat.z0, some W.dat.zl, some W.dat.zu⟩

theorem AUData.varBlocks_eq (W : AUData) : varBlocks W.ops = if W.nz = 0 then [] else [("z", W.nz)] := by
  unfold AUData.ops
  split_ifs <;> rfl

theorem AUData.varVals_eq (W : AUData) : varVals W.ops = if W.nz = 0 then [] else [("z", W.vars)] := by
  unfold AUData.ops
  split_ifs <;> rfl

theorem AUData.linBlks_eq (W : AUData) : linBlks W.ops = if W.A.rows = 0 then [] else [("usr", W.blk)] := by
  unfold AUData.ops
  split_ifs <;> rfl

theorem AUData.vs_ne (W : AUData) : W.vs ≠ [] := by
  unfold AUData.vs
  split_ifs <;> simp

/-- The value that column `j` of a user matrix is multiplied with; the user variables start at `iz`. -/
def aux (nb ng iz : ℕ) (x : ℕ → ℝ) (j : ℕ) : ℝ := if j < 2 * nb + 2 * ng then x j else x (iz + (j - (2 * nb + 2 * ng)))

section layout
variable (W : AUData) (d : Case nb ng nl) (extra : List Op) (hnd : (names (varBlocks (acOps d ++ extra))).Nodup) (hz : W.nz ≠ 0 → ("z", W.nz) ∈ varBlocks extra)

include hnd hz

theorem AUData.size_z (h0 : W.nz ≠ 0) : size (varBlocks (acOps d ++ extra)) "z" = W.nz := by
  refine size_of_mem _ hnd ("z", W.nz) ?_
  rw [ac_varBlocks]
  simp [hz h0]

theorem AUData.subvec_at (x : ℕ → ℝ) : ∀ j < 2 * nb + 2 * ng + W.nz,
    (subvec (varBlocks (acOps d ++ extra)) x (eff (varBlocks (acOps d ++ extra)) W.vs)).getD j 0 = aux nb ng (start (varBlocks (acOps d ++ extra)) "z") x j := by
  intro j hj
  obtain ⟨h1, h2, h3, h4, -⟩ := ac_starts d extra
  obtain ⟨n1, n3, n4⟩ := ac_sizes d extra
  have n2 : size (varBlocks (acOps d ++ extra)) "Vm" = nb := by rw [ac_varBlocks]; simp [size]
  unfold eff
  rw [if_neg W.vs_ne]
  have hall : ∀ rest : List ℝ, j < 2 * nb + 2 * ng → (part (varBlocks (acOps d ++ extra)) x "Va" ++ (part (varBlocks (acOps d ++ extra)) x "Vm" ++
      (part (varBlocks (acOps d ++ extra)) x "Pg" ++ (part (varBlocks (acOps d ++ extra)) x "Qg" ++ rest)))).getD j 0 =
        aux nb ng (start (varBlocks (acOps d ++ extra)) "z") x j := by
    intro rest hj'
    rw [aux, if_pos hj']
    by_cases c1 : j < nb
    · rw [List.getD_append _ _ _ _ (by rw [part_length, n1]; exact c1), part_getD _ _ _ _ (by rw [n1]; exact c1), h1, zero_add]
    rw [List.getD_append_right _ _ _ _ (by rw [part_length, n1]; omega), part_length, n1]
    by_cases c2 : j - nb < nb
    · rw [List.getD_append _ _ _ _ (by rw [part_length, n2]; exact c2), part_getD _ _ _ _ (by rw [n2]; exact c2), h2]
      congr 1; omega
    rw [List.getD_append_right _ _ _ _ (by rw [part_length, n2]; omega), part_length, n2]
    by_cases c3 : j - nb - nb < ng
    · rw [List.getD_append _ _ _ _ (by rw [part_length, n3]; exact c3), part_getD _ _ _ _ (by rw [n3]; exact c3), h3]
      congr 1; omega
    rw [List.getD_append_right _ _ _ _ (by rw [part_length, n3]; omega), part_length, n3]
    have c4 : j - nb - nb - ng < ng := by omega
    rw [List.getD_append _ _ _ _ (by rw [part_length, n4]; exact c4), part_getD _ _ _ _ (by rw [n4]; exact c4), h4]
    congr 1; omega
  unfold AUData.vs
  split_ifs with h0
  · simp only [subvec, List.flatMap_cons, List.flatMap_nil]
    exact hall _ (by omega)
  · simp only [subvec, List.flatMap_cons, List.flatMap_nil]
    by_cases hj' : j < 2 * nb + 2 * ng
    · exact hall _ hj'
    · have n5 := W.size_z d extra hnd hz h0
      rw [List.getD_append_right _ _ _ _ (by rw [part_length, n1]; omega), part_length, n1, List.getD_append_right _ _ _ _ (by rw [part_length, n2]; omega), part_length, n2,
        List.getD_append_right _ _ _ _ (by rw [part_length, n3]; omega), part_length, n3, List.getD_append_right _ _ _ _ (by rw [part_length, n4]; omega), part_length, n4,
        List.append_nil, part_getD _ _ _ _ (by rw [n5]; omega), aux, if_neg hj']
      congr 2; omega

/-- A row of a matrix over the user variables. -/
theorem AUData.row (M : Mat) (hM : M.cols = 2 * nb + 2 * ng + W.nz) (x : ℕ → ℝ) (i : ℕ) :
    rowDot M i (subvec (varBlocks (acOps d ++ extra)) x (eff (varBlocks (acOps d ++ extra)) W.vs)) =
      ∑ j ∈ Finset.range (2 * nb + 2 * ng + W.nz), M.val i j * aux nb ng (start (varBlocks (acOps d ++ extra)) "z") x j := by
  unfold rowDot
  rw [hM]
  refine Finset.sum_congr rfl fun j hj => ?_
  rw [W.subvec_at d extra hnd hz x j (Finset.mem_range.1 hj)]

end layout

/-! ### Multipliers of further variables and rows of the AC formulation -/

section mult
variable {d : Case nb ng nl} {extra : List Op} {m : Model} (hm : OpfModel.run (acOps d ++ extra) = some m) (g : Good (acOps d ++ extra))
  (hn : (names (nlnBlocks (acOps d ++ extra))).Nodup) (hb : 0 < d.base) {lim : Int} {c : AcData} {o : Opt} {solve : AnySolver} {x0 : Fin m.var.total → ℝ}
  {s : AcRes nb ng nl} (hs : pipsopfSolver d lim c m o solve x0 = some s)

include hm g hn hb hs

theorem acExtra_signs (hc : 0 < o.costMult) (k : ℕ) : 0 ≤ s.muVarL k ∧ 0 ≤ s.muVarU k ∧ 0 ≤ s.mu_l k ∧ 0 ≤ s.mu_u k := by
  obtain ⟨-, q, r, hq, hr, e1, -, e3, e4, e5, eL, eU, el, eu, -⟩ := ac_ofSolver hm g hn hb.ne' hs
  obtain ⟨q', hq', ht, hA, hv, hl, hqok⟩ := linearOf_spec hm g
  rw [hq] at hq'; cases hq'
  obtain ⟨-, sg⟩ := C76_signs (callbacks (acNl d lim c) m.var.total) q o (solve _ _) x0 hqok hc r hr
  rw [eL, eU, el, eu]
  exact sg k

theorem acExtra_absent (b : String × LinBlk) (hb' : b ∈ linBlks extra) (i : ℕ) (hi : i < b.2.A.rows) :
    (LinBlk.lo b.2 i = ⊥ → s.mu_l (start (linBlocks (acOps d ++ extra)) b.1 + i) = 0) ∧
    (LinBlk.hi b.2 i = ⊤ → s.mu_u (start (linBlocks (acOps d ++ extra)) b.1 + i) = 0) := by
  obtain ⟨-, q, r, hq, hr, e1, -, e3, e4, e5, eL, eU, el, eu, -⟩ := ac_ofSolver hm g hn hb.ne' hs
  obtain ⟨q', hq', ht, hA, hv, hl, hqok⟩ := linearOf_spec hm g
  rw [hq] at hq'; cases hq'
  obtain ⟨-, ab2⟩ := C76_absent (callbacks (acNl d lim c) m.var.total) q o (solve _ _) x0 hqok r hr
  have hmem : b ∈ linBlks (acOps d ++ extra) := by rw [linBlks_append]; exact List.mem_append_right _ hb'
  have hlo := (hl _ hmem i hi).2
  have hlt : start (linBlocks (acOps d ++ extra)) b.1 + i < q.nA := by
    rw [hA]
    exact start_lt (linBlocks (acOps d ++ extra)) (by rw [linBlocks_names]; exact g.linNames) (b.1, b.2.A.rows) (List.mem_map.2 ⟨_, hmem, rfl⟩) i hi
  rw [eu, el]
  exact ⟨fun h => (ab2 _ hlt).1 (by rw [hlo.1, h]; simp), fun h => (ab2 _ hlt).2 (by rw [hlo.2, h]; simp)⟩

theorem acExtra_unbounded (b : String × VarVals) (hmem : b ∈ varVals extra) (i : ℕ) (hi : i < b.2.n) :
    (VarVals.lo b.2 i = ⊥ → s.muVarL (start (varBlocks (acOps d ++ extra)) b.1 + i) = 0) ∧
    (VarVals.hi b.2 i = ⊤ → s.muVarU (start (varBlocks (acOps d ++ extra)) b.1 + i) = 0) := by
  obtain ⟨-, q, r, hq, hr, e1, -, e3, e4, e5, eL, eU, el, eu, -⟩ := ac_ofSolver hm g hn hb.ne' hs
  obtain ⟨q', hq', ht, hA, hv, hl, hqok⟩ := linearOf_spec hm g
  rw [hq] at hq'; cases hq'
  obtain ⟨ab1, -⟩ := C76_absent (callbacks (acNl d lim c) m.var.total) q o (solve _ _) x0 hqok r hr
  have hmem' : b ∈ varVals (acOps d ++ extra) := by rw [varVals_append]; exact List.mem_append_right _ hmem
  have hlt : start (varBlocks (acOps d ++ extra)) b.1 + i < m.var.total := by
    rw [ht]
    exact start_lt _ g.varNames (b.1, b.2.n) (by rw [← varVals_blocks]; exact List.mem_map.2 ⟨b, hmem', rfl⟩) i hi
  rw [eL, eU]
  exact ⟨fun h => (ab1 _ hlt).1 (by rw [(hv b hmem' i hi).1, h]; simp), fun h => (ab1 _ hlt).2 (by rw [(hv b hmem' i hi).2, h]; simp)⟩

theorem acExtra_comp (hc : 0 < o.costMult) (hft : 0 ≤ o.feastol) (hok : s.success = true) :
    (∀ b ∈ varVals extra, ∀ i < b.2.n,
      (∀ u : ℝ, VarVals.hi b.2 i = (u : EReal) → s.muVarU (start (varBlocks (acOps d ++ extra)) b.1 + i) * (u - s.x (start (varBlocks (acOps d ++ extra)) b.1 + i)) ≤
        compGap o ‖fun i : Fin m.var.total => s.x i‖ s.dual s.tol) ∧
      (∀ l : ℝ, VarVals.lo b.2 i = (l : EReal) → s.muVarL (start (varBlocks (acOps d ++ extra)) b.1 + i) * (s.x (start (varBlocks (acOps d ++ extra)) b.1 + i) - l) ≤
        compGap o ‖fun i : Fin m.var.total => s.x i‖ s.dual s.tol)) ∧
    (∀ b ∈ linBlks extra, ∀ i < b.2.A.rows,
      (∀ u : ℝ, LinBlk.hi b.2 i = (u : EReal) → s.mu_u (start (linBlocks (acOps d ++ extra)) b.1 + i) *
        (u - rowDot b.2.A i (subvec (varBlocks (acOps d ++ extra)) s.x (eff (varBlocks (acOps d ++ extra)) b.2.vs))) ≤ compGap o ‖fun i : Fin m.var.total => s.x i‖ s.dual s.tol) ∧
      (∀ l : ℝ, LinBlk.lo b.2 i = (l : EReal) → s.mu_l (start (linBlocks (acOps d ++ extra)) b.1 + i) *
        (rowDot b.2.A i (subvec (varBlocks (acOps d ++ extra)) s.x (eff (varBlocks (acOps d ++ extra)) b.2.vs)) - l) ≤
          compGap o ‖fun i : Fin m.var.total => s.x i‖ s.dual s.tol)) := by
  obtain ⟨-, q, r, hq, hr, e1, -, e3, e4, e5, eL, eU, el, eu, -⟩ := ac_ofSolver hm g hn hb.ne' hs
  obtain ⟨hv, hl⟩ := solved_comp hm g hq (callbacks (acNl d lim c) m.var.total) o solve x0 hc hft r hr (by rw [← e1]; exact hok)
  have hx : (fun i : Fin m.var.total => s.x i) = r.x := by rw [e3]; funext i; simp [pad]
  rw [hx, e4, e5, e3, eL, eU, el, eu]
  exact ⟨fun b hb' => hv b (by rw [varVals_append]; exact List.mem_append_right _ hb'), fun b hb' => hl b (by rw [linBlks_append]; exact List.mem_append_right _ hb')⟩

end mult

/-! ### A run, in internal numbering -/

/-- The user data as the formulation sees them. -/
abbrev aW (c c' : Index.Case Tables) (U : UserIn) : AUData := acUser c'.bus.length c'.gen.length c U

/-- The calls of a run. -/
abbrev acUserCalls (K : Curves) (U : UserIn) (c' : Index.Case Tables) (d : Case c'.bus.length c'.gen.length c'.branch.length) : List Op := acOps d ++ curveExtra (withUser K U) d c'

/-- What a run amounts to in internal numbering. -/
structure AcUserRun (srt : List ℕ → List ℕ) (base : ℝ) (lim : Int) (K : Curves) (U : UserIn) (o : Opt) (solve : AnySolver) (c : Index.Case Tables)
    (ret : Ret) (out : AcUserOut) (c' : Index.Case Tables) (d : Case c'.bus.length c'.gen.length c'.branch.length) (m : Model)
    (s : AcRes c'.bus.length c'.gen.length c'.branch.length) (bp : Fin c'.bus.length → ℕ) (gp : Fin c'.gen.length → ℕ) : Prop where
  ext : Index.ext2int srt c = some c'
  read : readCase base c' = some d
  base : d.base = base
  run : OpfModel.run (acUserCalls K U c' d) = some m
  good : Good (acUserCalls K U c' d) ∧ (names (nlnBlocks (acUserCalls K U c' d))).Nodup
  user : acUser c'.bus.length c'.gen.length c' U = aW c c' U
  cols : (aW c c' U).A.rows ≠ 0 → (colsOf c.A).length = 2 * c'.bus.length + 2 * c'.gen.length + (aW c c' U).nz
  sol : pipsopfSolver d lim (K.cost c') m o solve (K.ang.x0 c' m) = some s
  success : ret.success = s.success
  tol : ret.tol = s.tol
  dual : ret.dual = s.dual
  va : ∀ k : Fin c'.bus.length, vaAt ret.tables (bp k) = s.VA k * (Real.pi / 180)
  vm : ∀ k : Fin c'.bus.length, vmAt ret.tables (bp k) = s.VM k
  pg : ∀ k : Fin c'.gen.length, pgAt ret.tables (gp k) = s.PG k
  qg : ∀ k : Fin c'.gen.length, qgAt ret.tables (gp k) = s.QG k
  bpos : ∀ k : Fin c'.bus.length, (posOf srt c .bus)[(k : ℕ)]? = some (bp k)
  gpos : ∀ k : Fin c'.gen.length, (posOf srt c .gen)[(k : ℕ)]? = some (gp k)
  blen : c'.bus.length = (posOf srt c .bus).length
  glen : c'.gen.length = (posOf srt c .gen).length
  x : out.x = (List.range m.var.total).map s.x
  z : out.z = (List.range (aW c c' U).nz).map fun k => s.x (start (varBlocks (acUserCalls K U c' d)) "z" + k)
  z_mu_l : out.z_mu_l = (List.range (aW c c' U).nz).map fun k => s.muVarL (start (varBlocks (acUserCalls K U c' d)) "z" + k)
  z_mu_u : out.z_mu_u = (List.range (aW c c' U).nz).map fun k => s.muVarU (start (varBlocks (acUserCalls K U c' d)) "z" + k)
  mu_l : out.mu_l = (List.range (aW c c' U).A.rows).map fun k => s.mu_l (start (linBlocks (acUserCalls K U c' d)) "usr" + k)
  mu_u : out.mu_u = (List.range (aW c c' U).A.rows).map fun k => s.mu_u (start (linBlocks (acUserCalls K U c' d)) "usr" + k)

theorem withUser_z (K : Curves) (U : UserIn) (d : Case nb ng nl) (c' : Index.Case Tables) (W : AUData) (hW : acUser nb ng c' U = W) (hz : W.nz ≠ 0) :
    ("z", W.nz) ∈ varBlocks (curveExtra (withUser K U) d c') ∧ ("z", W.vars) ∈ varVals (curveExtra (withUser K U) d c') := by
  subst hW
  constructor
  · unfold curveExtra
    show _ ∈ varBlocks (_ ++ (_ ++ (_ ++ (acUser nb ng c' U).ops)))
    rw [varBlocks_append, varBlocks_append, varBlocks_append, AUData.varBlocks_eq, if_neg hz]
    simp
  · unfold curveExtra
    show _ ∈ varVals (_ ++ (_ ++ (_ ++ (acUser nb ng c' U).ops)))
    rw [varVals_append, varVals_append, varVals_append, AUData.varVals_eq, if_neg hz]
    simp

theorem withUser_usr (K : Curves) (U : UserIn) (d : Case nb ng nl) (c' : Index.Case Tables) (W : AUData) (hW : acUser nb ng c' U = W) (hr : W.A.rows ≠ 0) :
    ("usr", W.blk) ∈ linBlks (curveExtra (withUser K U) d c') := by
  subst hW
  unfold curveExtra
  show _ ∈ linBlks (_ ++ (_ ++ (_ ++ (acUser nb ng c' U).ops)))
  rw [linBlks_append, linBlks_append, linBlks_append, AUData.linBlks_eq, if_neg hr]
  simp

section
variable {srt : List ℕ → List ℕ} (hs : IsArgsort srt) {base : ℝ} {lim : Int} {K : Curves} {U : UserIn} {o : Opt} {solve : AnySolver} {c : Index.Case Tables} (h : WF c)

include hs h in
/-- A sparse `A` is left alone by the conversion of the numbering. -/
theorem int_matA (hA : ∀ a, c.A = some a → a.sparse = true) {c' : Index.Case Tables} (he : Index.ext2int srt c = some c') : c'.A = c.A := by
  obtain ⟨gen, gc, A, N, h1, -, -, h2, -⟩ := Index.ext2int_result hs h
  rw [he] at h1
  injection h1 with h1
  rw [h1]
  show A = c.A
  cases hM : c.A with
  | none => rw [hM] at h2; simpa [Index.e2iMat] using h2.symm
  | some a =>
    rw [hM] at h2
    simp only [Index.e2iMat, Option.map_eq_some_iff] at h2
    obtain ⟨cs, e1, rfl⟩ := h2
    rw [hA a hM] at e1
    rw [Index.C07_sparse_unchanged _ _ _ _ e1]

variable (hu : AcUserShape c)

include hs h hu in
theorem acUser_run (hgood : ∀ c' d, Index.ext2int srt c = some c' → readCase base c' = some d →
      Good (acOps d ++ curveExtra (withUser K U) d c') ∧ (names (nlnBlocks (acOps d ++ curveExtra (withUser K U) d c'))).Nodup)
    {ret : Ret} {out : AcUserOut} (hrun : opfAcUser srt base lim K U o solve c = some (ret, out)) :
    ∃ c' d m s bp gp, AcUserRun srt base lim K U o solve c ret out c' d m s bp gp := by
  unfold opfAcUser at hrun
  simp only [Option.bind_eq_bind, Option.bind_eq_some_iff] at hrun
  obtain ⟨c', hc', d, hd, hrun⟩ := hrun
  split at hrun
  swap
  · exact absurd hrun (by simp)
  simp only [Option.bind_eq_some_iff] at hrun
  obtain ⟨m, hm, s, hs', out', hout, mu, hmu, t, ht, e⟩ := hrun
  injection e with e
  obtain ⟨e1, e2⟩ := Prod.mk.inj e
  subst e1 e2
  obtain ⟨bp, gp, lp, B, -, -, -, -, -, hbp, hgp, -⟩ := bridge_at hs h hc' hd _ ht opfOff
  have g := hgood c' d hc' hd
  have hA := int_matA hs h hu.sparse hc'
  obtain ⟨hbl, hgl, hbl', hgl'⟩ := int_sizes hs h hc'
  have hW : acUser c'.bus.length c'.gen.length c' U = aW c c' U := by
    unfold aW acUser
    rw [hA]
  rw [hW] at hout
  have hcols : (aW c c' U).A.rows ≠ 0 → (colsOf c.A).length = 2 * c'.bus.length + 2 * c'.gen.length + (aW c c' U).nz := by
    intro hr
    have hr' : rowsOf (colsOf c.A) ≠ 0 := hr
    have := hu.cols hr'
    rw [← hbl', ← hgl'] at this
    have e : (aW c c' U).nz = (colsOf c.A).length - (2 * c'.bus.length + 2 * c'.gen.length) := if_neg hr'
    omega
  set W := aW c c' U with hWdef
  have hidx : W.nz ≠ 0 → m.var.i1 "z" = some (start (varBlocks (acUserCalls K U c' d)) "z") := by
    intro hz
    have hvn := (foldIdx_lookup (varBlocks (acUserCalls K U c' d)) g.1.varNames).1
    have := (withUser_z K U d c' W hW hz).1
    rw [(Rep.run hm).var, (hvn "z" (by rw [acUserCalls, ac_varBlocks]; exact List.mem_map.2 ⟨_, List.mem_cons_of_mem _ (List.mem_cons_of_mem _ (List.mem_cons_of_mem _ (List.mem_cons_of_mem _ this))), rfl⟩)).1]
  have hj : W.A.rows ≠ 0 → m.lin.i1 "usr" = some (start (linBlocks (acUserCalls K U c' d)) "usr") := by
    intro hr
    have hln := (foldIdx_lookup (linBlocks (acUserCalls K U c' d)) (by rw [linBlocks_names]; exact g.1.linNames)).1
    have := withUser_usr K U d c' W hW hr
    rw [(Rep.run hm).lin, (hln "usr" (by rw [linBlocks_names, acUserCalls, ac_linBlks]; exact List.mem_map.2 ⟨_, this, rfl⟩)).1]
  have sl : ∀ {n : ℕ} {i1 : Option ℕ} {i : ℕ} {v : ℕ → ℝ} {L : List ℝ}, (n ≠ 0 → i1 = some i) → slice n i1 v = some L → L = (List.range n).map fun k => v (i + k) := by
    intro n i1 i v L hi hL
    unfold slice at hL
    split_ifs at hL with h0
    · subst h0
      simpa using hL.symm
    · rw [hi h0] at hL
      simpa using hL.symm
  unfold acUserResults at hout
  simp only [Option.bind_eq_bind, Option.bind_eq_some_iff] at hout
  obtain ⟨z, hz, zl, hzl, zu, hzu, l, hl, u, hu', e⟩ := hout
  injection e with e
  refine ⟨c', d, m, s, bp, gp, ⟨hc', hd, readCase_base hd, hm, g, hW, hcols, hs', rfl, rfl, rfl, ?_, ?_, ?_, ?_, hbp, hgp, hbl, hgl, ?_, ?_, ?_, ?_, ?_, ?_⟩⟩
  · intro k
    obtain ⟨b, -, -, h2, -⟩ := B.bus k
    simp only [vaAt, h2, Option.map_some, Option.getD_some]
    rfl
  · intro k
    obtain ⟨b, -, -, h2, -⟩ := B.bus k
    simp only [vmAt, h2, Option.map_some, Option.getD_some]
    rfl
  · intro k
    obtain ⟨b, -, -, h2, -⟩ := B.gen k
    simp only [pgAt, h2, Option.map_some, Option.getD_some]
    rfl
  · intro k
    obtain ⟨b, -, -, h2, -⟩ := B.gen k
    simp only [qgAt, h2, Option.map_some, Option.getD_some]
    rfl
  · rw [← e]
  · rw [← e]; exact sl hidx hz
  · rw [← e]; exact sl hidx hzl
  · rw [← e]; exact sl hidx hzu
  · rw [← e]; exact sl hj hl
  · rw [← e]; exact sl hj hu'

end

section
variable {srt : List ℕ → List ℕ} {base : ℝ} {lim : Int} {K : Curves} {U : UserIn} {o : Opt} {solve : AnySolver} {c : Index.Case Tables}
    {ret : Ret} {out : AcUserOut} {c' : Index.Case Tables} {d : Case c'.bus.length c'.gen.length c'.branch.length} {m : Model}
    {s : AcRes c'.bus.length c'.gen.length c'.branch.length} {bp : Fin c'.bus.length → ℕ} {gp : Fin c'.gen.length → ℕ}
    (X : AcUserRun srt base lim K U o solve c ret out c' d m s bp gp)

include X

theorem AcUserRun.zlen : out.z.length = (aW c c' U).nz := by rw [X.z]; simp

theorem AcUserRun.z_at {k : ℕ} (hk : k < (aW c c' U).nz) : out.z.getD k 0 = s.x (start (varBlocks (acUserCalls K U c' d)) "z" + k) := by
  rw [List.getD_eq_getElem?_getD, X.z]
  simp [hk]

/-- The reported point. -/
theorem AcUserRun.point (hb : 0 < base) : (∀ k : Fin c'.bus.length, s.x k = vaAt ret.tables (bp k) ∧ s.x (c'.bus.length + k) = vmAt ret.tables (bp k)) ∧
    (∀ k : Fin c'.gen.length, s.x (2 * c'.bus.length + k) = pgAt ret.tables (gp k) / base ∧ s.x (2 * c'.bus.length + c'.gen.length + k) = qgAt ret.tables (gp k) / base) := by
  have hbd : d.base ≠ 0 := by rw [X.base]; exact hb.ne'
  obtain ⟨-, q, r, hq, hr, e1, -, e3, e4, e5, eL, eU, el, eu, -, -, -, eV, eG, -⟩ := ac_ofSolver X.run X.good.1 X.good.2 hbd X.sol
  have hpi := Real.pi_pos
  refine ⟨fun k => ⟨?_, ?_⟩, fun k => ⟨?_, ?_⟩⟩
  · rw [X.va, (eV k).1]
    field_simp
  · rw [X.vm, (eV k).2]
  · rw [X.pg, (eG k).1, X.base]
    field_simp
  · rw [X.qg, (eG k).2.1, X.base]
    field_simp

/-- What a column of the user matrix is multiplied with. -/
theorem AcUserRun.aux_eq (hb : 0 < base) : ∀ j < 2 * c'.bus.length + 2 * c'.gen.length + (aW c c' U).nz,
      aux c'.bus.length c'.gen.length (start (varBlocks (acUserCalls K U c' d)) "z") s.x j = acColValue base ret.tables (posOf srt c .bus) (posOf srt c .gen) out.z j := by
  intro j hj
  obtain ⟨x1, x2⟩ := X.point hb
  unfold aux acColValue
  simp only
  rw [← X.blen, ← X.glen]
  by_cases c0 : j < 2 * c'.bus.length + 2 * c'.gen.length
  · rw [if_pos c0]
    by_cases c1 : j < c'.bus.length
    · rw [if_pos c1, List.getD_eq_getElem?_getD, X.bpos ⟨j, c1⟩, Option.getD_some]
      exact (x1 ⟨j, c1⟩).1
    rw [if_neg c1]
    by_cases c2 : j < 2 * c'.bus.length
    · have h3 : j - c'.bus.length < c'.bus.length := by omega
      rw [if_pos c2, List.getD_eq_getElem?_getD, X.bpos ⟨j - c'.bus.length, h3⟩, Option.getD_some]
      have := (x1 ⟨j - c'.bus.length, h3⟩).2
      simp only [show c'.bus.length + (j - c'.bus.length) = j by omega] at this
      exact this
    rw [if_neg c2]
    by_cases c3 : j < 2 * c'.bus.length + c'.gen.length
    · have h3 : j - 2 * c'.bus.length < c'.gen.length := by omega
      rw [if_pos c3, List.getD_eq_getElem?_getD, X.gpos ⟨j - 2 * c'.bus.length, h3⟩, Option.getD_some]
      have := (x2 ⟨j - 2 * c'.bus.length, h3⟩).1
      simp only [show 2 * c'.bus.length + (j - 2 * c'.bus.length) = j by omega] at this
      exact this
    rw [if_neg c3, if_pos c0]
    have h3 : j - 2 * c'.bus.length - c'.gen.length < c'.gen.length := by omega
    rw [List.getD_eq_getElem?_getD, X.gpos ⟨j - 2 * c'.bus.length - c'.gen.length, h3⟩, Option.getD_some]
    have := (x2 ⟨j - 2 * c'.bus.length - c'.gen.length, h3⟩).2
    simp only [show 2 * c'.bus.length + c'.gen.length + (j - 2 * c'.bus.length - c'.gen.length) = j by omega] at this
    exact this
  · rw [if_neg c0, if_neg (by omega), if_neg (by omega), if_neg (by omega), if_neg (by omega), X.z_at (by omega)]
    congr 2
    omega

/-- The value of a row of the user matrix. -/
theorem AcUserRun.row_value (hb : 0 < base) (hr : (aW c c' U).A.rows ≠ 0) (i : ℕ) :
    rowDot (aW c c' U).blk.A i (subvec (varBlocks (acUserCalls K U c' d)) s.x (eff (varBlocks (acUserCalls K U c' d)) (aW c c' U).blk.vs)) =
      acRowValue base ret.tables (posOf srt c .bus) (posOf srt c .gen) out.z (colsOf c.A) i := by
  refine ((aW c c' U).row d _ X.good.1.varNames (fun hz => (withUser_z K U d c' _ X.user hz).1) (aW c c' U).A (X.cols hr) s.x i).trans ?_
  unfold acRowValue
  rw [X.cols hr]
  refine Finset.sum_congr rfl fun j hj => ?_
  rw [← X.aux_eq hb j (Finset.mem_range.1 hj)]
  rfl

omit X in
theorem acUser_zlo {k : ℕ} (hk : k < (aW c c' U).nz) : VarVals.lo (aW c c' U).vars k = lowAt U.zl k ∧ VarVals.hi (aW c c' U).vars k = uppAt U.zu k :=
  ⟨(orDefault_low (aW c c' U).nz U.zl hk).1, (orDefault_low (aW c c' U).nz U.zu hk).2⟩

theorem AcUserRun.norm_le {M : ℝ} (hM : 0 ≤ M) (hx : ∀ v ∈ out.x, |v| ≤ M) : ‖fun i : Fin m.var.total => s.x i‖ ≤ M := by
  rw [pi_norm_le_iff_of_nonneg hM]
  intro i
  rw [Real.norm_eq_abs]
  refine hx _ ?_
  rw [X.x]
  exact List.mem_map.2 ⟨i, by simp, rfl⟩

end

end

end Verif.Opf
