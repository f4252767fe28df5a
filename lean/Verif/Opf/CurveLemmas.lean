import Verif.Opf.CurveModel
import Verif.Opf.EconProps
import Verif.Mupq.Props

/-!
# Lemmas about the blocks for capability curves, constant power factors and angle limits in the AC formulation
-/

namespace Verif.Opf

open Verif.Index (BusRow GenRow BranchRow IsArgsort WF GenInService BranchInService Connected)
open Verif.OpfModel Verif.Pips Verif.Network Verif.OpfCost Verif.NumPy

/-! ### Rows made of two diagonal-like blocks, for the flagged generators -/

section two
variable (gen : List Constr.Gen) (mask : Constr.Gen → Bool) (va vb : Constr.Gen → ℝ)

/-- The entries built for the flagged generators. -/
noncomputable def twoOf : Constr.Coo :=
  Constr.twoBlocks (find (gen.map mask)).length (find (gen.map mask)) ((find (gen.map mask)).map (· + gen.length)) ((gen.filter mask).map va) ((gen.filter mask).map vb)

theorem two_cols : ∀ e ∈ twoOf gen mask va vb, e.2.1 < 2 * gen.length := by
  intro e he
  unfold twoOf Constr.twoBlocks at he
  have h2 := (List.of_mem_zip (List.of_mem_zip (show (e.1, e.2) ∈ _ from he)).2 : e.2.1 ∈ _ ∧ _).1
  have key : ∀ i ∈ find (gen.map mask), i < gen.length := by
    intro i hi
    obtain ⟨k, hk⟩ := List.mem_iff_getElem?.1 hi
    obtain ⟨g, hg, -⟩ := Constr.find_row gen mask k i hk
    exact (List.getElem?_eq_some_iff.1 hg).1
  rcases List.mem_append.1 h2 with h3 | h3
  · have := key _ h3; omega
  · obtain ⟨i, hi, e'⟩ := List.mem_map.1 h3
    have := key _ hi
    omega

theorem two_row (i k : ℕ) (g : Constr.Gen) (hi : (find (gen.map mask))[i]? = some k) (hg : gen[k]? = some g) :
    (gen.filter mask)[i]? = some g ∧ ∀ x, (twoOf gen mask va vb).row x i = va g * x k + vb g * x (k + gen.length) := by
  obtain ⟨g', h1, -, h3⟩ := Constr.find_row gen mask i k hi
  rw [hg] at h1
  cases h1
  have hlen : (find (gen.map mask)).length = (gen.filter mask).length := find_map_length _ _
  have hil : i < (find (gen.map mask)).length := (List.getElem?_eq_some_iff.1 hi).1
  have hki : (find (gen.map mask))[i] = k := (List.getElem?_eq_some_iff.1 hi).2
  have hkg : (gen.filter mask)[i]'(by omega) = g := (List.getElem?_eq_some_iff.1 h3).2
  refine ⟨h3, fun x => ?_⟩
  unfold twoOf
  rw [Constr.row_twoBlocks _ _ _ _ _ rfl (by simp) (by simp [hlen]) (by simp [hlen]) _ _ hil]
  simp only [List.getElem_map, hki, hkg]

end two

/-! ### The blocks -/

/-- A block over `Pg` and `Qg` whose rows belong to the flagged generators. -/
structure PqBlock (gen : List Constr.Gen) (ng : ℕ) (mask : Constr.Gen → Bool) (va vb : Constr.Gen → ℝ) (lo hi : Constr.Gen → EReal) (B : LinBlk) : Prop where
  vs : B.vs = ["Pg", "Qg"]
  cols : B.A.cols = 2 * ng
  rows : B.A.rows = (find (gen.map mask)).length
  l : B.l = [] ∨ B.l.length = B.A.rows
  u : B.u = [] ∨ B.u.length = B.A.rows
  row : ∀ (i k : ℕ) g, (find (gen.map mask))[i]? = some k → gen[k]? = some g →
    (∀ y : List ℝ, rowDot B.A i y = va g * y.getD k 0 + vb g * y.getD (k + gen.length) 0) ∧ LinBlk.lo B i = lo g ∧ LinBlk.hi B i = hi g

section blocks
variable (base : ℝ) (K : Curves) (c : Index.Case Tables)

theorem half_block (gen : List Constr.Gen) (mask : Constr.Gen → Bool) (half : Constr.Gen → Constr.Half) : ∃ L, Constr.halfRows base mask half gen = some L ∧
    L.n = (find (gen.map mask)).length ∧
    PqBlock gen gen.length mask (fun g => (half g).normalise.a) (fun g => (half g).normalise.b) (fun _ => ⊥) (fun g => (((half g).normalise.ub / base : ℝ) : EReal))
      ⟨cooMat L.n (2 * gen.length) L.A, [], L.upper, ["Pg", "Qg"]⟩ := by
  have hlen : (find (gen.map mask)).length = (gen.filter mask).length := find_map_length _ _
  unfold Constr.halfRows
  simp only [gather_find, Option.bind_eq_bind, Option.bind_some]
  refine ⟨_, rfl, rfl, rfl, rfl, rfl, Or.inl rfl, Or.inr (by simp [cooMat, hlen]), ?_⟩
  intro i k g hi hg
  have hA := two_cols gen mask (fun g => (half g).normalise.a) (fun g => (half g).normalise.b)
  obtain ⟨h1, h2⟩ := two_row gen mask (fun g => (half g).normalise.a) (fun g => (half g).normalise.b) i k g hi hg
  unfold twoOf at hA h2
  simp only [List.map_map]
  refine ⟨fun y => ?_, ?_, ?_⟩
  · exact (cooMat_row _ _ _ _ _ hA).trans (h2 _)
  · simp [LinBlk.lo]
  · have hne : ((gen.filter mask).map fun g => (((half g).normalise.ub / base : ℝ) : EReal)) ≠ [] := by
      intro h0
      rw [List.map_eq_nil_iff.1 h0] at h1
      simp at h1
    unfold LinBlk.hi
    simp only [Function.comp_def]
    rw [if_neg hne, List.getD_eq_getElem?_getD, List.getElem?_map, h1]
    rfl

theorem vl_block (gen : List Constr.Gen) : ∃ L, Constr.makeAvl base gen = some L ∧ L.n = (find (gen.map (Constr.isVarLoad base))).length ∧
    PqBlock gen gen.length (Constr.isVarLoad base) (fun g => Real.sin (Constr.arctan2 (Constr.qlim base g) (g.pmin / base)))
      (fun g => -Real.cos (Constr.arctan2 (Constr.qlim base g) (g.pmin / base))) (fun _ => ((0 : ℝ) : EReal)) (fun _ => ((0 : ℝ) : EReal))
      ⟨cooMat L.n (2 * gen.length) L.A, L.lower, L.upper, ["Pg", "Qg"]⟩ := by
  have hlen : (find (gen.map (Constr.isVarLoad base))).length = (gen.filter (Constr.isVarLoad base)).length := find_map_length _ _
  unfold Constr.makeAvl
  simp only [gather_find, Option.bind_eq_bind, Option.bind_some]
  refine ⟨_, rfl, rfl, rfl, rfl, rfl, Or.inr (by simp [cooMat]), Or.inr (by simp [cooMat]), ?_⟩
  intro i k g hi hg
  have hA := two_cols gen (Constr.isVarLoad base) (fun g => Real.sin (Constr.arctan2 (Constr.qlim base g) (g.pmin / base)))
    (fun g => -Real.cos (Constr.arctan2 (Constr.qlim base g) (g.pmin / base)))
  obtain ⟨-, h2⟩ := two_row gen (Constr.isVarLoad base) (fun g => Real.sin (Constr.arctan2 (Constr.qlim base g) (g.pmin / base)))
    (fun g => -Real.cos (Constr.arctan2 (Constr.qlim base g) (g.pmin / base))) i k g hi hg
  unfold twoOf at hA h2
  have hil : i < (find (gen.map (Constr.isVarLoad base))).length := (List.getElem?_eq_some_iff.1 hi).1
  have hne : (List.replicate (find (gen.map (Constr.isVarLoad base))).length (0 : EReal)) ≠ [] := by
    intro h0
    have := congrArg List.length h0
    simp at this
    rw [this] at hil
    simp at hil
  simp only [List.map_map]
  refine ⟨fun y => ?_, ?_, ?_⟩
  · exact (cooMat_row _ _ _ _ _ hA).trans (h2 _)
  · unfold LinBlk.lo
    simp only
    rw [if_neg hne, List.getD_eq_getElem?_getD, List.getElem?_replicate, if_pos hil]
    rfl
  · unfold LinBlk.hi
    simp only
    rw [if_neg hne, List.getD_eq_getElem?_getD, List.getElem?_replicate, if_pos hil]
    rfl

/-- Coefficients and bounds of the rows of the three blocks. -/
noncomputable abbrev UpB (base : ℝ) (gen : List Constr.Gen) := PqBlock gen gen.length Constr.hasPQcapU (fun g => (Constr.upperHalf g).normalise.a)
  (fun g => (Constr.upperHalf g).normalise.b) (fun _ => ⊥) (fun g => (((Constr.upperHalf g).normalise.ub / base : ℝ) : EReal))
noncomputable abbrev LoB (base : ℝ) (gen : List Constr.Gen) := PqBlock gen gen.length Constr.hasPQcapL (fun g => (Constr.lowerHalf g).normalise.a)
  (fun g => (Constr.lowerHalf g).normalise.b) (fun _ => ⊥) (fun g => (((Constr.lowerHalf g).normalise.ub / base : ℝ) : EReal))
noncomputable abbrev VlB (base : ℝ) (gen : List Constr.Gen) := PqBlock gen gen.length (Constr.isVarLoad base)
  (fun g => Real.sin (Constr.arctan2 (Constr.qlim base g) (g.pmin / base))) (fun g => -Real.cos (Constr.arctan2 (Constr.qlim base g) (g.pmin / base)))
  (fun _ => ((0 : ℝ) : EReal)) (fun _ => ((0 : ℝ) : EReal))

theorem curve_blocks {ng : ℕ} (hng : ng = c.gen.length) : ∃ H L V : LinBlk, ∃ h l, Constr.makeApq base (K.rows c) = some (h, l) ∧ h.n = H.A.rows ∧ l.n = L.A.rows ∧
    H = ⟨cooMat h.n (2 * ng) h.A, [], h.upper, ["Pg", "Qg"]⟩ ∧ L = ⟨cooMat l.n (2 * ng) l.A, [], l.upper, ["Pg", "Qg"]⟩ ∧
    curveOps base K ng c = [.addLin "PQh" H.A H.l H.u H.vs, .addLin "PQl" L.A L.l L.u L.vs, .addLin "vl" V.A V.l V.u V.vs] ∧
    UpB base (K.rows c) H ∧ LoB base (K.rows c) L ∧ VlB base (K.rows c) V := by
  subst hng
  have hlen : (K.rows c).length = c.gen.length := by simp [Curves.rows]
  obtain ⟨h, e1, -, b1⟩ := half_block base (K.rows c) Constr.hasPQcapU Constr.upperHalf
  obtain ⟨l, e2, -, b2⟩ := half_block base (K.rows c) Constr.hasPQcapL Constr.lowerHalf
  obtain ⟨v, e3, -, b3⟩ := vl_block base (K.rows c)
  have ea : Constr.makeApq base (K.rows c) = some (h, l) := by unfold Constr.makeApq; simp [e1, e2]
  refine ⟨_, _, _, h, l, ea, rfl, rfl, rfl, rfl, ?_, by rw [hlen] at b1; exact (hlen ▸ b1), by rw [hlen] at b2; exact (hlen ▸ b2), by rw [hlen] at b3; exact (hlen ▸ b3)⟩
  unfold curveOps
  rw [ea, e3]
  simp only [hlen]

end blocks

/-! ### Values of the rows at the reported point -/

section values
variable {nb ng nl : ℕ} (d : Case nb ng nl) (extra : List Op) (x : ℕ → ℝ)

theorem ac_sizes : size (varBlocks (acOps d ++ extra)) "Va" = nb ∧ size (varBlocks (acOps d ++ extra)) "Pg" = ng ∧ size (varBlocks (acOps d ++ extra)) "Qg" = ng := by
  rw [ac_varBlocks]
  simp [size]

theorem ac_subvec_Va (k : Fin nb) : (subvec (varBlocks (acOps d ++ extra)) x (eff (varBlocks (acOps d ++ extra)) ["Va"])).getD k 0 = x k := by
  obtain ⟨h1, -⟩ := ac_starts d extra
  obtain ⟨h2, -⟩ := ac_sizes d extra
  simp only [eff, subvec, List.cons_ne_nil, if_false, List.flatMap_cons, List.flatMap_nil, List.append_nil]
  rw [part_getD _ _ _ _ (by rw [h2]; exact k.isLt), h1, zero_add]

theorem ac_subvec_PQ (k : Fin ng) :
    (subvec (varBlocks (acOps d ++ extra)) x (eff (varBlocks (acOps d ++ extra)) ["Pg", "Qg"])).getD k 0 = x (2 * nb + k) ∧
    (subvec (varBlocks (acOps d ++ extra)) x (eff (varBlocks (acOps d ++ extra)) ["Pg", "Qg"])).getD (k + ng) 0 = x (2 * nb + ng + k) := by
  obtain ⟨-, -, h1, h2, -⟩ := ac_starts d extra
  obtain ⟨-, h3, h4⟩ := ac_sizes d extra
  simp only [eff, subvec, List.cons_ne_nil, if_false, List.flatMap_cons, List.flatMap_nil, List.append_nil]
  have hk := k.isLt
  constructor
  · rw [List.getD_append _ _ _ _ (by rw [part_length, h3]; exact hk), part_getD _ _ _ _ (by rw [h3]; exact hk), h1]
  · rw [List.getD_append_right _ _ _ _ (by rw [part_length, h3]; omega), part_length, h3, Nat.add_sub_cancel, part_getD _ _ _ _ (by rw [h4]; exact hk), h2]

end values

/-! ### A run, in internal numbering -/

/-- What a run amounts to in internal numbering. -/
structure CurveRun (srt : List ℕ → List ℕ) (base : ℝ) (lim : Int) (K : Curves) (o : Opt) (solve : AnySolver) (c : Index.Case Tables) (r : Ret)
    (c' : Index.Case Tables) (d : Case c'.bus.length c'.gen.length c'.branch.length) (m : Model)
    (s : AcRes c'.bus.length c'.gen.length c'.branch.length) (mu : List Mupq.GenMu)
    (bp : Fin c'.bus.length → ℕ) (gp : Fin c'.gen.length → ℕ) (lp : Fin c'.branch.length → ℕ) : Prop where
  ext : Index.ext2int srt c = some c'
  read : readCase base c' = some d
  baseEq : d.base = base
  run : OpfModel.run (acOps d ++ curveExtra K d c') = some m
  good : Good (acOps d ++ curveExtra K d c') ∧ (names (nlnBlocks (acOps d ++ curveExtra K d c'))).Nodup
  sol : pipsopfSolver d lim (K.cost c') m o solve (K.ang.x0 c' m) = some s
  mus : curveMus base K c' m s = some mu
  bridge : Bridge c r.tables opfOff d (acUpd s (curvePost K c' m s mu)) bp gp lp
  gens : ∀ k : Fin c'.gen.length, ∃ g, c.gen[gp k]? = some g ∧ c'.gen[k].data = g.data
  ends : ∀ k : Fin c'.branch.length, ∃ l, c.branch[lp k]? = some l ∧ c'.branch[k].data = l.data ∧ c'.branch[k].f = (d.branch k).f.val ∧ c'.branch[k].t = (d.branch k).t.val
  costs : ∀ gc, c.gencost = some gc → ∃ gc', c'.gencost = some gc' ∧ ∀ k : Fin c'.gen.length, gc'[(k : ℕ)]? = gc[gp k]?
  success : r.success = s.success
  f : r.f = s.f
  tol : r.tol = s.tol
  dual : r.dual = s.dual

theorem curve_run {srt : List ℕ → List ℕ} (hs : IsArgsort srt) {base : ℝ} {lim : Int} {K : Curves} {o : Opt} {solve : AnySolver} {c : Index.Case Tables} (h : WF c)
    (hgood : ∀ c' d, Index.ext2int srt c = some c' → readCase base c' = some d →
      Good (acOps d ++ curveExtra K d c') ∧ (names (nlnBlocks (acOps d ++ curveExtra K d c'))).Nodup)
    {r : Ret} (hrun : opfAcCurve srt base lim K o solve c = some r) :
    ∃ c' d m s mu bp gp lp, CurveRun srt base lim K o solve c r c' d m s mu bp gp lp := by
  unfold opfAcCurve at hrun
  simp only [Option.bind_eq_bind, Option.bind_eq_some_iff] at hrun
  obtain ⟨c', hc', d, hd, m, hm, s, hs', mu, hmu, r1, hr, e⟩ := hrun
  injection e with e
  subst e
  obtain ⟨bp, gp, lp, B, -, -, hge, hbr, hgc, -⟩ := bridge_at hs h hc' hd _ hr opfOff
  exact ⟨c', d, m, s, mu, bp, gp, lp, hc', hd, readCase_base hd, hm, hgood c' d hc' hd, hs', hmu, B,
    fun k => by obtain ⟨g, h1, -, h2, -⟩ := hge k; exact ⟨g, h1, h2⟩, hbr, hgc, rfl, rfl, rfl, rfl⟩

/-- A run is one of `opfAc`, so what is proved about that holds. -/
theorem curve_isAc {srt : List ℕ → List ℕ} {base : ℝ} {lim : Int} {K : Curves} {o : Opt} {solve : AnySolver} {c : Index.Case Tables} {r : Ret}
    (hrun : opfAcCurve srt base lim K o solve c = some r) :
    ∃ S : AcSetup, (∀ {nb ng nl : ℕ} (d : Case nb ng nl) c', S.extra d c' = curveExtra K d c') ∧ opfAc srt base lim S o solve c = some r := by
  unfold opfAcCurve at hrun
  simp only [Option.bind_eq_bind, Option.bind_eq_some_iff] at hrun
  obtain ⟨c', hc', d, hd, m, hm, s, hs', mu, hmu, r1, hr, e⟩ := hrun
  refine ⟨⟨fun d c => curveExtra K d c, K.cost, K.ang.x0, fun c m _ _ _ s => curvePost K c m s mu⟩, fun _ _ => rfl, ?_⟩
  unfold opfAc
  simp only [hc', hd, hm, hs', hr, Option.bind_eq_bind, Option.bind_some]
  exact e

section rows
variable {srt : List ℕ → List ℕ} {base : ℝ} {lim : Int} {K : Curves} {o : Opt} {solve : AnySolver} {c : Index.Case Tables} {r : Ret}
    {c' : Index.Case Tables} {d : Case c'.bus.length c'.gen.length c'.branch.length} {m : Model}
    {s : AcRes c'.bus.length c'.gen.length c'.branch.length} {mu : List Mupq.GenMu}
    {bp : Fin c'.bus.length → ℕ} {gp : Fin c'.gen.length → ℕ} {lp : Fin c'.branch.length → ℕ}
    (R : CurveRun srt base lim K o solve c r c' d m s mu bp gp lp)

include R

/-- A generator in service of the returned table, its row in the internal table, its outputs. -/
theorem CurveRun.genRow {g : GenRow GenD} (hg : g ∈ r.tables.gen) (hon : GenInService r.tables g) :
    ∃ (k : Fin c'.gen.length) (g0 : GenRow GenD), c.gen[gp k]? = some g0 ∧ GenInService c g0 ∧ (K.rows c')[(k : ℕ)]? = some (K.row g0.data) ∧
      g.data.rest = g0.data.rest ∧ g.data.PMIN = g0.data.PMIN ∧ g.data.PMAX = g0.data.PMAX ∧ g.data.QMIN = g0.data.QMIN ∧ g.data.QMAX = g0.data.QMAX ∧
      g.data.PG = s.PG k ∧ g.data.QG = s.QG k := by
  obtain ⟨k, g0, h0, rfl, -⟩ := R.bridge.genRow hg hon
  obtain ⟨g1, h1, h2⟩ := R.gens k
  rw [h0] at h1; cases h1
  obtain ⟨g2, h3, h4, -⟩ := R.bridge.gen k
  rw [h0] at h3; cases h3
  refine ⟨k, g0, h0, h4, ?_, rfl, rfl, rfl, rfl, rfl, rfl, rfl⟩
  simp only [Curves.rows, List.getElem?_map]
  rw [List.getElem?_eq_getElem k.isLt]
  simp only [Option.map_some, Fin.getElem_fin] at h2 ⊢
  rw [h2]

/-- The row of a flagged generator, in terms of the returned outputs in p.u. -/
theorem CurveRun.pqRow (hb : 0 < base) (hok : s.success = true) {nm : String} {B : LinBlk} (hmem : (nm, B) ∈ linBlks (curveExtra K d c'))
    {mask : Constr.Gen → Bool} {va vb : Constr.Gen → ℝ} {lo hi : Constr.Gen → EReal} (hB : PqBlock (K.rows c') (K.rows c').length mask va vb lo hi B)
    (k : Fin c'.gen.length) (g : Constr.Gen) (hg : (K.rows c')[(k : ℕ)]? = some g) (hm : mask g = true) :
    Within (lo g) (hi g) (va g * (s.PG k / base) + vb g * (s.QG k / base)) s.tol := by
  have hbd : 0 < d.base := by rw [R.baseEq]; exact hb
  obtain ⟨-, hrows, -, hPQ⟩ := C79_extra d _ m R.run R.good.1 R.good.2 hbd lim (K.cost c') o solve _ s R.sol hok
  obtain ⟨i, hi'⟩ := Constr.find_pos (K.rows c') mask k g hg hm
  obtain ⟨h1, h2, h3⟩ := hB.row i k g hi' hg
  have hlt : i < B.A.rows := by rw [hB.rows]; exact (List.getElem?_eq_some_iff.1 hi').1
  have hw := hrows _ hmem i hlt
  simp only at hw
  have hlen : (K.rows c').length = c'.gen.length := by simp [Curves.rows]
  obtain ⟨e1, e2⟩ := ac_subvec_PQ d (curveExtra K d c') s.x k
  obtain ⟨-, -, s3, s4, -⟩ := ac_starts d (curveExtra K d c')
  rw [h2, h3, h1, hB.vs, hlen, e1, e2] at hw
  rw [(hPQ k).1, (hPQ k).2, s3, s4, R.baseEq, mul_div_cancel_right₀ _ hb.ne', mul_div_cancel_right₀ _ hb.ne']
  exact hw

end rows

end Verif.Opf
