import Verif.Opf.ExecLemmas
import Verif.Opf.ExecSpec
import Verif.Opf.DcProps
import Verif.OpfModel.Props

/-! # Packaging of the results under the names of the blocks -/

open Matrix

namespace Verif.Opf

open Verif.OpfModel Verif.Pips Verif.Network Verif.OpfNl Verif.OpfCost

variable {nb ng nl : ℕ}

/-! ### Lemmas -/

theorem range_getD (n : ℕ) (f : ℕ → ℝ) (i : ℕ) (hi : i < n) : ((List.range n).map f).getD i 0 = f i := by
  simp [List.getD, hi]

theorem part_range (bs : List (String × ℕ)) (v : String) (hv : v ∈ names bs) (n : ℕ) (hn : total bs ≤ n) (f : ℕ → ℝ) :
    part bs (fun i => ((List.range n).map f).getD i 0) v = part bs f v := by
  unfold part
  refine List.map_congr_left fun k hk => ?_
  have := start_size_le bs v hv
  have := List.mem_range.1 hk
  exact range_getD n f _ (by omega)

/-- A dictionary as left by `cutUp_spec`. -/
def Cut (bs : List (String × ℕ)) (x : ℕ → ℝ) (D : Dict (List ℝ)) : Prop := ∀ k, D k = if k ∈ names bs ∧ 0 < size bs k then some (part bs x k) else none

theorem Cut.gather {bs : List (String × ℕ)} {x : ℕ → ℝ} {D : Dict (List ℝ)} (c : Cut bs x D) (vs : List String) : gather D vs = subvec bs x vs := by
  unfold Opf.gather subvec
  congr 1
  funext v
  rw [c v]
  by_cases h : v ∈ names bs ∧ 0 < size bs v
  · rw [if_pos h]; rfl
  · rw [if_neg h]
    have h0 : size bs v = 0 := by
      by_cases hv : v ∈ names bs
      · by_contra h0; exact h ⟨hv, Nat.pos_of_ne_zero h0⟩
      · unfold size
        rw [List.find?_eq_none.2]
        · rfl
        · intro b hb
          simp only [decide_eq_true_eq]
          rintro rfl
          exact hv (List.mem_map.2 ⟨b, hb, rfl⟩)
    simp [part, h0]

theorem Cut.entry {bs : List (String × ℕ)} {x : ℕ → ℝ} {D : Dict (List ℝ)} (c : Cut bs x D) (hnd : (names bs).Nodup) (b : String × ℕ) (hb : b ∈ bs) (hp : 0 < b.2) :
    ∃ L, D b.1 = some L ∧ L.length = b.2 := by
  have hs := size_of_mem bs hnd b hb
  refine ⟨part bs x b.1, ?_, by simp [part, hs]⟩
  rw [c, if_pos ⟨List.mem_map.2 ⟨b, hb, rfl⟩, by omega⟩]

theorem Cut.getD {bs : List (String × ℕ)} {x : ℕ → ℝ} {D : Dict (List ℝ)} (c : Cut bs x D) (hnd : (names bs).Nodup) (b : String × ℕ) (hb : b ∈ bs) (i : ℕ)
    (hi : i < b.2) : (Opf.gather D [b.1]).getD i 0 = x (start bs b.1 + i) := by
  rw [c.gather]
  simp only [subvec, List.flatMap_cons, List.flatMap_nil, List.append_nil, part, size_of_mem bs hnd b hb]
  exact range_getD _ _ _ hi

theorem Cut.only {bs : List (String × ℕ)} {x : ℕ → ℝ} {D : Dict (List ℝ)} (c : Cut bs x D) (hnd : (names bs).Nodup) (v : String) (h : D v ≠ none) :
    ∃ b ∈ bs, b.1 = v ∧ 0 < b.2 := by
  rw [c] at h
  by_cases hv : v ∈ names bs ∧ 0 < size bs v
  · obtain ⟨b, hb, rfl⟩ := List.mem_map.1 hv.1
    exact ⟨b, hb, rfl, by rw [← size_of_mem bs hnd b hb]; exact hv.2⟩
  · rw [if_neg hv] at h; exact absurd rfl h

theorem slice_cost {h : List Op} {P : Params} {b : String × CostBlk} {s : ℕ}
    (hnx : P.nx = total (varBlocks h)) (hrow : ∀ i, i < b.2.cp.N.rows → CostRowOK (varBlocks h) P s b.2 i)
    (hdef : ∀ i, P.dd i = 1 ∧ P.rh i = 0 ∧ P.kk i = 0 ∧ P.mm i = 1) (x : ℕ → ℝ) :
    (P.slice s (s + b.2.cp.N.rows)).f x = blockCost (varBlocks h) x b.2 := by
  set Q := P.slice s (s + b.2.cp.N.rows) with hQ
  have hnw : Q.nw = b.2.cp.N.rows := by simp [hQ, Params.slice]
  have hw : ∀ i, i < b.2.cp.N.rows → Q.w x i = rowDot b.2.cp.N i (subvec (varBlocks h) x (eff (varBlocks h) b.2.vs)) := by
    intro i hi
    have hr : Q.r x i = rowDot b.2.cp.N i (subvec (varBlocks h) x (eff (varBlocks h) b.2.vs)) := by
      rw [← (hrow i hi).N x, Params.r]
      change (∑ j ∈ Finset.range P.nx, P.N (s + i) j * x j) - P.rh (s + i) = _
      rw [(hdef _).2.1, sub_zero, hnx]
    rw [← hr]
    obtain ⟨d1, d2, d3, d4⟩ := hdef (s + i)
    have e1 : Q.dd i = 1 := d1
    have e3 : Q.kk i = 0 := d3
    have e4 : Q.mm i = 1 := d4
    unfold Params.w Params.M Params.rr
    rw [e1, e3, e4]
    rcases lt_trichotomy (Q.r x i) 0 with hr | hr | hr
    · have a1 : ¬ Q.r x i > 0 := by linarith
      have a2 : ¬ Q.r x i = 0 := by linarith
      simp [hr, a1, a2]
    · simp [hr]
    · have a1 : ¬ Q.r x i < 0 := by linarith
      have a2 : ¬ Q.r x i = 0 := by linarith
      simp [hr, a1, a2]
  unfold Params.f blockCost
  rw [hnw]
  simp only
  congr 1
  · rw [div_eq_inv_mul, one_div]
    congr 1
    rw [Finset.sum_comm' (t' := Finset.range b.2.cp.N.rows) (s' := fun _ => Finset.range b.2.cp.N.rows) (by simp)]
    refine Finset.sum_congr rfl fun k hk => ?_
    rw [Finset.sum_mul]
    refine Finset.sum_congr rfl fun i hi => ?_
    rw [hw i (Finset.mem_range.1 hi), hw k (Finset.mem_range.1 hk)]
    congr 2
    exact (hrow i (Finset.mem_range.1 hi)).H k (Finset.mem_range.1 hk)
  · refine Finset.sum_congr rfl fun i hi => ?_
    rw [hw i (Finset.mem_range.1 hi)]
    congr 1
    have := (hrow i (Finset.mem_range.1 hi)).Cw
    simp only [List.getD, this, Option.getD_some]
    rfl

/-- Packaging, for a solution whose vectors are as long as the model says. -/
theorem package_spec {h : List Op} {m m1 : Model} (hm : OpfModel.run h = some m) (t : Tidy h) (hone : OneCost h) (hb : m.buildCostParams = some m1)
    (dc : Bool) (alg npwl1 : ℕ) (s : Sol) (x vl vu ll lu : ℕ → ℝ)
    (ex : s.x = (List.range m.var.total).map x) (evl : s.muVarL = (List.range m.var.total).map vl) (evu : s.muVarU = (List.range m.var.total).map vu)
    (ell : s.muLinL = (List.range m.lin.total).map ll) (elu : s.muLinU = (List.range m.lin.total).map lu)
    (hnl : dc = true ∨ (total (nlnBlocks h) ≤ s.muNlnL.length ∧ total (nlnBlocks h) ≤ s.muNlnU.length))
    (hpg : (if dc then "Pg" else "Qg") ∈ names (varBlocks h)) :
    ∃ R, package dc alg npwl1 m1 s = some R ∧ NamesOK h R ∧ Cut (varBlocks h) x R.val ∧ Cut (varBlocks h) vl R.varL ∧ Cut (varBlocks h) vu R.varU ∧
      Cut (linBlocks h) ll R.linL ∧ Cut (linBlocks h) lu R.linU ∧
      (dc = false → Cut (nlnBlocks h) (fun k => s.muNlnL.getD k 0) R.nlnL ∧ Cut (nlnBlocks h) (fun k => s.muNlnU.getD k 0) R.nlnU) ∧
      (let nx := start (varBlocks h) (if dc then "Pg" else "Qg") + size (varBlocks h) (if dc then "Pg" else "Qg")
       R.x = if 0 < npwl1 ∧ alg ≠ 545 ∧ alg ≠ 550 then s.x.take nx ++ (List.replicate npwl1 0 ++ s.x.drop nx) else s.x) := by
  have r := Rep.run hm
  obtain ⟨P, h1, hnw, hnx, hrow, -, hdef⟩ := C43_partial h m hm t.good.varNames t.costNames t.costFits (Or.inr t.costPlain)
  rw [hb, Option.some.injEq] at h1
  have cv : m1.var = foldIdx (varBlocks h) := by rw [h1]; exact r.var
  have cl : m1.lin = foldIdx (linBlocks h) := by rw [h1]; exact r.lin
  have cn : m1.nln = foldIdx (nlnBlocks h) := by rw [h1]; exact r.nln
  have cc : m1.cost = foldIdx (costBlocks h) := by rw [h1]; exact r.cost
  have cP : m1.params = some P := by rw [h1]
  have tv : m.var.total = total (varBlocks h) := by rw [r.var, (foldIdx_basic _).1]
  have tl : m.lin.total = total (linBlocks h) := by rw [r.lin, (foldIdx_basic _).1]
  have hlN : (names (linBlocks h)).Nodup := by rw [linBlocks_names]; exact t.good.linNames
  have hcN : (names (costBlocks h)).Nodup := (costBlocks_names h).symm ▸ t.costNames
  have mk : ∀ (bs : List (String × ℕ)) (hnd : (names bs).Nodup) (n : ℕ) (f : ℕ → ℝ), n = total bs →
      ∃ D, cutUp (foldIdx bs) ((List.range n).map f) (foldIdx bs).order (fun _ => none) = some D ∧ Cut bs f D := by
    intro bs hnd n f hn
    obtain ⟨D, hD, hk⟩ := cutUp_spec bs hnd ((List.range n).map f) (by simp [hn])
    refine ⟨D, hD, fun k => ?_⟩
    rw [hk k]
    by_cases hc : k ∈ names bs ∧ 0 < size bs k
    · rw [if_pos hc, if_pos hc, part_range bs k hc.1 n hn.ge]
    · rw [if_neg hc, if_neg hc]
  obtain ⟨Dv, hDv, kDv⟩ := mk _ t.good.varNames _ x tv
  obtain ⟨Dl, hDl, kDl⟩ := mk _ t.good.varNames _ vl tv
  obtain ⟨Du, hDu, kDu⟩ := mk _ t.good.varNames _ vu tv
  obtain ⟨El, hEl, kEl⟩ := mk _ hlN _ ll tl
  obtain ⟨Eu, hEu, kEu⟩ := mk _ hlN _ lu tl
  obtain ⟨Nl', hNl, kNl⟩ : ∃ D, cutUp (foldIdx (nlnBlocks h)) s.muNlnL (if dc then [] else (foldIdx (nlnBlocks h)).order) (fun _ => none) = some D ∧
      (dc = false → Cut (nlnBlocks h) (fun k => s.muNlnL.getD k 0) D) := by
    cases dc with
    | true => exact ⟨_, rfl, fun h => by cases h⟩
    | false =>
      obtain ⟨D, hD, hk⟩ := cutUp_spec _ t.nlnNames s.muNlnL ((hnl.resolve_left (by simp)).1)
      exact ⟨D, hD, fun _ => hk⟩
  obtain ⟨Nu, hNu, kNu⟩ : ∃ D, cutUp (foldIdx (nlnBlocks h)) s.muNlnU (if dc then [] else (foldIdx (nlnBlocks h)).order) (fun _ => none) = some D ∧
      (dc = false → Cut (nlnBlocks h) (fun k => s.muNlnU.getD k 0) D) := by
    cases dc with
    | true => exact ⟨_, rfl, fun h => by cases h⟩
    | false =>
      obtain ⟨D, hD, hk⟩ := cutUp_spec _ t.nlnNames s.muNlnU ((hnl.resolve_left (by simp)).2)
      exact ⟨D, hD, fun _ => hk⟩
  have xe : ∀ b ∈ costBlks h, subvec (varBlocks h) (fun k => s.x.getD k 0) (eff (varBlocks h) b.2.vs) = Opf.gather Dv (eff (varBlocks h) b.2.vs) := by
    intro b hb
    rw [kDv.gather]
    unfold subvec
    refine List.flatMap_congr fun v hv => ?_
    have hvn : v ∈ names (varBlocks h) := by
      unfold eff at hv
      split_ifs at hv with h0
      · exact hv
      · exact r.costEx b hb v hv
    rw [ex]
    exact part_range _ v hvn _ tv.ge x
  obtain ⟨C, m', hC, kC⟩ : ∃ C m', namedCosts (fun k => s.x.getD k 0) m1.cost.order m1 (fun _ => none) = some (C, m') ∧
      (∀ b ∈ costBlks h, 0 < b.2.cp.N.rows → C b.1 = some (costAtNamed (varBlocks h) Dv b.2)) ∧
      (∀ v, C v ≠ none → ∃ b ∈ costBlks h, b.1 = v ∧ 0 < b.2.cp.N.rows) := by
    have sz : ∀ b ∈ costBlks h, size (costBlocks h) b.1 = b.2.cp.N.rows := fun b hb => size_of_mem _ hcN (b.1, b.2.cp.N.rows) (List.mem_map.2 ⟨b, hb, rfl⟩)
    by_cases hex : ∃ b ∈ costBlks h, 0 < b.2.cp.N.rows
    · obtain ⟨b, hbm, hbp⟩ := hex
      have hbn : b.1 ∈ names (costBlocks h) := by rw [costBlocks_names]; exact List.mem_map.2 ⟨b, hbm, rfl⟩
      obtain ⟨m', hm'⟩ := namedCosts_one (fun k => s.x.getD k 0) (costBlocks h) hcN m1 P cP hnw cc b.1 hbn (by rw [sz b hbm]; exact hbp) (by
        intro j hj hjp
        rw [costBlocks_names] at hj
        obtain ⟨c, hcm, rfl⟩ := List.mem_map.1 hj
        exact hone c hcm b hbm (by rw [← sz c hcm]; exact hjp) hbp)
      refine ⟨_, m', hm', ?_, ?_⟩
      · intro c hcm hcp
        have hcb : c = b := List.inj_on_of_nodup_map t.costNames hcm hbm (hone c hcm b hbm hcp hbp)
        subst hcb
        rw [if_pos rfl, sz c hcm, slice_cost hnx (hrow c hcm) hdef]
        unfold blockCost costAtNamed
        simp only [xe c hcm]
      · intro v hv
        by_cases hvb : v = b.1
        · exact ⟨b, hbm, hvb.symm, hbp⟩
        · rw [if_neg hvb] at hv; exact absurd rfl hv
    · push Not at hex
      refine ⟨_, m1, namedCosts_none _ (costBlocks h) hcN m1 cc ?_, ?_, ?_⟩
      · intro k hk
        rw [costBlocks_names] at hk
        obtain ⟨c, hcm, rfl⟩ := List.mem_map.1 hk
        rw [sz c hcm]
        exact Nat.le_zero.1 (hex c hcm)
      · intro b hb hbp
        exact absurd hbp (not_lt.2 (hex b hb))
      · intro v hv; exact absurd rfl hv
  obtain ⟨-, iN, -⟩ := (foldIdx_lookup _ t.good.varNames).1 _ hpg
  set nx := start (varBlocks h) (if dc then "Pg" else "Qg") + size (varBlocks h) (if dc then "Pg" else "Qg") with hnxd
  have hI : insertY dc alg npwl1 m1 s.x = some (if 0 < npwl1 ∧ alg ≠ 545 ∧ alg ≠ 550 then s.x.take nx ++ (List.replicate npwl1 0 ++ s.x.drop nx) else s.x) := by
    unfold insertY
    rw [cv, iN]
    split_ifs <;> rfl
  refine ⟨⟨Dv, Dl, Du, El, Eu, Nl', Nu, C, _⟩, ?_, ?_, kDv, kDl, kDu, kEl, kEu, fun hd => ⟨kNl hd, kNu hd⟩, rfl⟩
  · unfold package
    rw [hI, hC, cv, cl, cn, ex, evl, evu, ell, elu, hDv, hDl, hDu, hEl, hEu, hNl, hNu]
    rfl
  · have vb : ∀ b ∈ varVals h, (b.1, b.2.n) ∈ varBlocks h := fun b hb => by rw [← varVals_blocks]; exact List.mem_map.2 ⟨b, hb, rfl⟩
    have lb : ∀ b ∈ linBlks h, (b.1, b.2.A.rows) ∈ linBlocks h := fun b hb => List.mem_map.2 ⟨b, hb, rfl⟩
    refine ⟨fun b hb hp => ⟨kDv.entry t.good.varNames _ (vb b hb) hp, kDl.entry t.good.varNames _ (vb b hb) hp, kDu.entry t.good.varNames _ (vb b hb) hp⟩,
      fun b hb hp => ⟨kEl.entry hlN _ (lb b hb) hp, kEu.entry hlN _ (lb b hb) hp⟩, ?_, ?_, kC.1, kC.2⟩
    · intro v hv
      obtain ⟨b, hb, e, hp⟩ : ∃ b ∈ varBlocks h, b.1 = v ∧ 0 < b.2 := by
        rcases hv with hv | hv | hv
        · exact kDv.only t.good.varNames v hv
        · exact kDl.only t.good.varNames v hv
        · exact kDu.only t.good.varNames v hv
      rw [← varVals_blocks] at hb
      obtain ⟨c, hc, rfl⟩ := List.mem_map.1 hb
      exact ⟨c, hc, e, hp⟩
    · intro v hv
      obtain ⟨b, hb, e, hp⟩ : ∃ b ∈ linBlocks h, b.1 = v ∧ 0 < b.2 := by
        rcases hv with hv | hv
        · exact kEl.only hlN v hv
        · exact kEu.only hlN v hv
      obtain ⟨c, hc, rfl⟩ := List.mem_map.1 hb
      exact ⟨c, hc, e, hp⟩

end Verif.Opf
