import Verif.Opf.RunSpec
import Verif.Index.Props

/-!
# How the returned tables relate to the case in internal numbering
-/

namespace Verif.Opf

open Verif.Index (BusRow GenRow BranchRow IsArgsort WF Corr Solved Restored PutBack GenInService BranchInService Connected IntBus)
open Verif.OpfModel Verif.Pips Verif.Network

/-- The rows of an external table that stand for internal rows are summed by summing over the internal rows, if the others contribute nothing. -/
theorem sum_rows {α : Type} {n : ℕ} (R : List α) (p : Fin n → ℕ) (hp : Function.Injective p) (val : α → ℝ) (w : Fin n → ℝ)
    (h1 : ∀ k, ∃ x, R[p k]? = some x ∧ val x = w k) (h0 : ∀ (i : ℕ) x, R[i]? = some x → (∀ k, p k ≠ i) → val x = 0) :
    (R.map val).sum = ∑ k, w k := by
  have e : (R.map val).sum = ∑ i : Fin R.length, val R[i] := by
    have : R.map val = List.ofFn fun i : Fin R.length => val R[i] := by
      apply List.ext_getElem <;> simp
    rw [this, List.sum_ofFn]
  have hlt : ∀ k, p k < R.length := by
    intro k
    obtain ⟨x, hx, -⟩ := h1 k
    exact (List.getElem?_eq_some_iff.1 hx).1
  rw [e]
  symm
  refine Finset.sum_of_injOn (fun k => (⟨p k, hlt k⟩ : Fin R.length)) ?_ (by simp) ?_ ?_
  · intro a _ b _ hab
    exact hp (by simpa using hab)
  · intro i _ hi
    refine h0 i _ (List.getElem?_eq_getElem i.isLt) fun k hk => hi ⟨k, by simp, Fin.ext hk⟩
  · intro k _
    obtain ⟨x, hx, hw⟩ := h1 k
    obtain ⟨_, hx⟩ := List.getElem?_eq_some_iff.1 hx
    rw [← hw, ← hx]
    rfl

theorem filter_sum {α : Type} (R : List α) (q : α → Bool) (f : α → ℝ) : ((R.filter q).map f).sum = (R.map fun x => if q x then f x else 0).sum := by
  induction R with
  | nil => rfl
  | cons a R ih =>
    by_cases h : q a <;> simp [h, ih]

/-- The data the formulation reads, the data of the caller, and the data returned, put side by side: internal bus `k` is row `bp k` of the bus table, etc. -/
structure Bridge (c R : Index.Case Tables) (z : Off) {nb ng nl : ℕ} (d : Case nb ng nl) (u : Upd nb ng nl) (bp : Fin nb → ℕ) (gp : Fin ng → ℕ) (lp : Fin nl → ℕ) :
    Prop where
  bInj : Function.Injective bp
  gInj : Function.Injective gp
  lInj : Function.Injective lp
  bus : ∀ k, ∃ b : BusRow BusD, c.bus[bp k]? = some b ∧ b.typ ≠ 4 ∧ R.bus[bp k]? = some { b with data := u.bus k b.data } ∧
    d.bus k = ⟨b.data.PD, b.data.QD, b.data.GS, b.data.BS⟩ ∧ d.isRef k = (b.typ == 3) ∧ d.va k = b.data.VA ∧ d.vmin k = b.data.VMIN ∧ d.vmax k = b.data.VMAX
  busOn : ∀ (i : ℕ) b, c.bus[i]? = some b → b.typ ≠ 4 → ∃ k, bp k = i
  busOff : ∀ (i : ℕ) b, c.bus[i]? = some b → b.typ = 4 → R.bus[i]? = some b
  busLen : R.bus.length = c.bus.length
  gen : ∀ k, ∃ g : GenRow GenD, c.gen[gp k]? = some g ∧ GenInService c g ∧ R.gen[gp k]? = some { g with data := u.gen k g.data } ∧
    (∃ b, c.bus[bp (d.gen k).bus]? = some b ∧ b.num = g.bus) ∧ (d.gen k).stat = g.status ∧
    d.pmin k = g.data.PMIN ∧ d.pmax k = g.data.PMAX ∧ d.qmin k = g.data.QMIN ∧ d.qmax k = g.data.QMAX
  genOn : ∀ (i : ℕ) g, c.gen[i]? = some g → GenInService c g → ∃ k, gp k = i
  genOff : ∀ (i : ℕ) g, c.gen[i]? = some g → ¬ GenInService c g →
    R.gen[i]? = some { g with data := z.gen g.data }
  genLen : R.gen.length = c.gen.length
  branch : ∀ k, ∃ l : BranchRow BrD, c.branch[lp k]? = some l ∧ BranchInService c l ∧ R.branch[lp k]? = some { l with data := u.branch k l.data } ∧
    (∃ b, c.bus[bp (d.branch k).f]? = some b ∧ b.num = l.f) ∧ (∃ b, c.bus[bp (d.branch k).t]? = some b ∧ b.num = l.t) ∧
    (d.branch k).r = l.data.r ∧ (d.branch k).x = l.data.x ∧ (d.branch k).b = l.data.b ∧ (d.branch k).tap = l.data.tap ∧
    (d.branch k).shift = l.data.shift ∧ (d.branch k).stat = l.status ∧ d.rateA k = l.data.rateA
  brOn : ∀ (i : ℕ) l, c.branch[i]? = some l → BranchInService c l → ∃ k, lp k = i
  brOff : ∀ (i : ℕ) l, c.branch[i]? = some l → ¬ BranchInService c l →
    R.branch[i]? = some { l with data := z.branch l.data }
  brLen : R.branch.length = c.branch.length

theorem write_solved (c : Index.Case Tables) (u : Upd c.bus.length c.gen.length c.branch.length) : Solved c (write c u) := by
  refine ⟨?_, ?_, ?_, ?_, rfl, rfl, rfl, rfl, rfl⟩ <;>
  · apply List.ext_getElem <;> simp [write]

theorem int2ext_order {c r : Index.Case Tables} {o : Index.Order Tables} (ho : c.order = some o) (hi : o.internal = true) (h : Index.int2ext c = some r) :
    r.order = some { o with internal := false } := by
  simp only [Index.int2ext, ho, hi, if_true, Index.toExternal, Option.bind_eq_bind, Option.bind_eq_some_iff] at h
  obtain ⟨_, -, _, -, _, -, _, -, _, -, _, -, _, -, _, -, _, -, _, -, _, -, _, -, h⟩ := h
  injection h with h
  rw [← h]

theorem readCase_base {base : ℝ} {c' : Index.Case Tables} {d : Case c'.bus.length c'.gen.length c'.branch.length} (h : readCase base c' = some d) :
    d.base = base := by
  unfold readCase at h
  split at h
  · injection h with h; rw [← h]
  · simp at h

/-- The bridge, with the rows given by `posOf`. -/
theorem bridge_at {srt : List ℕ → List ℕ} (hs : IsArgsort srt) {c : Index.Case Tables} (h : WF c) {c' r : Index.Case Tables}
    (he : Index.ext2int srt c = some c') {base : ℝ} {d : Case c'.bus.length c'.gen.length c'.branch.length} (hd : readCase base c' = some d)
    (u : Upd c'.bus.length c'.gen.length c'.branch.length) (hr : Index.int2ext (write c' u) = some r) (z : Off) :
    ∃ bp gp lp, Bridge c (zeroOff z r) z d u bp gp lp ∧ StrictMono bp ∧
      (∀ k : Fin c'.bus.length, ∃ b, c.bus[bp k]? = some b ∧ c'.bus[k].typ = b.typ ∧ c'.bus[k].data = b.data) ∧
      (∀ k : Fin c'.gen.length, ∃ g, c.gen[gp k]? = some g ∧ c'.gen[k].status = g.status ∧ c'.gen[k].data = g.data ∧ c'.gen[k].bus = (d.gen k).bus.val) ∧
      (∀ k : Fin c'.branch.length, ∃ l, c.branch[lp k]? = some l ∧ c'.branch[k].data = l.data ∧ c'.branch[k].f = (d.branch k).f.val ∧
        c'.branch[k].t = (d.branch k).t.val) ∧
      (∀ gc, c.gencost = some gc → ∃ gc', c'.gencost = some gc' ∧ ∀ k : Fin c'.gen.length, gc'[(k : ℕ)]? = gc[gp k]?) ∧
      (∀ k : Fin c'.bus.length, (Index.posOf srt c .bus)[(k : ℕ)]? = some (bp k)) ∧ (∀ k : Fin c'.gen.length, (Index.posOf srt c .gen)[(k : ℕ)]? = some (gp k)) ∧
      (∀ k : Fin c'.branch.length, (Index.posOf srt c .branch)[(k : ℕ)]? = some (lp k)) := by
  obtain ⟨c1, he1, hc, hcost, hres⟩ := Index.results_posOf hs h
  set pos := Index.posOf srt c
  rw [he] at he1; cases he1
  obtain ⟨r1, hr1, hR⟩ := hres _ (write_solved c' u)
  rw [hr] at hr1; cases hr1
  obtain ⟨c2, o, pos2, apos2, he2, ho, -, hbs, hgs, hls, -⟩ := Index.C03_exactly_in_service hs h
  rw [he] at he2; cases he2
  have hint : o.internal = true := by
    obtain ⟨c3, o3, pos3, apos3, he3, ho3, hi3, -⟩ := Index.ext2int_corr hs h
    rw [he] at he3; cases he3
    rw [ho] at ho3; cases ho3
    exact hi3
  have hord : r.order = some { o with internal := false } := int2ext_order (c := write c' u) ho hint hr
  have hzb : (zeroOff z r).bus = r.bus := by simp [zeroOff, hord]
  have hzg : (zeroOff z r).gen = r.gen.mapIdx fun i g => if i ∈ o.genOff then { g with data := z.gen g.data } else g := by
    simp [zeroOff, hord]
  have hzl : (zeroOff z r).branch = r.branch.mapIdx fun i l => if i ∈ o.branchOff then { l with data := z.branch l.data } else l := by
    simp [zeroOff, hord]
  have hB : ∀ k : Fin c'.bus.length, (k : ℕ) < (pos .bus).length := fun k => hc.busLen ▸ k.isLt
  have hG : ∀ k : Fin c'.gen.length, (k : ℕ) < (pos .gen).length := fun k => hc.genLen ▸ k.isLt
  have hL : ∀ k : Fin c'.branch.length, (k : ℕ) < (pos .branch).length := fun k => hc.brLen ▸ k.isLt
  have injOf : ∀ {n : ℕ} {l : List ℕ} (hl : ∀ k : Fin n, (k : ℕ) < l.length), l.Nodup → Function.Injective fun k : Fin n => l[(k : ℕ)]'(hl k) := by
    intro n l hl hn a b hab
    exact Fin.ext ((List.Nodup.getElem_inj_iff hn).1 hab)
  have onOf : ∀ {n : ℕ} {l : List ℕ} (hl : ∀ k : Fin n, (k : ℕ) < l.length), n = l.length → ∀ i ∈ l, ∃ k : Fin n, l[(k : ℕ)]'(hl k) = i := by
    intro n l hl hn i hi
    obtain ⟨k, hk, e⟩ := List.mem_iff_getElem.1 hi
    exact ⟨⟨k, by omega⟩, e⟩
  unfold readCase at hd
  split at hd
  swap
  · simp at hd
  rename_i hval
  injection hd with hd
  have hnum : ∀ (n : ℕ) (hn : n < c'.bus.length) m, IntBus c (pos .bus) n m → ∃ b, c.bus[(pos .bus)[n]'(hc.busLen ▸ hn)]? = some b ∧ b.num = m := by
    rintro n hn m ⟨i, b, h1, h2, h3⟩
    obtain ⟨_, h1⟩ := List.getElem?_eq_some_iff.1 h1
    rw [h1]
    exact ⟨b, h2, h3⟩
  refine ⟨fun k => (pos .bus)[(k : ℕ)]'(hB k), fun k => (pos .gen)[(k : ℕ)]'(hG k), fun k => (pos .branch)[(k : ℕ)]'(hL k), ?_, ?_, ?_, ?_, ?_, ?_, fun k => List.getElem?_eq_getElem (hB k), fun k => List.getElem?_eq_getElem (hG k),
    fun k => List.getElem?_eq_getElem (hL k)⟩
  rotate_left
  · intro a b hab
    exact List.pairwise_iff_getElem.1 hc.busOrder _ _ _ _ hab
  · intro k
    obtain ⟨b, h1, h2⟩ := hc.busRow k _ (List.getElem?_eq_getElem (hB k))
    obtain ⟨_, h2'⟩ := List.getElem?_eq_some_iff.1 h2
    have hck : c'.bus[k] = { b with num := (k : ℕ) } := h2'
    exact ⟨b, h1, by rw [hck], by rw [hck]⟩
  · intro k
    obtain ⟨g, n, h1, h2, hn⟩ := hc.genRow k _ (List.getElem?_eq_getElem (hG k))
    obtain ⟨_, h2'⟩ := List.getElem?_eq_some_iff.1 h2
    have hck : c'.gen[k] = { g with bus := n } := h2'
    exact ⟨g, h1, by rw [hck], by rw [hck], by rw [← hd]⟩
  · intro k
    obtain ⟨l, f, t, h1, h2, -, -⟩ := hc.brRow k _ (List.getElem?_eq_getElem (hL k))
    obtain ⟨_, h2'⟩ := List.getElem?_eq_some_iff.1 h2
    have hck : c'.branch[k] = { l with f := f, t := t } := h2'
    exact ⟨l, h1, by rw [hck], by rw [← hd], by rw [← hd]⟩
  · intro gc hgc
    obtain ⟨gc', hg1, hg2, -⟩ := hcost gc hgc
    exact ⟨gc', hg1, fun k => hg2 _ _ (List.getElem?_eq_getElem (hG k))⟩
  refine ⟨injOf hB (hc.busOrder.imp (fun h => h.ne)), injOf hG hc.genNodup, injOf hL (hc.brOrder.imp (fun h => h.ne)), ?_, ?_, ?_, ?_, ?_, ?_, ?_, ?_, ?_, ?_, ?_, ?_⟩
  · intro k
    have hk := List.getElem?_eq_getElem (hB k)
    obtain ⟨b, h1, h2⟩ := hc.busRow k _ hk
    obtain ⟨_, h2'⟩ := List.getElem?_eq_some_iff.1 h2
    have hck : c'.bus[k] = { b with num := (k : ℕ) } := h2'
    obtain ⟨new, old, h3, h4, h5⟩ := hR.bus.2.1 k _ hk
    rw [h1] at h4; cases h4
    have hnew : new = { c'.bus[k] with data := u.bus k c'.bus[k].data } := by
      have : (write c' u).bus[(k : ℕ)]? = some { c'.bus[k] with data := u.bus k c'.bus[k].data } := by
        simp [write]
      rw [this] at h3
      exact (Option.some_injective _ h3).symm
    refine ⟨b, h1, ?_, ?_, ?_, ?_, ?_, ?_, ?_⟩
    · exact (hc.busIn _ _ h1).1 (List.mem_of_getElem? hk)
    · rw [hzb, h5, hnew, hck]
    all_goals
      rw [← hd]
      simp only [hck]
  · intro i b h1 h2
    exact onOf hB hc.busLen i ((hc.busIn i b h1).2 h2)
  · intro i b h1 h2
    rw [hzb, hR.bus.2.2 i (fun hi => (hc.busIn i b h1).1 hi h2), h1]
  · rw [hzb, hR.bus.1]
  · intro k
    have hk := List.getElem?_eq_getElem (hG k)
    obtain ⟨g, n, h1, h2, hn⟩ := hc.genRow k _ hk
    obtain ⟨_, h2'⟩ := List.getElem?_eq_some_iff.1 h2
    have hck : c'.gen[k] = { g with bus := n } := h2'
    obtain ⟨new, old, h3, h4, h5⟩ := hR.gen.2.1 k _ hk
    rw [h1] at h4; cases h4
    have hnew : new = { c'.gen[k] with data := u.gen k c'.gen[k].data } := by
      have : (write c' u).gen[(k : ℕ)]? = some { c'.gen[k] with data := u.gen k c'.gen[k].data } := by
        simp [write]
      rw [this] at h3
      exact (Option.some_injective _ h3).symm
    have hin := (hc.genIn _ _ h1).1 (List.mem_of_getElem? hk)
    have hoff := fun hh => ((hgs _ _ h1).2.1 hh) hin
    refine ⟨g, h1, hin, ?_, ?_, ?_, ?_, ?_, ?_, ?_⟩
    · rw [hzg, List.getElem?_mapIdx, h5, Option.map_some, if_neg hoff, hnew, hck]
    · have hb : (d.gen k).bus.val = n := by rw [← hd]; simp only [hck]
      have := hnum _ (d.gen k).bus.isLt g.bus (by rw [hb]; exact hn)
      exact this
    all_goals
      rw [← hd]
      simp only [hck]
  · intro i g h1 h2
    exact onOf hG hc.genLen i ((hc.genIn i g h1).2 h2)
  · intro i g h1 h2
    have hni : i ∉ pos .gen := fun hi => h2 ((hc.genIn i g h1).1 hi)
    rw [hzg, List.getElem?_mapIdx, hR.gen.2.2 i hni, h1, Option.map_some, if_pos ((hgs i g h1).2.2 h2)]
  · rw [hzg, List.length_mapIdx, hR.gen.1]
  · intro k
    have hk := List.getElem?_eq_getElem (hL k)
    obtain ⟨l, f, t, h1, h2, hf, ht⟩ := hc.brRow k _ hk
    obtain ⟨_, h2'⟩ := List.getElem?_eq_some_iff.1 h2
    have hck : c'.branch[k] = { l with f := f, t := t } := h2'
    obtain ⟨new, old, h3, h4, h5⟩ := hR.branch.2.1 k _ hk
    rw [h1] at h4; cases h4
    have hnew : new = { c'.branch[k] with data := u.branch k c'.branch[k].data } := by
      have : (write c' u).branch[(k : ℕ)]? = some { c'.branch[k] with data := u.branch k c'.branch[k].data } := by
        simp [write]
      rw [this] at h3
      exact (Option.some_injective _ h3).symm
    have hin := (hc.brIn _ _ h1).1 (List.mem_of_getElem? hk)
    have hoff := fun hh => ((hls _ _ h1).2.1 hh) hin
    refine ⟨l, h1, hin, ?_, ?_, ?_, ?_, ?_, ?_, ?_, ?_, ?_, ?_⟩
    · rw [hzl, List.getElem?_mapIdx, h5, Option.map_some, if_neg hoff, hnew, hck]
    · have hb : (d.branch k).f.val = f := by rw [← hd]; simp only [hck]
      exact hnum _ (d.branch k).f.isLt l.f (by rw [hb]; exact hf)
    · have hb : (d.branch k).t.val = t := by rw [← hd]; simp only [hck]
      exact hnum _ (d.branch k).t.isLt l.t (by rw [hb]; exact ht)
    all_goals
      rw [← hd]
      simp only [hck]
  · intro i l h1 h2
    exact onOf hL hc.brLen i ((hc.brIn i l h1).2 h2)
  · intro i l h1 h2
    have hni : i ∉ pos .branch := fun hi => h2 ((hc.brIn i l h1).1 hi)
    rw [hzl, List.getElem?_mapIdx, hR.branch.2.2 i hni, h1, Option.map_some, if_pos ((hls i l h1).2.2 h2)]
  · rw [hzl, List.length_mapIdx, hR.branch.1]

theorem bridge_full {srt : List ℕ → List ℕ} (hs : IsArgsort srt) {c : Index.Case Tables} (h : WF c) {c' r : Index.Case Tables}
    (he : Index.ext2int srt c = some c') {base : ℝ} {d : Case c'.bus.length c'.gen.length c'.branch.length} (hd : readCase base c' = some d)
    (u : Upd c'.bus.length c'.gen.length c'.branch.length) (hr : Index.int2ext (write c' u) = some r) (z : Off) :
    ∃ bp gp lp, Bridge c (zeroOff z r) z d u bp gp lp ∧ StrictMono bp ∧
      (∀ k : Fin c'.bus.length, ∃ b, c.bus[bp k]? = some b ∧ c'.bus[k].typ = b.typ ∧ c'.bus[k].data = b.data) ∧
      (∀ k : Fin c'.gen.length, ∃ g, c.gen[gp k]? = some g ∧ c'.gen[k].status = g.status ∧ c'.gen[k].data = g.data ∧ c'.gen[k].bus = (d.gen k).bus.val) ∧
      (∀ k : Fin c'.branch.length, ∃ l, c.branch[lp k]? = some l ∧ c'.branch[k].data = l.data ∧ c'.branch[k].f = (d.branch k).f.val ∧
        c'.branch[k].t = (d.branch k).t.val) ∧
      (∀ gc, c.gencost = some gc → ∃ gc', c'.gencost = some gc' ∧ ∀ k : Fin c'.gen.length, gc'[(k : ℕ)]? = gc[gp k]?) := by
  obtain ⟨bp, gp, lp, h1, h2, h3, h4, h5, h6, -⟩ := bridge_at hs h he hd u hr z
  exact ⟨bp, gp, lp, h1, h2, h3, h4, h5, h6⟩

theorem bridge_rows {srt : List ℕ → List ℕ} (hs : IsArgsort srt) {c : Index.Case Tables} (h : WF c) {c' r : Index.Case Tables}
    (he : Index.ext2int srt c = some c') {base : ℝ} {d : Case c'.bus.length c'.gen.length c'.branch.length} (hd : readCase base c' = some d)
    (u : Upd c'.bus.length c'.gen.length c'.branch.length) (hr : Index.int2ext (write c' u) = some r) (z : Off) :
    ∃ bp gp lp, Bridge c (zeroOff z r) z d u bp gp lp ∧ StrictMono bp ∧
      (∀ k : Fin c'.bus.length, ∃ b, c.bus[bp k]? = some b ∧ c'.bus[k].typ = b.typ ∧ c'.bus[k].data = b.data) ∧
      (∀ k : Fin c'.gen.length, ∃ g, c.gen[gp k]? = some g ∧ c'.gen[k].status = g.status ∧ c'.gen[k].data = g.data ∧ c'.gen[k].bus = (d.gen k).bus.val) := by
  obtain ⟨bp, gp, lp, h1, h2, h3, h4, -⟩ := bridge_full hs h he hd u hr z
  exact ⟨bp, gp, lp, h1, h2, h3, h4⟩

theorem bridge {srt : List ℕ → List ℕ} (hs : IsArgsort srt) {c : Index.Case Tables} (h : WF c) {c' r : Index.Case Tables}
    (he : Index.ext2int srt c = some c') {base : ℝ} {d : Case c'.bus.length c'.gen.length c'.branch.length} (hd : readCase base c' = some d)
    (u : Upd c'.bus.length c'.gen.length c'.branch.length) (hr : Index.int2ext (write c' u) = some r) (z : Off) :
    ∃ bp gp lp, Bridge c (zeroOff z r) z d u bp gp lp := by
  obtain ⟨bp, gp, lp, B, -⟩ := bridge_rows hs h he hd u hr z
  exact ⟨bp, gp, lp, B⟩

/-! ### Sums over the rows of the returned tables -/

section
variable {c R : Index.Case Tables} {z : Off} {nb ng nl : ℕ} {d : Case nb ng nl} {u : Upd nb ng nl} {bp : Fin nb → ℕ} {gp : Fin ng → ℕ} {lp : Fin nl → ℕ}
  (B : Bridge c R z d u bp gp lp) (h : WF c)

include h in
/-- Bus numbers are distinct. -/
theorem num_inj {i j : ℕ} {a b : BusRow BusD} (ha : c.bus[i]? = some a) (hb : c.bus[j]? = some b) (hn : a.num = b.num) : i = j := by
  have hnd := h.busNodup
  have hi := (List.getElem?_eq_some_iff.1 ha).1
  have hj := (List.getElem?_eq_some_iff.1 hb).1
  have h1 : (c.bus.map (·.num))[i]? = some a.num := by rw [List.getElem?_map, ha]; rfl
  have h2 : (c.bus.map (·.num))[j]? = some a.num := by rw [List.getElem?_map, hb, hn]; rfl
  obtain ⟨h1', e1⟩ := List.getElem?_eq_some_iff.1 h1
  obtain ⟨h2', e2⟩ := List.getElem?_eq_some_iff.1 h2
  exact (List.Nodup.getElem_inj_iff hnd).1 (e1.trans e2.symm)

include B h in
theorem Bridge.sameBus {k j : Fin nb} {a b : BusRow BusD} (ha : c.bus[bp k]? = some a) (hb : c.bus[bp j]? = some b) : a.num = b.num ↔ k = j := by
  constructor
  · intro hn
    exact B.bInj (num_inj h ha hb hn)
  · rintro rfl
    rw [ha] at hb
    cases hb
    rfl

include B in
theorem Bridge.bus_at {i : ℕ} {b : BusRow BusD} (hb : R.bus[i]? = some b) : ∃ b0, c.bus[i]? = some b0 ∧ b.num = b0.num ∧ b.typ = b0.typ ∧
    (b0.typ ≠ 4 → ∃ k, bp k = i ∧ b = { b0 with data := u.bus k b0.data }) ∧ (b0.typ = 4 → b = b0) := by
  have hi : i < c.bus.length := by rw [← B.busLen]; exact (List.getElem?_eq_some_iff.1 hb).1
  have h0 := List.getElem?_eq_getElem hi
  refine ⟨_, h0, ?_⟩
  by_cases ht : c.bus[i].typ = 4
  · have := B.busOff i _ h0 ht
    rw [hb] at this
    cases this
    exact ⟨rfl, rfl, fun h => absurd ht h, fun _ => rfl⟩
  · obtain ⟨k, hk⟩ := B.busOn i _ h0 ht
    obtain ⟨b1, h1, -, h3, -⟩ := B.bus k
    rw [hk] at h1 h3
    rw [h0] at h1; cases h1
    rw [hb] at h3; cases h3
    exact ⟨rfl, rfl, fun _ => ⟨k, hk, rfl⟩, fun h => absurd h ht⟩

include B in
theorem Bridge.gen_at {i : ℕ} {g : GenRow GenD} (hg : R.gen[i]? = some g) : ∃ g0, c.gen[i]? = some g0 ∧ g.bus = g0.bus ∧ g.status = g0.status ∧
    (GenInService c g0 → ∃ k, gp k = i ∧ g = { g0 with data := u.gen k g0.data }) ∧
    (¬ GenInService c g0 → g = { g0 with data := z.gen g0.data }) := by
  have hi : i < c.gen.length := by rw [← B.genLen]; exact (List.getElem?_eq_some_iff.1 hg).1
  have h0 := List.getElem?_eq_getElem hi
  refine ⟨_, h0, ?_⟩
  by_cases ht : GenInService c c.gen[i]
  · obtain ⟨k, hk⟩ := B.genOn i _ h0 ht
    obtain ⟨b1, h1, -, h3, -⟩ := B.gen k
    rw [hk] at h1 h3
    rw [h0] at h1; cases h1
    rw [hg] at h3; cases h3
    exact ⟨rfl, rfl, fun _ => ⟨k, hk, rfl⟩, fun h => absurd ht h⟩
  · have := B.genOff i _ h0 ht
    rw [hg] at this
    cases this
    exact ⟨rfl, rfl, fun h => absurd h ht, fun _ => rfl⟩

include B in
theorem Bridge.branch_at {i : ℕ} {l : BranchRow BrD} (hl : R.branch[i]? = some l) : ∃ l0, c.branch[i]? = some l0 ∧ l.f = l0.f ∧ l.t = l0.t ∧ l.status = l0.status ∧
    (BranchInService c l0 → ∃ k, lp k = i ∧ l = { l0 with data := u.branch k l0.data }) ∧
    (¬ BranchInService c l0 → l = { l0 with data := z.branch l0.data }) := by
  have hi : i < c.branch.length := by rw [← B.brLen]; exact (List.getElem?_eq_some_iff.1 hl).1
  have h0 := List.getElem?_eq_getElem hi
  refine ⟨_, h0, ?_⟩
  by_cases ht : BranchInService c c.branch[i]
  · obtain ⟨k, hk⟩ := B.brOn i _ h0 ht
    obtain ⟨b1, h1, -, h3, -⟩ := B.branch k
    rw [hk] at h1 h3
    rw [h0] at h1; cases h1
    rw [hl] at h3; cases h3
    exact ⟨rfl, rfl, rfl, fun _ => ⟨k, hk, rfl⟩, fun h => absurd ht h⟩
  · have := B.brOff i _ h0 ht
    rw [hl] at this
    cases this
    exact ⟨rfl, rfl, rfl, fun h => absurd h ht, fun _ => rfl⟩

include B in
/-- Which equipment is in service is the same before and after. -/
theorem Bridge.connected (n : ℕ) : Connected R n ↔ Connected c n := by
  constructor
  · rintro ⟨b, hb, h1, h2⟩
    obtain ⟨i, hi⟩ := List.getElem?_of_mem hb
    obtain ⟨b0, h3, h4, h5, -⟩ := B.bus_at hi
    exact ⟨b0, List.mem_of_getElem? h3, by rw [← h4]; exact h1, by rw [← h5]; exact h2⟩
  · rintro ⟨b, hb, h1, h2⟩
    obtain ⟨i, hi⟩ := List.getElem?_of_mem hb
    obtain ⟨k, hk⟩ := B.busOn i b hi h2
    obtain ⟨b1, h3, -, h4, -⟩ := B.bus k
    rw [hk] at h3 h4
    rw [hi] at h3; cases h3
    exact ⟨_, List.mem_of_getElem? h4, h1, h2⟩

include B h in
theorem Bridge.genSum {k : Fin nb} {b : BusRow BusD} (hb : c.bus[bp k]? = some b) (f : GenD → ℝ) (w : Fin ng → ℝ)
    (hw : ∀ p g, f (u.gen p g) = w p) (hz : ∀ g : GenD, f (z.gen g) = 0) :
    genAt R b.num f = ∑ p with (d.gen p).bus = k, w p := by
  unfold genAt
  rw [filter_sum, Finset.sum_filter]
  refine sum_rows R.gen gp B.gInj _ _ ?_ ?_
  · intro p
    obtain ⟨g, -, -, h3, ⟨b', hb', hn⟩, -⟩ := B.gen p
    refine ⟨_, h3, ?_⟩
    have : (g.bus == b.num) = decide ((d.gen p).bus = k) := by
      rw [← hn]
      have := B.sameBus h hb' hb
      by_cases e : (d.gen p).bus = k <;> simp [e, this]
    simp only [this, hw, decide_eq_true_eq]
  · intro i g hi hk
    obtain ⟨g0, -, -, -, h4, h5⟩ := B.gen_at hi
    have : ¬ GenInService c g0 := fun hh => by
      obtain ⟨k, e, -⟩ := h4 hh
      exact hk k e
    rw [h5 this]
    simp [hz]

include B h in
theorem Bridge.brSum {k : Fin nb} {b : BusRow BusD} (hb : c.bus[bp k]? = some b) (f : BrD → ℝ) (w : Fin nl → ℝ)
    (hw : ∀ p l, f (u.branch p l) = w p)
    (hz : ∀ l : BrD, f (z.branch l) = 0) :
    fromAt R b.num f = ∑ p with (d.branch p).f = k, w p ∧ toAt R b.num f = ∑ p with (d.branch p).t = k, w p := by
  unfold fromAt toAt
  rw [filter_sum, Finset.sum_filter, filter_sum, Finset.sum_filter]
  have off : ∀ (i : ℕ) l, R.branch[i]? = some l → (∀ k, lp k ≠ i) → f l.data = 0 := by
    intro i l hi hk
    obtain ⟨l0, -, -, -, -, h4, h5⟩ := B.branch_at hi
    have : ¬ BranchInService c l0 := fun hh => by
      obtain ⟨k, e, -⟩ := h4 hh
      exact hk k e
    rw [h5 this]
    exact hz _
  constructor
  · refine sum_rows R.branch lp B.lInj _ _ ?_ ?_
    · intro p
      obtain ⟨l, -, -, h3, ⟨b', hb', hn⟩, -⟩ := B.branch p
      refine ⟨_, h3, ?_⟩
      have : (l.f == b.num) = decide ((d.branch p).f = k) := by
        rw [← hn]
        have := B.sameBus h hb' hb
        by_cases e : (d.branch p).f = k <;> simp [e, this]
      simp only [this, hw, decide_eq_true_eq]
    · intro i l hi hk
      simp [off i l hi hk]
  · refine sum_rows R.branch lp B.lInj _ _ ?_ ?_
    · intro p
      obtain ⟨l, -, -, h3, -, ⟨b', hb', hn⟩, -⟩ := B.branch p
      refine ⟨_, h3, ?_⟩
      have : (l.t == b.num) = decide ((d.branch p).t = k) := by
        rw [← hn]
        have := B.sameBus h hb' hb
        by_cases e : (d.branch p).t = k <;> simp [e, this]
      simp only [this, hw, decide_eq_true_eq]
    · intro i l hi hk
      simp [off i l hi hk]

end

section bridge
variable {c R : Index.Case Tables} {z : Off} {nb ng nl : ℕ} {d : Case nb ng nl} {u : Upd nb ng nl} {bp : Fin nb → ℕ} {gp : Fin ng → ℕ} {lp : Fin nl → ℕ}
  (B : Bridge c R z d u bp gp lp) (h : WF c)

include B

theorem Bridge.genIn_iff {g g' : GenRow GenD} (h1 : g'.bus = g.bus) (h2 : g'.status = g.status) : GenInService R g' ↔ GenInService c g := by
  unfold GenInService
  rw [h1, h2, B.connected]

theorem Bridge.brIn_iff {l l' : BranchRow BrD} (h1 : l'.f = l.f) (h2 : l'.t = l.t) (h3 : l'.status = l.status) :
    BranchInService R l' ↔ BranchInService c l := by
  unfold BranchInService
  rw [h1, h2, h3, B.connected, B.connected]

/-- A connected bus of the returned table. -/
theorem Bridge.busRow {b : BusRow BusD} (hb : b ∈ R.bus) (ht : b.typ ≠ 4) :
    ∃ (k : Fin nb) (b0 : BusRow BusD), c.bus[bp k]? = some b0 ∧ b = { b0 with data := u.bus k b0.data } ∧
      d.bus k = ⟨b0.data.PD, b0.data.QD, b0.data.GS, b0.data.BS⟩ ∧ d.isRef k = (b0.typ == 3) ∧ d.va k = b0.data.VA ∧
      d.vmin k = b0.data.VMIN ∧ d.vmax k = b0.data.VMAX := by
  obtain ⟨i, hi⟩ := List.getElem?_of_mem hb
  obtain ⟨b0, h0, -, h2, h3, -⟩ := B.bus_at hi
  obtain ⟨k, hk, e⟩ := h3 (by rw [← h2]; exact ht)
  obtain ⟨b1, h4, -, -, h5⟩ := B.bus k
  rw [hk, h0] at h4; cases h4
  exact ⟨k, b0, by rw [hk]; exact h0, e, h5⟩

/-- A generator in service of the returned table. -/
theorem Bridge.genRow {g : GenRow GenD} (hg : g ∈ R.gen) (hon : GenInService R g) :
    ∃ (k : Fin ng) (g0 : GenRow GenD), c.gen[gp k]? = some g0 ∧ g = { g0 with data := u.gen k g0.data } ∧
      (∃ b, c.bus[bp (d.gen k).bus]? = some b ∧ b.num = g0.bus) ∧ (d.gen k).stat = g0.status ∧
      d.pmin k = g0.data.PMIN ∧ d.pmax k = g0.data.PMAX ∧ d.qmin k = g0.data.QMIN ∧ d.qmax k = g0.data.QMAX := by
  obtain ⟨i, hi⟩ := List.getElem?_of_mem hg
  obtain ⟨g0, h0, h1, h2, h3, -⟩ := B.gen_at hi
  obtain ⟨k, hk, e⟩ := h3 ((B.genIn_iff h1 h2).1 hon)
  obtain ⟨g1, h4, -, -, h5⟩ := B.gen k
  rw [hk, h0] at h4; cases h4
  exact ⟨k, g0, by rw [hk]; exact h0, e, h5⟩

/-- A branch in service of the returned table. -/
theorem Bridge.brRow {l : BranchRow BrD} (hl : l ∈ R.branch) (hon : BranchInService R l) :
    ∃ (k : Fin nl) (l0 : BranchRow BrD), c.branch[lp k]? = some l0 ∧ l = { l0 with data := u.branch k l0.data } ∧
      (∃ b, c.bus[bp (d.branch k).f]? = some b ∧ b.num = l0.f) ∧ (∃ b, c.bus[bp (d.branch k).t]? = some b ∧ b.num = l0.t) ∧
      (d.branch k).r = l0.data.r ∧ (d.branch k).x = l0.data.x ∧ (d.branch k).b = l0.data.b ∧ (d.branch k).tap = l0.data.tap ∧
      (d.branch k).shift = l0.data.shift ∧ (d.branch k).stat = l0.status ∧ d.rateA k = l0.data.rateA := by
  obtain ⟨i, hi⟩ := List.getElem?_of_mem hl
  obtain ⟨l0, h0, h1, h2, h3, h4, -⟩ := B.branch_at hi
  obtain ⟨k, hk, e⟩ := h4 ((B.brIn_iff h1 h2 h3).1 hon)
  obtain ⟨l1, h5, -, -, h6⟩ := B.branch k
  rw [hk, h0] at h5; cases h5
  exact ⟨k, l0, by rw [hk]; exact h0, e, h6⟩

/-- The bus of a given number, in the returned table. -/
theorem Bridge.busOf {b : BusRow BusD} (hb : b ∈ R.bus) (k : Fin nb) {b0 : BusRow BusD} (h0 : c.bus[bp k]? = some b0) (hn : b.num = b0.num) (h : WF c) :
    b = { b0 with data := u.bus k b0.data } := by
  obtain ⟨i, hi⟩ := List.getElem?_of_mem hb
  obtain ⟨b1, h1, h2, -⟩ := B.bus_at hi
  have e : i = bp k := num_inj h h1 h0 (by rw [← h2, hn])
  obtain ⟨b2, h3, -, h4, -⟩ := B.bus k
  rw [h0] at h3; cases h3
  rw [e, h4] at hi
  exact (Option.some_injective _ hi).symm

/-- Inputs (what `fb`, `fg`, `fl` read) are kept, results of equipment out of service are zero. -/
theorem Bridge.kept {β γ δ : Type} {fb : BusRow BusD → β} {fg : GenRow GenD → γ} {fl : BranchRow BrD → δ}
    (hub : ∀ k b, fb { b with data := u.bus k b.data } = fb b)
    (hug : ∀ k g, fg { g with data := u.gen k g.data } = fg g) (hul : ∀ k l, fl { l with data := u.branch k l.data } = fl l)
    (hzg : ∀ g, fg { g with data := z.gen g.data } = fg g ∧ (z.gen g.data).PG = 0 ∧ (z.gen g.data).QG = 0)
    (hzl : ∀ l, fl { l with data := z.branch l.data } = fl l ∧ (z.branch l.data).PF = 0 ∧ (z.branch l.data).QF = 0 ∧
      (z.branch l.data).PT = 0 ∧ (z.branch l.data).QT = 0) :
    R.bus.map fb = c.bus.map fb ∧ R.gen.map fg = c.gen.map fg ∧ R.branch.map fl = c.branch.map fl ∧
    (∀ g ∈ R.gen, ¬ GenInService R g → g.data.PG = 0 ∧ g.data.QG = 0) ∧
    (∀ l ∈ R.branch, ¬ BranchInService R l → l.data.PF = 0 ∧ l.data.QF = 0 ∧ l.data.PT = 0 ∧ l.data.QT = 0) := by
  refine ⟨?_, ?_, ?_, ?_, ?_⟩
  · apply List.ext_getElem (by simp [B.busLen])
    intro i h1 h2
    have hi : i < R.bus.length := by simpa using h1
    obtain ⟨b0, h0, -, -, h3, h4⟩ := B.bus_at (List.getElem?_eq_getElem hi)
    obtain ⟨h5, rfl⟩ := List.getElem?_eq_some_iff.1 h0
    simp only [List.getElem_map]
    by_cases ht : c.bus[i].typ = 4
    · rw [h4 ht]
    · obtain ⟨k, -, e⟩ := h3 ht
      rw [e, hub]
  · apply List.ext_getElem (by simp [B.genLen])
    intro i h1 h2
    have hi : i < R.gen.length := by simpa using h1
    obtain ⟨b0, h0, -, -, h3, h4⟩ := B.gen_at (List.getElem?_eq_getElem hi)
    obtain ⟨h5, rfl⟩ := List.getElem?_eq_some_iff.1 h0
    simp only [List.getElem_map]
    by_cases ht : GenInService c c.gen[i]
    · obtain ⟨k, -, e⟩ := h3 ht
      rw [e, hug]
    · rw [h4 ht]; exact (hzg _).1
  · apply List.ext_getElem (by simp [B.brLen])
    intro i h1 h2
    have hi : i < R.branch.length := by simpa using h1
    obtain ⟨b0, h0, -, -, -, h3, h4⟩ := B.branch_at (List.getElem?_eq_getElem hi)
    obtain ⟨h5, rfl⟩ := List.getElem?_eq_some_iff.1 h0
    simp only [List.getElem_map]
    by_cases ht : BranchInService c c.branch[i]
    · obtain ⟨k, -, e⟩ := h3 ht
      rw [e, hul]
    · rw [h4 ht]; exact (hzl _).1
  · intro g hg hoff
    obtain ⟨i, hi⟩ := List.getElem?_of_mem hg
    obtain ⟨g0, h0, h1, h2, -, h4⟩ := B.gen_at hi
    rw [h4 fun hh => hoff ((B.genIn_iff h1 h2).2 hh)]
    exact (hzg _).2
  · intro l hl hoff
    obtain ⟨i, hi⟩ := List.getElem?_of_mem hl
    obtain ⟨l0, h0, h1, h2, h3, -, h5⟩ := B.branch_at hi
    rw [h5 fun hh => hoff ((B.brIn_iff h1 h2 h3).2 hh)]
    exact (hzl _).2

end bridge

/-- The conversions of a well-formed case never raise, whatever columns are written in between. -/
theorem bridge_exists {srt : List ℕ → List ℕ} (hs : IsArgsort srt) (base : ℝ) {c : Index.Case Tables} (h : WF c) :
    ∃ (c' : Index.Case Tables) (d : Case c'.bus.length c'.gen.length c'.branch.length), Index.ext2int srt c = some c' ∧ readCase base c' = some d ∧
      ∀ u, ∃ r, Index.int2ext (write c' u) = some r := by
  obtain ⟨c', pos, apos, he, -, -, hres⟩ := Index.C04_results_land_on_right_rows hs h
  obtain ⟨c2, -, -, he2, -, -, hg, hl, -⟩ := Index.C02_consecutive_consistent hs h
  rw [he] at he2; cases he2
  refine ⟨c', ?_⟩
  unfold readCase
  rw [dif_pos ⟨fun k => hg _ (List.getElem_mem _), fun k => hl _ (List.getElem_mem _)⟩]
  refine ⟨_, he, rfl, fun u => ?_⟩
  obtain ⟨r, hr, -⟩ := hres _ (write_solved c' u)
  exact ⟨r, hr⟩

end Verif.Opf
