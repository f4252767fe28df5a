import Verif.Opf.UserSpec
import Verif.Opf.EconLemmas

/-! # The order in which the code applies the columns of user matrices -/

namespace Verif.Opf

open Verif.Index (BusRow GenRow BranchRow IsArgsort WF GenInService Connected posOf genU genK busK i2eOf)
open Verif.NumPy

/-- A strictly increasing list of exactly the numbers below `n`. -/
theorem eq_range {l : List ℕ} {n : ℕ} (h : l.Pairwise (· < ·)) (hm : ∀ i, i ∈ l ↔ i < n) : l = List.range n := by
  refine List.Perm.eq_of_pairwise (le := (· < ·)) (fun a b _ _ h1 h2 => by omega) h List.pairwise_lt_range ?_
  refine (List.perm_ext_iff_of_nodup (h.imp fun h => h.ne) List.nodup_range).2 fun i => ?_
  rw [hm, List.mem_range]

section
variable {srt : List ℕ → List ℕ} (hs : IsArgsort srt) {c : Index.Case Tables} (h : WF c)

include hs h

/-- The rows of the internal tables, in terms of the caller's tables. -/
theorem rowOrder : RowOrder c (posOf srt c .bus) (posOf srt c .gen) := by
  obtain ⟨c', o, pos, apos, he, -, -, K, rfl, rfl⟩ := Index.ext2int_corr hs h
  have hrb : ∀ i ∈ posOf srt c .bus, i < c.bus.length := Index.posOf_range hs c .bus
  have hrg : ∀ i ∈ posOf srt c .gen, i < c.gen.length := Index.posOf_range hs c .gen
  refine ⟨?_, K.busOrder, ?_, K.genNodup, ?_⟩
  · intro i
    simp only [onBuses, Finset.mem_filter, Finset.mem_range]
    constructor
    · intro hi
      have hl := hrb i hi
      exact ⟨hl, _, List.getElem?_eq_getElem hl, (K.busIn i _ (List.getElem?_eq_getElem hl)).1 hi⟩
    · rintro ⟨-, b, hb, ht⟩
      exact (K.busIn i b hb).2 ht
  · intro i
    simp only [onGens, Finset.mem_filter, Finset.mem_range]
    constructor
    · intro hi
      have hl := hrg i hi
      exact ⟨hl, _, List.getElem?_eq_getElem hl, (K.genIn i _ (List.getElem?_eq_getElem hl)).1 hi⟩
    · rintro ⟨-, b, hb, ht⟩
      exact (K.genIn i b hb).2 ht
  · rw [List.pairwise_iff_getElem]
    intro a b ha hb hab gi gj p q bi bj hgi hgj hp hq ep eq
    obtain ⟨g1, n1, e1, e2, i1, b1, e3, e4, e5⟩ := K.genRow a _ (List.getElem?_eq_getElem ha)
    obtain ⟨g2, n2, f1, f2, i2, b2, f3, f4, f5⟩ := K.genRow b _ (List.getElem?_eq_getElem hb)
    rw [hgi] at e1; cases e1
    rw [hgj] at f1; cases f1
    have uniq : ∀ {x y : ℕ} {bx yb}, c.bus[x]? = some bx → c.bus[y]? = some yb → bx.num = yb.num → x = y := by
      intro x y bx yb hx hy e
      have := h.busNodup
      obtain ⟨hx1, hx2⟩ := List.getElem?_eq_some_iff.1 hx
      obtain ⟨hy1, hy2⟩ := List.getElem?_eq_some_iff.1 hy
      rw [List.nodup_iff_injective_getElem] at this
      have := @this ⟨x, by simpa using hx1⟩ ⟨y, by simpa using hy1⟩ (by simp [hx2, hy2, e])
      simpa using this
    have hp' : p = i1 := uniq hp e4 (ep.trans e5.symm)
    have hq' : q = i2 := uniq hq f4 (eq.trans f5.symm)
    subst hp' hq'
    have hle : n1 ≤ n2 := by
      have := List.pairwise_iff_getElem.1 K.genSorted a b (by rw [List.length_map, K.genLen]; exact ha) (by rw [List.length_map, K.genLen]; exact hb) hab
      obtain ⟨k1, k2⟩ := List.getElem?_eq_some_iff.1 e2
      obtain ⟨k3, k4⟩ := List.getElem?_eq_some_iff.1 f2
      rw [List.getElem_map, List.getElem_map, k2, k4] at this
      exact this
    obtain ⟨l1, e3⟩ := List.getElem?_eq_some_iff.1 e3
    obtain ⟨l2, f3⟩ := List.getElem?_eq_some_iff.1 f3
    rcases hle.lt_or_eq with hlt | heq
    · have := List.pairwise_iff_getElem.1 K.busOrder n1 n2 l1 l2 hlt
      omega
    · subst heq
      omega

/-- With everything in service and in order, the order of the caller's tables. -/
theorem inOrder_pos (ho : InOrder srt c) : posOf srt c .bus = List.range c.bus.length ∧ posOf srt c .gen = List.range c.gen.length := by
  have R := rowOrder hs h
  have hbus : posOf srt c .bus = List.range c.bus.length := by
    refine eq_range R.busOrder fun i => ?_
    rw [R.bus]
    simp only [onBuses, Finset.mem_filter, Finset.mem_range]
    constructor
    · exact fun h => h.1
    · intro hi
      exact ⟨hi, _, List.getElem?_eq_getElem hi, ho.bus _ (List.getElem_mem hi)⟩
  have hconn : ∀ g ∈ c.gen, ∃ (p : ℕ) (b : BusRow BusD), c.bus[p]? = some b ∧ b.num = g.bus ∧ b.typ ≠ 4 := by
    intro g hg
    obtain ⟨b, hb, e⟩ := h.genRef g hg
    obtain ⟨p, hp⟩ := List.mem_iff_getElem?.1 hb
    exact ⟨p, b, hp, e, ho.bus b hb⟩
  have hserv : ∀ g ∈ c.gen, GenInService c g := by
    intro g hg
    obtain ⟨p, b, hp, e, ht⟩ := hconn g hg
    exact ⟨ho.gen g hg, b, List.mem_of_getElem? hp, e, ht⟩
  have hmem : ∀ i, i ∈ posOf srt c .gen ↔ i < c.gen.length := by
    intro i
    rw [R.gen]
    simp only [onGens, Finset.mem_filter, Finset.mem_range]
    constructor
    · exact fun h => h.1
    · intro hi
      exact ⟨hi, _, List.getElem?_eq_getElem hi, hserv _ (List.getElem_mem hi)⟩
  refine ⟨hbus, ?_⟩
  by_cases hst : ∀ l : List ℕ, l.Pairwise (· ≤ ·) → srt l = List.range l.length
  · -- the sort leaves the sorted list alone
    have hon : c.gen.filter (genK c.bus) = c.gen := List.filter_eq_self.2 fun g hg => (Index.genK_iff c g).2 (hserv g hg)
    have hbon : c.bus.filter busK = c.bus := List.filter_eq_self.2 fun b hb => (Index.busK_iff b).2 (ho.bus b hb)
    have hsorted : ((genU c).map (·.bus)).Pairwise (· ≤ ·) := by
      rw [List.pairwise_iff_getElem]
      intro i j hi hj hij
      simp only [genU, hon, i2eOf, hbon, List.length_map] at hi hj
      simp only [genU, hon, i2eOf, hbon, List.getElem_map, Index.GenRow.setBus]
      obtain ⟨p, b, hp, e, -⟩ := hconn c.gen[i] (List.getElem_mem hi)
      obtain ⟨q, b', hq, e', -⟩ := hconn c.gen[j] (List.getElem_mem hj)
      have idx : ∀ {x : ℕ} {b : BusRow BusD}, c.bus[x]? = some b → (c.bus.map (·.num)).idxOf b.num = x := by
        intro x b hx
        obtain ⟨hx1, hx2⟩ := List.getElem?_eq_some_iff.1 hx
        have := h.busNodup.idxOf_getElem x (by simpa using hx1)
        rw [List.getElem_map, hx2] at this
        exact this
      have e1 := idx hp
      have e2 := idx hq
      rw [e] at e1
      rw [e'] at e2
      have := ho.order i j _ _ p q b b' hij (List.getElem?_eq_getElem hi) (List.getElem?_eq_getElem hj) hp hq e e'
      erw [e1, e2]
      omega
    have hpos := Index.posOf_gen hs c
    rw [hst _ hsorted, List.length_map, Index.genU_length, gather_range] at hpos
    have := Option.some.inj hpos
    rw [← this]
    exact eq_range (find_pairwise _) fun i => by
      have := hmem i
      rw [← Option.some.inj hpos] at this
      exact this
  · -- no two generators at one bus
    refine eq_range ?_ hmem
    rw [List.pairwise_iff_getElem]
    intro a b ha hb hab
    have hia := (hmem _).1 (List.getElem_mem ha)
    have hib := (hmem _).1 (List.getElem_mem hb)
    have := List.pairwise_iff_getElem.1 R.genOrder a b ha hb hab
    obtain ⟨p, bi, hp, e, -⟩ := hconn _ (List.getElem_mem hia)
    obtain ⟨q, bj, hq, e', -⟩ := hconn _ (List.getElem_mem hib)
    have hle := this _ _ p q bi bj (List.getElem?_eq_getElem hia) (List.getElem?_eq_getElem hib) hp hq e e'
    rcases Nat.lt_trichotomy (posOf srt c .gen)[a] (posOf srt c .gen)[b] with hlt | heq | hgt
    · exact hlt
    · have := (List.Nodup.getElem_inj_iff R.genNodup).1 heq
      omega
    · have := ho.order _ _ _ _ q p bj bi hgt (List.getElem?_eq_getElem hib) (List.getElem?_eq_getElem hia) hq hp e' e
      rcases this with h1 | h1
      · omega
      · exact absurd h1.2 hst

end

end Verif.Opf
