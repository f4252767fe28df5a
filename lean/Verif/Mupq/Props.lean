import Verif.Mupq.Model
import Verif.Constr.Lemmas

/-!
# C64: multipliers of the capability curves
-/

open Verif.NumPy Verif.Constr

namespace Verif.Mupq

noncomputable section

/-! ## Specification -/

/-- Value of a list as a linear form on the coordinates `off, off+1, ..`. -/
def form (l : List ℝ) (off : Nat) (x : Nat → ℝ) : ℝ := ((List.range l.length).map fun i => l.getD i 0 * x (off + i)).sum

/-- First-order change of the Lagrangian terms of the generator limits (multipliers per MW) for a change `x` of the outputs: active outputs are
coordinates `0..ng-1`, reactive outputs `ng..2ng-1`. -/
def limitTerm (mu : List GenMu) (x : Nat → ℝ) : ℝ :=
  form (mu.map fun g => g.pmax - g.pmin) 0 x + form (mu.map fun g => g.qmax - g.qmin) mu.length x

/-- First-order change of the Lagrangian terms of linear constraints `A x ≤ ..` with multipliers `u` and `l` on the two sides. -/
def linTerm (c : Lin) (l u : List ℝ) (x : Nat → ℝ) : ℝ := ((List.range c.n).map fun k => (u.getD k 0 - l.getD k 0) * c.A.row x k).sum

/-! ## Proofs -/

theorem sum_map_sub {α : Type*} (l : List α) (f g : α → ℝ) : (l.map fun a => f a - g a).sum = (l.map f).sum - (l.map g).sum := by
  induction l with
  | nil => simp
  | cons a l ih => simp only [List.map_cons, List.sum_cons, ih]; ring

theorem sum_map_add {α : Type*} (l : List α) (f g : α → ℝ) : (l.map fun a => f a + g a).sum = (l.map f).sum + (l.map g).sum := by
  induction l with
  | nil => simp
  | cons a l ih => simp only [List.map_cons, List.sum_cons, ih]; ring

theorem range_single (n i : Nat) (c : ℝ) (hi : i < n) : ((List.range n).map fun j => if j = i then c else 0).sum = c := by
  induction n with
  | zero => omega
  | succ n ih =>
    rw [List.range_succ, List.map_append, List.sum_append]
    by_cases h : i = n
    · subst h
      have : ((List.range i).map fun j => if j = i then c else 0).sum = 0 := by
        apply List.sum_eq_zero
        intro x hx
        obtain ⟨j, hj, rfl⟩ := List.mem_map.1 hx
        rw [if_neg (by have := List.mem_range.1 hj; omega)]
      rw [this]; simp
    · rw [ih (by omega)]; simp [Ne.symm h]

theorem form_set (l : List ℝ) (i : Nat) (v : ℝ) (hi : i < l.length) (off : Nat) (x : Nat → ℝ) :
    form (l.set i v) off x = form l off x + (v - l.getD i 0) * x (off + i) := by
  unfold form
  rw [List.length_set]
  have : ∀ j ∈ List.range l.length, (l.set i v).getD j 0 * x (off + j)
      = l.getD j 0 * x (off + j) + if j = i then (v - l.getD i 0) * x (off + i) else 0 := by
    intro j hj
    by_cases h : j = i
    · subst h
      rw [if_pos rfl, List.getD_eq_getElem?_getD, List.getElem?_set_self hi]
      simp; ring
    · rw [if_neg h, List.getD_eq_getElem?_getD, List.getElem?_set_ne (Ne.symm h), ← List.getD_eq_getElem?_getD, add_zero]
  rw [List.map_congr_left this, sum_map_add, range_single _ _ _ hi]

theorem form_scatter (idx : List Nat) (l r vs : List ℝ) (hn : idx.Nodup) (h : scatter l idx vs = some r) (off : Nat) (x : Nat → ℝ) :
    form r off x = form l off x + (List.zipWith (fun i v => (v - l.getD i 0) * x (off + i)) idx vs).sum ∧ r.length = l.length := by
  induction idx generalizing l vs with
  | nil =>
    cases vs with
    | nil => simp [scatter] at h; subst h; simp
    | cons v vs => simp [scatter] at h
  | cons i idx ih =>
    cases vs with
    | nil => simp [scatter] at h
    | cons v vs =>
      rw [List.nodup_cons] at hn
      unfold scatter at h
      split at h
      · rename_i hi
        obtain ⟨h1, h2⟩ := ih (l.set i v) vs hn.2 h
        refine ⟨?_, by rw [h2, List.length_set]⟩
        rw [h1, form_set l i v hi, List.zipWith_cons_cons, List.sum_cons, add_assoc]
        congr 2
        have hmem : ∀ j ∈ idx, (l.set i v).getD j 0 = l.getD j 0 := by
          intro j hj
          have : i ≠ j := fun h => hn.1 (h ▸ hj)
          rw [List.getD_eq_getElem?_getD, List.getElem?_set_ne this, ← List.getD_eq_getElem?_getD]
        clear h h1 h2 ih hn
        induction idx generalizing vs with
        | nil => rfl
        | cons j idx ih2 =>
          cases vs with
          | nil => rfl
          | cons w vs =>
            rw [List.zipWith_cons_cons, List.zipWith_cons_cons, hmem j (by simp), List.sum_cons, List.sum_cons, ih2 _ fun k hk => hmem k (by simp [hk])]
      · cases h

/-- The subtraction as a linear form. -/
theorem subtract_spec (baseMVA : ℝ) (mu : List ℝ) (ipq : List Nat) (hn : ipq.Nodup) (hr : ∀ i ∈ ipq, i < mu.length) (muPQ : List ℝ) (d : List Half)
    (f : Half → ℝ) (h1 : muPQ.length = ipq.length) (h2 : d.length = ipq.length) (hd : d ≠ []) :
    ∃ r, subtract baseMVA mu ipq muPQ d f = some r ∧ r.length = mu.length ∧ ∀ off x, form r off x
      = form mu off x - ((List.range ipq.length).map fun k => muPQ.getD k 0 * ((d.map f).getD k 0 * x (off + ipq.getD k 0))).sum / baseMVA := by
  obtain ⟨old, ho⟩ := gather_isSome mu ipq hr
  have hol := gather_length ho
  obtain ⟨r, hr1, -⟩ := scatter_spec mu ipq (List.zipWith (fun o t => o - t / baseMVA) old (List.zipWith (· * ·) muPQ (d.map f))) hn hr
    (by simp [hol, h1, h2])
  refine ⟨r, ?_, (form_scatter ipq mu r _ hn hr1 0 fun _ => 0).2, ?_⟩
  · unfold subtract column
    rw [ho, if_neg hd]
    simp only [Option.bind_eq_bind, Option.bind_some, List.length_map]
    rw [if_pos ⟨by omega, by omega⟩, hr1]
  · intro off x
    rw [(form_scatter ipq mu r _ hn hr1 off x).1, sub_eq_add_neg]
    congr 1
    have hg := gather_get ho
    have : List.zipWith (fun i v => (v - mu.getD i 0) * x (off + i)) ipq (List.zipWith (fun o t => o - t / baseMVA) old (List.zipWith (· * ·) muPQ (d.map f)))
        = (List.range ipq.length).map fun k => -(muPQ.getD k 0 * ((d.map f).getD k 0 * x (off + ipq.getD k 0))) / baseMVA := by
      apply List.ext_getElem?
      intro k
      by_cases hk : k < ipq.length
      · have hi : ipq[k]? = some ipq[k] := List.getElem?_eq_getElem hk
        have hgk := hg k
        have him : ipq[k] < mu.length := hr _ (List.getElem_mem hk)
        rw [hi, Option.bind_some, List.getElem?_eq_getElem him] at hgk
        rw [List.getElem?_zipWith, List.getElem?_zipWith, List.getElem?_zipWith, hgk, hi]
        rw [List.getElem?_eq_getElem (l := muPQ) (by omega), List.getElem?_eq_getElem (l := d.map f) (by simp; omega), List.getElem?_map,
          List.getElem?_range hk]
        simp only [Option.map_some, Option.some.injEq, List.getD_eq_getElem?_getD, hi, Option.getD_some]
        rw [List.getElem?_eq_getElem (l := muPQ) (by omega), List.getElem?_eq_getElem (l := d.map f) (by simp; omega),
          List.getElem?_eq_getElem him]
        simp only [Option.getD_some]
        ring
      · rw [List.getElem?_eq_none (by simp; omega), List.getElem?_eq_none (by simp; omega)]
    rw [this]
    have hneg : ∀ (l : List Nat) (g : Nat → ℝ), (l.map fun k => -(g k) / baseMVA).sum = -((l.map g).sum / baseMVA) := by
      intro l g
      induction l with
      | nil => simp
      | cons a l ih => simp only [List.map_cons, List.sum_cons, ih]; ring
    exact hneg _ _

theorem posPart_sub (m : ℝ) : posPart m - negPart m = m := by
  unfold posPart negPart
  by_cases h : 0 < m
  · simp [h, not_lt.2 h.le]
  · by_cases h' : m < 0
    · simp [h, h']
    · have : m = 0 := le_antisymm (not_lt.1 h) (not_lt.1 h')
      simp [this]

theorem parts_nonneg (m : ℝ) : 0 ≤ posPart m ∧ 0 ≤ negPart m ∧ posPart m * negPart m = 0 := by
  unfold posPart negPart
  by_cases h : 0 < m
  · simp [h, not_lt.2 h.le, h.le]
  · by_cases h' : m < 0
    · simp [h, h', h'.le]
    · simp [h, h']

theorem halfRows_spec (baseMVA : ℝ) (mask : Gen → Bool) (half : Gen → Half) (gen : List Gen) :
    ∃ c, halfRows baseMVA mask half gen = some c ∧ c.n = (find (gen.map mask)).length
      ∧ ∀ x, ∀ k < c.n, c.A.row x k
        = (((gen.filter mask).map fun g => (half g).normalise).map Half.a).getD k 0 * x (0 + (find (gen.map mask)).getD k 0)
          + (((gen.filter mask).map fun g => (half g).normalise).map Half.b).getD k 0 * x (gen.length + (find (gen.map mask)).getD k 0) := by
  unfold halfRows
  simp only [gather_find, Option.bind_eq_bind, Option.bind_some]
  refine ⟨_, rfl, rfl, ?_⟩
  intro x k hk
  have hl : (find (gen.map mask)).length = (gen.filter mask).length := find_map_length mask gen
  have hk' : k < (find (gen.map mask)).length := hk
  simp only
  rw [row_twoBlocks _ _ _ _ _ rfl (by simp) (by simp [hl]) (by simp [hl]) x k hk]
  simp only [List.getD_eq_getElem?_getD, List.getElem?_map, List.getElem?_eq_getElem hk', List.getElem_map,
    List.getElem?_eq_getElem (show k < (gen.filter mask).length by omega), Option.map_some, Option.getD_some]
  rw [Nat.zero_add, Nat.add_comm gen.length]

/-- **C64 (partial).** When both kinds of sloped capability constraints are present: after a successful OPF the multipliers of the generator limits have
absorbed those of the sloped constraints: for every change of the generator outputs (in MW) the limit terms of the Lagrangian now change by as much as the
limit terms and the sloped constraint terms together did before; all four multipliers are non-negative and at most one of each pair is
non-zero. Missing: only one of the two kinds is present, see `C64_negation`. -/
theorem C64_partial (baseMVA : ℝ) (gen : List Gen) (mu : List GenMu) (hlen : mu.length = gen.length) (lh uh ll ul : List ℝ)
    (hU : ∃ g ∈ gen, hasPQcapU g = true) (hL : ∃ g ∈ gen, hasPQcapL g = true) (h l : Lin) (hA : makeApq baseMVA gen = some (h, l))
    (h1 : lh.length = h.n) (h2 : uh.length = h.n) (h3 : ll.length = l.n) (h4 : ul.length = l.n) :
    ∃ r, execute baseMVA gen mu lh uh ll ul = some r ∧ r.length = mu.length
      ∧ (∀ x, limitTerm r x = limitTerm mu x + linTerm h lh uh x / baseMVA + linTerm l ll ul x / baseMVA)
      ∧ ∀ g ∈ r, 0 ≤ g.pmax ∧ 0 ≤ g.pmin ∧ 0 ≤ g.qmax ∧ 0 ≤ g.qmin ∧ g.pmax * g.pmin = 0 ∧ g.qmax * g.qmin = 0 := by
  obtain ⟨ch, hch, hchn, hrowh⟩ := halfRows_spec baseMVA hasPQcapU upperHalf gen
  obtain ⟨cl, hcl, hcln, hrowl⟩ := halfRows_spec baseMVA hasPQcapL lowerHalf gen
  unfold makeApq at hA
  simp only [hch, hcl, Option.bind_eq_bind, Option.bind_some, Option.some.injEq, Prod.mk.injEq] at hA
  obtain ⟨rfl, rfl⟩ := hA
  have hU0 : gen.filter hasPQcapU ≠ [] := by
    obtain ⟨g, hg, hp⟩ := hU
    exact List.ne_nil_of_mem (List.mem_filter.2 ⟨hg, hp⟩)
  have hL0 : gen.filter hasPQcapL ≠ [] := by
    obtain ⟨g, hg, hp⟩ := hL
    exact List.ne_nil_of_mem (List.mem_filter.2 ⟨hg, hp⟩)
  have hlU : (find (gen.map hasPQcapU)).length = (gen.filter hasPQcapU).length := find_map_length hasPQcapU gen
  have hlL : (find (gen.map hasPQcapL)).length = (gen.filter hasPQcapL).length := find_map_length hasPQcapL gen
  have hrange : ∀ (p : Gen → Bool) (i : Nat), i ∈ find (gen.map p) → i < gen.length := by
    intro p i hi
    rw [mem_find] at hi
    simpa using (List.getElem?_eq_some_iff.1 hi).1
  have hmh : (List.zipWith (· - ·) lh uh).length = (find (gen.map hasPQcapU)).length := by simp [h1, h2, hchn]
  have hml : (List.zipWith (· - ·) ll ul).length = (find (gen.map hasPQcapL)).length := by simp [h3, h4, hcln]
  obtain ⟨p1, hp1, hp1l, hp1f⟩ := subtract_spec baseMVA (mu.map fun g => g.pmax - g.pmin) _ (find_nodup _)
    (fun i hi => by simpa [hlen] using hrange _ i hi) _ ((gen.filter hasPQcapU).map fun g => (upperHalf g).normalise) Half.a hmh (by simp [hlU]) (by simpa using hU0)
  obtain ⟨q1, hq1, hq1l, hq1f⟩ := subtract_spec baseMVA (mu.map fun g => g.qmax - g.qmin) _ (find_nodup _)
    (fun i hi => by simpa [hlen] using hrange _ i hi) _ ((gen.filter hasPQcapU).map fun g => (upperHalf g).normalise) Half.b hmh (by simp [hlU]) (by simpa using hU0)
  obtain ⟨p2, hp2, hp2l, hp2f⟩ := subtract_spec baseMVA p1 _ (find_nodup _)
    (fun i hi => by simpa [hp1l, hlen] using hrange _ i hi) _ ((gen.filter hasPQcapL).map fun g => (lowerHalf g).normalise) Half.a hml (by simp [hlL]) (by simpa using hL0)
  obtain ⟨q2, hq2, hq2l, hq2f⟩ := subtract_spec baseMVA q1 _ (find_nodup _)
    (fun i hi => by simpa [hq1l, hlen] using hrange _ i hi) _ ((gen.filter hasPQcapL).map fun g => (lowerHalf g).normalise) Half.b hml (by simp [hlL]) (by simpa using hL0)
  have hpl : p2.length = mu.length := by rw [hp2l, hp1l]; simp
  have hql : q2.length = mu.length := by rw [hq2l, hq1l]; simp
  have hpos : 0 < (find (gen.map hasPQcapU)).length := by rw [hlU]; exact List.length_pos_iff.2 hU0
  refine ⟨List.zipWith (fun p q => ⟨posPart p, negPart p, posPart q, negPart q⟩) p2 q2, ?_, by simp [hpl, hql], ?_, ?_⟩
  · unfold execute apqData
    simp only [gather_find, Option.bind_eq_bind, Option.bind_some]
    rw [if_pos (Or.inl hpos)]
    unfold update_mupq
    simp only [hp1, hq1, hp2, hq2, Option.bind_eq_bind, Option.bind_some]
  · intro x
    have hP : (List.zipWith (fun p q => (⟨posPart p, negPart p, posPart q, negPart q⟩ : GenMu)) p2 q2).map (fun g => g.pmax - g.pmin) = p2 := by
      rw [List.map_zipWith]
      apply List.ext_getElem?
      intro k
      rw [List.getElem?_zipWith]
      by_cases hk : k < mu.length
      · rw [List.getElem?_eq_getElem (l := p2) (by omega), List.getElem?_eq_getElem (l := q2) (by omega)]
        simp [posPart_sub]
      · rw [List.getElem?_eq_none (l := p2) (by omega)]
    have hQ : (List.zipWith (fun p q => (⟨posPart p, negPart p, posPart q, negPart q⟩ : GenMu)) p2 q2).map (fun g => g.qmax - g.qmin) = q2 := by
      rw [List.map_zipWith]
      apply List.ext_getElem?
      intro k
      rw [List.getElem?_zipWith]
      by_cases hk : k < mu.length
      · rw [List.getElem?_eq_getElem (l := p2) (by omega), List.getElem?_eq_getElem (l := q2) (by omega)]
        simp [posPart_sub]
      · rw [List.getElem?_eq_none (l := p2) (by omega), List.getElem?_eq_none (l := q2) (by omega)]
    have hterm : ∀ (c : Lin) (ipq : List Nat) (d : List Half) (l u : List ℝ), c.n = ipq.length → l.length = c.n → u.length = c.n →
        (∀ k < c.n, c.A.row x k = (d.map Half.a).getD k 0 * x (0 + ipq.getD k 0) + (d.map Half.b).getD k 0 * x (gen.length + ipq.getD k 0)) →
        ((List.range ipq.length).map fun k => (List.zipWith (· - ·) l u).getD k 0 * ((d.map Half.a).getD k 0 * x (0 + ipq.getD k 0))).sum
          + ((List.range ipq.length).map fun k => (List.zipWith (· - ·) l u).getD k 0 * ((d.map Half.b).getD k 0 * x (gen.length + ipq.getD k 0))).sum
          = -linTerm c l u x := by
      intro c ipq d l u hcn hl hu hrow
      unfold linTerm
      rw [← sum_map_add, hcn]
      have hneg : ∀ (L : List Nat) (g : Nat → ℝ), -(L.map g).sum = (L.map fun k => -g k).sum := by
        intro L g
        induction L with
        | nil => simp
        | cons a L ih => simp only [List.map_cons, List.sum_cons, ← ih]; ring
      rw [hneg]
      congr 1
      apply List.map_congr_left
      intro k hk
      have hk := List.mem_range.1 hk
      rw [hrow k (by omega)]
      have : (List.zipWith (· - ·) l u).getD k 0 = l.getD k 0 - u.getD k 0 := by
        simp only [List.getD_eq_getElem?_getD, List.getElem?_zipWith]
        rw [List.getElem?_eq_getElem (l := l) (by omega), List.getElem?_eq_getElem (l := u) (by omega)]
        rfl
      rw [this]; ring
    have e1 := hterm ch _ _ lh uh hchn h1 h2 (hrowh x)
    have e2 := hterm cl _ _ ll ul hcln h3 h4 (hrowl x)
    have hrl : (List.zipWith (fun p q => (⟨posPart p, negPart p, posPart q, negPart q⟩ : GenMu)) p2 q2).length = gen.length := by simp [hpl, hql, hlen]
    unfold limitTerm
    rw [hP, hQ, hrl, hlen, hp2f, hp1f, hq2f, hq1f]
    linear_combination (-1 / baseMVA) * e1 + (-1 / baseMVA) * e2
  · intro g hg
    rw [List.mem_iff_getElem] at hg
    obtain ⟨k, hk, rfl⟩ := hg
    rw [List.getElem_zipWith]
    exact ⟨(parts_nonneg _).1, (parts_nonneg _).2.1, (parts_nonneg _).1, (parts_nonneg _).2.1, (parts_nonneg _).2.2, (parts_nonneg _).2.2⟩

/-- **C64, negation.** When only upper, or only lower, sloped constraints are present the result processing raises, whatever the solution. -/
theorem C64_negation (baseMVA : ℝ) (gen : List Gen) (mu : List GenMu) (lh uh ll ul : List ℝ)
    (h : ((∃ g ∈ gen, hasPQcapU g = true) ∧ ∀ g ∈ gen, hasPQcapL g = false) ∨ ((∃ g ∈ gen, hasPQcapL g = true) ∧ ∀ g ∈ gen, hasPQcapU g = false)) :
    execute baseMVA gen mu lh uh ll ul = none := by
  have hfil : ∀ p : Gen → Bool, (∀ g ∈ gen, p g = false) → gen.filter p = [] := by
    intro p hp
    rw [List.filter_eq_nil_iff]
    intro g hg; simp [hp g hg]
  have hpos : ∀ p : Gen → Bool, (∃ g ∈ gen, p g = true) → 0 < (find (gen.map p)).length := by
    rintro p ⟨g, hg, hp⟩
    rw [find_map_length]
    exact List.length_pos_of_mem (List.mem_filter.2 ⟨hg, hp⟩)
  have hsub : ∀ m ipq q f, subtract baseMVA m ipq q [] f = none := by
    intro m ipq q f
    unfold subtract column
    cases gather m ipq <;> simp
  unfold execute apqData
  simp only [gather_find, Option.bind_eq_bind, Option.bind_some]
  rcases h with ⟨h1, h2⟩ | ⟨h1, h2⟩
  · rw [if_pos (Or.inl (hpos _ h1))]
    unfold update_mupq
    simp only [hfil _ h2, List.map_nil, hsub]
    simp
  · rw [if_pos (Or.inr (hpos _ h1))]
    unfold update_mupq
    simp only [hfil _ h2, List.map_nil, hsub]
    rfl

/-- Without sloped constraints the table is unchanged. -/
theorem C64_none (baseMVA : ℝ) (gen : List Gen) (mu : List GenMu) (lh uh ll ul : List ℝ) (h1 : ∀ g ∈ gen, hasPQcapU g = false)
    (h2 : ∀ g ∈ gen, hasPQcapL g = false) : execute baseMVA gen mu lh uh ll ul = some mu := by
  have hz : ∀ p : Gen → Bool, (∀ g ∈ gen, p g = false) → (find (gen.map p)).length = 0 := by
    intro p hp
    rw [find_map_length, List.length_eq_zero_iff, List.filter_eq_nil_iff]
    intro g hg; simp [hp g hg]
  unfold execute apqData
  simp only [gather_find, Option.bind_eq_bind, Option.bind_some]
  rw [if_neg (by rw [hz _ h1, hz _ h2]; simp)]

/-- Non-vacuity: a generator with both slopes; its two sloped constraints carry multipliers. -/
def exGen : Gen := ⟨0, 0, 0, 100, -50, 50, 0, 100, -50, 50, -20, 20⟩

example : ∃ h l, makeApq 1 [exGen] = some (h, l) ∧ h.n = 1 ∧ l.n = 1 ∧ (∃ g ∈ [exGen], hasPQcapU g = true) ∧ (∃ g ∈ [exGen], hasPQcapL g = true)
    ∧ ∃ r, execute 1 [exGen] [⟨0, 0, 0, 0⟩] [0] [3] [0] [2] = some r := by
  have hu : hasPQcapU exGen = true := by simp [hasPQcapU, exGen]; norm_num
  have hl : hasPQcapL exGen = true := by simp [hasPQcapL, exGen]; norm_num
  obtain ⟨ch, hch, hchn, -⟩ := halfRows_spec 1 hasPQcapU upperHalf [exGen]
  obtain ⟨cl, hcl, hcln, -⟩ := halfRows_spec 1 hasPQcapL lowerHalf [exGen]
  have hmk : makeApq 1 [exGen] = some (ch, cl) := by unfold makeApq; simp [hch, hcl]
  have h1 : ch.n = 1 := by rw [hchn, find_map_length]; simp [hu]
  have h2 : cl.n = 1 := by rw [hcln, find_map_length]; simp [hl]
  obtain ⟨r, hr, -⟩ := C64_partial 1 [exGen] [⟨0, 0, 0, 0⟩] rfl [0] [3] [0] [2] ⟨_, by simp, hu⟩ ⟨_, by simp, hl⟩ ch cl hmk
    (by simp [h1]) (by simp [h1]) (by simp [h2]) (by simp [h2])
  exact ⟨ch, cl, hmk, h1, h2, ⟨_, by simp, hu⟩, ⟨_, by simp, hl⟩, r, hr⟩

end

end Verif.Mupq
