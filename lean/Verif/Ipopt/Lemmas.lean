import Verif.Ipopt.Model
import Verif.Opf.AcLemmas
import Verif.OpfNl.HessProps

/-! # Lemmas: where the derivative matrices can be nonzero -/

open Matrix ComplexConjugate

namespace Verif.Ipopt

open Verif.Opf Verif.Network Verif.OpfNl Verif.OpfCost Verif.Pips Verif.Derivs

set_option linter.unusedSectionVars false

noncomputable section

/-- `M` vanishes outside `R`. -/
def Supp {m n K : Type*} [Zero K] (R : m → n → Prop) (M : Matrix m n K) : Prop := ∀ i j, ¬ R i j → M i j = 0

section closure
variable {m n l K K' : Type*} [Fintype m] [Fintype n] [Fintype l] [DecidableEq m] [DecidableEq n]
variable {R : m → n → Prop}

theorem Supp.add [AddZeroClass K] {M N : Matrix m n K} (hM : Supp R M) (hN : Supp R N) : Supp R (M + N) := fun i j h => by
  rw [Matrix.add_apply, hM i j h, hN i j h, add_zero]
theorem Supp.sub [AddGroup K] {M N : Matrix m n K} (hM : Supp R M) (hN : Supp R N) : Supp R (M - N) := fun i j h => by
  rw [Matrix.sub_apply, hM i j h, hN i j h, sub_zero]
theorem Supp.smul {S : Type*} [Zero K] [SMulZeroClass S K] {M : Matrix m n K} (a : S) (hM : Supp R M) : Supp R (a • M) := fun i j h => by
  rw [Matrix.smul_apply, hM i j h, smul_zero]
theorem Supp.map [Zero K] [Zero K'] {M : Matrix m n K} (f : K → K') (h0 : f 0 = 0) (hM : Supp R M) : Supp R (M.map f) := fun i j h => by
  rw [Matrix.map_apply, hM i j h, h0]
theorem Supp.diag_mul [NonUnitalNonAssocSemiring K] {M : Matrix m n K} (v : m → K) (hM : Supp R M) : Supp R (diagonal v * M) := fun i j h => by
  rw [Matrix.diagonal_mul, hM i j h, mul_zero]
theorem Supp.mul_diag [NonUnitalNonAssocSemiring K] {M : Matrix m n K} (v : n → K) (hM : Supp R M) : Supp R (M * diagonal v) := fun i j h => by
  rw [Matrix.mul_diagonal, hM i j h, zero_mul]
theorem Supp.transpose [Zero K] {M : Matrix m n K} (hM : Supp R M) : Supp (fun j i => R i j) Mᵀ := fun i j h => hM j i h

theorem Supp.diagonal [Zero K] {R : m → m → Prop} (hR : ∀ i, R i i) (v : m → K) : Supp R (Matrix.diagonal v) := fun i j h =>
  Matrix.diagonal_apply_ne v fun e => h (e ▸ hR i)
theorem Supp.symm [Zero K] {R : m → m → Prop} (hR : ∀ i j, R i j → R j i) {M : Matrix m m K} (hM : Supp R M) : Supp R Mᵀ := fun i j h =>
  hM j i fun h' => h (hR _ _ h')
theorem Supp.mapdiag [Zero K] [Zero K'] {R : m → m → Prop} (hR : ∀ i, R i i) (v : m → K) (f : K → K') (h0 : f 0 = 0) : Supp R ((Matrix.diagonal v).map f) :=
  (Supp.diagonal hR v).map f h0
theorem Supp.mapdiag_mul [Zero K'] [NonUnitalNonAssocSemiring K] {M : Matrix m n K} (v : m → K') (f : K' → K) (h0 : f 0 = 0) (hM : Supp R M) :
    Supp R ((Matrix.diagonal v).map f * M) := by
  rw [Matrix.diagonal_map h0]
  exact hM.diag_mul _
theorem Supp.smuldiag_mul [Semiring K] {M : Matrix m n K} (a : K) (v : m → K) (hM : Supp R M) : Supp R ((a • Matrix.diagonal v) * M) := by
  rw [Matrix.smul_mul]
  exact (hM.diag_mul v).smul a

theorem Supp.tmul [NonUnitalNonAssocSemiring K] {RL : l → m → Prop} {RL' : l → n → Prop} {M : Matrix l m K} {N : Matrix l n K} (hM : Supp RL M)
    (hN : Supp RL' N) (hR : ∀ k i j, RL k i → RL' k j → R i j) : Supp R (Mᵀ * N) := fun i j h => by
  rw [Matrix.mul_apply]
  refine Finset.sum_eq_zero fun k _ => ?_
  by_cases h1 : RL k i
  · rw [hN k j (fun h2 => h (hR k i j h1 h2)), mul_zero]
  · rw [Matrix.transpose_apply, hM k i h1, zero_mul]
end closure

variable {nb ng nl : ℕ}

/-- Bus `b` is an end of branch `l`. -/
def IsEnd (d : Case nb ng nl) (l : Fin nl) (b : Fin nb) : Prop := (d.branch l).f = b ∨ (d.branch l).t = b
/-- Two buses are the same or ends of one branch. -/
def Adj (d : Case nb ng nl) (i b : Fin nb) : Prop := i = b ∨ ∃ l, IsEnd d l i ∧ IsEnd d l b

theorem Adj.refl (d : Case nb ng nl) (i : Fin nb) : Adj d i i := .inl rfl
theorem Adj.symm (d : Case nb ng nl) (i b : Fin nb) : Adj d i b → Adj d b i
  | .inl h => .inl h.symm
  | .inr ⟨l, h1, h2⟩ => .inr ⟨l, h2, h1⟩

theorem coo_id {L B K : Type} [Fintype L] [DecidableEq L] [DecidableEq B] [AddCommMonoid K] (f : L → B) (v : L → K) (l : L) (b : B) :
    coo id f v l b = if f l = b then v l else 0 := by
  unfold coo
  rw [Finset.sum_eq_single l]
  · simp
  · intro k _ hk; rw [if_neg (fun h => hk h.1)]
  · intro h; exact absurd (Finset.mem_univ _) h

theorem Cl_nonneg (d : Case nb ng nl) (l : Fin nl) (b : Fin nb) : 0 ≤ Cl d l b := by
  unfold Cl
  rw [Matrix.add_apply, coo_id, coo_id]
  split_ifs <;> norm_num

theorem Cl_ne (d : Case nb ng nl) (l : Fin nl) (b : Fin nb) : Cl d l b ≠ 0 ↔ IsEnd d l b := by
  unfold Cl IsEnd
  rw [Matrix.add_apply, coo_id, coo_id]
  by_cases h1 : (d.branch l).f = b <;> by_cases h2 : (d.branch l).t = b <;> simp [h1, h2]

theorem Cb_ne (d : Case nb ng nl) (i b : Fin nb) : Cb d i b ≠ 0 ↔ Adj d i b := by
  unfold Cb Adj
  rw [Matrix.add_apply, Matrix.mul_apply]
  have h0 : ∀ l, 0 ≤ (Cl d)ᵀ i l * Cl d l b := fun l => mul_nonneg (Cl_nonneg d l i) (Cl_nonneg d l b)
  have hs : 0 ≤ ∑ l, (Cl d)ᵀ i l * Cl d l b := Finset.sum_nonneg fun l _ => h0 l
  by_cases e : i = b
  · subst e
    rw [Matrix.one_apply_eq]
    exact ⟨fun _ => .inl rfl, fun _ => by positivity⟩
  · rw [Matrix.one_apply_ne e, add_zero, ne_eq, Finset.sum_eq_zero_iff_of_nonneg fun l _ => h0 l]
    simp only [e, false_or, Finset.mem_univ, true_imp_iff, not_forall, mul_eq_zero, not_or, Matrix.transpose_apply]
    exact exists_congr fun l => and_congr (Cl_ne d l i) (Cl_ne d l b)

theorem Cg_ne (d : Case nb ng nl) (i : Fin nb) (g : Fin ng) (h : coo (fun g => (d.gen g).bus) id (fun _ => (-1 : ℝ)) i g ≠ 0) : Cg d i g ≠ 0 := by
  unfold Cg coo at *
  intro h'
  apply h
  have : ∀ k, (if (d.gen k).bus = i ∧ id k = g then (-1 : ℝ) else 0) = -(if (d.gen k).bus = i ∧ id k = g then (1 : ℝ) else 0) := by
    intro k; split_ifs <;> simp
  simp only [this, Finset.sum_neg_distrib, h', neg_zero]

theorem Yf_supp (d : Case nb ng nl) : Supp (IsEnd d) (Network.Yf d.branch) := fun l b h => by
  unfold IsEnd at h
  push Not at h
  unfold Network.Yf
  rw [Matrix.add_apply, coo_id, coo_id, if_neg h.1, if_neg h.2, add_zero]
theorem Yt_supp (d : Case nb ng nl) : Supp (IsEnd d) (Network.Yt d.branch) := fun l b h => by
  unfold IsEnd at h
  push Not at h
  unfold Network.Yt
  rw [Matrix.add_apply, coo_id, coo_id, if_neg h.1, if_neg h.2, add_zero]
theorem Cf_supp (d : Case nb ng nl) : Supp (IsEnd d) (Network.Cf d.branch) := fun l b h => by
  unfold Network.Cf
  rw [coo_id, if_neg fun e => h (.inl e)]
theorem Ct_supp (d : Case nb ng nl) : Supp (IsEnd d) (Network.Ct d.branch) := fun l b h => by
  unfold Network.Ct
  rw [coo_id, if_neg fun e => h (.inr e)]

theorem Ybus_supp (d : Case nb ng nl) : Supp (Adj d) (Ybus d.base d.bus d.branch) := by
  have hR : ∀ l i j, IsEnd d l i → IsEnd d l j → Adj d i j := fun l i j h1 h2 => .inr ⟨l, h1, h2⟩
  refine (((Cf_supp d).tmul (Yf_supp d) hR).add ((Ct_supp d).tmul (Yt_supp d) hR)).add fun i j h => ?_
  rw [coo_id]
  exact if_neg fun e => h (.inl e)

section derivs
variable {d : Case nb ng nl} {Y : Matrix (Fin nb) (Fin nb) ℂ}

theorem dSbus_supp (hY : Supp (Adj d) Y) (V : Fin nb → ℂ) : Supp (Adj d) (dSbus_dVa Y V) ∧ Supp (Adj d) (dSbus_dVm Y V) := by
  have hd := Supp.diagonal (K := ℂ) (Adj.refl d)
  have h0 : conj (0 : ℂ) = 0 := map_zero _
  constructor
  · exact Supp.smuldiag_mul _ _ (((hd _).sub (hY.mul_diag _)).map _ h0)
  · refine (((hY.mul_diag _).map _ h0).diag_mul _).add ?_
    exact ((hd _).map _ h0).mul_diag _

theorem Supp.real (R : Fin nb → Fin nb → Prop) {A B : Matrix (Fin nb) (Fin nb) ℂ} (hA : Supp R A) (hB : Supp R B) : Supp R (A.map Complex.re + B.map Complex.im) :=
  (hA.map _ Complex.zero_re).add (hB.map _ Complex.zero_im)

theorem busG_supp (hY : Supp (Adj d) Y) (V lam : Fin nb → ℂ) : Supp (Adj d) (busGaa Y V lam) ∧ Supp (Adj d) (busGav Y V lam) ∧
    Supp (Adj d) (busGva Y V lam) ∧ Supp (Adj d) (busGvv Y V lam) := by
  have hd := Supp.diagonal (K := ℂ) (Adj.refl d)
  have h0 : conj (0 : ℂ) = 0 := map_zero _
  have hC : Supp (Adj d) (busC Y V lam) := Supp.diag_mul _ ((hY.mul_diag _).map _ h0)
  have hD : Supp (Adj d) (busD Y V) := by
    refine Supp.mul_diag _ ?_
    intro i j h
    rw [Matrix.conjTranspose_apply, hY j i (fun h' => h (h'.symm)), star_zero]
  have hE : Supp (Adj d) (busE Y V lam) := Supp.mapdiag_mul _ _ h0 ((hD.mul_diag _).sub (hd _))
  have hF : Supp (Adj d) (busF Y V lam) := hC.sub ((hd _).diag_mul _)
  have hva : Supp (Adj d) (busGva Y V lam) := Supp.smuldiag_mul _ _ (hE.sub hF)
  exact ⟨hE.add hF, hva.symm (Adj.symm d), hva, ((hC.add (hC.symm (Adj.symm d))).diag_mul _).mul_diag _⟩

variable {k : ℕ} {RL : Fin k → Fin nb → Prop} {f : Fin k → Fin nb} {Yb : Matrix (Fin k) (Fin nb) ℂ}

theorem flow_supp (hY : Supp RL Yb) (hf : ∀ l, RL l (f l)) (lim : Int) (V : Fin nb → ℂ) : Supp RL (flowVa lim f Yb V) ∧ Supp RL (flowVm lim f Yb V) := by
  have h0 : conj (0 : ℂ) = 0 := map_zero _
  have hp : ∀ v, Supp RL (pick f v) := fun v l b h => by
    show (if f l = b then v (f l) else 0) = 0
    exact if_neg fun e => h (by rw [← e]; exact hf l)
  have ha : Supp RL (dSbr_dVa f Yb V) := by
    refine Supp.smul _ (Supp.sub ?_ ?_)
    · exact Supp.mapdiag_mul _ _ h0 (hp _)
    · exact ((hY.mul_diag _).map _ h0).diag_mul _
  have hm : Supp RL (dSbr_dVm f Yb V) := by
    refine Supp.add ?_ ?_
    · exact ((hY.mul_diag _).map _ h0).diag_mul _
    · exact Supp.mapdiag_mul _ _ h0 (hp _)
  have hre : ((0 : ℂ).re : ℂ) = 0 := by simp
  unfold flowVa flowVm
  split_ifs
  · exact ⟨(hY.smul _).mul_diag _, hY.mul_diag _⟩
  · exact ⟨ha.map _ hre, hm.map _ hre⟩
  · exact ⟨ha, hm⟩

theorem dAbr_supp {M : Matrix (Fin k) (Fin nb) ℂ} (hM : Supp RL M) (S : Fin k → ℂ) : Supp RL (dAbr M S) :=
  ((hM.map _ Complex.zero_re).diag_mul _).add ((hM.map _ Complex.zero_im).diag_mul _)

theorem sqH_supp (hR : ∀ l i j, RL l i → RL l j → Adj d i j) {H : Matrix (Fin nb) (Fin nb) ℂ} {M N : Matrix (Fin k) (Fin nb) ℂ} (hH : Supp (Adj d) H)
    (hM : Supp RL M) (hN : Supp RL N) (mu : Fin k → ℝ) : Supp (Adj d) (sqH H M N mu) := by
  refine Supp.smul _ ((hH.add ?_).map _ Complex.zero_re)
  rw [Matrix.mul_assoc]
  exact hM.tmul ((hN.map _ (map_zero _)).diag_mul _) hR

theorem ibH_supp (V : Fin nb → ℂ) (w : Fin k → ℂ) : Supp (Adj d) (ibHaa Yb V w) ∧ Supp (Adj d) (ibHav Yb V w) ∧ Supp (Adj d) (ibHva Yb V w) ∧
    Supp (Adj d) (ibHvv Yb V w) := by
  have hd := Supp.diagonal (K := ℂ) (Adj.refl d)
  have hva : Supp (Adj d) (ibHva Yb V w) := Supp.mul_diag _ (Supp.smul _ (hd _))
  exact ⟨hd _, hva, hva, fun _ _ _ => rfl⟩

theorem brH_supp (hR : ∀ l i j, RL l i → RL l j → Adj d i j) (hY : Supp RL Yb) (hf : ∀ l, RL l (f l)) (V : Fin nb → ℂ) (w : Fin k → ℂ) :
    Supp (Adj d) (brHaa (conn f) Yb V w) ∧ Supp (Adj d) (brHav (conn f) Yb V w) ∧ Supp (Adj d) (brHva (conn f) Yb V w) ∧
    Supp (Adj d) (brHvv (conn f) Yb V w) := by
  have hd := Supp.diagonal (K := ℂ) (Adj.refl d)
  have h0 : conj (0 : ℂ) = 0 := map_zero _
  have hc : Supp RL (conn f) := fun l b h => by
    show (if f l = b then (1 : ℂ) else 0) = 0
    exact if_neg fun e => h (by rw [← e]; exact hf l)
  have hA : Supp (Adj d) (brA (conn f) Yb w) := by
    unfold brA
    rw [Matrix.mul_assoc]
    have e : Ybᴴ = (Yb.map conj)ᵀ := by ext i j; rfl
    rw [e]
    exact (hY.map _ h0).tmul (hc.diag_mul _) hR
  have hB : Supp (Adj d) (brB (brA (conn f) Yb w) V) := (Supp.mapdiag_mul _ _ h0 hA).mul_diag _
  have hBt := hB.symm (Adj.symm d)
  have hF : Supp (Adj d) (brF (brA (conn f) Yb w) V) := hB.add hBt
  have hva : Supp (Adj d) (brHva (conn f) Yb V w) := Supp.smuldiag_mul _ _ (((hB.sub hBt).sub (hd _)).add (hd _))
  exact ⟨(hF.sub (hd _)).sub (hd _), hva.symm (Adj.symm d), hva, (hF.diag_mul _).mul_diag _⟩

/-- Blocks supported on adjacent buses vanish where `hsBase` does. -/
theorem blocks_supp {aa av va vv : Matrix (Fin nb) (Fin nb) ℝ} (h1 : Supp (Adj d) aa) (h2 : Supp (Adj d) av) (h3 : Supp (Adj d) va) (h4 : Supp (Adj d) vv)
    (j k : ℕ) (h : hsBase d j k = 0) : blocks aa av va vv j k = 0 := by
  have key : ∀ {M : Matrix (Fin nb) (Fin nb) ℝ} (hM : Supp (Adj d) M) (i b : Fin nb), Cb d i b = 0 → M i b = 0 := fun hM i b e =>
    hM i b fun ha => (Cb_ne d i b).2 ha e
  unfold hsBase blocks at h
  unfold blocks
  split_ifs at h ⊢
  · exact key h1 _ _ h
  · exact key h2 _ _ h
  · rfl
  · exact key h3 _ _ h
  · exact key h4 _ _ h
  · rfl
  · rfl

theorem endH_supp (hR : ∀ l i j, RL l i → RL l j → Adj d i j) (hY : Supp RL Yb) (hf : ∀ l, RL l (f l)) (lim : Int) (V : Fin nb → ℂ) (mu : Fin k → ℝ)
    (i j : ℕ) (h : hsBase d i j = 0) : endH lim f Yb V mu i j = 0 := by
  obtain ⟨ha, hm⟩ := flow_supp hY hf lim V
  unfold endH
  split_ifs
  · obtain ⟨h1, h2, h3, h4⟩ := ibH_supp (d := d) (Yb := Yb) V (conjTimes (flow lim f Yb V) mu)
    exact blocks_supp (sqH_supp hR h1 ha ha mu) (sqH_supp hR h2 ha hm mu) (sqH_supp hR h3 hm ha mu) (sqH_supp hR h4 hm hm mu) i j h
  · obtain ⟨h1, h2, h3, h4⟩ := brH_supp hR hY hf V (conjTimes (flow lim f Yb V) mu)
    exact blocks_supp (sqH_supp hR h1 ha ha mu) (sqH_supp hR h2 ha hm mu) (sqH_supp hR h3 hm ha mu) (sqH_supp hR h4 hm hm mu) i j h

end derivs

/-! Rows. -/

theorem place_hrow {d : Case nb ng nl} {lim : Int} {c : AcData} {a m : Fin nb → ℝ} {p q : Fin ng → ℝ} {a' m' : Fin nb → ℝ} {p' q' : Fin ng → ℝ}
    (ha : ∀ b, a' b = 0 → a b = 0) (hm : ∀ b, m' b = 0 → m b = 0) (hp : ∀ g, p' g = 0 → p g = 0) (hq : ∀ g, q' g = 0 → q g = 0) (j : ℕ)
    (h : hrow a' m' p' q' j = 0) : (userdata d lim c).place a m p q j = 0 := by
  unfold hrow at h
  unfold Nl.place
  have e1 : (userdata d lim c).cost.iQg = 2 * nb + ng := rfl
  have e2 : (userdata d lim c).cost.iPg = 2 * nb := rfl
  have e3 : (userdata d lim c).iVm = nb := rfl
  have e4 : (userdata d lim c).iVa = 0 := rfl
  simp only [e1, e2, e3, e4]
  by_cases c1 : j < nb
  · rw [dif_pos c1] at h
    rw [dif_neg (by omega), dif_neg (by omega), dif_neg (by omega), dif_pos (by omega)]
    exact ha _ h
  rw [dif_neg c1] at h
  by_cases c2 : j - nb < nb
  · rw [dif_pos c2] at h
    rw [dif_neg (by omega), dif_neg (by omega), dif_pos (by omega)]
    exact hm _ h
  rw [dif_neg c2] at h
  by_cases c3 : j - nb - nb < ng
  · rw [dif_pos c3] at h
    rw [dif_neg (by omega), dif_pos (by omega)]
    refine hp _ ?_
    rw [← h]; congr 2; omega
  rw [dif_neg c3] at h
  by_cases c4 : j - nb - nb - ng < ng
  · rw [dif_pos c4] at h
    rw [dif_pos (by omega)]
    refine hq _ ?_
    rw [← h]; congr 2; omega
  · rw [dif_neg (by omega), dif_neg (by omega), dif_neg (by omega), dif_neg (by omega)]

theorem placeV_hrow {d : Case nb ng nl} {lim : Int} {c : AcData} {a m : Fin nb → ℝ} {a' m' : Fin nb → ℝ}
    (ha : ∀ b, a' b = 0 → a b = 0) (hm : ∀ b, m' b = 0 → m b = 0) (j : ℕ)
    (h : hrow (ng := ng) a' m' 0 0 j = 0) : (userdata d lim c).placeV a m j = 0 := by
  unfold hrow at h
  unfold Nl.placeV
  have e3 : (userdata d lim c).iVm = nb := rfl
  have e4 : (userdata d lim c).iVa = 0 := rfl
  simp only [e3, e4]
  by_cases c1 : j < nb
  · rw [dif_pos c1] at h
    rw [dif_neg (by omega), dif_pos (by omega)]
    exact ha _ h
  rw [dif_neg c1] at h
  by_cases c2 : j - nb < nb
  · rw [dif_pos c2] at h
    rw [dif_pos (by omega)]
    exact hm _ h
  · rw [dif_neg (by omega), dif_neg (by omega)]

variable (d : Case nb ng nl) (lim : Int) (c : AcData)

/-- Ends of limited branches. -/
def IsEnd2 (d : Case nb ng nl) (k : Fin d.il.length) (b : Fin nb) : Prop := IsEnd d (d.il.get k) b

theorem isEnd2_adj (k : Fin d.il.length) (i j : Fin nb) (h1 : IsEnd2 d k i) (h2 : IsEnd2 d k j) : Adj d i j := .inr ⟨_, h1, h2⟩

theorem Yf2_supp : Supp (IsEnd2 d) (userdata d lim c).Yf := fun k b h => Yf_supp d (d.il.get k) b h
theorem Yt2_supp : Supp (IsEnd2 d) (userdata d lim c).Yt := fun k b h => Yt_supp d (d.il.get k) b h
theorem f2_end (k : Fin d.il.length) : IsEnd2 d k ((userdata d lim c).f k) := .inl rfl
theorem t2_end (k : Fin d.il.length) : IsEnd2 d k ((userdata d lim c).t k) := .inr rfl

/-- The fixed structure holds every nonzero entry of the Jacobian, at every point. -/
theorem jac_supp {nA : ℕ} (A : Fin nA → ℕ → ℝ) (x : ℕ → ℝ) (r : Row nb d.il.length nA) (j : ℕ) (h : Js d A r j = 0) : jac d lim c A x r j = 0 := by
  have hb := dSbus_supp (Ybus_supp d) ((userdata d lim c).V x)
  have hcb : ∀ {M : Matrix (Fin nb) (Fin nb) ℂ}, Supp (Adj d) M → ∀ i b, Cb d i b = 0 → M i b = 0 := fun hM i b e =>
    hM i b fun ha => (Cb_ne d i b).2 ha e
  have hcl : ∀ {M : Matrix (Fin d.il.length) (Fin nb) ℝ}, Supp (IsEnd2 d) M → ∀ k b, Cl2 d k b = 0 → M k b = 0 := fun hM k b e =>
    hM k b fun ha => (Cl_ne d _ b).2 ha e
  have hg : ∀ i g, Cg d i g = 0 → (userdata d lim c).negCg i g = 0 := fun i g e => by
    by_contra hne
    exact Cg_ne d i g hne e
  have hf := flow_supp (Yf2_supp d lim c) (f2_end d lim c) lim ((userdata d lim c).V x)
  have ht := flow_supp (Yt2_supp d lim c) (t2_end d lim c) lim ((userdata d lim c).V x)
  rcases r with (i | i) | ((k | k) | r)
  · show (userdata d lim c).place (fun b => (dSbus_dVa (userdata d lim c).Y ((userdata d lim c).V x) i b).re)
      (fun b => (dSbus_dVm (userdata d lim c).Y ((userdata d lim c).V x) i b).re) ((userdata d lim c).negCg i) 0 j = 0
    refine place_hrow (d := d) (lim := lim) (c := c) (fun b e => ?_) (fun b e => ?_) (fun g e => hg i g e) (fun g e => e) j h
    · rw [show dSbus_dVa (userdata d lim c).Y _ i b = 0 from hcb hb.1 i b e, Complex.zero_re]
    · rw [show dSbus_dVm (userdata d lim c).Y _ i b = 0 from hcb hb.2 i b e, Complex.zero_re]
  · show (userdata d lim c).place (fun b => (dSbus_dVa (userdata d lim c).Y ((userdata d lim c).V x) i b).im)
      (fun b => (dSbus_dVm (userdata d lim c).Y ((userdata d lim c).V x) i b).im) 0 ((userdata d lim c).negCg i) j = 0
    refine place_hrow (d := d) (lim := lim) (c := c) (fun b e => ?_) (fun b e => ?_) (fun g e => e) (fun g e => hg i g e) j h
    · rw [show dSbus_dVa (userdata d lim c).Y _ i b = 0 from hcb hb.1 i b e, Complex.zero_im]
    · rw [show dSbus_dVm (userdata d lim c).Y _ i b = 0 from hcb hb.2 i b e, Complex.zero_im]
  · exact placeV_hrow (d := d) (lim := lim) (c := c) (fun b e => hcl (dAbr_supp hf.1 _) k b e) (fun b e => hcl (dAbr_supp hf.2 _) k b e) j h
  · exact placeV_hrow (d := d) (lim := lim) (c := c) (fun b e => hcl (dAbr_supp ht.1 _) k b e) (fun b e => hcl (dAbr_supp ht.2 _) k b e) j h
  · exact h

/-- The constraint part of the Hessian vanishes where `hsBase` does, at every point. -/
theorem hess_supp (x : ℕ → ℝ) (lamP lamQ : Fin nb → ℝ) (muF muT : Fin d.il.length → ℝ) (j k : ℕ) (h : hsBase d j k = 0) :
    (userdata d lim c).d2G x lamP lamQ j k = 0 ∧ endH lim (userdata d lim c).f (userdata d lim c).Yf ((userdata d lim c).V x) muF j k = 0 ∧
    endH lim (userdata d lim c).t (userdata d lim c).Yt ((userdata d lim c).V x) muT j k = 0 := by
  refine ⟨?_, endH_supp (isEnd2_adj d) (Yf2_supp d lim c) (f2_end d lim c) lim _ muF j k h,
    endH_supp (isEnd2_adj d) (Yt2_supp d lim c) (t2_end d lim c) lim _ muT j k h⟩
  have hP := busG_supp (Ybus_supp d) ((userdata d lim c).V x) (fun b => (lamP b : ℂ))
  have hQ := busG_supp (Ybus_supp d) ((userdata d lim c).V x) (fun b => (lamQ b : ℂ))
  exact blocks_supp (Supp.real _ hP.1 hQ.1) (Supp.real _ hP.2.1 hQ.2.1) (Supp.real _ hP.2.2.1 hQ.2.2.1) (Supp.real _ hP.2.2.2 hQ.2.2.2) j k h

end

end Verif.Ipopt
