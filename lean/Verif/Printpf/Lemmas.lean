import Verif.Printpf.Spec
import Verif.Index.Lemmas
import Mathlib.Analysis.SpecialFunctions.Complex.Arg

/-!
# Lemmas on printed sums
-/

namespace Verif.Printpf

open Verif.Opf (Tables BusD GenD BrD asBranch rowPhasor genAt fromAt toAt)
open Verif.Index (BusRow GenRow BranchRow HasBus)
open Verif.Network (PiModel turns)
open ComplexConjugate

noncomputable section

/-! ## Sums over lists -/

theorem total_nil {α : Type} (f : α → ℝ) : total f [] = 0 := rfl
theorem total_cons {α : Type} (f : α → ℝ) (x : α) (l : List α) : total f (x :: l) = f x + total f l := by simp [total]
theorem total_append {α : Type} (f : α → ℝ) (l m : List α) : total f (l ++ m) = total f l + total f m := by simp [total]

theorem total_add {α : Type} (f g : α → ℝ) (l : List α) : total (fun x => f x + g x) l = total f l + total g l := by
  induction l with
  | nil => simp [total]
  | cons x l ih => rw [total_cons, total_cons, total_cons, ih]; ring

theorem total_sub {α : Type} (f g : α → ℝ) (l : List α) : total (fun x => f x - g x) l = total f l - total g l := by
  induction l with
  | nil => simp [total]
  | cons x l ih => rw [total_cons, total_cons, total_cons, ih]; ring

theorem total_congr {α : Type} {f g : α → ℝ} {l : List α} (h : ∀ x ∈ l, f x = g x) : total f l = total g l := by
  unfold total; rw [List.map_congr_left h]

theorem total_map {α β : Type} (f : β → ℝ) (g : α → β) (l : List α) : total f (l.map g) = total (fun x => f (g x)) l := by
  simp [total, Function.comp_def]

theorem total_zero {α : Type} {f : α → ℝ} {l : List α} (h : ∀ x ∈ l, f x = 0) : total f l = 0 := by
  induction l with
  | nil => rfl
  | cons x l ih => rw [total_cons, h x (by simp), ih fun y hy => h y (by simp [hy])]; ring

theorem total_filter {α : Type} (f : α → ℝ) (p : α → Bool) (l : List α) : total f (l.filter p) = total (fun x => if p x then f x else 0) l := by
  induction l with
  | nil => rfl
  | cons x l ih =>
    rw [total_cons, List.filter_cons]
    by_cases hx : p x = true
    · rw [if_pos hx, if_pos hx, total_cons, ih]
    · rw [if_neg hx, if_neg hx, ih]; ring

theorem total_abs_le {α : Type} {f g : α → ℝ} {l : List α} (h : ∀ x ∈ l, |f x| ≤ g x) : |total f l| ≤ total g l := by
  induction l with
  | nil => simp [total]
  | cons x l ih =>
    rw [total_cons, total_cons]
    exact (abs_add_le _ _).trans (add_le_add (h x (by simp)) (ih fun y hy => h y (by simp [hy])))

theorem ite_total {κ : Type} [DecidableEq κ] {nums : List κ} (hn : nums.Nodup) (k : κ) (v : ℝ) : total (fun n => if k == n then v else 0) nums = if k ∈ nums then v else 0 := by
  induction nums with
  | nil => simp [total]
  | cons n l ih =>
    rw [total_cons, ih (List.nodup_cons.1 hn).2]
    have h1 := (List.nodup_cons.1 hn).1
    by_cases hk : k = n
    · subst hk; simp [h1]
    · simp [hk]

/-- Sorting into buckets and adding up the buckets. -/
theorem total_bucket {α κ : Type} [DecidableEq κ] {nums : List κ} (hn : nums.Nodup) (xs : List α) (key : α → κ) (f : α → ℝ) :
    total (fun n => total f (xs.filter fun x => key x == n)) nums = total f (xs.filter fun x => decide (key x ∈ nums)) := by
  induction xs with
  | nil => simp only [List.filter_nil, total_nil]; exact total_zero fun _ _ => rfl
  | cons x xs ih =>
    have e : ∀ n, total f ((x :: xs).filter fun x => key x == n) = (if key x == n then f x else 0) + total f (xs.filter fun x => key x == n) := by
      intro n
      rw [List.filter_cons]
      split <;> simp [total_cons]
    rw [total_congr fun n _ => e n, total_add, ih, ite_total hn, List.filter_cons]
    by_cases hk : key x ∈ nums <;> simp [hk, total_cons]

theorem total_swap {α β : Type} (f : α → β → ℝ) (l : List α) (m : List β) : total (fun a => total (f a) m) l = total (fun b => total (fun a => f a b) l) m := by
  induction m with
  | nil => simp only [total_nil]; exact total_zero fun _ _ => rfl
  | cons b m ih =>
    simp only [total_cons]
    rw [total_add, ih]

/-! ## Rows -/

variable {t : Index.Case Tables}

theorem rowAt_spec (hn : (t.bus.map (·.num)).Nodup) {n : ℕ} (hb : HasBus t n) : ∃ b, rowAt t.bus n = some b ∧ b ∈ t.bus ∧ b.num = n := by
  obtain ⟨b, hb, rfl⟩ := hb
  obtain ⟨i, hi⟩ := List.getElem?_of_mem hb
  refine ⟨b, ?_, hb, rfl⟩
  unfold rowAt
  rw [Index.e2iArray_get _ hn i b.num (by simp [hi])]
  exact hi

theorem row_unique (hn : (t.bus.map (·.num)).Nodup) {a b : BusRow BusD} (ha : a ∈ t.bus) (hb : b ∈ t.bus) (h : a.num = b.num) : a = b :=
  List.inj_on_of_nodup_map hn ha hb h

theorem mapM_total {α β : Type} {f : α → Option β} {l : List α} (h : ∀ x ∈ l, ∃ y, f x = some y) : ∃ r, l.mapM f = some r := by
  induction l with
  | nil => exact ⟨[], rfl⟩
  | cons x l ih =>
    obtain ⟨y, hy⟩ := h x (by simp)
    obtain ⟨r, hr⟩ := ih fun z hz => h z (by simp [hz])
    exact ⟨y :: r, by simp [List.mapM_cons, hy, hr]⟩

theorem mapM_forall {α β : Type} {f : α → Option β} {l : List α} {r : List β} (h : l.mapM f = some r) :
    List.Forall₂ (fun x y => f x = some y) l r := by
  induction l generalizing r with
  | nil => simp only [List.mapM_nil] at h; cases h; exact .nil
  | cons x l ih =>
    simp only [List.mapM_cons, Option.bind_eq_bind, Option.bind_eq_some_iff] at h
    obtain ⟨y, hy, r', hr', e⟩ := h
    cases e
    exact .cons hy (ih hr')

theorem forall₂_map {α β : Type} {R : α → β → Prop} {g : β → α} {l : List α} {r : List β} (h : List.Forall₂ R l r) (hg : ∀ x y, R x y → g y = x) :
    r.map g = l := by
  induction h with
  | nil => rfl
  | cons h1 _ ih => simp [hg _ _ h1, ih]

theorem forall₂_mem {α β : Type} {R : α → β → Prop} {l : List α} {r : List β} (h : List.Forall₂ R l r) {y : β} (hy : y ∈ r) : ∃ x ∈ l, R x y := by
  induction h with
  | nil => simp at hy
  | cons h1 _ ih =>
    rcases List.mem_cons.1 hy with rfl | hy
    · exact ⟨_, by simp, h1⟩
    · obtain ⟨x, hx, h2⟩ := ih hy
      exact ⟨x, by simp [hx], h2⟩

theorem ends_exists (hr : Refs t) : ∃ es, ends t = some es := by
  refine mapM_total fun l hl => ?_
  obtain ⟨f, hf, -⟩ := rowAt_spec hr.nodup (hr.f l hl)
  obtain ⟨g, hg, -⟩ := rowAt_spec hr.nodup (hr.t l hl)
  exact ⟨⟨l, f, g⟩, by simp [hf, hg]⟩

theorem genRows_exists (hr : Refs t) : ∃ gs, genRows t = some gs := by
  refine mapM_total fun g hg => ?_
  obtain ⟨b, hb, -⟩ := rowAt_spec hr.nodup (hr.gen g hg)
  exact ⟨(g, b), by simp [hb]⟩

/-- `ends` in terms of the tables. -/
theorem ends_spec (hr : Refs t) {es : List Ends} (h : ends t = some es) :
    es.map (·.l) = t.branch ∧ ∀ e ∈ es, e.l ∈ t.branch ∧ e.f ∈ t.bus ∧ e.f.num = e.l.f ∧ e.t ∈ t.bus ∧ e.t.num = e.l.t := by
  have F := mapM_forall h
  refine ⟨forall₂_map F ?_, fun e he => ?_⟩
  · intro l e hle
    simp only [Option.bind_eq_some_iff, Option.map_eq_some_iff] at hle
    obtain ⟨_, _, _, _, rfl⟩ := hle
    rfl
  · obtain ⟨l, hl, hle⟩ := forall₂_mem F he
    obtain ⟨f, hf, hfm, hfn⟩ := rowAt_spec hr.nodup (hr.f l hl)
    obtain ⟨g, hg, hgm, hgn⟩ := rowAt_spec hr.nodup (hr.t l hl)
    simp only [hf, hg, Option.bind_some, Option.map_some, Option.some.injEq] at hle
    subst hle
    exact ⟨hl, hfm, hfn, hgm, hgn⟩

theorem genRows_spec (hr : Refs t) {gs : List (GenRow GenD × BusRow BusD)} (h : genRows t = some gs) :
    gs.map (·.1) = t.gen ∧ ∀ g ∈ gs, g.1 ∈ t.gen ∧ g.2 ∈ t.bus ∧ g.2.num = g.1.bus := by
  have F := mapM_forall h
  refine ⟨forall₂_map F ?_, fun e he => ?_⟩
  · intro l e hle
    simp only [Option.map_eq_some_iff] at hle
    obtain ⟨_, _, rfl⟩ := hle
    rfl
  · obtain ⟨l, hl, hle⟩ := forall₂_mem F he
    obtain ⟨f, hf, hfm, hfn⟩ := rowAt_spec hr.nodup (hr.gen l hl)
    simp only [hf, Option.map_some, Option.some.injEq] at hle
    subst hle
    exact ⟨hl, hfm, hfn⟩

/-! ## One branch -/

theorem volt_eq (b : BusRow BusD) : volt b = conj (rowPhasor b) := by
  unfold volt rowPhasor
  rw [map_mul, Complex.conj_ofReal, ← Complex.exp_conj, map_mul, Complex.conj_I, Complex.conj_ofReal, mul_comm (Real.pi / 180)]
  simp

theorem tap_eq (l : BranchRow BrD) : tap l.data = conj (turns (asBranch l)) := by
  unfold tap turns asBranch
  simp only
  rw [map_mul, Complex.conj_ofReal, map_add, map_mul, Complex.conj_I, Complex.conj_ofReal, Complex.conj_ofReal]
  congr 1
  rw [show Real.pi / 180 * l.data.shift = l.data.shift * Real.pi / 180 by ring]
  generalize l.data.shift * Real.pi / 180 = θ
  rw [show -(Complex.I * (θ : ℂ)) = ((-θ : ℝ) : ℂ) * Complex.I by push_cast; ring, Complex.exp_mul_I]
  push_cast
  rw [Complex.cos_neg, Complex.sin_neg]
  ring

theorem turns_ne (l : BranchRow BrD) : turns (asBranch l) ≠ 0 := by
  unfold turns asBranch
  simp only
  refine mul_ne_zero ?_ ?_
  · split
    · simp
    · rename_i h; exact_mod_cast h
  · generalize l.data.shift * Real.pi / 180 = θ
    rw [show ((Real.cos θ : ℝ) : ℂ) + Complex.I * (Real.sin θ : ℝ) = Complex.exp (θ * Complex.I) by rw [Complex.exp_mul_I]; push_cast; ring]
    exact Complex.exp_ne_zero _

/-- The two ends of a branch inject what the series impedance consumes less what the charging produces. -/
theorem branch_loss (base : ℝ) (e : Ends) (hs : e.l.status ≠ 0) (hz : (e.l.data.r : ℂ) + Complex.I * e.l.data.x ≠ 0)
    (h : ∃ If It : ℂ, PiModel (asBranch e.l) (rowPhasor e.f) (rowPhasor e.t) If It ∧
      (e.l.data.PF : ℂ) + Complex.I * e.l.data.QF = rowPhasor e.f * conj If * base ∧ (e.l.data.PT : ℂ) + Complex.I * e.l.data.QT = rowPhasor e.t * conj It * base) :
    e.l.data.PF + e.l.data.PT = (loss false base e).re ∧ e.l.data.QF + e.l.data.QT = (loss false base e).im - fchg base e - tchg base e := by
  obtain ⟨If, It, ⟨E, IE, J, h1, h2, h3, h4, h5, h6⟩, hf, ht⟩ := h
  have hT := turns_ne e.l
  have hE : E = rowPhasor e.f / turns (asBranch e.l) := by rw [h1]; field_simp
  have n1 : ‖volt e.f / tap e.l.data‖ = ‖E‖ := by rw [volt_eq, tap_eq, ← map_div₀, Complex.norm_conj, hE]
  have n2 : ‖volt e.t‖ = ‖rowPhasor e.t‖ := by rw [volt_eq, Complex.norm_conj]
  have n3 : ‖volt e.f / tap e.l.data - volt e.t‖ = ‖E - rowPhasor e.t‖ := by rw [volt_eq, tap_eq, volt_eq, ← map_div₀, ← map_sub, Complex.norm_conj, hE]
  have hz' : (e.l.data.r : ℂ) - Complex.I * e.l.data.x ≠ 0 := by
    have : (e.l.data.r : ℂ) - Complex.I * e.l.data.x = conj ((e.l.data.r : ℂ) + Complex.I * e.l.data.x) := by simp [sub_eq_add_neg]
    rw [this]; exact (map_ne_zero _).2 hz
  have hJ : (E - rowPhasor e.t) * conj J = ((‖E - rowPhasor e.t‖ ^ 2 : ℝ) : ℂ) / ((e.l.data.r : ℂ) - Complex.I * e.l.data.x) := by
    rw [eq_div_iff hz']
    have : conj (E - rowPhasor e.t) = ((e.l.data.r : ℂ) - Complex.I * e.l.data.x) * conj J := by
      rw [h4]; simp [asBranch, sub_eq_add_neg]
    rw [mul_assoc, mul_comm (conj J), ← this, Complex.mul_conj, Complex.normSq_eq_norm_sq]
  have key : ((e.l.data.PF : ℂ) + Complex.I * e.l.data.QF) + ((e.l.data.PT : ℂ) + Complex.I * e.l.data.QT) =
      loss false base e - Complex.I * ((fchg base e : ℝ) : ℂ) - Complex.I * ((tchg base e : ℝ) : ℂ) := by
    unfold loss fchg tchg
    rw [if_neg hs, if_neg hs, if_neg hs, n1, n2, n3, hf, ht, h2, h5, h6]
    have a1 : ((‖E‖ ^ 2 : ℝ) : ℂ) = E * conj E := by rw [Complex.mul_conj, Complex.normSq_eq_norm_sq]
    have a2 : ((‖rowPhasor e.t‖ ^ 2 : ℝ) : ℂ) = rowPhasor e.t * conj (rowPhasor e.t) := by rw [Complex.mul_conj, Complex.normSq_eq_norm_sq]
    have b1 : ((‖E‖ ^ 2 * e.l.data.b * base / 2 : ℝ) : ℂ) = E * conj E * e.l.data.b * base / 2 := by rw [← a1]; push_cast; ring
    have b2 : ((‖rowPhasor e.t‖ ^ 2 * e.l.data.b * base / 2 : ℝ) : ℂ) = rowPhasor e.t * conj (rowPhasor e.t) * e.l.data.b * base / 2 := by
      rw [← a2]; push_cast; ring
    have hJ' : (base : ℂ) * ((‖E - rowPhasor e.t‖ ^ 2 : ℝ) : ℂ) / ((e.l.data.r : ℂ) - Complex.I * e.l.data.x) = base * ((E - rowPhasor e.t) * conj J) := by
      rw [hJ]; ring
    rw [b1, b2]
    simp only [Bool.false_eq_true, if_false]
    rw [hJ']
    simp only [map_add, map_neg, map_mul, map_div₀, Complex.conj_I, Complex.conj_ofReal, asBranch]
    have : (starRingEnd ℂ) (2 : ℂ) = 2 := map_ofNat _ 2
    rw [this]
    ring
  have r1 := congrArg Complex.re key
  have r2 := congrArg Complex.im key
  simp at r1 r2
  exact ⟨r1, by linarith⟩

end

end Verif.Printpf
