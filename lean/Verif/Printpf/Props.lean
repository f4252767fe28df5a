import Verif.Printpf.Lemmas
import Verif.Printpf.Areas
import Verif.Runpf.TableDc
import Verif.Opf.RunProps

/-!
# Properties of printed results: C91–C95 of `properties.jsonl`
-/

namespace Verif.Printpf

open Verif.Opf (Tables BusD GenD BrD asBranch rowPhasor genAt fromAt toAt acBalanceP acBalanceQ dcBalance)
open Verif.Index (BusRow GenRow BranchRow HasBus)
open Verif.Network (PiModel turns)
open ComplexConjugate

noncomputable section

variable {area : List ℝ → ℤ} {o : PrintOpt} {isOPF : Bool} {base : ℝ} {t t' : Index.Case Tables} {rep : Report}

theorem part_some {α : Type} {b : Bool} {x : Option α} {y : α} (h : part b x = some (some y)) : x = some y := by
  unfold part at h
  split at h
  · simp only [Option.map_eq_some_iff, Option.some.injEq] at h
    obtain ⟨a, ha, rfl⟩ := h
    exact ha
  · simp at h

/-- The steps of a call that prints. -/
theorem printpf_inv (h : printpf area o isOPF base t = some (t', some rep)) :
    o.OUT_ALL ≠ 0 ∧ t' = (if o.PF_DC then dcZero t else t) ∧ ∃ es ars, ends t' = some es ∧ sAreas area t' = some ars ∧
      (∀ s, rep.sys = some s → sysSum area o.PF_DC isOPF base t' es ars = some s) ∧
      (∀ as, rep.areas = some as → ∃ gs, genRows t' = some gs ∧ as = ars.map (areaSum area o.PF_DC base t' es gs)) ∧
      (∀ bs, rep.buses = some bs → bs = t'.bus.map (busLine t')) ∧
      (∀ ls, rep.losses = some ls → ls = es.map (loss o.PF_DC base)) ∧
      (isOPF = true → loadLines o t' = some ()) ∧
      rep.vLims = (if isOPF && !o.PF_DC then vListed (o.lim (·.OUT_V_LIM)) o.OPF_VIOLATION t'.bus else []) ∧
      rep.pgLims = (if isOPF then listed (o.lim (·.OUT_PG_LIM)) (pBinding o.OPF_VIOLATION) (ong t') else []) ∧
      rep.qgLims = (if isOPF && !o.PF_DC then listed (o.lim (·.OUT_QG_LIM)) (qBinding o.OPF_VIOLATION) (ong t') else []) ∧
      rep.lineLims = (if isOPF then listed (o.lim (·.OUT_LINE_LIM)) (lBinding o) es else []) ∧
      (∀ x, rep.gens = some x → genTable isOPF t' = some x) := by
  unfold printpf at h
  split at h
  · simp at h
  rename_i h0
  simp only [Option.bind_eq_bind, Option.bind_eq_some_iff, Option.some.injEq, Prod.mk.injEq] at h
  obtain ⟨es, hes, ars, hars, sys, hsys, as, has, u, hu, v, hv, ht, hr⟩ := h
  rw [ht] at hes hars hsys has hu hv
  subst hr
  refine ⟨h0, ht.symm, es, ars, hes, hars, ?_, ?_, ?_, ?_, ?_, ?_, ?_, ?_, ?_, ?_⟩
  · intro s hs
    simp only at hs
    rw [hs] at hsys
    exact part_some hsys
  · intro s hs
    simp only at hs
    rw [hs] at has
    have := part_some has
    simp only [Option.map_eq_some_iff] at this
    obtain ⟨a, ha, hb⟩ := this
    exact ⟨a, ha, hb.symm⟩
  · intro bs hb
    simp only at hb
    split at hb <;> cases hb
    rw [ht]
  · intro bs hb
    simp only at hb
    split at hb <;> cases hb
    rfl
  · intro hi
    unfold part at hv
    rw [if_pos hi] at hv
    simp only [Option.map_eq_some_iff] at hv
    obtain ⟨_, ha, _⟩ := hv
    exact ha
  · simp only [ht]
  · simp only [ht]
  · simp only [ht]
  · rfl
  · intro x hx
    simp only at hx
    rw [hx] at hu
    exact part_some hu

/-! ## C91: the summaries balance -/

theorem gen_split (f : GenD → ℝ) (h : ∀ g ∈ t.gen, g.status ≤ 0 → f g.data = 0) :
    total (fun g => f g.data) (ong t) + total (fun g => f g.data) (onld t) = total (fun g => f g.data) t.gen := by
  unfold ong onld
  rw [total_filter, total_filter, ← total_add]
  refine total_congr fun g hg => ?_
  by_cases hs : 0 < g.status
  · cases hl : isload g <;> simp [hs]
  · have := h g hg (by omega)
    simp [hs, this]

theorem ld_all (f : BusD → ℝ) (h : ∀ b : BusD, b.PD = 0 → b.QD = 0 → f b = 0) : total (fun b => f b.data) (nzld t) = total (fun b => f b.data) t.bus := by
  unfold nzld
  rw [total_filter]
  refine total_congr fun b _ => ?_
  split
  · rfl
  · rename_i hh
    simp at hh
    exact (h _ hh.1 hh.2).symm

theorem sh_all (f : BusD → ℝ) (h : ∀ b : BusD, b.GS = 0 → b.BS = 0 → f b = 0) : total (fun b => f b.data) (nzsh t) = total (fun b => f b.data) t.bus := by
  unfold nzsh
  rw [total_filter]
  refine total_congr fun b _ => ?_
  split
  · rfl
  · rename_i hh
    simp at hh
    exact (h _ hh.1 hh.2).symm

theorem sum_genAt (hr : Refs t) (f : GenD → ℝ) : total (fun b : BusRow BusD => genAt t b.num f) t.bus = total (fun g => f g.data) t.gen := by
  have := total_bucket hr.nodup t.gen (·.bus) (fun g => f g.data)
  rw [total_map] at this
  refine this.trans ?_
  rw [List.filter_eq_self.2]
  intro g hg
  obtain ⟨b, hb, e⟩ := hr.gen g hg
  simp only [List.mem_map, decide_eq_true_eq]
  exact ⟨b, hb, e⟩

theorem sum_fromAt (hr : Refs t) (f : BrD → ℝ) : total (fun b : BusRow BusD => fromAt t b.num f) t.bus = total (fun l => f l.data) t.branch := by
  have := total_bucket hr.nodup t.branch (·.f) (fun g => f g.data)
  rw [total_map] at this
  refine this.trans ?_
  rw [List.filter_eq_self.2]
  intro g hg
  obtain ⟨b, hb, e⟩ := hr.f g hg
  simp only [List.mem_map, decide_eq_true_eq]
  exact ⟨b, hb, e⟩

theorem sum_toAt (hr : Refs t) (f : BrD → ℝ) : total (fun b : BusRow BusD => toAt t b.num f) t.bus = total (fun l => f l.data) t.branch := by
  have := total_bucket hr.nodup t.branch (·.t) (fun g => f g.data)
  rw [total_map] at this
  refine this.trans ?_
  rw [List.filter_eq_self.2]
  intro g hg
  obtain ⟨b, hb, e⟩ := hr.t g hg
  simp only [List.mem_map, decide_eq_true_eq]
  exact ⟨b, hb, e⟩

/-- Flows and losses of each branch. -/
theorem ends_loss (hr : Refs t) (hp : AcPoint base t) {es : List Ends} (hes : ends t = some es) : ∀ e ∈ es,
    e.l.data.PF + e.l.data.PT = (loss false base e).re ∧ e.l.data.QF + e.l.data.QT = (loss false base e).im - fchg base e - tchg base e := by
  intro e he
  obtain ⟨h1, h2, h3, h4, h5⟩ := (ends_spec hr hes).2 e he
  by_cases hs : e.l.status = 0
  · obtain ⟨a, b, c, d⟩ := hp.branchOff e.l h1 hs
    simp [loss, fchg, tchg, hs, a, b, c, d]
  · exact branch_loss base e hs (hp.impedance e.l h1 hs) (hp.branchOn e.l h1 hs e.f h2 h3 e.t h4 h5)

/-- **C91 (system summary, AC).**  Printed generation, minus load, plus shunt injection (plus branch charging), minus losses, is the sum over the buses of generation − demand − shunt −
flows, active and reactive. -/
theorem C91_system_ac (hdc : o.PF_DC = false) (hr : Refs t) (hp : AcPoint base t) (h : printpf area o isOPF base t = some (t', some rep)) {s : Sys} (hs : rep.sys = some s) :
    s.genP - s.loadP + s.shuntP - s.lossP = (t.bus.map (acBalanceP t)).sum ∧
    s.genQ - s.loadQ + s.shuntQ + s.chg - s.lossQ = (t.bus.map (acBalanceQ t)).sum := by
  obtain ⟨-, ht, es, ars, hes, -, hsys, -⟩ := printpf_inv h
  rw [hdc] at ht
  simp only [Bool.false_eq_true, if_false] at ht
  subst ht
  have hsys := hsys s hs
  unfold sysSum at hsys
  split at hsys
  · simp at hsys
  simp only [Option.some.injEq] at hsys
  obtain ⟨hl, -⟩ := ends_spec hr hes
  have hloss := ends_loss hr hp hes
  have g1 := gen_split (t := t') (·.PG) fun g hg hh => (hp.genOff g hg hh).1
  have g2 := gen_split (t := t') (·.QG) fun g hg hh => (hp.genOff g hg hh).2
  have l1 := ld_all (t := t') (·.PD) fun b h _ => h
  have l2 := ld_all (t := t') (·.QD) fun b _ h => h
  have s1 := sh_all (t := t') (fun b => b.VM ^ 2 * b.GS) fun b h _ => by simp [h]
  have s2 := sh_all (t := t') (fun b => b.VM ^ 2 * b.BS) fun b _ h => by simp [h]
  have f1 : total (fun l : BranchRow BrD => l.data.PF) t'.branch + total (fun l : BranchRow BrD => l.data.PT) t'.branch = total (fun e => (loss false base e).re) es := by
    rw [← hl, total_map, total_map, ← total_add]
    exact total_congr fun e he => (hloss e he).1
  have f2 : total (fun l : BranchRow BrD => l.data.QF) t'.branch + total (fun l : BranchRow BrD => l.data.QT) t'.branch =
      total (fun e => (loss false base e).im) es - total (fchg base) es - total (tchg base) es := by
    rw [← hl, total_map, total_map, ← total_add, ← total_sub, ← total_sub]
    exact total_congr fun e he => (hloss e he).2
  have b1 : (t'.bus.map (acBalanceP t')).sum = total (fun g => g.data.PG) t'.gen - total (fun b => b.data.PD) t'.bus -
      total (fun b => b.data.VM ^ 2 * b.data.GS) t'.bus - total (fun l => l.data.PF) t'.branch - total (fun l => l.data.PT) t'.branch := by
    rw [← sum_genAt hr, ← sum_fromAt hr, ← sum_toAt hr, ← total_sub, ← total_sub, ← total_sub, ← total_sub]
    refine total_congr fun b _ => ?_
    unfold acBalanceP; ring
  have b2 : (t'.bus.map (acBalanceQ t')).sum = total (fun g => g.data.QG) t'.gen - total (fun b => b.data.QD) t'.bus +
      total (fun b => b.data.VM ^ 2 * b.data.BS) t'.bus - total (fun l => l.data.QF) t'.branch - total (fun l => l.data.QT) t'.branch := by
    rw [← sum_genAt hr, ← sum_fromAt hr, ← sum_toAt hr, ← total_sub, ← total_add, ← total_sub, ← total_sub]
    refine total_congr fun b _ => ?_
    unfold acBalanceQ; ring
  rw [b1, b2]
  subst hsys
  rw [hdc]
  simp only at *
  constructor <;> linarith

theorem area_bucket {α : Type} (hr : Refs t) (a : ℤ) (xs : List α) (key : α → ℕ) (row : α → BusRow BusD) (hrow : ∀ x ∈ xs, row x ∈ t.bus ∧ (row x).num = key x) (f : α → ℝ) :
    total (fun b : BusRow BusD => total f (xs.filter fun x => key x == b.num)) (busesIn area t a) = total f (xs.filter fun x => areaOf area (row x) == a) := by
  have hn : ((busesIn area t a).map (·.num)).Nodup := hr.nodup.sublist (List.Sublist.map _ List.filter_sublist)
  have := total_bucket hn xs key f
  rw [total_map] at this
  rw [this]
  congr 1
  refine List.filter_congr fun x hx => ?_
  obtain ⟨h1, h2⟩ := hrow x hx
  rw [Bool.eq_iff_iff, decide_eq_true_iff]
  simp only [busesIn, List.mem_map, List.mem_filter, beq_iff_eq, areaOf]
  constructor
  · rintro ⟨b, ⟨hb, ha⟩, e⟩
    rw [row_unique hr.nodup h1 hb (h2.trans e.symm)]
    exact ha
  · intro ha
    exact ⟨row x, ⟨h1, ha⟩, h2⟩

theorem inArea_iff (hr : Refs t) {b : BusRow BusD} (hb : b ∈ t.bus) (a : ℤ) : (busesIn area t a).any (fun b' => b'.num == b.num) = (areaOf area b == a) := by
  rw [Bool.eq_iff_iff]
  simp only [busesIn, List.any_eq_true, List.mem_filter, beq_iff_eq, areaOf]
  constructor
  · rintro ⟨b', ⟨h1, h2⟩, e⟩
    rw [← row_unique hr.nodup h1 hb e]; exact h2
  · intro h
    exact ⟨b, ⟨hb, h⟩, rfl⟩

theorem volt_norm (b : BusRow BusD) : ‖volt b‖ ^ 2 = b.data.VM ^ 2 := by
  unfold volt
  rw [norm_mul, show -(Complex.I * ((Real.pi / 180 * b.data.VA : ℝ) : ℂ)) = ((-(Real.pi / 180 * b.data.VA) : ℝ) : ℂ) * Complex.I by push_cast; ring,
    Complex.norm_exp_ofReal_mul_I, mul_one, Complex.norm_real, Real.norm_eq_abs, sq_abs]

theorem tap_norm (l : BrD) : ‖tap l‖ ^ 2 = (if l.tap = 0 then 1 else l.tap) ^ 2 := by
  unfold tap
  rw [norm_mul, show -(Complex.I * ((Real.pi / 180 * l.shift : ℝ) : ℂ)) = ((-(Real.pi / 180 * l.shift) : ℝ) : ℂ) * Complex.I by push_cast; ring,
    Complex.norm_exp_ofReal_mul_I, mul_one, Complex.norm_real, Real.norm_eq_abs, sq_abs]

theorem total_area {α : Type} (ar : α → ℤ) (a : ℤ) (f : α → ℝ) (p : α → Bool) (l : List α) :
    total f ((l.filter p).filter fun x => ar x == a) = total (fun x => if p x then f x else 0) (l.filter fun x => ar x == a) := by
  rw [← total_filter, List.filter_filter, List.filter_filter]
  congr 1
  exact List.filter_congr fun x _ => Bool.and_comm _ _

/-- The charging terms printed for ties. -/
theorem tieCharging_eq (hr : Refs t) {es : List Ends} (hes : ends t = some es) (a : ℤ) :
    tieCharging area base t a = total (fchg base) (es.filter fun e => areaOf area e.f == a && areaOf area e.t != a && e.l.status != 0) +
      total (tchg base) (es.filter fun e => areaOf area e.f != a && areaOf area e.t == a && e.l.status != 0) := by
  obtain ⟨hl, hE⟩ := ends_spec hr hes
  have key1 : total (fun b : BusRow BusD => total (fchg base) ((es.filter fun e => areaOf area e.t != a && e.l.status != 0).filter fun e => e.l.f == b.num)) (busesIn area t a) =
      total (fchg base) (es.filter fun e => areaOf area e.f == a && areaOf area e.t != a && e.l.status != 0) := by
    rw [area_bucket hr a _ (fun e : Ends => e.l.f) (fun e => e.f) (fun e he => ⟨(hE e (List.mem_of_mem_filter he)).2.1, (hE e (List.mem_of_mem_filter he)).2.2.1⟩), List.filter_filter]
    congr 1
    exact List.filter_congr fun e _ => by simp [Bool.and_assoc]
  have key2 : total (fun b : BusRow BusD => total (tchg base) ((es.filter fun e => areaOf area e.f != a && e.l.status != 0).filter fun e => e.l.t == b.num)) (busesIn area t a) =
      total (tchg base) (es.filter fun e => areaOf area e.f != a && areaOf area e.t == a && e.l.status != 0) := by
    rw [area_bucket hr a _ (fun e : Ends => e.l.t) (fun e => e.t) (fun e he => ⟨(hE e (List.mem_of_mem_filter he)).2.2.2.1, (hE e (List.mem_of_mem_filter he)).2.2.2.2⟩), List.filter_filter]
    congr 1
    exact List.filter_congr fun e _ => by cases (areaOf area e.f != a) <;> cases (areaOf area e.t == a) <;> rfl
  rw [← key1, ← key2, ← total_add]
  unfold tieCharging
  refine total_congr fun b hb => ?_
  have hb' : b ∈ t.bus := List.mem_of_mem_filter hb
  congr 1
  · rw [← hl, List.filter_map, List.map_map, List.filter_filter]
    unfold total
    have e1 : es.filter ((fun l : BranchRow BrD => l.f == b.num && l.status != 0 && !(busesIn area t a).any fun b' => b'.num == l.t) ∘ fun e => e.l) =
        es.filter fun e => e.l.f == b.num && (areaOf area e.t != a && e.l.status != 0) := by
      refine List.filter_congr fun e he => ?_
      obtain ⟨-, -, -, h4, h5⟩ := hE e he
      simp only [Function.comp_apply]
      rw [← h5, inArea_iff hr h4, bne]
      show (_ && _ && _) = (_ && (!(areaOf area e.t == a) && _))
      generalize (areaOf area e.t == a) = z
      cases (e.l.f == b.num) <;> cases (e.l.status == 0) <;> cases z <;> rfl
    rw [e1]
    congr 1
    refine List.map_congr_left fun e he => ?_
    simp only [List.mem_filter, Bool.and_eq_true, beq_iff_eq, bne_iff_ne] at he
    obtain ⟨he, hf, -, hs⟩ := he
    obtain ⟨-, h2, h3, -⟩ := hE e he
    have : e.f = b := row_unique hr.nodup h2 hb' (h3.trans hf)
    simp only [Function.comp_apply, fchg, if_neg hs]
    rw [norm_div, div_pow, volt_norm, tap_norm, this]
  · rw [← hl, List.filter_map, List.map_map, List.filter_filter]
    unfold total
    have e1 : es.filter ((fun l : BranchRow BrD => l.t == b.num && l.status != 0 && !(busesIn area t a).any fun b' => b'.num == l.f) ∘ fun e => e.l) =
        es.filter fun e => e.l.t == b.num && (areaOf area e.f != a && e.l.status != 0) := by
      refine List.filter_congr fun e he => ?_
      obtain ⟨-, h4, h5, -, -⟩ := hE e he
      simp only [Function.comp_apply]
      rw [← h5, inArea_iff hr h4, bne]
      show (_ && _ && _) = (_ && (!(areaOf area e.f == a) && _))
      generalize (areaOf area e.f == a) = z
      cases (e.l.t == b.num) <;> cases (e.l.status == 0) <;> cases z <;> rfl
    rw [e1]
    congr 1
    refine List.map_congr_left fun e he => ?_
    simp only [List.mem_filter, Bool.and_eq_true, beq_iff_eq, bne_iff_ne] at he
    obtain ⟨he, hf, -, hs⟩ := he
    obtain ⟨-, -, -, h2, h3⟩ := hE e he
    have : e.t = b := row_unique hr.nodup h2 hb' (h3.trans hf)
    simp only [Function.comp_apply, tchg, if_neg hs]
    rw [volt_norm, this]

/-- One line of the area summary. -/
theorem area_balance (hr : Refs t) (hp : AcPoint base t) {es : List Ends} (hes : ends t = some es) {gs : List (GenRow GenD × BusRow BusD)} (hgs : genRows t = some gs) (a : ℤ) :
    let s := areaSum area false base t es gs a
    s.genP - s.loadP + s.shuntP - s.lossP - s.exportP = ((busesIn area t a).map (acBalanceP t)).sum ∧
    s.genQ - s.loadQ + s.shuntQ + s.chg - s.lossQ - s.exportQ = ((busesIn area t a).map (acBalanceQ t)).sum + tieCharging area base t a := by
  intro s
  obtain ⟨hl, hE⟩ := ends_spec hr hes
  obtain ⟨hg, hG⟩ := genRows_spec hr hgs
  have hloss := ends_loss hr hp hes
  have off : ∀ e ∈ es, e.l.status = 0 → e.l.data.PF = 0 ∧ e.l.data.QF = 0 ∧ e.l.data.PT = 0 ∧ e.l.data.QT = 0 := fun e he => hp.branchOff e.l (hE e he).1
  -- generation
  have gen : ∀ f : GenD → ℝ, (∀ g ∈ t.gen, g.status ≤ 0 → f g.data = 0) →
      total (fun g : GenRow GenD × BusRow BusD => f g.1.data) (gs.filter fun g => areaOf area g.2 == a && decide (0 < g.1.status) && !isload g.1) +
      total (fun g : GenRow GenD × BusRow BusD => f g.1.data) (gs.filter fun g => areaOf area g.2 == a && decide (0 < g.1.status) && isload g.1) =
      total (fun b : BusRow BusD => genAt t b.num f) (busesIn area t a) := by
    intro f hf
    have e1 : total (fun b : BusRow BusD => genAt t b.num f) (busesIn area t a) =
        total (fun g : GenRow GenD × BusRow BusD => f g.1.data) (gs.filter fun g => areaOf area g.2 == a) := by
      rw [← area_bucket hr a gs (fun g => g.1.bus) (fun g => g.2) (fun g hg => ⟨(hG g hg).2.1, (hG g hg).2.2⟩)]
      refine total_congr fun b _ => ?_
      unfold genAt
      rw [← hg, List.filter_map, List.map_map]
      rfl
    rw [e1, total_filter, total_filter, total_filter, ← total_add]
    refine total_congr fun g hg => ?_
    by_cases hs : 0 < g.1.status
    · cases hl : isload g.1 <;> by_cases ha : areaOf area g.2 = a <;> simp [hs, ha]
    · have := hf g.1 (hG g hg).1 (by omega)
      simp [this]
  have g1 := gen (·.PG) fun g hg hh => (hp.genOff g hg hh).1
  have g2 := gen (·.QG) fun g hg hh => (hp.genOff g hg hh).2
  -- loads and shunts
  have bus : ∀ (f : BusD → ℝ) (p : BusRow BusD → Bool), (∀ b, p b = false → f b.data = 0) →
      total (fun b => f b.data) ((t.bus.filter p).filter fun b => areaOf area b == a) = total (fun b => f b.data) (busesIn area t a) := by
    intro f p h
    rw [total_area]
    refine total_congr fun b _ => ?_
    split
    · rfl
    · rename_i hh; exact (h b (by simpa using hh)).symm
  have l1 := bus (·.PD) (fun b => decide (b.data.PD ≠ 0) || decide (b.data.QD ≠ 0)) fun b h => by simp at h; exact h.1
  have l2 := bus (·.QD) (fun b => decide (b.data.PD ≠ 0) || decide (b.data.QD ≠ 0)) fun b h => by simp at h; exact h.2
  have s1 := bus (fun b => b.VM ^ 2 * b.GS) (fun b => decide (b.data.GS ≠ 0) || decide (b.data.BS ≠ 0)) fun b h => by simp at h; simp [h.1]
  have s2 := bus (fun b => b.VM ^ 2 * b.BS) (fun b => decide (b.data.GS ≠ 0) || decide (b.data.BS ≠ 0)) fun b h => by simp at h; simp [h.2]
  -- flows
  have from' : ∀ f : BrD → ℝ, total (fun b : BusRow BusD => fromAt t b.num f) (busesIn area t a) = total (fun e : Ends => f e.l.data) (es.filter fun e => areaOf area e.f == a) := by
    intro f
    rw [← area_bucket hr a es (fun e => e.l.f) (fun e => e.f) (fun e he => ⟨(hE e he).2.1, (hE e he).2.2.1⟩)]
    refine total_congr fun b _ => ?_
    unfold fromAt
    rw [← hl, List.filter_map, List.map_map]
    rfl
  have to' : ∀ f : BrD → ℝ, total (fun b : BusRow BusD => toAt t b.num f) (busesIn area t a) = total (fun e : Ends => f e.l.data) (es.filter fun e => areaOf area e.t == a) := by
    intro f
    rw [← area_bucket hr a es (fun e => e.l.t) (fun e => e.t) (fun e he => ⟨(hE e he).2.2.2.1, (hE e he).2.2.2.2⟩)]
    refine total_congr fun b _ => ?_
    unfold toAt
    rw [← hl, List.filter_map, List.map_map]
    rfl
  have f1 : total (fun e : Ends => e.l.data.PF) (es.filter fun e => areaOf area e.f == a) + total (fun e : Ends => e.l.data.PT) (es.filter fun e => areaOf area e.t == a) =
      s.lossP + s.exportP := by
    show _ = (_ + _ / 2) + (_ + _ - _ / 2)
    rw [show ∀ x y z w : ℝ, (x + y / 2) + (z + w - y / 2) = x + (z + w) by intros; ring]
    rw [total_filter, total_filter, total_filter, total_filter, total_filter, ← total_add, ← total_add, ← total_add]
    refine total_congr fun e he => ?_
    obtain ⟨p, -⟩ := hloss e he
    by_cases hs : e.l.status = 0
    · obtain ⟨x1, x2, x3, x4⟩ := off e he hs
      simp [hs, x1, x3]
    · by_cases hf : areaOf area e.f = a <;> by_cases ht : areaOf area e.t = a <;> simp [hs, hf, ht, ← p]
  have f2 : total (fun e : Ends => e.l.data.QF) (es.filter fun e => areaOf area e.f == a) + total (fun e : Ends => e.l.data.QT) (es.filter fun e => areaOf area e.t == a) =
      s.lossQ + s.exportQ - s.chg + tieCharging area base t a := by
    rw [tieCharging_eq hr hes]
    show _ = (_ + _ / 2) + (_ + _ - _ / 2) - (_ + _ + _ + _) + (_ + _)
    rw [show ∀ x y z w u v p q : ℝ, (x + y / 2) + (z + w - y / 2) - (u + v + p + q) + (p + q) = x + (z + w) - (u + v) by intros; ring]
    rw [total_filter, total_filter, total_filter, total_filter, total_filter, total_filter, total_filter, ← total_add, ← total_add, ← total_add, ← total_add, ← total_sub]
    refine total_congr fun e he => ?_
    obtain ⟨-, p⟩ := hloss e he
    by_cases hs : e.l.status = 0
    · obtain ⟨x1, x2, x3, x4⟩ := off e he hs
      simp [hs, x2, x4]
    · by_cases hf : areaOf area e.f = a <;> by_cases ht : areaOf area e.t = a <;> simp [hs, hf, ht]
      rw [p]; ring
  have b1 : ((busesIn area t a).map (acBalanceP t)).sum = total (fun b : BusRow BusD => genAt t b.num (·.PG)) (busesIn area t a) - total (fun b => b.data.PD) (busesIn area t a) -
      total (fun b => b.data.VM ^ 2 * b.data.GS) (busesIn area t a) - (total (fun b : BusRow BusD => fromAt t b.num (·.PF)) (busesIn area t a) +
      total (fun b : BusRow BusD => toAt t b.num (·.PT)) (busesIn area t a)) := by
    rw [← total_add, ← total_sub, ← total_sub, ← total_sub]
    refine total_congr fun b _ => ?_
    unfold acBalanceP; ring
  have b2 : ((busesIn area t a).map (acBalanceQ t)).sum = total (fun b : BusRow BusD => genAt t b.num (·.QG)) (busesIn area t a) - total (fun b => b.data.QD) (busesIn area t a) +
      total (fun b => b.data.VM ^ 2 * b.data.BS) (busesIn area t a) - (total (fun b : BusRow BusD => fromAt t b.num (·.QF)) (busesIn area t a) +
      total (fun b : BusRow BusD => toAt t b.num (·.QT)) (busesIn area t a)) := by
    rw [← total_add, ← total_sub, ← total_add, ← total_sub]
    refine total_congr fun b _ => ?_
    unfold acBalanceQ; ring
  rw [b1, b2, from', to', from', to', f1, f2, ← g1, ← g2, ← l1, ← l2, ← s1, ← s2]
  simp only [s, areaSum, nzld, nzsh]
  constructor <;> ring

/-- **C91 (area summary, active power).**  In every line of the area summary generation − load + shunt injection − losses − net export is the sum over the buses of that area of
generation − demand − shunt − flows. -/
theorem C91_area_active (hdc : o.PF_DC = false) (hr : Refs t) (hp : AcPoint base t) (h : printpf area o isOPF base t = some (t', some rep)) {as : List AreaSum}
    (hs : rep.areas = some as) : ∀ s ∈ as, s.genP - s.loadP + s.shuntP - s.lossP - s.exportP = ((busesIn area t s.num).map (acBalanceP t)).sum := by
  obtain ⟨-, ht, es, ars, hes, -, -, has, -⟩ := printpf_inv h
  rw [hdc] at ht has
  simp only [Bool.false_eq_true, if_false] at ht
  subst ht
  obtain ⟨gs, hgs, rfl⟩ := has as hs
  intro s hs
  obtain ⟨a, -, rfl⟩ := List.mem_map.1 hs
  exact (area_balance hr hp hes hgs a).1

/-- **C91 (area summary, reactive power; partial).**  Missing: the printed reactive figures of an area should balance as the active ones do.  They are off by exactly the line charging
produced at its buses by ties to other areas, which is counted as branch charging and again in the net export; they balance if such ties have no charging. -/
theorem C91_area_reactive_partial (hdc : o.PF_DC = false) (hr : Refs t) (hp : AcPoint base t) (h : printpf area o isOPF base t = some (t', some rep)) {as : List AreaSum}
    (hs : rep.areas = some as) : ∀ s ∈ as,
    s.genQ - s.loadQ + s.shuntQ + s.chg - s.lossQ - s.exportQ = ((busesIn area t s.num).map (acBalanceQ t)).sum + tieCharging area base t s.num := by
  obtain ⟨-, ht, es, ars, hes, -, -, has, -⟩ := printpf_inv h
  rw [hdc] at ht has
  simp only [Bool.false_eq_true, if_false] at ht
  subst ht
  obtain ⟨gs, hgs, rfl⟩ := has as hs
  intro s hs
  obtain ⟨a, -, rfl⟩ := List.mem_map.1 hs
  exact (area_balance hr hp hes hgs a).2

theorem sum_areas {α : Type} {l : List ℤ} (hn : l.Nodup) (ar : α → ℤ) (f : α → ℝ) (xs : List α) (hm : ∀ x ∈ xs, ar x ∈ l) :
    total (fun a => total f (xs.filter fun x => ar x == a)) l = total f xs := by
  rw [total_bucket hn]
  congr 1
  exact List.filter_eq_self.2 fun x hx => by simpa using hm x hx

theorem ite_sum {l : List ℤ} (hn : l.Nodup) {k : ℤ} (hk : k ∈ l) (v : ℝ) : total (fun a => if k == a then v else 0) l = v := by
  rw [ite_total hn, if_pos hk]

/-- **C91 (area totals).**  If the first area has at least two buses (see C92), the lines of the area summary add up to the figures of the system summary, and the net exports of active
power add up to zero. -/
theorem C91_area_totals (hdc : o.PF_DC = false) (hr : Refs t) (hp : AcPoint base t) (h : printpf area o isOPF base t = some (t', some rep)) {as : List AreaSum}
    (has : rep.areas = some as) {s : Sys} (hs : rep.sys = some s)
    (htwo : ∃ i j : ℕ, i ≠ j ∧ ∃ b b', t.bus[i]? = some b ∧ t.bus[j]? = some b' ∧ area b.data.rest = area b'.data.rest ∧ ∀ c ∈ t.bus, area b.data.rest ≤ area c.data.rest) :
    (as.map (·.genP)).sum = s.genP ∧ (as.map (·.genQ)).sum = s.genQ ∧ (as.map (·.loadP)).sum = s.loadP ∧ (as.map (·.loadQ)).sum = s.loadQ ∧
    (as.map (·.shuntP)).sum = s.shuntP ∧ (as.map (·.shuntQ)).sum = s.shuntQ ∧ (as.map (·.lossP)).sum = s.lossP ∧ (as.map (·.lossQ)).sum = s.lossQ ∧
    (as.map (·.chg)).sum = s.chg ∧ (as.map (·.exportP)).sum = 0 := by
  obtain ⟨-, ht, es, ars, hes, hars, hsys, has', -⟩ := printpf_inv h
  rw [hdc] at ht has' hsys
  simp only [Bool.false_eq_true, if_false] at ht
  subst ht
  obtain ⟨gs, hgs, rfl⟩ := has' as has
  have hsys := hsys s hs
  unfold sysSum at hsys
  split at hsys
  · simp at hsys
  simp only [Option.some.injEq] at hsys
  obtain ⟨l, hl, hsort, hmem⟩ := sAreas_right (area := area) (t := t') htwo
  rw [hars] at hl; cases hl
  have hn : ars.Nodup := hsort.imp fun h => ne_of_lt h
  have har : ∀ b ∈ t'.bus, areaOf area b ∈ ars := fun b hb => (hmem _).2 ⟨b, hb, rfl⟩
  obtain ⟨hl, hE⟩ := ends_spec hr hes
  obtain ⟨hg, hG⟩ := genRows_spec hr hgs
  have hloss := ends_loss hr hp hes
  have gen : ∀ (f : GenD → ℝ) (p : GenRow GenD → Bool),
      total (fun a => total (fun g : GenRow GenD × BusRow BusD => f g.1.data) (gs.filter fun g => areaOf area g.2 == a && p g.1)) ars =
      total (fun g => f g.data) (t'.gen.filter p) := by
    intro f p
    rw [← hg, List.filter_map, total_map, ← sum_areas hn (fun g : GenRow GenD × BusRow BusD => areaOf area g.2) (fun g => f g.1.data) (gs.filter (p ∘ fun x => x.1))
      (fun g hg => har _ (hG g (List.mem_of_mem_filter hg)).2.1)]
    refine total_congr fun a _ => ?_
    rw [List.filter_filter]
    rfl
  have gen2 : ∀ (f : GenD → ℝ) (p q : GenRow GenD → Bool),
      total (fun a => total (fun g : GenRow GenD × BusRow BusD => f g.1.data) (gs.filter fun g => areaOf area g.2 == a && p g.1 && q g.1)) ars =
      total (fun g => f g.data) (t'.gen.filter fun g => p g && q g) := by
    intro f p q
    rw [← gen]
    refine total_congr fun a _ => ?_
    congr 1
    exact List.filter_congr fun x _ => Bool.and_assoc _ _ _
  have bus : ∀ (f : BusRow BusD → ℝ) (p : BusRow BusD → Bool), total (fun a => total f ((t'.bus.filter p).filter fun b => areaOf area b == a)) ars = total f (t'.bus.filter p) :=
    fun f p => sum_areas hn _ f _ fun b hb => har b (List.mem_of_mem_filter hb)
  have hf : ∀ e ∈ es, areaOf area e.f ∈ ars := fun e he => har _ (hE e he).2.1
  have ht : ∀ e ∈ es, areaOf area e.t ∈ ars := fun e he => har _ (hE e he).2.2.2.1
  have half : ∀ L : Ends → ℝ, (∀ e, e.l.status = 0 → L e = 0) →
      total (fun a => total L (es.filter fun e => areaOf area e.f == a && areaOf area e.t == a && e.l.status != 0) +
        total L ((es.filter fun e => areaOf area e.f != a && areaOf area e.t == a && e.l.status != 0) ++
          (es.filter fun e => areaOf area e.f == a && areaOf area e.t != a && e.l.status != 0)) / 2) ars = total L es := by
    intro L hL
    have e1 : ∀ a, total L (es.filter fun e => areaOf area e.f == a && areaOf area e.t == a && e.l.status != 0) +
        total L ((es.filter fun e => areaOf area e.f != a && areaOf area e.t == a && e.l.status != 0) ++
          (es.filter fun e => areaOf area e.f == a && areaOf area e.t != a && e.l.status != 0)) / 2 =
        total (fun e => (if areaOf area e.f == a then L e / 2 else 0) + (if areaOf area e.t == a then L e / 2 else 0)) es := by
      intro a
      rw [total_append, total_filter, total_filter, total_filter, ← total_add]
      have : ∀ x : List Ends, total (fun e => (if areaOf area e.f != a && areaOf area e.t == a && e.l.status != 0 then L e else 0) +
          (if areaOf area e.f == a && areaOf area e.t != a && e.l.status != 0 then L e else 0)) x / 2 =
          total (fun e => ((if areaOf area e.f != a && areaOf area e.t == a && e.l.status != 0 then L e else 0) +
          (if areaOf area e.f == a && areaOf area e.t != a && e.l.status != 0 then L e else 0)) / 2) x := by
        intro x
        induction x with
        | nil => simp [total]
        | cons y x ih => rw [total_cons, total_cons, ← ih]; ring
      rw [this, ← total_add]
      refine total_congr fun e he => ?_
      by_cases hs : e.l.status = 0
      · simp [hs, hL e hs]
      · by_cases h1 : areaOf area e.f = a <;> by_cases h2 : areaOf area e.t = a <;> simp [hs, h1, h2]
    rw [total_congr fun a _ => e1 a, total_swap]
    refine total_congr fun e he => ?_
    rw [total_add, ite_sum hn (hf e he), ite_sum hn (ht e he)]
    ring
  have charge : total (fun a => total (fchg base) (es.filter fun e => areaOf area e.f == a && areaOf area e.t == a && e.l.status != 0) +
        total (tchg base) (es.filter fun e => areaOf area e.f == a && areaOf area e.t == a && e.l.status != 0) +
        total (fchg base) (es.filter fun e => areaOf area e.f == a && areaOf area e.t != a && e.l.status != 0) +
        total (tchg base) (es.filter fun e => areaOf area e.f != a && areaOf area e.t == a && e.l.status != 0)) ars = total (fchg base) es + total (tchg base) es := by
    have e1 : ∀ a, total (fchg base) (es.filter fun e => areaOf area e.f == a && areaOf area e.t == a && e.l.status != 0) +
        total (tchg base) (es.filter fun e => areaOf area e.f == a && areaOf area e.t == a && e.l.status != 0) +
        total (fchg base) (es.filter fun e => areaOf area e.f == a && areaOf area e.t != a && e.l.status != 0) +
        total (tchg base) (es.filter fun e => areaOf area e.f != a && areaOf area e.t == a && e.l.status != 0) =
        total (fun e => (if areaOf area e.f == a then fchg base e else 0) + (if areaOf area e.t == a then tchg base e else 0)) es := by
      intro a
      rw [total_filter, total_filter, total_filter, total_filter, ← total_add, ← total_add, ← total_add]
      refine total_congr fun e he => ?_
      by_cases hs : e.l.status = 0
      · simp [hs, fchg, tchg]
      · by_cases h1 : areaOf area e.f = a <;> by_cases h2 : areaOf area e.t = a <;> simp [hs, h1, h2]
    rw [total_congr fun a _ => e1 a, total_swap, ← total_add]
    refine total_congr fun e he => ?_
    rw [total_add, ite_sum hn (hf e he), ite_sum hn (ht e he)]
  have exports : total (fun a => total (fun e : Ends => e.l.data.PT) (es.filter fun e => areaOf area e.f != a && areaOf area e.t == a && e.l.status != 0) +
        total (fun e : Ends => e.l.data.PF) (es.filter fun e => areaOf area e.f == a && areaOf area e.t != a && e.l.status != 0) -
        total (fun e => (loss false base e).re) ((es.filter fun e => areaOf area e.f != a && areaOf area e.t == a && e.l.status != 0) ++
          (es.filter fun e => areaOf area e.f == a && areaOf area e.t != a && e.l.status != 0)) / 2) ars = 0 := by
    have e1 : ∀ a, total (fun e : Ends => e.l.data.PT) (es.filter fun e => areaOf area e.f != a && areaOf area e.t == a && e.l.status != 0) +
        total (fun e : Ends => e.l.data.PF) (es.filter fun e => areaOf area e.f == a && areaOf area e.t != a && e.l.status != 0) -
        total (fun e => (loss false base e).re) ((es.filter fun e => areaOf area e.f != a && areaOf area e.t == a && e.l.status != 0) ++
          (es.filter fun e => areaOf area e.f == a && areaOf area e.t != a && e.l.status != 0)) / 2 =
        total (fun e => (if areaOf area e.t == a then (if areaOf area e.f = areaOf area e.t ∨ e.l.status = 0 then 0 else e.l.data.PT - (loss false base e).re / 2) else 0) +
          (if areaOf area e.f == a then (if areaOf area e.f = areaOf area e.t ∨ e.l.status = 0 then 0 else e.l.data.PF - (loss false base e).re / 2) else 0)) es := by
      intro a
      have half' : ∀ (f : Ends → ℝ) (x : List Ends), total f x / 2 = total (fun e => f e / 2) x := by
        intro f x
        induction x with
        | nil => simp [total]
        | cons y x ih => rw [total_cons, total_cons, ← ih]; ring
      rw [half', total_append, total_filter, total_filter, total_filter, total_filter, ← total_add, ← total_add, ← total_sub]
      refine total_congr fun e he => ?_
      by_cases hs : e.l.status = 0
      · simp [hs]
      · by_cases h1 : areaOf area e.f = a
        · by_cases h2 : areaOf area e.t = a
          · simp [h1, h2]
          · have h3 : a ≠ areaOf area e.t := fun h => h2 h.symm
            simp [hs, h1, h2, h3]
        · by_cases h2 : areaOf area e.t = a
          · simp [hs, h1, h2]
          · simp [h1, h2]
    rw [total_congr fun a _ => e1 a, total_swap]
    refine total_zero fun e he => ?_
    rw [total_add, ite_sum hn (hf e he), ite_sum hn (ht e he)]
    obtain ⟨p, -⟩ := hloss e he
    split
    · ring
    · rw [← p]; ring
  subst hsys
  simp only [List.map_map, Function.comp_def, areaSum]
  have hre : ∀ e : Ends, e.l.status = 0 → (loss false base e).re = 0 := fun e h => by simp [loss, h]
  have him : ∀ e : Ends, e.l.status = 0 → (loss false base e).im = 0 := fun e h => by simp [loss, h]
  have neg : ∀ (f : ℤ → ℝ), (ars.map fun a => -f a).sum = -total f ars := by
    intro f
    have := total_sub (fun _ => 0) f ars
    simp only [zero_sub] at this
    rw [total_zero (fun _ _ => rfl)] at this
    simpa [total] using this
  refine ⟨gen2 (·.PG) (fun g => decide (0 < g.status)) (fun g => !isload g), gen2 (·.QG) (fun g => decide (0 < g.status)) (fun g => !isload g), ?_, ?_, ?_, bus _ _, half _ hre, half _ him, charge, exports⟩
  · show total (fun a => _ + _) ars = _
    rw [total_add]
    have := neg fun a => total (fun g : GenRow GenD × BusRow BusD => g.1.data.PG) (gs.filter fun g => areaOf area g.2 == a && decide (0 < g.1.status) && isload g.1)
    unfold total at this ⊢
    rw [this]
    have h1 := gen2 (·.PG) (fun g => decide (0 < g.status)) isload
    have h2 := bus (·.data.PD) (fun b => decide (b.data.PD ≠ 0) || decide (b.data.QD ≠ 0))
    unfold total at h1 h2
    unfold nzld onld
    rw [h1, h2]
    ring
  · show total (fun a => _ + _) ars = _
    rw [total_add]
    have := neg fun a => total (fun g : GenRow GenD × BusRow BusD => g.1.data.QG) (gs.filter fun g => areaOf area g.2 == a && decide (0 < g.1.status) && isload g.1)
    unfold total at this ⊢
    rw [this]
    have h1 := gen2 (·.QG) (fun g => decide (0 < g.status)) isload
    have h2 := bus (·.data.QD) (fun b => decide (b.data.PD ≠ 0) || decide (b.data.QD ≠ 0))
    unfold total at h1 h2
    unfold nzld onld
    rw [h1, h2]
    ring
  · rw [neg]
    congr 1
    exact bus _ _

/-- **C91 (system summary, DC).**  Losses are printed as zero, and generation − load + shunt injection is the sum over the buses of generation − demand − shunt − flows, off by what the
printed shunt injection (at the voltage in the table) differs from the consumption in the DC model (at 1 p.u.). -/
theorem C91_system_dc (hdc : o.PF_DC = true) (hr : Refs t) (hp : DcPoint t) (h : printpf area o isOPF base t = some (t', some rep)) {s : Sys} (hs : rep.sys = some s) :
    s.lossP = 0 ∧ s.genP - s.loadP + s.shuntP = (t.bus.map (dcBalance t)).sum + (t.bus.map fun b => b.data.GS * (1 - b.data.VM ^ 2)).sum := by
  obtain ⟨-, ht, es, ars, hes, -, hsys, -⟩ := printpf_inv h
  have hsys := hsys s hs
  unfold sysSum at hsys
  rw [hdc] at hsys ht
  simp only [Bool.true_eq_false, false_and, if_false, Option.some.injEq] at hsys
  rw [if_pos rfl] at ht
  have l0 : total (fun e => (loss true base e).re) es = 0 := total_zero fun e _ => by unfold loss; simp
  have gs := gen_split (t := t') (·.PG) (by
    intro g hg hh
    rw [ht] at hg
    simp only [dcZero, List.mem_map] at hg
    obtain ⟨g', hg', rfl⟩ := hg
    exact hp.genOff g' hg' hh)
  have ls := ld_all (t := t') (·.PD) fun b h _ => h
  have ss := sh_all (t := t') (fun b => b.VM ^ 2 * b.GS) fun b h _ => by simp [h]
  have e1 : total (fun g => g.data.PG) t'.gen = total (fun g => g.data.PG) t.gen := by rw [ht]; simp only [dcZero]; rw [total_map]
  have e2 : total (fun b => b.data.PD) t'.bus = total (fun b => b.data.PD) t.bus := by rw [ht]; simp only [dcZero]; rw [total_map]
  have e3 : total (fun b => b.data.VM ^ 2 * b.data.GS) t'.bus = total (fun b => b.data.VM ^ 2 * b.data.GS) t.bus := by rw [ht]; simp only [dcZero]; rw [total_map]
  have b1 : (t.bus.map (dcBalance t)).sum + (t.bus.map fun b => b.data.GS * (1 - b.data.VM ^ 2)).sum = total (fun g => g.data.PG) t.gen - total (fun b => b.data.PD) t.bus -
      total (fun b => b.data.VM ^ 2 * b.data.GS) t.bus := by
    have f0 : total (fun l => l.data.PF) t.branch + total (fun l => l.data.PT) t.branch = 0 := by
      rw [← total_add]
      exact total_zero fun l hl => by rw [hp.lossless l hl]; ring
    have : (t.bus.map (dcBalance t)).sum + (t.bus.map fun b => b.data.GS * (1 - b.data.VM ^ 2)).sum = total (fun g => g.data.PG) t.gen - total (fun b => b.data.PD) t.bus -
      total (fun b => b.data.VM ^ 2 * b.data.GS) t.bus - total (fun l => l.data.PF) t.branch - total (fun l => l.data.PT) t.branch := by
      rw [← sum_genAt hr, ← sum_fromAt hr, ← sum_toAt hr, ← total_sub, ← total_sub, ← total_sub, ← total_sub]
      refine (total_add _ _ _).symm.trans (total_congr fun b _ => ?_)
      unfold dcBalance; ring
    rw [this]; linarith
  rw [b1]
  subst hsys
  simp only at *
  refine ⟨l0, by linarith⟩

/-- **C91 (bus table).**  The generation and the load printed for the buses add up to the figures of the system summary. -/
theorem C91_bus_table (hr : Refs t) (h : printpf area o isOPF base t = some (t', some rep)) {s : Sys} (hs : rep.sys = some s) {bs : List BusLine} (hbs : rep.buses = some bs) :
    (bs.map fun b => (b.gen.getD 0).1).sum = s.genP ∧ (bs.map fun b => (b.gen.getD 0).2).sum = s.genQ ∧
    (bs.map fun b => (b.load.getD 0).1).sum = s.loadP ∧ (bs.map fun b => (b.load.getD 0).2).sum = s.loadQ := by
  obtain ⟨-, ht, es, ars, hes, -, hsys, -, hb, -⟩ := printpf_inv h
  have hsys := hsys s hs
  unfold sysSum at hsys
  split at hsys
  · simp at hsys
  simp only [Option.some.injEq] at hsys
  have hr' : Refs t' := by
    rw [ht]
    split
    · refine ⟨?_, ?_, ?_, ?_⟩
      · simpa [dcZero, Function.comp_def] using hr.nodup
      · intro g hg
        simp only [dcZero, List.mem_map] at hg
        obtain ⟨g', hg', rfl⟩ := hg
        obtain ⟨b, hb, e⟩ := hr.gen g' hg'
        exact ⟨_, List.mem_map.2 ⟨b, hb, rfl⟩, e⟩
      · intro g hg
        simp only [dcZero, List.mem_map] at hg
        obtain ⟨g', hg', rfl⟩ := hg
        obtain ⟨b, hb, e⟩ := hr.f g' hg'
        exact ⟨_, List.mem_map.2 ⟨b, hb, rfl⟩, e⟩
      · intro g hg
        simp only [dcZero, List.mem_map] at hg
        obtain ⟨g', hg', rfl⟩ := hg
        obtain ⟨b, hb, e⟩ := hr.t g' hg'
        exact ⟨_, List.mem_map.2 ⟨b, hb, rfl⟩, e⟩
    · exact hr
  rw [hb bs hbs]
  have bucket : ∀ (p : GenRow GenD → Bool) (f : GenRow GenD → ℝ),
      total (fun b : BusRow BusD => total f ((t'.gen.filter p).filter fun g => g.bus == b.num)) t'.bus = total f (t'.gen.filter p) := by
    intro p f
    have := total_bucket hr'.nodup (t'.gen.filter p) (·.bus) f
    rw [total_map] at this
    refine this.trans ?_
    rw [List.filter_eq_self.2]
    intro g hg
    obtain ⟨b, hb, e⟩ := hr'.gen g (List.mem_of_mem_filter hg)
    simp only [List.mem_map, decide_eq_true_eq]
    exact ⟨b, hb, e⟩
  have g1 : ∀ b, ((busLine t' b).gen.getD 0) = (total (·.data.PG) ((ong t').filter fun g => g.bus == b.num), total (·.data.QG) ((ong t').filter fun g => g.bus == b.num)) := by
    intro b
    simp only [busLine]
    split
    · rename_i h0; rw [h0]; rfl
    · rfl
  have l1 : ∀ b, ((busLine t' b).load.getD 0) = (b.data.PD - total (·.data.PG) ((onld t').filter fun g => g.bus == b.num),
      b.data.QD - total (·.data.QG) ((onld t').filter fun g => g.bus == b.num)) := by
    intro b
    simp only [busLine]
    split
    · rfl
    · rename_i h0
      push Not at h0
      rw [h0.1.1, h0.1.2, h0.2]
      simp only [total, List.map_nil, List.sum_nil, sub_zero]
      rfl
  have ld1 := ld_all (t := t') (·.PD) fun b h _ => h
  have ld2 := ld_all (t := t') (·.QD) fun b _ h => h
  subst hsys
  simp only [List.map_map, Function.comp_def, g1, l1]
  refine ⟨bucket _ _, bucket _ _, ?_, ?_⟩
  · rw [ld1]
    show total (fun b => _ - _) t'.bus = _
    rw [total_sub]
    congr 1
    exact bucket _ _
  · rw [ld2]
    show total (fun b => _ - _) t'.bus = _
    rw [total_sub]
    congr 1
    exact bucket _ _

/-! ## C92: the areas of the area summary -/

theorem sAreas_dcZero (t : Index.Case Tables) : sAreas area (dcZero t) = sAreas area t := by
  have : (dcZero t).bus.map (areaOf area) = t.bus.map (areaOf area) := by
    simp only [dcZero, List.map_map]; rfl
  unfold sAreas
  rw [this]

theorem area_nums (h : printpf area o isOPF base t = some (t', some rep)) {as : List AreaSum} (has : rep.areas = some as) : sAreas area t = some (as.map (·.num)) := by
  obtain ⟨-, ht, es, ars, hes, hars, -, has', -⟩ := printpf_inv h
  obtain ⟨gs, -, rfl⟩ := has' as has
  have e : sAreas area t' = sAreas area t := by
    rw [ht]
    split
    · exact sAreas_dcZero t
    · rfl
  rw [← e, hars, List.map_map]
  congr 1
  exact (List.map_id ars).symm

/-- **C92 (partial).**  If the smallest area number is carried by at least two buses, the area summary has exactly one line for every area of a bus, in ascending order, and the system
summary shows their number. Missing: cases whose first area has a single bus, see `C92_negation`. -/
theorem C92_partial (h : printpf area o isOPF base t = some (t', some rep))
    (htwo : ∃ i j : ℕ, i ≠ j ∧ ∃ b b', t.bus[i]? = some b ∧ t.bus[j]? = some b' ∧ area b.data.rest = area b'.data.rest ∧ ∀ c ∈ t.bus, area b.data.rest ≤ area c.data.rest) :
    (∀ as, rep.areas = some as → (as.map (·.num)).Pairwise (· < ·) ∧ ∀ a, a ∈ as.map (·.num) ↔ ∃ b ∈ t.bus, area b.data.rest = a) ∧
    (∀ s, rep.sys = some s → s.areas = (areasOf area t).card) := by
  obtain ⟨l, h1, h2, h3⟩ := sAreas_right htwo
  constructor
  · intro as has
    have := area_nums h has
    rw [h1] at this
    injection this with e
    rw [← e]
    exact ⟨h2, h3⟩
  · intro s hs
    obtain ⟨-, ht, es, ars, hes, hars, hsys, -⟩ := printpf_inv h
    have e : sAreas area t' = sAreas area t := by
      rw [ht]
      split
      · exact sAreas_dcZero t
      · rfl
    rw [e, h1] at hars
    injection hars with hars
    have := hsys s hs
    unfold sysSum at this
    split at this
    · simp at this
    simp only [Option.some.injEq] at this
    rw [← this]
    simp only
    rw [← hars]
    have hn : l.Nodup := h2.imp fun hlt => ne_of_lt hlt
    have : areasOf area t = l.toFinset := by
      ext a
      simp only [areasOf, List.mem_toFinset, List.mem_map]
      exact (h3 a).symm
    rw [this, List.toFinset_card_of_nodup hn]

/-- **C92 (negation).**  If exactly one bus carries the smallest area number and there is another bus, that area has no line in the area summary and another area has two.  With a single
bus in the whole table printing raises. -/
theorem C92_negation : (∀ as, printpf area o isOPF base t = some (t', some rep) → rep.areas = some as →
      ∀ b ∈ t.bus, (∀ c ∈ t.bus, area b.data.rest ≤ area c.data.rest) → (t.bus.filter fun c => area c.data.rest == area b.data.rest).length = 1 → 2 ≤ t.bus.length →
      area b.data.rest ∉ as.map (·.num) ∧ ¬ (as.map (·.num)).Nodup) ∧
    (o.OUT_ALL ≠ 0 → t.bus.length = 1 → printpf area o isOPF base t = none) := by
  constructor
  · intro as h has b hb hmin hone h2
    obtain ⟨l, h1, h2, h3⟩ := sAreas_wrong.1 b hb hmin hone h2
    have := area_nums h has
    rw [h1] at this
    injection this with e
    rw [← e]
    exact ⟨h2, h3⟩
  · intro ho h1
    unfold printpf
    rw [if_neg ho]
    have hl : ∀ t1 : Index.Case Tables, t1.bus.length = 1 → sAreas area t1 = none := fun t1 h => sAreas_wrong.2 (by omega)
    rw [Option.bind_eq_bind]
    refine Option.bind_eq_none_iff.2 fun es _ => ?_
    rw [Option.bind_eq_bind, hl, Option.bind_none]
    split
    · simp [dcZero, h1]
    · exact h1

/-! ## C93: printing does not change the results -/

/-- **C93 (partial).**  Printing the results of an AC calculation, or printing nothing, leaves the tables as they are.  Missing: DC calculations, see `C93_negation`. -/
theorem C93_partial {r : Option Report} (h : printpf area o isOPF base t = some (t', r)) (hdc : o.PF_DC = false ∨ o.OUT_ALL = 0) : t' = t := by
  unfold printpf at h
  split at h
  · simp only [Option.some.injEq, Prod.mk.injEq] at h; exact h.1.symm
  · rename_i h0
    cases r with
    | none => 
      simp only [Option.bind_eq_bind, Option.bind_eq_some_iff, Option.some.injEq, Prod.mk.injEq] at h
      obtain ⟨_, _, _, _, _, _, _, _, _, _, _, _, _, h⟩ := h
      cases h
    | some rep =>
      have := printpf_inv (area := area) (o := o) (isOPF := isOPF) (base := base) (t := t) (t' := t') (rep := rep) (by unfold printpf; rw [if_neg h0]; exact h)
      rcases hdc with hd | hd
      · rw [this.2.1, hd]; simp
      · exact absurd hd h0

/-! ## C94: listing of binding limits -/

/-- **C94 (partial).**  With option value 1 the generator and branch sections of an OPF list exactly the generators in service (other than dispatchable loads) and branches with a binding
limit, with 2 all of them, with 0 none; the voltage section is right with 2 (all buses) and 0.  Missing: the voltage section with 1, see `C94_negation`. -/
theorem C94_partial (h : printpf area o true base t = some (t', some rep)) :
    (∀ g, g ∈ rep.pgLims ↔ g ∈ ong t' ∧ (o.lim (·.OUT_PG_LIM) = 2 ∨ o.lim (·.OUT_PG_LIM) = 1 ∧ (g.data.PG < g.data.PMIN + o.OPF_VIOLATION ∨ g.data.PG > g.data.PMAX - o.OPF_VIOLATION ∨
      g.data.MU_PMIN > 1e-4 ∨ g.data.MU_PMAX > 1e-4))) ∧
    (o.PF_DC = false → ∀ g, g ∈ rep.qgLims ↔ g ∈ ong t' ∧ (o.lim (·.OUT_QG_LIM) = 2 ∨ o.lim (·.OUT_QG_LIM) = 1 ∧
      (g.data.QG < g.data.QMIN + o.OPF_VIOLATION ∨ g.data.QG > g.data.QMAX - o.OPF_VIOLATION ∨ g.data.MU_QMIN > 1e-4 ∨ g.data.MU_QMAX > 1e-4))) ∧
    (∃ es, ends t' = some es ∧ ∀ e, e ∈ rep.lineLims ↔ e ∈ es ∧ (o.lim (·.OUT_LINE_LIM) = 2 ∨ o.lim (·.OUT_LINE_LIM) = 1 ∧
      (e.l.data.rateA ≠ 0 ∧ (|ff o e| > e.l.data.rateA - o.OPF_VIOLATION ∨ |ft o e| > e.l.data.rateA - o.OPF_VIOLATION) ∨ e.l.data.MU_SF > 1e-4 ∨ e.l.data.MU_ST > 1e-4))) ∧
    (o.PF_DC = false → (o.lim (·.OUT_V_LIM) = 2 → rep.vLims = t'.bus) ∧ (o.lim (·.OUT_V_LIM) = 0 → rep.vLims = [])) := by
  obtain ⟨-, -, es, ars, hes, -, -, -, -, -, -, hv, hp, hq, hl, -⟩ := printpf_inv h
  have key : ∀ {α : Type} (lim : ℕ) (b : α → Bool) (rows : List α) x, x ∈ listed lim b rows ↔ x ∈ rows ∧ (lim = 2 ∨ lim = 1 ∧ b x = true) := by
    intro α lim b rows x
    unfold listed
    split
    · simp
    · rename_i hh
      simp only [List.not_mem_nil, false_iff]
      rintro ⟨h1, h2 | ⟨h2, h3⟩⟩
      · exact hh (by simp [h2])
      · exact hh (by
          simp only [h2, Bool.or_eq_true, Bool.and_eq_true, List.any_eq_true]
          exact .inr ⟨rfl, x, h1, h3⟩)
  refine ⟨?_, ?_, ⟨es, hes, ?_⟩, ?_⟩
  · intro g
    rw [hp, if_pos rfl, key]
    simp only [pBinding, Bool.or_eq_true, decide_eq_true_eq]
    unfold ptol
    tauto
  · intro hd g
    rw [hq, hd]
    simp only [Bool.not_false, Bool.and_true, if_true]
    rw [key]
    simp only [qBinding, Bool.or_eq_true, decide_eq_true_eq]
    unfold ptol
    tauto
  · intro e
    rw [hl, if_pos rfl, key]
    simp only [lBinding, Bool.or_eq_true, Bool.and_eq_true, decide_eq_true_eq]
    unfold ptol
    tauto
  · intro hd
    rw [hv, hd]
    simp only [Bool.not_false, Bool.and_true, if_true]
    constructor
    · intro h2
      rw [h2]
      unfold vListed vHeader
      cases t'.bus.any (vBinding o.OPF_VIOLATION) <;> simp
    · intro h2
      rw [h2]
      unfold vListed vHeader
      cases t'.bus.any (vBinding o.OPF_VIOLATION) <;> simp

/-- **C94 (negation).**  With option value 1 — the default, "binding constraints only" — no bus is ever listed, whatever its voltage. -/
theorem C94_negation (h : printpf area o true base t = some (t', some rep)) (hd : o.PF_DC = false) (h1 : o.lim (·.OUT_V_LIM) = 1) : rep.vLims = [] := by
  obtain ⟨-, -, es, ars, hes, -, -, -, -, -, -, hv, -⟩ := printpf_inv h
  rw [hv, hd, h1]
  simp only [Bool.not_false, Bool.and_true, if_true]
  unfold vListed vHeader
  cases t'.bus.any (vBinding o.OPF_VIOLATION) <;> simp

/-! ## C95: printing the results of an OPF with dispatchable loads -/

/-- **C95 (negation).**  With the default options, printing the results of an optimal power flow raises as soon as a dispatchable load in service is at its upper or lower limit — for
instance served in full. -/
theorem C95_negation (hp : o.OUT_ALL = -1) (hl : o.OUT_ALL_LIM = -1) (h1 : o.OUT_PG_LIM = 1) {g : GenRow GenD} (hg : g ∈ t.gen) (hon : 0 < g.status)
    (hload : g.data.PMIN < 0 ∧ g.data.PMAX = 0) (hat : g.data.PG < g.data.PMIN + o.OPF_VIOLATION ∨ g.data.PG > g.data.PMAX - o.OPF_VIOLATION) :
    printpf area o true base t = none := by
  cases hh : printpf area o true base t with
  | none => rfl
  | some p =>
    exfalso
    obtain ⟨t', r⟩ := p
    have h0 : o.OUT_ALL ≠ 0 := by rw [hp]; decide
    cases r with
    | none =>
      unfold printpf at hh
      rw [if_neg h0] at hh
      simp only [Option.bind_eq_bind, Option.bind_eq_some_iff, Option.some.injEq, Prod.mk.injEq] at hh
      obtain ⟨_, _, _, _, _, _, _, _, _, _, _, _, _, h⟩ := hh
      cases h
    | some rep =>
      obtain ⟨-, ht, es, ars, hes, -, -, -, -, -, hll, -⟩ := printpf_inv hh
      have := hll rfl
      unfold loadLines at this
      split at this
      · rename_i hc
        have hlim : o.lim (·.OUT_PG_LIM) = 1 := by simp [PrintOpt.lim, hp, hl, h1]
        rw [hlim] at hc
        have hmem : ∃ g' ∈ onld t', pBinding o.OPF_VIOLATION g' = true := by
          have hb : pBinding o.OPF_VIOLATION g = true := by
            simp only [pBinding, Bool.or_eq_true, decide_eq_true_eq]
            tauto
          rw [ht]
          split
          · refine ⟨{ g with data := { g.data with QG := 0, QMAX := 0, QMIN := 0 } }, ?_, hb⟩
            unfold onld
            rw [List.mem_filter]
            refine ⟨List.mem_map.2 ⟨g, hg, rfl⟩, ?_⟩
            simp [isload, hon, hload.1, hload.2]
          · refine ⟨g, ?_, hb⟩
            unfold onld
            rw [List.mem_filter]
            exact ⟨hg, by simp [isload, hon, hload.1, hload.2]⟩
        obtain ⟨g', hg', hb⟩ := hmem
        have hin : g' ∈ listed 1 (pBinding o.OPF_VIOLATION) (onld t') := by
          unfold listed
          rw [if_pos (by simp only [Bool.or_eq_true, Bool.and_eq_true, List.any_eq_true]; exact .inr ⟨rfl, g', hg', hb⟩)]
          rw [List.mem_filter]
          exact ⟨hg', by simp [hb]⟩
        rw [hc.1] at hin
        simp at hin
      · cases this

/-- Printing goes through if no line of the dispatchable load sections of an OPF is to be printed. -/
theorem printpf_returns (hr : Refs t) (h2 : 2 ≤ t.bus.length) (hb : t.branch ≠ []) (hload : isOPF = true → loadLines o (if o.PF_DC = true then dcZero t else t) = some ()) :
    (o.OUT_ALL = 0 → printpf area o isOPF base t = some (t, none)) ∧
    (o.OUT_ALL ≠ 0 → ∃ t' rep, printpf area o isOPF base t = some (t', some rep) ∧ (rep.sys.isSome = o.flag (·.OUT_SYS_SUM)) ∧ (rep.areas.isSome = o.flag (·.OUT_AREA_SUM)) ∧
      (rep.gens.isSome = o.flag (·.OUT_GEN)) ∧ (rep.buses.isSome = o.flag (·.OUT_BUS)) ∧ (rep.losses.isSome = o.flag (·.OUT_BRANCH))) := by
  unfold printpf
  refine ⟨fun h0 => by rw [if_pos h0], fun h0 => ?_⟩
  rw [if_neg h0]
  set t1 := if o.PF_DC = true then dcZero t else t with ht1
  have hr1 : Refs t1 := by
    rw [ht1]
    split
    · refine ⟨?_, ?_, ?_, ?_⟩
      · simpa [dcZero, Function.comp_def] using hr.nodup
      · intro g hg
        simp only [dcZero, List.mem_map] at hg
        obtain ⟨g', hg', rfl⟩ := hg
        obtain ⟨b, hb, e⟩ := hr.gen g' hg'
        exact ⟨_, List.mem_map.2 ⟨b, hb, rfl⟩, e⟩
      · intro g hg
        simp only [dcZero, List.mem_map] at hg
        obtain ⟨g', hg', rfl⟩ := hg
        obtain ⟨b, hb, e⟩ := hr.f g' hg'
        exact ⟨_, List.mem_map.2 ⟨b, hb, rfl⟩, e⟩
      · intro g hg
        simp only [dcZero, List.mem_map] at hg
        obtain ⟨g', hg', rfl⟩ := hg
        obtain ⟨b, hb, e⟩ := hr.t g' hg'
        exact ⟨_, List.mem_map.2 ⟨b, hb, rfl⟩, e⟩
    · exact hr
  have hlen : t1.bus.length = t.bus.length := by rw [ht1]; split <;> simp [dcZero]
  have hbl : t1.branch.length = t.branch.length := by rw [ht1]; split <;> simp [dcZero]
  obtain ⟨es, hes⟩ := ends_exists hr1
  obtain ⟨gs, hgs⟩ := genRows_exists hr1
  have hs : ∃ l, sAreas area t1 = some l := by
    have hl : ((t1.bus.map (areaOf area)).insertionSort (· ≤ ·)).length = t1.bus.length := by simp
    match hss : (t1.bus.map (areaOf area)).insertionSort (· ≤ ·) with
    | [] => rw [hss] at hl; simp at hl; omega
    | [x] => rw [hss] at hl; simp at hl; omega
    | x :: y :: l => exact ⟨_, sAreas_eq hss⟩
  obtain ⟨ars, hars⟩ := hs
  have hes0 : es ≠ [] := by
    rintro rfl
    have := (ends_spec hr1 hes).1
    have h0 : t1.branch.length = 0 := by rw [← this]; rfl
    rw [hbl] at h0
    exact hb (List.length_eq_zero_iff.1 h0)
  have hsys : ∃ s, sysSum area o.PF_DC isOPF base t1 es ars = some s := by
    unfold sysSum
    rw [if_neg (by simp [hes0])]
    exact ⟨_, rfl⟩
  obtain ⟨s, hsys⟩ := hsys
  obtain ⟨gt, hgt⟩ : ∃ x, genTable isOPF t1 = some x := by
    unfold genTable
    cases isOPF
    · exact ⟨_, rfl⟩
    · rw [hgs]; exact ⟨_, rfl⟩
  have hpart : ∀ {α : Type} (b : Bool) (x : α), ∃ y, part b (some x) = some y ∧ y.isSome = b := by
    intro α b x
    cases b
    · exact ⟨_, rfl, rfl⟩
    · exact ⟨_, rfl, rfl⟩
  simp only [hes, hars, hsys, hgs, hgt, Option.bind_eq_bind, Option.bind_some, Option.map_some]
  obtain ⟨y1, e1, q1⟩ := hpart (o.flag (·.OUT_SYS_SUM)) s
  obtain ⟨y2, e2, q2⟩ := hpart (o.flag (·.OUT_AREA_SUM)) (ars.map (areaSum area o.PF_DC base t1 es gs))
  obtain ⟨y3, e3, q3⟩ := hpart (o.flag (·.OUT_GEN)) gt
  obtain ⟨y4, e4⟩ : ∃ y, part isOPF (loadLines o t1) = some y := by
    cases isOPF
    · exact ⟨_, rfl⟩
    · rw [hload rfl]; exact ⟨_, rfl⟩
  rw [e1, e2, e3, e4]
  refine ⟨_, _, rfl, q1, q2, q3, ?_, ?_⟩
  · simp only
    cases o.flag (·.OUT_BUS) <;> rfl
  · simp only
    cases o.flag (·.OUT_BRANCH) <;> rfl

/-- **C95 (partial).**  Printing goes through for tables with proper references, at least two buses and a branch, if no dispatchable load is in service or the results are not those of
an OPF.  Missing: OPF results with dispatchable loads in service, see `C95_exact`.  What was asked for is there: the system summary, the area summary, the bus table and the branch table
are printed exactly if their option is set. -/
theorem C95_partial (hr : Refs t) (h2 : 2 ≤ t.bus.length) (hb : t.branch ≠ []) (hld : isOPF = true → ∀ g ∈ t.gen, 0 < g.status → ¬ (g.data.PMIN < 0 ∧ g.data.PMAX = 0)) :
    (o.OUT_ALL = 0 → printpf area o isOPF base t = some (t, none)) ∧
    (o.OUT_ALL ≠ 0 → ∃ t' rep, printpf area o isOPF base t = some (t', some rep) ∧ (rep.sys.isSome = o.flag (·.OUT_SYS_SUM)) ∧ (rep.areas.isSome = o.flag (·.OUT_AREA_SUM)) ∧
      (rep.gens.isSome = o.flag (·.OUT_GEN)) ∧ (rep.buses.isSome = o.flag (·.OUT_BUS)) ∧ (rep.losses.isSome = o.flag (·.OUT_BRANCH))) := by
  refine printpf_returns hr h2 hb fun hopf => ?_
  have hld := hld hopf
  set t1 := if o.PF_DC = true then dcZero t else t with ht1
  have hno : onld t1 = [] := by
    rw [ht1]
    split
    · unfold onld
      rw [List.filter_eq_nil_iff]
      intro g hg
      simp only [dcZero, List.mem_map] at hg
      obtain ⟨g', hg', rfl⟩ := hg
      have := hld g' hg'
      simp only [isload, Bool.and_eq_true, decide_eq_true_eq]
      tauto
    · unfold onld
      rw [List.filter_eq_nil_iff]
      intro g hg
      have := hld g hg
      simp only [isload, Bool.and_eq_true, decide_eq_true_eq]
      tauto
  unfold loadLines
  have h0 : ∀ lim (b : GenRow GenD → Bool), listed lim b (onld t1) = [] := by
    intro lim b
    rw [hno]; unfold listed; simp
  rw [if_pos ⟨h0 _ _, .inr (h0 _ _)⟩]

end

end Verif.Printpf
