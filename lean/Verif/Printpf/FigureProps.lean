import Verif.Printpf.FigureSpec
import Verif.Printpf.Props

/-!
# C103: counts, capacities, extremes and the generator table of printed results
-/

namespace Verif.Printpf

open Verif.Opf (Tables BusD GenD BrD asBranch rowPhasor genAt fromAt toAt acBalanceP acBalanceQ dcBalance)
open Verif.Index (BusRow GenRow BranchRow HasBus)
open ComplexConjugate

noncomputable section

variable {area : List ℝ → ℤ} {o : PrintOpt} {isOPF : Bool} {base : ℝ} {t t' : Index.Case Tables} {rep : Report}

/-! ### Lemmas -/

theorem count_filter {α β : Type} {g : β → α} {l : List α} {r : List β} (hg : r.map g = l) {p : α → Prop} {q : β → Bool} (h : ∀ x ∈ r, q x = true ↔ p (g x)) :
    (r.filter q).length = count p l := by
  subst hg
  unfold count
  induction r with
  | nil => rfl
  | cons x r ih =>
    have ih := ih fun y hy => h y (by simp [hy])
    have hx := h x (by simp)
    rw [List.filter_cons, List.map_cons, List.map_cons, List.sum_cons, ← ih]
    by_cases hp : p (g x)
    · rw [if_pos (hx.2 hp), if_pos hp, List.length_cons]; omega
    · rw [if_neg (fun hh => hp (hx.1 hh)), if_neg hp]; omega

theorem sum_filter {α β : Type} {g : β → α} {l : List α} {r : List β} (hg : r.map g = l) {p : α → Prop} {q : β → Bool} (f : α → ℝ) (h : ∀ x ∈ r, q x = true ↔ p (g x)) :
    total (fun x => f (g x)) (r.filter q) = sumOver p f l := by
  subst hg
  unfold sumOver
  induction r with
  | nil => rfl
  | cons x r ih =>
    have ih := ih fun y hy => h y (by simp [hy])
    have hx := h x (by simp)
    rw [List.filter_cons, List.map_cons, List.map_cons, List.sum_cons, ← ih]
    by_cases hp : p (g x)
    · rw [if_pos (hx.2 hp), if_pos hp, total_cons]
    · rw [if_neg (fun hh => hp (hx.1 hh)), if_neg hp, zero_add]

theorem count_id {α : Type} {l : List α} {p : α → Prop} {q : α → Bool} (h : ∀ x ∈ l, q x = true ↔ p x) : (l.filter q).length = count p l :=
  count_filter (g := id) (List.map_id l) h
theorem sum_id {α : Type} {l : List α} {p : α → Prop} {q : α → Bool} (f : α → ℝ) (h : ∀ x ∈ l, q x = true ↔ p x) : total f (l.filter q) = sumOver p f l :=
  sum_filter (g := id) (List.map_id l) f h

theorem isload_iff (g : GenRow GenD) : isload g = true ↔ Disp g := by simp [isload, Disp]

theorem unit_iff (g : GenRow GenD) : (!isload g) = true ↔ Unit' g := by
  unfold Unit'; rw [← isload_iff]; simp
theorem unitOn_iff (g : GenRow GenD) : (decide (0 < g.status) && !isload g) = true ↔ UnitOn g := by
  unfold UnitOn; rw [← isload_iff]; simp
theorem loadOn_iff (g : GenRow GenD) : (decide (0 < g.status) && isload g) = true ↔ LoadOn g := by
  unfold LoadOn; rw [← isload_iff]; simp
theorem loaded_iff (b : BusRow BusD) : (decide (b.data.PD ≠ 0) || decide (b.data.QD ≠ 0)) = true ↔ Loaded b := by
  unfold Loaded; rw [not_and_or]; simp
theorem shunted_iff (b : BusRow BusD) : (decide (b.data.GS ≠ 0) || decide (b.data.BS ≠ 0)) = true ↔ Shunted b := by
  unfold Shunted; rw [not_and_or]; simp

theorem minRow_least {α : Type} (f : α → ℝ) {l : List α} (h : l ≠ []) : ∃ p, minRow f l = some p ∧ Least f l p.1 p.2 := by
  induction l with
  | nil => exact absurd rfl h
  | cons x xs ih =>
    by_cases hx : xs = []
    · subst hx
      exact ⟨(f x, x), rfl, rfl, [], [], rfl, by simp, by simp⟩
    · obtain ⟨p, hp, e, pre, post, hl, h1, h2⟩ := ih hx
      simp only [minRow, hp]
      by_cases hc : f x ≤ p.1
      · refine ⟨(f x, x), if_pos hc, rfl, [], xs, rfl, by simp, fun y hy => ?_⟩
        rw [e] at hc
        rw [hl] at hy
        rcases List.mem_append.1 hy with hy | hy
        · exact hc.trans (h1 y hy).le
        · rcases List.mem_cons.1 hy with rfl | hy
          · exact hc
          · exact hc.trans (h2 y hy)
      · refine ⟨p, if_neg hc, e, x :: pre, post, by rw [hl]; rfl, fun y hy => ?_, h2⟩
        rcases List.mem_cons.1 hy with rfl | hy
        · rw [e] at hc; exact not_le.1 hc
        · exact h1 y hy

theorem maxRow_greatest {α : Type} (f : α → ℝ) {l : List α} (h : l ≠ []) : ∃ p, maxRow f l = some p ∧ Greatest f l p.1 p.2 := by
  obtain ⟨p, hp, e, pre, post, hl, h1, h2⟩ := minRow_least (fun x => -f x) h
  refine ⟨(-p.1, p.2), by unfold maxRow; rw [hp]; rfl, by simp only; rw [e]; ring, pre, post, hl, fun y hy => ?_, fun y hy => ?_⟩
  · have := h1 y hy; simp only at this ⊢; linarith
  · have := h2 y hy; simp only at this ⊢; linarith

theorem refs_shown (hr : Refs t) (h : t' = (if o.PF_DC then dcZero t else t)) : Refs t' := by
  rw [h]
  split
  · refine ⟨?_, ?_, ?_, ?_⟩
    · simpa [dcZero, Function.comp_def] using hr.nodup
    · intro g hg
      simp only [dcZero, List.mem_map] at hg
      obtain ⟨g', hg', rfl⟩ := hg
      obtain ⟨b, hb, e⟩ := hr.gen g' hg'
      exact ⟨_, List.mem_map.2 ⟨b, hb, rfl⟩, e⟩
    · intro g hg
      simp only [dcZero, List.mem_map] at hg
      obtain ⟨g', hg', rfl⟩ := hg
      obtain ⟨b, hb, e⟩ := hr.f g' hg'
      exact ⟨_, List.mem_map.2 ⟨b, hb, rfl⟩, e⟩
    · intro g hg
      simp only [dcZero, List.mem_map] at hg
      obtain ⟨g', hg', rfl⟩ := hg
      obtain ⟨b, hb, e⟩ := hr.t g' hg'
      exact ⟨_, List.mem_map.2 ⟨b, hb, rfl⟩, e⟩
  · exact hr

theorem inAreaN_iff (hr : Refs t) {b : BusRow BusD} (hb : b ∈ t.bus) {n : ℕ} (hn : b.num = n) (a : ℤ) : InArea area t n a ↔ areaOf area b = a := by
  constructor
  · rintro ⟨b', hb', e, rfl⟩
    rw [row_unique hr.nodup hb hb' (hn.trans e.symm)]; rfl
  · intro h; exact ⟨b, hb, hn, h⟩

theorem bus_ne (h : ∃ l, sAreas area t = some l) : t.bus ≠ [] := by
  intro h0
  obtain ⟨l, hl⟩ := h
  rw [(sAreas_wrong (area := area) (t := t)).2 (by simp [h0])] at hl
  cases hl

/-- The branches in terms of the tables. -/
theorem ends_area (hr : Refs t) {es : List Ends} (hes : ends t = some es) : ∀ e ∈ es,
    (∀ a, InArea area t e.l.f a ↔ areaOf area e.f = a) ∧ ∀ a, InArea area t e.l.t a ↔ areaOf area e.t = a := by
  intro e he
  obtain ⟨-, h2, h3, h4, h5⟩ := (ends_spec hr hes).2 e he
  exact ⟨inAreaN_iff hr h2 h3, inAreaN_iff hr h4 h5⟩

theorem tie_iff (hr : Refs t) {es : List Ends} (hes : ends t = some es) : ∀ e ∈ es, (areaOf area e.f != areaOf area e.t) = true ↔ Tie area t e.l := by
  intro e he
  obtain ⟨h1, h2⟩ := ends_area (area := area) hr hes e he
  unfold Tie
  simp only [h1, h2, bne_iff_ne]
  constructor
  · intro h; exact ⟨_, _, rfl, rfl, h⟩
  · rintro ⟨a, a', rfl, rfl, h⟩; exact h

/-! ### The theorems -/

/-- **C103 (system summary, counts and sums).**  Every count and every capacity of the system summary is the one of the printed tables. -/
theorem C103_system (hr : Refs t) (h : printpf area o isOPF base t = some (t', some rep)) {s : Sys} (hs : rep.sys = some s) :
    (s.buses = t'.bus.length ∧ s.gens = count Unit' t'.gen ∧ s.committed = count UnitOn t'.gen ∧ s.loads = count Loaded t'.bus + count LoadOn t'.gen ∧
      s.fixed = count Loaded t'.bus ∧ s.disp = count LoadOn t'.gen ∧ s.shunts = count Shunted t'.bus ∧ s.branches = t'.branch.length ∧
      s.xfmrs = count Xfmr t'.branch ∧ s.ties = count (Tie area t') t'.branch) ∧
    (s.capP = sumOver Unit' (·.data.PMAX) t'.gen ∧ s.capQmin = sumOver Unit' (·.data.QMIN) t'.gen ∧ s.capQmax = sumOver Unit' (·.data.QMAX) t'.gen ∧
      s.onP = sumOver UnitOn (·.data.PMAX) t'.gen ∧ s.onQmin = sumOver UnitOn (·.data.QMIN) t'.gen ∧ s.onQmax = sumOver UnitOn (·.data.QMAX) t'.gen ∧
      s.genP = sumOver UnitOn (·.data.PG) t'.gen ∧ s.genQ = sumOver UnitOn (·.data.QG) t'.gen) ∧
    (s.loadP = s.fixedP + s.dispP ∧ s.loadQ = s.fixedQ + s.dispQ ∧ s.fixedP = (t'.bus.map (·.data.PD)).sum ∧ s.fixedQ = (t'.bus.map (·.data.QD)).sum ∧
      s.dispP = -sumOver LoadOn (·.data.PG) t'.gen ∧ s.dispQ = -sumOver LoadOn (·.data.QG) t'.gen ∧ s.dispMax = -sumOver LoadOn (·.data.PMIN) t'.gen) ∧
    (s.shuntP = -(t'.bus.map fun b => b.data.GS * b.data.VM ^ 2).sum ∧ s.shuntQ = (t'.bus.map fun b => b.data.BS * b.data.VM ^ 2).sum ∧
      s.tieP = sumOver (Tie area t') (fun l => |l.data.PF - l.data.PT| / 2) t'.branch ∧ s.tieQ = sumOver (Tie area t') (fun l => |l.data.QF - l.data.QT| / 2) t'.branch) := by
  obtain ⟨-, ht, es, ars, hes, -, hsys, -⟩ := printpf_inv h
  have hr' := refs_shown hr ht
  have hsys := hsys s hs
  unfold sysSum at hsys
  split at hsys
  · simp at hsys
  simp only [Option.some.injEq] at hsys
  subst hsys
  have hl := (ends_spec hr' hes).1
  have half : ∀ f : Ends → ℝ, total f (tieOf area es) / 2 = total (fun e => f e / 2) (tieOf area es) := by
    intro f
    unfold total
    rw [div_eq_mul_inv, ← List.sum_map_mul_right]
    simp only [div_eq_mul_inv]
  refine ⟨⟨rfl, ?_, ?_, ?_, ?_, ?_, ?_, rfl, ?_, ?_⟩, ⟨?_, ?_, ?_, ?_, ?_, ?_, ?_, ?_⟩, ⟨by simp only; ring, by simp only; ring, ?_, ?_, ?_, ?_, ?_⟩, ?_, ?_, ?_, ?_⟩
  · exact count_id fun g _ => unit_iff g
  · exact count_id fun g _ => unitOn_iff g
  · exact congrArg₂ _ (count_id fun b _ => loaded_iff b) (count_id fun g _ => loadOn_iff g)
  · exact count_id fun b _ => loaded_iff b
  · exact count_id fun g _ => loadOn_iff g
  · exact count_id fun b _ => shunted_iff b
  · exact count_id fun l _ => by simp [Xfmr]
  · exact count_filter hl (tie_iff hr' hes)
  · exact sum_id _ fun g _ => unit_iff g
  · exact sum_id _ fun g _ => unit_iff g
  · exact sum_id _ fun g _ => unit_iff g
  · exact sum_id _ fun g _ => unitOn_iff g
  · exact sum_id _ fun g _ => unitOn_iff g
  · exact sum_id _ fun g _ => unitOn_iff g
  · exact sum_id _ fun g _ => unitOn_iff g
  · exact sum_id _ fun g _ => unitOn_iff g
  · exact ld_all (·.PD) fun b h _ => h
  · exact ld_all (·.QD) fun b _ h => h
  · exact congrArg _ (sum_id _ fun g _ => loadOn_iff g)
  · exact congrArg _ (sum_id _ fun g _ => loadOn_iff g)
  · exact congrArg _ (sum_id _ fun g _ => loadOn_iff g)
  · refine congrArg _ ((sh_all (fun b => b.VM ^ 2 * b.GS) fun b h _ => by rw [h]; ring).trans ?_)
    unfold total; simp only [mul_comm]
  · refine (sh_all (fun b => b.VM ^ 2 * b.BS) fun b _ h => by rw [h]; ring).trans ?_
    unfold total; simp only [mul_comm]
  · simp only; rw [half]; exact sum_filter hl (fun l => |l.data.PF - l.data.PT| / 2) (tie_iff hr' hes)
  · simp only; rw [half]; exact sum_filter hl (fun l => |l.data.QF - l.data.QT| / 2) (tie_iff hr' hes)

/-- **C103 (system summary, extremes).**  The printed minimum and maximum of magnitudes, angles and (after an optimal power flow) prices are those of the bus table, with the first bus where
they occur. -/
theorem C103_extremes (h : printpf area o isOPF base t = some (t', some rep)) {s : Sys} (hs : rep.sys = some s) :
    (∃ p, s.minVm = some p ∧ Least (·.data.VM) t'.bus p.1 p.2) ∧ (∃ p, s.maxVm = some p ∧ Greatest (·.data.VM) t'.bus p.1 p.2) ∧
    (∃ p, s.minVa = some p ∧ Least (·.data.VA) t'.bus p.1 p.2) ∧ (∃ p, s.maxVa = some p ∧ Greatest (·.data.VA) t'.bus p.1 p.2) ∧
    (isOPF = true → (∃ p, s.minLamP = some p ∧ Least (·.data.LAM_P) t'.bus p.1 p.2) ∧ (∃ p, s.maxLamP = some p ∧ Greatest (·.data.LAM_P) t'.bus p.1 p.2) ∧
      (∃ p, s.minLamQ = some p ∧ Least (·.data.LAM_Q) t'.bus p.1 p.2) ∧ ∃ p, s.maxLamQ = some p ∧ Greatest (·.data.LAM_Q) t'.bus p.1 p.2) := by
  obtain ⟨-, ht, es, ars, hes, hars, hsys, -⟩ := printpf_inv h
  have hsys := hsys s hs
  have hb := bus_ne ⟨_, hars⟩
  unfold sysSum at hsys
  split at hsys
  · simp at hsys
  simp only [Option.some.injEq] at hsys
  subst hsys
  refine ⟨minRow_least _ hb, maxRow_greatest _ hb, minRow_least _ hb, maxRow_greatest _ hb, fun hi => ?_⟩
  simp only [hi, if_true]
  exact ⟨minRow_least _ hb, maxRow_greatest _ hb, minRow_least _ hb, maxRow_greatest _ hb⟩

theorem chg_eq (base : ℝ) (e : Ends) : fchg base e + tchg base e = charging base e.l e.f e.t := by
  unfold fchg tchg charging
  split
  · ring
  · rw [norm_div, div_pow, volt_norm, volt_norm, tap_norm]
    ring

/-- **C103 (system summary, largest losses).**  At an AC operating point the largest printed losses are the largest difference between what enters and what leaves a branch (reactive: plus its
charging), with the first such branch. -/
theorem C103_losses (hdc : o.PF_DC = false) (hr : Refs t) (hp : AcPoint base t) (h : printpf area o isOPF base t = some (t', some rep)) {s : Sys} (hs : rep.sys = some s) :
    (∃ p, s.maxLossP = some p ∧ Greatest (fun l => l.data.PF + l.data.PT) t.branch p.1 p.2.l) ∧
    (∃ p, s.maxLossQ = some p ∧ p.2.l ∈ t.branch ∧ p.2.f ∈ t.bus ∧ p.2.f.num = p.2.l.f ∧ p.2.t ∈ t.bus ∧ p.2.t.num = p.2.l.t ∧
      p.1 = p.2.l.data.QF + p.2.l.data.QT + charging base p.2.l p.2.f p.2.t ∧
      ∀ l ∈ t.branch, ∀ bf ∈ t.bus, bf.num = l.f → ∀ bt ∈ t.bus, bt.num = l.t → l.data.QF + l.data.QT + charging base l bf bt ≤ p.1) := by
  obtain ⟨-, ht, es, ars, hes, hars, hsys, -⟩ := printpf_inv h
  rw [hdc] at ht hsys
  simp only [Bool.false_eq_true, if_false] at ht
  subst ht
  have hsys := hsys s hs
  unfold sysSum at hsys
  split at hsys
  · simp at hsys
  rename_i hne
  simp only [Option.some.injEq] at hsys
  subst hsys
  have hne : es ≠ [] := fun h0 => hne ⟨rfl, h0⟩
  have hloss := ends_loss hr hp hes
  obtain ⟨hl, hE⟩ := ends_spec hr hes
  simp only [Bool.false_eq_true, if_false]
  constructor
  · obtain ⟨p, hpm, e, pre, post, hes', h1, h2⟩ := maxRow_greatest (fun e => (loss false base e).re) hne
    have hmem : ∀ y, y ∈ pre ∨ y = p.2 ∨ y ∈ post → y ∈ es := by
      intro y hy; rw [hes']; simp only [List.mem_append, List.mem_cons]; exact hy
    refine ⟨p, hpm, ?_, pre.map (·.l), post.map (·.l), ?_, ?_, ?_⟩
    · simp only; rw [e, (hloss p.2 (hmem _ (.inr (.inl rfl)))).1]
    · rw [← hl, hes']; simp
    · intro y hy
      obtain ⟨e', he', rfl⟩ := List.mem_map.1 hy
      have := h1 e' he'
      simp only at this ⊢
      rw [(hloss e' (hmem _ (.inl he'))).1, (hloss p.2 (hmem _ (.inr (.inl rfl)))).1]
      exact this
    · intro y hy
      obtain ⟨e', he', rfl⟩ := List.mem_map.1 hy
      have := h2 e' he'
      simp only at this ⊢
      rw [(hloss e' (hmem _ (.inr (.inr he')))).1, (hloss p.2 (hmem _ (.inr (.inl rfl)))).1]
      exact this
  · obtain ⟨p, hpm, e, pre, post, hes', h1, h2⟩ := maxRow_greatest (fun e => (loss false base e).im) hne
    have hq : ∀ e ∈ es, e.l.data.QF + e.l.data.QT + charging base e.l e.f e.t = (loss false base e).im := by
      intro e he
      rw [← chg_eq, (hloss e he).2]; ring
    have hpe : p.2 ∈ es := by rw [hes']; simp
    refine ⟨p, hpm, (hE _ hpe).1, (hE _ hpe).2.1, (hE _ hpe).2.2.1, (hE _ hpe).2.2.2.1, (hE _ hpe).2.2.2.2, by rw [e, hq _ hpe], ?_⟩
    intro l hlm bf hbf ef bt hbt et
    rw [← hl] at hlm
    obtain ⟨x, hx, rfl⟩ := List.mem_map.1 hlm
    obtain ⟨-, f1, f2, f3, f4⟩ := hE x hx
    rw [row_unique hr.nodup hbf f1 (ef.trans f2.symm), row_unique hr.nodup hbt f3 (et.trans f4.symm), hq x hx, e]
    have hx' := hx
    rw [hes'] at hx'
    rcases List.mem_append.1 hx' with hx' | hx'
    · exact (h1 x hx').le
    · rcases List.mem_cons.1 hx' with rfl | hx'
      · exact le_rfl
      · exact h2 x hx'

/-- **C103 (area summary).**  Every count and every sum in the line of an area is that of the buses, generators and branches of the area. -/
theorem C103_area (hr : Refs t) (h : printpf area o isOPF base t = some (t', some rep)) {as : List AreaSum} (has : rep.areas = some as) : ∀ s ∈ as,
    (s.buses = count (fun b => area b.data.rest = s.num) t'.bus ∧
      s.gens = count (fun g => InArea area t' g.bus s.num ∧ Unit' g) t'.gen ∧ s.online = count (fun g => InArea area t' g.bus s.num ∧ UnitOn g) t'.gen ∧
      s.fixed = count (fun b => area b.data.rest = s.num ∧ Loaded b) t'.bus ∧ s.disp = count (fun g => InArea area t' g.bus s.num ∧ LoadOn g) t'.gen ∧
      s.shunts = count (fun b => area b.data.rest = s.num ∧ Shunted b) t'.bus ∧ s.branches = count (Inside area t' s.num) t'.branch ∧
      s.xfmrs = count (fun l => Xfmr l ∧ Inside area t' s.num l) t'.branch ∧ s.ties = count (TieOf area t' s.num) t'.branch) ∧
    (s.capP = sumOver (fun g => InArea area t' g.bus s.num ∧ Unit' g) (·.data.PMAX) t'.gen ∧
      s.capQmin = sumOver (fun g => InArea area t' g.bus s.num ∧ Unit' g) (·.data.QMIN) t'.gen ∧
      s.capQmax = sumOver (fun g => InArea area t' g.bus s.num ∧ Unit' g) (·.data.QMAX) t'.gen ∧
      s.onP = sumOver (fun g => InArea area t' g.bus s.num ∧ UnitOn g) (·.data.PMAX) t'.gen ∧
      s.onQmin = sumOver (fun g => InArea area t' g.bus s.num ∧ UnitOn g) (·.data.QMIN) t'.gen ∧
      s.onQmax = sumOver (fun g => InArea area t' g.bus s.num ∧ UnitOn g) (·.data.QMAX) t'.gen ∧
      s.genP = sumOver (fun g => InArea area t' g.bus s.num ∧ UnitOn g) (·.data.PG) t'.gen ∧
      s.genQ = sumOver (fun g => InArea area t' g.bus s.num ∧ UnitOn g) (·.data.QG) t'.gen) ∧
    (s.dispMax = -sumOver (fun g => InArea area t' g.bus s.num ∧ LoadOn g) (·.data.PMIN) t'.gen ∧
      s.dispMaxQ = -sumOver (fun g => InArea area t' g.bus s.num ∧ LoadOn g)
        (fun g => (if g.data.QMIN = 0 then g.data.QMAX else 0) + (if g.data.QMAX = 0 then g.data.QMIN else 0)) t'.gen ∧
      s.dispP = -sumOver (fun g => InArea area t' g.bus s.num ∧ LoadOn g) (·.data.PG) t'.gen ∧
      s.dispQ = -sumOver (fun g => InArea area t' g.bus s.num ∧ LoadOn g) (·.data.QG) t'.gen ∧
      s.fixedP = sumOver (fun b => area b.data.rest = s.num) (·.data.PD) t'.bus ∧ s.fixedQ = sumOver (fun b => area b.data.rest = s.num) (·.data.QD) t'.bus ∧
      s.loadP = s.fixedP + s.dispP ∧ s.loadQ = s.fixedQ + s.dispQ) ∧
    (s.shuntP = -sumOver (fun b => area b.data.rest = s.num) (fun b => b.data.GS * b.data.VM ^ 2) t'.bus ∧
      s.shuntQ = sumOver (fun b => area b.data.rest = s.num) (fun b => b.data.BS * b.data.VM ^ 2) t'.bus) := by
  obtain ⟨-, ht, es, ars, hes, -, -, has', -⟩ := printpf_inv h
  have hr' := refs_shown hr ht
  obtain ⟨gs, hgs, rfl⟩ := has' as has
  obtain ⟨hg, hG⟩ := genRows_spec hr' hgs
  have hl := (ends_spec hr' hes).1
  have hA := ends_area (area := area) hr' hes
  intro s hs
  obtain ⟨a, -, rfl⟩ := List.mem_map.1 hs
  have inA : ∀ g ∈ gs, InArea area t' g.1.bus a ↔ areaOf area g.2 = a := fun g hgm => inAreaN_iff hr' (hG g hgm).2.1 (hG g hgm).2.2 a
  have q1 : ∀ g ∈ gs, (areaOf area g.2 == a && !isload g.1) = true ↔ InArea area t' g.1.bus a ∧ Unit' g.1 := by
    intro g hgm; rw [Bool.and_eq_true, unit_iff, inA g hgm, beq_iff_eq]
  have q2 : ∀ g ∈ gs, (areaOf area g.2 == a && decide (0 < g.1.status) && !isload g.1) = true ↔ InArea area t' g.1.bus a ∧ UnitOn g.1 := by
    intro g hgm; rw [Bool.and_assoc, Bool.and_eq_true, unitOn_iff, inA g hgm, beq_iff_eq]
  have q3 : ∀ g ∈ gs, (areaOf area g.2 == a && decide (0 < g.1.status) && isload g.1) = true ↔ InArea area t' g.1.bus a ∧ LoadOn g.1 := by
    intro g hgm; rw [Bool.and_assoc, Bool.and_eq_true, loadOn_iff, inA g hgm, beq_iff_eq]
  have b1 : ∀ b ∈ t'.bus, ((decide (b.data.PD ≠ 0) || decide (b.data.QD ≠ 0)) && (areaOf area b == a)) = true ↔ area b.data.rest = a ∧ Loaded b := by
    intro b _; rw [Bool.and_eq_true, loaded_iff, beq_iff_eq, and_comm]; rfl
  have b2 : ∀ b ∈ t'.bus, ((decide (b.data.GS ≠ 0) || decide (b.data.BS ≠ 0)) && (areaOf area b == a)) = true ↔ area b.data.rest = a ∧ Shunted b := by
    intro b _; rw [Bool.and_eq_true, shunted_iff, beq_iff_eq, and_comm]; rfl
  have fl : (nzld t').filter (fun b => areaOf area b == a) = t'.bus.filter fun b => (decide (b.data.PD ≠ 0) || decide (b.data.QD ≠ 0)) && (areaOf area b == a) := by
    unfold nzld; rw [List.filter_filter]; simp only [Bool.and_comm]
  have fs : (nzsh t').filter (fun b => areaOf area b == a) = t'.bus.filter fun b => (decide (b.data.GS ≠ 0) || decide (b.data.BS ≠ 0)) && (areaOf area b == a) := by
    unfold nzsh; rw [List.filter_filter]; simp only [Bool.and_comm]
  have drop : ∀ (p : BusRow BusD → Prop) (f : BusRow BusD → ℝ), (∀ b, ¬ p b → f b = 0) →
      sumOver (fun b => area b.data.rest = a ∧ p b) f t'.bus = sumOver (fun b => area b.data.rest = a) f t'.bus := by
    intro p f hf
    unfold sumOver
    refine congrArg _ (List.map_congr_left fun b _ => ?_)
    by_cases h1 : area b.data.rest = a
    · by_cases h2 : p b
      · rw [if_pos ⟨h1, h2⟩, if_pos h1]
      · rw [if_neg (fun h => h2 h.2), if_pos h1, hf b h2]
    · rw [if_neg (fun h => h1 h.1), if_neg h1]
  have pd : total (fun b : BusRow BusD => b.data.PD) ((nzld t').filter fun b => areaOf area b == a) = sumOver (fun b => area b.data.rest = a) (·.data.PD) t'.bus := by
    rw [fl, sum_id _ b1, drop Loaded]
    intro b hb; unfold Loaded at hb; exact (not_not.1 hb).1
  have qd : total (fun b : BusRow BusD => b.data.QD) ((nzld t').filter fun b => areaOf area b == a) = sumOver (fun b => area b.data.rest = a) (·.data.QD) t'.bus := by
    rw [fl, sum_id _ b1, drop Loaded]
    intro b hb; unfold Loaded at hb; exact (not_not.1 hb).2
  have gsum : total (fun b : BusRow BusD => b.data.VM ^ 2 * b.data.GS) ((nzsh t').filter fun b => areaOf area b == a) =
      sumOver (fun b => area b.data.rest = a) (fun b => b.data.GS * b.data.VM ^ 2) t'.bus := by
    rw [fs, sum_id _ b2, drop Shunted]
    · simp only [mul_comm]
    · intro b hb; unfold Shunted at hb; rw [(not_not.1 hb).1]; ring
  have bsum : total (fun b : BusRow BusD => b.data.VM ^ 2 * b.data.BS) ((nzsh t').filter fun b => areaOf area b == a) =
      sumOver (fun b => area b.data.rest = a) (fun b => b.data.BS * b.data.VM ^ 2) t'.bus := by
    rw [fs, sum_id _ b2, drop Shunted]
    · simp only [mul_comm]
    · intro b hb; unfold Shunted at hb; rw [(not_not.1 hb).2]; ring
  refine ⟨⟨?_, ?_, ?_, ?_, ?_, ?_, ?_, ?_, ?_⟩, ⟨?_, ?_, ?_, ?_, ?_, ?_, ?_, ?_⟩, ⟨?_, ?_, ?_, ?_, pd, qd, ?_, ?_⟩, congrArg _ gsum, bsum⟩
  · exact count_id fun b _ => by rw [beq_iff_eq]; rfl
  · exact count_filter hg q1
  · exact count_filter hg q2
  · exact (congrArg _ fl).trans (count_id b1)
  · exact count_filter hg q3
  · exact (congrArg _ fs).trans (count_id b2)
  · refine count_filter hl fun e he => ?_
    rw [Bool.and_eq_true, beq_iff_eq, beq_iff_eq, ← (hA e he).1, ← (hA e he).2]; rfl
  · unfold areaSum
    simp only [List.filter_filter]
    refine count_filter hl fun e he => ?_
    rw [Bool.and_eq_true, Bool.and_eq_true, beq_iff_eq, beq_iff_eq, ← (hA e he).1, ← (hA e he).2, decide_eq_true_eq]; rfl
  · refine count_filter hl fun e he => ?_
    rw [Bool.or_eq_true, Bool.and_eq_true, Bool.and_eq_true, bne_iff_ne, bne_iff_ne, beq_iff_eq, beq_iff_eq, ne_eq, ne_eq, ← (hA e he).1, ← (hA e he).2]; rfl
  · exact sum_filter hg (·.data.PMAX) q1
  · exact sum_filter hg (·.data.QMIN) q1
  · exact sum_filter hg (·.data.QMAX) q1
  · exact sum_filter hg (·.data.PMAX) q2
  · exact sum_filter hg (·.data.QMIN) q2
  · exact sum_filter hg (·.data.QMAX) q2
  · exact sum_filter hg (·.data.PG) q2
  · exact sum_filter hg (·.data.QG) q2
  · exact congrArg _ (sum_filter hg (·.data.PMIN) q3)
  · exact congrArg _ (sum_filter hg (fun g => qlim g.data) q3)
  · exact congrArg _ (sum_filter hg (·.data.PG) q3)
  · exact congrArg _ (sum_filter hg (·.data.QG) q3)
  · unfold areaSum; simp only; ring
  · unfold areaSum; simp only; ring

theorem ite_count {as : List ℤ} (hn : as.Nodup) {k : ℤ} (hk : k ∈ as) : (as.map fun a => if k = a then 1 else 0).sum = 1 := by
  induction as with
  | nil => simp at hk
  | cons a as ih =>
    obtain ⟨h1, h2⟩ := List.nodup_cons.1 hn
    rw [List.map_cons, List.sum_cons]
    rcases List.mem_cons.1 hk with rfl | hk
    · rw [if_pos rfl, show (as.map fun a => if k = a then 1 else 0) = as.map fun _ => 0 from List.map_congr_left fun a ha => if_neg fun e : k = a => h1 (e ▸ ha)]
      simp
    · rw [if_neg (fun e : k = a => h1 (e ▸ hk)), ih h2 hk]

/-- Every element is counted once, in its own area. -/
theorem sum_count {α : Type} {as : List ℤ} (hn : as.Nodup) {l : List α} {P : ℤ → α → Prop} {q : α → Prop} {k : α → ℤ} (hk : ∀ x ∈ l, k x ∈ as)
    (hP : ∀ a, ∀ x ∈ l, P a x ↔ k x = a ∧ q x) : (as.map fun a => count (P a) l).sum = count q l := by
  classical
  induction l with
  | nil => simp [count]
  | cons x l ih =>
    have ih := ih (fun y hy => hk y (by simp [hy])) fun a y hy => hP a y (by simp [hy])
    have hc : ∀ p : α → Prop, count p (x :: l) = (if p x then 1 else 0) + count p l := by
      intro p; unfold count; rw [List.map_cons, List.sum_cons]
    rw [hc, ← ih]
    simp only [hc]
    rw [List.sum_map_add]
    congr 1
    by_cases hq : q x
    · rw [if_pos hq]
      refine Eq.trans ?_ (ite_count hn (hk x (by simp)))
      refine congrArg _ (List.map_congr_left fun a _ => ?_)
      rw [if_congr ((hP a x (by simp)).trans (and_iff_left hq)) rfl rfl]
    · rw [if_neg hq, show (as.map fun a => if P a x then 1 else 0) = as.map fun _ => 0 from List.map_congr_left fun a _ => if_neg fun e => hq ((hP a x (by simp)).1 e).2]
      simp

theorem sum_sumOver {α : Type} {as : List ℤ} (hn : as.Nodup) {l : List α} {P : ℤ → α → Prop} {q : α → Prop} {k : α → ℤ} (f : α → ℝ) (hk : ∀ x ∈ l, k x ∈ as)
    (hP : ∀ a, ∀ x ∈ l, P a x ↔ k x = a ∧ q x) : (as.map fun a => sumOver (P a) f l).sum = sumOver q f l := by
  classical
  induction l with
  | nil => simp [sumOver]
  | cons x l ih =>
    have ih := ih (fun y hy => hk y (by simp [hy])) fun a y hy => hP a y (by simp [hy])
    have hc : ∀ p : α → Prop, sumOver p f (x :: l) = (if p x then f x else 0) + sumOver p f l := by
      intro p; unfold sumOver; rw [List.map_cons, List.sum_cons]
    rw [hc, ← ih]
    simp only [hc]
    rw [List.sum_map_add]
    congr 1
    by_cases hq : q x
    · rw [if_pos hq]
      refine Eq.trans ?_ (ite_sum hn (hk x (by simp)) (f x))
      refine congrArg _ (List.map_congr_left fun a _ => ?_)
      rw [if_congr ((hP a x (by simp)).trans (and_iff_left hq)) rfl rfl]
      simp
    · rw [if_neg hq, show (as.map fun a => if P a x then f x else 0) = as.map fun _ => (0 : ℝ) from List.map_congr_left fun a _ => if_neg fun e => hq ((hP a x (by simp)).1 e).2]
      simp

theorem count_congr {α : Type} {l : List α} {p q : α → Prop} (h : ∀ x ∈ l, p x ↔ q x) : count p l = count q l := by
  classical
  unfold count
  exact congrArg _ (List.map_congr_left fun x hx => if_congr (h x hx) rfl rfl)

theorem count_true {α : Type} (l : List α) : count (fun _ => True) l = l.length := by simp [count]

theorem count_add {α : Type} {l : List α} {p q r : α → Prop} (h : ∀ x ∈ l, (r x ↔ p x ∨ q x) ∧ ¬ (p x ∧ q x)) : count p l + count q l = count r l := by
  classical
  unfold count
  rw [← List.sum_map_add]
  refine congrArg _ (List.map_congr_left fun x hx => ?_)
  obtain ⟨h1, h2⟩ := h x hx
  by_cases hp : p x <;> by_cases hq : q x <;> simp_all

/-- **C103 (area totals).**  If the first area has at least two buses (see C92), the counts and capacities of the areas add up to those of the system summary; a tie line is counted in both of its
areas, and is no branch of either. -/
theorem C103_area_totals (hr : Refs t) (h : printpf area o isOPF base t = some (t', some rep)) {as : List AreaSum} (has : rep.areas = some as) {s : Sys} (hs : rep.sys = some s)
    (htwo : ∃ i j : ℕ, i ≠ j ∧ ∃ b b', t.bus[i]? = some b ∧ t.bus[j]? = some b' ∧ area b.data.rest = area b'.data.rest ∧ ∀ c ∈ t.bus, area b.data.rest ≤ area c.data.rest) :
    ((as.map (·.buses)).sum = s.buses ∧ (as.map (·.gens)).sum = s.gens ∧ (as.map (·.online)).sum = s.committed ∧ (as.map (·.fixed)).sum = s.fixed ∧ (as.map (·.disp)).sum = s.disp ∧
      (as.map (·.shunts)).sum = s.shunts ∧ (as.map (·.branches)).sum + s.ties = s.branches ∧ (as.map (·.ties)).sum = 2 * s.ties) ∧
    ((as.map (·.capP)).sum = s.capP ∧ (as.map (·.capQmin)).sum = s.capQmin ∧ (as.map (·.capQmax)).sum = s.capQmax ∧
      (as.map (·.onP)).sum = s.onP ∧ (as.map (·.onQmin)).sum = s.onQmin ∧ (as.map (·.onQmax)).sum = s.onQmax ∧
      (as.map (·.dispMax)).sum = s.dispMax ∧ (as.map (·.dispP)).sum = s.dispP ∧ (as.map (·.dispQ)).sum = s.dispQ) := by
  obtain ⟨⟨s1, s2, s3, -, s4, s5, s6, s7, -, s8⟩, ⟨c1, c2, c3, c4, c5, c6, -⟩, ⟨-, -, -, -, d1, d2, d3⟩, -⟩ := C103_system hr h hs
  have A := C103_area hr h has
  obtain ⟨hn, hmem⟩ := (C92_partial h htwo).1 as has
  have hn : (as.map (·.num)).Nodup := hn.imp fun h => ne_of_lt h
  obtain ⟨-, ht, -⟩ := printpf_inv h
  have hr' := refs_shown hr ht
  have hin : ∀ b ∈ t'.bus, area b.data.rest ∈ as.map (·.num) := by
    intro b hb
    rw [hmem]
    rw [ht] at hb
    split at hb
    · simp only [dcZero, List.mem_map] at hb
      obtain ⟨b', hb', rfl⟩ := hb
      exact ⟨b', hb', rfl⟩
    · exact ⟨b, hb, rfl⟩
  -- the area of a bus number
  have hK : ∃ K : ℕ → ℤ, ∀ n, (∃ b ∈ t'.bus, b.num = n) → (K n ∈ as.map (·.num)) ∧ ∀ a, InArea area t' n a ↔ K n = a := by
    refine ⟨fun n => if hb : ∃ b ∈ t'.bus, b.num = n then area hb.choose.data.rest else 0, fun n hb => ?_⟩
    beta_reduce
    rw [dif_pos hb]
    exact ⟨hin _ hb.choose_spec.1, inAreaN_iff hr' hb.choose_spec.1 hb.choose_spec.2⟩
  obtain ⟨K, hK⟩ := hK
  have gK : ∀ g ∈ t'.gen, K g.bus ∈ as.map (·.num) := fun g hg => (hK _ (hr'.gen g hg)).1
  have fK : ∀ l ∈ t'.branch, K l.f ∈ as.map (·.num) := fun l hl => (hK _ (hr'.f l hl)).1
  have tK : ∀ l ∈ t'.branch, K l.t ∈ as.map (·.num) := fun l hl => (hK _ (hr'.t l hl)).1
  have gI : ∀ (q : GenRow GenD → Prop) (a : ℤ), ∀ g ∈ t'.gen, (InArea area t' g.bus a ∧ q g) ↔ K g.bus = a ∧ q g := fun q a g hg => by rw [(hK _ (hr'.gen g hg)).2]
  have nums : ∀ {β : Type} (F : AreaSum → β) (G : ℤ → β), (∀ x ∈ as, F x = G x.num) → as.map F = (as.map (·.num)).map G := by
    intro β F G hF
    rw [List.map_map]
    exact List.map_congr_left hF
  have sneg : ∀ (f : ℤ → ℝ) (l : List ℤ), (l.map fun a => -f a).sum = -(l.map f).sum := by
    intro f l
    induction l with
    | nil => simp
    | cons x l ih => simp only [List.map_cons, List.sum_cons, ih]; ring
  have tie : ∀ l ∈ t'.branch, Tie area t' l ↔ K l.f ≠ K l.t := by
    intro l hl
    unfold Tie
    simp only [(hK _ (hr'.f l hl)).2, (hK _ (hr'.t l hl)).2]
    constructor
    · rintro ⟨a, a', rfl, rfl, h⟩; exact h
    · intro h; exact ⟨_, _, rfl, rfl, h⟩
  refine ⟨⟨?_, ?_, ?_, ?_, ?_, ?_, ?_, ?_⟩, ?_, ?_, ?_, ?_, ?_, ?_, ?_, ?_, ?_⟩
  · rw [s1, nums _ (fun a => count (fun b : BusRow BusD => area b.data.rest = a) t'.bus) fun x hx => (A x hx).1.1, ← count_true]
    exact sum_count hn (k := fun b : BusRow BusD => area b.data.rest) hin fun a b _ => (iff_of_eq (and_true _)).symm
  · rw [s2, nums _ (fun a => count (fun g => InArea area t' g.bus a ∧ Unit' g) t'.gen) fun x hx => (A x hx).1.2.1]
    exact sum_count hn (k := fun g => K g.bus) gK (gI _)
  · rw [s3, nums _ (fun a => count (fun g => InArea area t' g.bus a ∧ UnitOn g) t'.gen) fun x hx => (A x hx).1.2.2.1]
    exact sum_count hn (k := fun g => K g.bus) gK (gI _)
  · rw [s4, nums _ (fun a => count (fun b : BusRow BusD => area b.data.rest = a ∧ Loaded b) t'.bus) fun x hx => (A x hx).1.2.2.2.1]
    exact sum_count hn (k := fun b : BusRow BusD => area b.data.rest) hin fun a b _ => Iff.rfl
  · rw [s5, nums _ (fun a => count (fun g => InArea area t' g.bus a ∧ LoadOn g) t'.gen) fun x hx => (A x hx).1.2.2.2.2.1]
    exact sum_count hn (k := fun g => K g.bus) gK (gI _)
  · rw [s6, nums _ (fun a => count (fun b : BusRow BusD => area b.data.rest = a ∧ Shunted b) t'.bus) fun x hx => (A x hx).1.2.2.2.2.2.1]
    exact sum_count hn (k := fun b : BusRow BusD => area b.data.rest) hin fun a b _ => Iff.rfl
  · rw [s7, s8, nums _ (fun a => count (Inside area t' a) t'.branch) fun x hx => (A x hx).1.2.2.2.2.2.2.1]
    rw [sum_count hn (k := fun l : BranchRow BrD => K l.f) (q := fun l => K l.f = K l.t) fK, ← count_true, count_add]
    · intro l hl
      rw [tie l hl]
      tauto
    · intro a l hl
      unfold Inside
      rw [(hK _ (hr'.f l hl)).2, (hK _ (hr'.t l hl)).2]
      constructor
      · rintro ⟨h1, h2⟩; exact ⟨h1, h1.trans h2.symm⟩
      · rintro ⟨h1, h2⟩; exact ⟨h1, h2.symm.trans h1⟩
  · rw [s8, nums _ (fun a => count (TieOf area t' a) t'.branch) fun x hx => (A x hx).1.2.2.2.2.2.2.2.2]
    have e1 : ∀ a, count (TieOf area t' a) t'.branch = count (fun l => K l.f = a ∧ K l.f ≠ K l.t) t'.branch + count (fun l => K l.t = a ∧ K l.f ≠ K l.t) t'.branch := by
      intro a
      refine (count_add fun l hl => ?_).symm
      unfold TieOf
      rw [(hK _ (hr'.f l hl)).2, (hK _ (hr'.t l hl)).2]
      constructor
      · constructor
        · rintro (⟨h1, h2⟩ | ⟨h1, h2⟩)
          · exact .inl ⟨h1, fun e => h2 (e.symm.trans h1)⟩
          · exact .inr ⟨h2, fun e => h1 (e.trans h2)⟩
        · rintro (⟨h1, h2⟩ | ⟨h1, h2⟩)
          · exact .inl ⟨h1, fun e => h2 (h1.trans e.symm)⟩
          · exact .inr ⟨fun e => h2 (e.trans h1.symm), h1⟩
      · rintro ⟨⟨h1, h2⟩, h3, -⟩; exact h2 (h1.trans h3.symm)
    simp only [e1]
    rw [List.sum_map_add, sum_count hn (k := fun l : BranchRow BrD => K l.f) (q := fun l => K l.f ≠ K l.t) fK fun a l _ => Iff.rfl,
      sum_count hn (k := fun l : BranchRow BrD => K l.t) (q := fun l => K l.f ≠ K l.t) tK fun a l _ => Iff.rfl, count_congr tie, two_mul]
  · rw [c1, nums _ (fun a => sumOver (fun g => InArea area t' g.bus a ∧ Unit' g) (·.data.PMAX) t'.gen) fun x hx => (A x hx).2.1.1]
    exact sum_sumOver hn (k := fun g => K g.bus) _ gK (gI _)
  · rw [c2, nums _ (fun a => sumOver (fun g => InArea area t' g.bus a ∧ Unit' g) (·.data.QMIN) t'.gen) fun x hx => (A x hx).2.1.2.1]
    exact sum_sumOver hn (k := fun g => K g.bus) _ gK (gI _)
  · rw [c3, nums _ (fun a => sumOver (fun g => InArea area t' g.bus a ∧ Unit' g) (·.data.QMAX) t'.gen) fun x hx => (A x hx).2.1.2.2.1]
    exact sum_sumOver hn (k := fun g => K g.bus) _ gK (gI _)
  · rw [c4, nums _ (fun a => sumOver (fun g => InArea area t' g.bus a ∧ UnitOn g) (·.data.PMAX) t'.gen) fun x hx => (A x hx).2.1.2.2.2.1]
    exact sum_sumOver hn (k := fun g => K g.bus) _ gK (gI _)
  · rw [c5, nums _ (fun a => sumOver (fun g => InArea area t' g.bus a ∧ UnitOn g) (·.data.QMIN) t'.gen) fun x hx => (A x hx).2.1.2.2.2.2.1]
    exact sum_sumOver hn (k := fun g => K g.bus) _ gK (gI _)
  · rw [c6, nums _ (fun a => sumOver (fun g => InArea area t' g.bus a ∧ UnitOn g) (·.data.QMAX) t'.gen) fun x hx => (A x hx).2.1.2.2.2.2.2.1]
    exact sum_sumOver hn (k := fun g => K g.bus) _ gK (gI _)
  · rw [d3, nums _ (fun a => -sumOver (fun g => InArea area t' g.bus a ∧ LoadOn g) (·.data.PMIN) t'.gen) fun x hx => (A x hx).2.2.1.1, sneg]
    exact congrArg _ (sum_sumOver hn (k := fun g => K g.bus) _ gK (gI _))
  · rw [d1, nums _ (fun a => -sumOver (fun g => InArea area t' g.bus a ∧ LoadOn g) (·.data.PG) t'.gen) fun x hx => (A x hx).2.2.1.2.2.1, sneg]
    exact congrArg _ (sum_sumOver hn (k := fun g => K g.bus) _ gK (gI _))
  · rw [d2, nums _ (fun a => -sumOver (fun g => InArea area t' g.bus a ∧ LoadOn g) (·.data.QG) t'.gen) fun x hx => (A x hx).2.2.1.2.2.2.1, sneg]
    exact congrArg _ (sum_sumOver hn (k := fun g => K g.bus) _ gK (gI _))

/-- The lines of one of the two sections, in terms of the table. -/
theorem genLines_spec {sel : GenRow GenD → Bool} {sign : ℝ} {gs : List (GenRow GenD × Option (ℝ × ℝ))} {gen : List (GenRow GenD)} (hg : gs.map (·.1) = gen)
    {P : GenRow GenD → Option (ℝ × ℝ) → Prop} (hP : ∀ x ∈ gs, P x.1 x.2) (hon : ∀ g, sel g = true → 0 < g.status) :
    ((genLines sel sign gs).map (·.row)).Pairwise (· < ·) ∧ (∀ (k : ℕ) g, gen[k]? = some g → sel g = true → ∃ l ∈ genLines sel sign gs, l.row = k) ∧
    ∀ l ∈ genLines sel sign gs, ∃ g, gen[l.row]? = some g ∧ sel g = true ∧ l.bus = g.bus ∧ l.out.getD 0 = (sign * g.data.PG, sign * g.data.QG) ∧ P g l.price := by
  subst hg
  refine ⟨?_, ?_, ?_⟩
  · unfold genLines
    rw [List.map_map, List.pairwise_map]
    refine List.Pairwise.filter _ ?_
    rw [List.pairwise_iff_getElem]
    intro i j hi hj hij
    simpa using hij
  · intro k g hk hs
    rw [List.getElem?_map, Option.map_eq_some_iff] at hk
    obtain ⟨x, hx, rfl⟩ := hk
    refine ⟨_, List.mem_map.2 ⟨(x, k), List.mem_filter.2 ⟨?_, hs⟩, rfl⟩, rfl⟩
    rw [List.mem_zipIdx_iff_getElem?]
    exact hx
  · intro l hl
    unfold genLines at hl
    obtain ⟨⟨x, k⟩, hx, rfl⟩ := List.mem_map.1 hl
    obtain ⟨hx, hs⟩ := List.mem_filter.1 hx
    rw [List.mem_zipIdx_iff_getElem?] at hx
    refine ⟨x.1, by simp [show gs[k]? = some x from hx], hs, rfl, ?_, hP x (List.mem_of_getElem? hx)⟩
    simp only
    have := hon x.1 hs
    by_cases h0 : x.1.data.PG ≠ 0 ∨ x.1.data.QG ≠ 0
    · rw [if_pos ⟨this, h0⟩]; rfl
    · rw [if_neg (fun h => h0 h.2)]
      rw [not_or, not_not, not_not] at h0
      rw [h0.1, h0.2]
      simp
      rfl

/-- **C103 (generator table).**  The generator section has one line for every generator in service, the dispatchable load section one for every dispatchable load in service, in the order of the
table; each shows its output (a dash stands for zero) or consumption and, after an optimal power flow, the prices at its bus. -/
theorem C103_generators (hr : Refs t) (h : printpf area o isOPF base t = some (t', some rep)) {ls : List GenLine × List GenLine} (hls : rep.gens = some ls) :
    (((ls.1.map (·.row)).Pairwise (· < ·) ∧ (∀ (k : ℕ) g, t'.gen[k]? = some g → UnitOn g → ∃ l ∈ ls.1, l.row = k) ∧
      ∀ l ∈ ls.1, ∃ g, t'.gen[l.row]? = some g ∧ UnitOn g ∧ l.bus = g.bus ∧ l.out.getD 0 = (g.data.PG, g.data.QG) ∧
        (isOPF = true → ∃ b ∈ t'.bus, b.num = g.bus ∧ l.price = some (b.data.LAM_P, b.data.LAM_Q)) ∧ (isOPF = false → l.price = none))) ∧
    (((ls.2.map (·.row)).Pairwise (· < ·) ∧ (∀ (k : ℕ) g, t'.gen[k]? = some g → LoadOn g → ∃ l ∈ ls.2, l.row = k) ∧
      ∀ l ∈ ls.2, ∃ g, t'.gen[l.row]? = some g ∧ LoadOn g ∧ l.bus = g.bus ∧ l.out.getD 0 = (-g.data.PG, -g.data.QG) ∧
        (isOPF = true → ∃ b ∈ t'.bus, b.num = g.bus ∧ l.price = some (b.data.LAM_P, b.data.LAM_Q)) ∧ (isOPF = false → l.price = none))) := by
  have inv := printpf_inv h
  obtain ⟨-, ht, es, ars, hes, -, -, -, -, -, -, -, -, -, -, hgen⟩ := inv
  have hr' := refs_shown hr ht
  have hgt := hgen ls hls
  unfold genTable at hgt
  obtain ⟨gs, hgs, rfl⟩ := Option.map_eq_some_iff.1 hgt
  let P : GenRow GenD → Option (ℝ × ℝ) → Prop := fun g pr =>
    (isOPF = true → ∃ b ∈ t'.bus, b.num = g.bus ∧ pr = some (b.data.LAM_P, b.data.LAM_Q)) ∧ (isOPF = false → pr = none)
  have key : gs.map (·.1) = t'.gen ∧ ∀ x ∈ gs, (isOPF = true → ∃ b ∈ t'.bus, b.num = x.1.bus ∧ x.2 = some (b.data.LAM_P, b.data.LAM_Q)) ∧ (isOPF = false → x.2 = none) := by
    cases isOPF
    · simp only [Bool.false_eq_true, if_false, Option.some.injEq] at hgs
      subst hgs
      refine ⟨by simp [Function.comp_def], fun x hx => ⟨by simp, fun _ => ?_⟩⟩
      obtain ⟨g, -, rfl⟩ := List.mem_map.1 hx
      rfl
    · simp only [if_true, Option.map_eq_some_iff] at hgs
      obtain ⟨r, hr1, rfl⟩ := hgs
      obtain ⟨e1, e2⟩ := genRows_spec hr' hr1
      refine ⟨by simpa [Function.comp_def] using e1, fun x hx => ⟨fun _ => ?_, by simp⟩⟩
      obtain ⟨g, hg, rfl⟩ := List.mem_map.1 hx
      exact ⟨g.2, (e2 g hg).2.1, (e2 g hg).2.2, rfl⟩
  have on1 : ∀ g : GenRow GenD, (decide (0 < g.status) && !isload g) = true → 0 < g.status := fun g hg => ((unitOn_iff g).1 hg).1
  have on2 : ∀ g : GenRow GenD, (decide (0 < g.status) && isload g) = true → 0 < g.status := fun g hg => ((loadOn_iff g).1 hg).1
  obtain ⟨a1, a2, a3⟩ := genLines_spec (sign := 1) (P := P) key.1 key.2 on1
  obtain ⟨c1, c2, c3⟩ := genLines_spec (sign := -1) (P := P) key.1 key.2 on2
  refine ⟨⟨a1, fun k g hk hg => a2 k g hk ((unitOn_iff g).2 hg), fun l hl => ?_⟩, ⟨c1, fun k g hk hg => c2 k g hk ((loadOn_iff g).2 hg), fun l hl => ?_⟩⟩
  · obtain ⟨g, h1, h2, h3, h4, h5, h6⟩ := a3 l hl
    exact ⟨g, h1, (unitOn_iff g).1 h2, h3, by rw [h4, one_mul, one_mul], h5, h6⟩
  · obtain ⟨g, h1, h2, h3, h4, h5, h6⟩ := c3 l hl
    exact ⟨g, h1, (loadOn_iff g).1 h2, h3, by rw [h4]; simp, h5, h6⟩

theorem lim_of {own : PrintOpt → ℕ} {n : ℕ} (h : LimIs o own n) : o.lim own = n := by
  unfold PrintOpt.lim
  rcases h with ⟨h1, h2⟩ | ⟨h1, h2, h3⟩ | ⟨h1, h2, h3⟩
  · rw [h1, h2]; rfl
  · simp only [h1, if_true, h2, if_false]; omega
  · simp only [h1, if_true, h2, h3]

open Classical in
theorem listed_eq {α β : Type} {g : β → α} {l : List α} {r : List β} (hg : r.map g = l) {n : ℕ} {q : β → Bool} {p : α → Prop} (h : ∀ x ∈ r, q x = true ↔ p (g x)) :
    (listed n q r).map g = rowsWith (fun x => n = 2 ∨ n = 1 ∧ p x) l := by
  subst hg
  have : rowsWith (fun x => n = 2 ∨ n = 1 ∧ p x) (r.map g) = (r.filter fun x => n == 2 || (n == 1 && q x)).map g := by
    unfold rowsWith
    rw [List.filter_map]
    refine congrArg _ (List.filter_congr fun x hx => ?_)
    rw [Bool.eq_iff_iff]
    simp only [Bool.or_eq_true, Bool.and_eq_true, beq_iff_eq, Function.comp_apply, decide_eq_true_eq, h x hx]
  rw [this]
  unfold listed
  split
  · rfl
  · rename_i hh
    rw [List.map_nil]
    symm
    rw [List.map_eq_nil_iff, List.filter_eq_nil_iff]
    intro x hx hq
    refine hh ?_
    simp only [Bool.or_eq_true, Bool.and_eq_true, List.any_eq_true] at hq ⊢
    exact hq.imp_right fun hq => ⟨hq.1, x, hx, hq.2⟩

theorem rowsWith_filter {α : Type} (p q : α → Prop) (l : List α) : rowsWith p (rowsWith q l) = rowsWith (fun x => q x ∧ p x) l := by
  unfold rowsWith
  rw [List.filter_filter]
  refine List.filter_congr fun x _ => ?_
  rw [Bool.eq_iff_iff]
  simp only [Bool.and_eq_true, decide_eq_true_eq]
  tauto

open Classical in
theorem ong_eq (t : Index.Case Tables) : ong t = rowsWith UnitOn t.gen := by
  unfold ong rowsWith
  refine List.filter_congr fun x _ => ?_
  rw [Bool.eq_iff_iff, unitOn_iff, decide_eq_true_eq]

theorem flowSize_eq (o : PrintOpt) (p q : ℝ) (b : BusRow BusD) :
    |if o.OPF_FLOW_LIM = 1 ∨ o.PF_DC = true then p else if o.OPF_FLOW_LIM = 2 then ‖((p : ℂ) + Complex.I * q) / volt b‖ else ‖(p : ℂ) + Complex.I * q‖| = flowSize o p q b.data.VM := by
  have hn : ‖(p : ℂ) + Complex.I * q‖ = Real.sqrt (p ^ 2 + q ^ 2) := by
    rw [Complex.norm_def, Complex.normSq_apply]
    simp [sq]
  have hv : ‖volt b‖ = |b.data.VM| := by
    rw [← Real.sqrt_sq (norm_nonneg (volt b)), volt_norm, Real.sqrt_sq_eq_abs]
  unfold flowSize
  split
  · rfl
  split
  · rw [abs_norm, norm_div, hn, hv]
  · rw [abs_norm, hn]

/-- **C94 (which rows are listed).**  With option value 1 the generator and branch sections of an OPF list exactly the generators in service (other than dispatchable loads) and the branches
with a binding limit, in the order of the tables, with 2 all of them, with 0 none. -/
theorem C94_lists (hr : Refs t) (h : printpf area o true base t = some (t', some rep)) {n : ℕ} :
    (LimIs o (·.OUT_PG_LIM) n → rep.pgLims = rowsWith (fun g => UnitOn g ∧ (n = 2 ∨ n = 1 ∧ PgBinding o g)) t'.gen) ∧
    (LimIs o (·.OUT_QG_LIM) n → o.PF_DC = false → rep.qgLims = rowsWith (fun g => UnitOn g ∧ (n = 2 ∨ n = 1 ∧ QgBinding o g)) t'.gen) ∧
    (LimIs o (·.OUT_LINE_LIM) n → rep.lineLims.map (·.l) = rowsWith (fun l => n = 2 ∨ n = 1 ∧ LineBinding o t' l) t'.branch) ∧
    (LimIs o (·.OUT_V_LIM) n → o.PF_DC = false → (n = 2 → rep.vLims = t'.bus) ∧ (n = 0 → rep.vLims = [])) := by
  obtain ⟨-, ht, es, ars, hes, -, -, -, -, -, -, hv, hp, hq, hl, -⟩ := printpf_inv h
  have hr' := refs_shown hr ht
  obtain ⟨e1, e2⟩ := ends_spec hr' hes
  refine ⟨fun hn => ?_, fun hn hd => ?_, fun hn => ?_, fun hn hd => ?_⟩
  · rw [hp, if_pos rfl, lim_of hn, ← rowsWith_filter, ← ong_eq, ← listed_eq (g := id) (List.map_id _) (q := pBinding o.OPF_VIOLATION), List.map_id]
    intro g _
    simp only [pBinding, ptol, PgBinding, id, Bool.or_eq_true, decide_eq_true_eq, or_assoc, gt_iff_lt]
  · rw [hq, hd]
    simp only [Bool.not_false, Bool.and_true, if_true]
    rw [lim_of hn, ← rowsWith_filter, ← ong_eq, ← listed_eq (g := id) (List.map_id _) (q := qBinding o.OPF_VIOLATION), List.map_id]
    intro g _
    simp only [qBinding, ptol, QgBinding, id, Bool.or_eq_true, decide_eq_true_eq, or_assoc, gt_iff_lt]
  · rw [hl, if_pos rfl, lim_of hn]
    refine listed_eq e1 fun e he => ?_
    obtain ⟨-, f1, f2, f3, f4⟩ := e2 e he
    have k1 : (∃ b ∈ t'.bus, b.num = e.l.f ∧ e.l.data.rateA - o.OPF_VIOLATION < flowSize o e.l.data.PF e.l.data.QF b.data.VM) ↔ |ff o e| > e.l.data.rateA - o.OPF_VIOLATION := by
      unfold ff
      rw [flowSize_eq]
      constructor
      · rintro ⟨b, hb, eb, hlt⟩
        rwa [row_unique hr'.nodup hb f1 (eb.trans f2.symm)] at hlt
      · intro hlt; exact ⟨e.f, f1, f2, hlt⟩
    have k2 : (∃ b ∈ t'.bus, b.num = e.l.t ∧ e.l.data.rateA - o.OPF_VIOLATION < flowSize o e.l.data.PT e.l.data.QT b.data.VM) ↔ |ft o e| > e.l.data.rateA - o.OPF_VIOLATION := by
      unfold ft
      rw [flowSize_eq]
      constructor
      · rintro ⟨b, hb, eb, hlt⟩
        rwa [row_unique hr'.nodup hb f3 (eb.trans f4.symm)] at hlt
      · intro hlt; exact ⟨e.t, f3, f4, hlt⟩
    unfold LineBinding
    rw [k1, k2]
    simp only [lBinding, ptol, Bool.or_eq_true, Bool.and_eq_true, decide_eq_true_eq, gt_iff_lt]
    tauto
  · have := (C94_partial h).2.2.2 hd
    rwa [lim_of hn] at this

/-- **C95 (exactly when).**  Printing the results of an optimal power flow (tables with proper references, at least two buses and a branch) goes through if and only if no line of the
dispatchable load sections is to be printed: option value 2 raises with any dispatchable load in service, 1 with one at a limit of its active output, or, unless in DC, its reactive output. -/
theorem C95_exact_partial (hr : Refs t) (h2 : 2 ≤ t.bus.length) (hb : t.branch ≠ []) (h0 : o.OUT_ALL ≠ 0) {n k : ℕ} (hn : LimIs o (·.OUT_PG_LIM) n) (hk : LimIs o (·.OUT_QG_LIM) k) :
    (∃ t' rep, printpf area o true base t = some (t', some rep)) ↔
      ∀ g ∈ t.gen, LoadOn g → ¬ (n = 2 ∨ n = 1 ∧ PgBinding o g) ∧ (o.PF_DC = false → ¬ (k = 2 ∨ k = 1 ∧ QgBinding o g)) := by
  have emp : ∀ (lim : ℕ) (q : GenRow GenD → Bool) (l : List (GenRow GenD)), listed lim q l = [] ↔ ∀ g ∈ l, ¬ (lim = 2 ∨ lim = 1 ∧ q g = true) := by
    intro lim q l
    unfold listed
    split_ifs with hc
    · rw [List.filter_eq_nil_iff]
      simp only [Bool.or_eq_true, Bool.and_eq_true, beq_iff_eq]
    · simp only [true_iff]
      simp only [Bool.or_eq_true, Bool.and_eq_true, beq_iff_eq, List.any_eq_true, not_or, not_and, not_exists] at hc
      rintro g hg (h | ⟨h, hq⟩)
      · exact hc.1 h
      · exact hc.2 h g hg hq
  have hp : ∀ g, pBinding o.OPF_VIOLATION g = true ↔ PgBinding o g := by
    intro g
    simp only [pBinding, ptol, PgBinding, Bool.or_eq_true, decide_eq_true_eq, or_assoc, gt_iff_lt]
  have hq : ∀ g, qBinding o.OPF_VIOLATION g = true ↔ QgBinding o g := by
    intro g
    simp only [qBinding, ptol, QgBinding, Bool.or_eq_true, decide_eq_true_eq, or_assoc, gt_iff_lt]
  have mem : ∀ (t : Index.Case Tables) g, g ∈ onld t ↔ g ∈ t.gen ∧ LoadOn g := by
    intro t g
    unfold onld
    rw [List.mem_filter]
    simp only [isload, LoadOn, Disp, Bool.and_eq_true, decide_eq_true_eq]
  have ll : ∀ t1 : Index.Case Tables, loadLines o t1 = some () ↔
      ∀ g ∈ t1.gen, LoadOn g → ¬ (n = 2 ∨ n = 1 ∧ PgBinding o g) ∧ (o.PF_DC = false → ¬ (k = 2 ∨ k = 1 ∧ QgBinding o g)) := by
    intro t1
    have a1 : listed (o.lim (·.OUT_PG_LIM)) (pBinding o.OPF_VIOLATION) (onld t1) = [] ↔ ∀ g, g ∈ t1.gen ∧ LoadOn g → ¬ (n = 2 ∨ n = 1 ∧ PgBinding o g) := by
      simp only [lim_of hn, emp, mem, hp]
    have a2 : listed (o.lim (·.OUT_QG_LIM)) (qBinding o.OPF_VIOLATION) (onld t1) = [] ↔ ∀ g, g ∈ t1.gen ∧ LoadOn g → ¬ (k = 2 ∨ k = 1 ∧ QgBinding o g) := by
      simp only [lim_of hk, emp, mem, hq]
    unfold loadLines
    constructor
    · intro h
      split_ifs at h with hc
      rw [a1, a2] at hc
      intro g hg hl
      refine ⟨hc.1 g ⟨hg, hl⟩, fun hd => ?_⟩
      rcases hc.2 with h' | h'
      · rw [hd] at h'; cases h'
      · exact h' g ⟨hg, hl⟩
    · intro h
      rw [if_pos]
      rw [a1, a2]
      refine ⟨fun g hg => (h g hg.1 hg.2).1, ?_⟩
      cases hd : o.PF_DC
      · exact .inr fun g hg => (h g hg.1 hg.2).2 hd
      · exact .inl rfl
  have same : (∀ g ∈ (if o.PF_DC = true then dcZero t else t).gen, LoadOn g → ¬ (n = 2 ∨ n = 1 ∧ PgBinding o g) ∧ (o.PF_DC = false → ¬ (k = 2 ∨ k = 1 ∧ QgBinding o g))) ↔
      ∀ g ∈ t.gen, LoadOn g → ¬ (n = 2 ∨ n = 1 ∧ PgBinding o g) ∧ (o.PF_DC = false → ¬ (k = 2 ∨ k = 1 ∧ QgBinding o g)) := by
    split_ifs with hd
    · simp only [dcZero, List.mem_map, forall_exists_index, and_imp, forall_apply_eq_imp_iff₂, hd, Bool.true_eq_false, false_implies, and_true]
      exact Iff.rfl
    · rfl
  constructor
  · rintro ⟨t', rep, h⟩
    obtain ⟨-, ht, -, -, -, -, -, -, -, -, hll, -⟩ := printpf_inv h
    have := (ll t').1 (hll rfl)
    rw [ht] at this
    exact same.1 this
  · intro h
    obtain ⟨t', rep, h', -⟩ := (printpf_returns (area := area) (o := o) (isOPF := true) (base := base) hr h2 hb fun _ => (ll _).2 (same.2 h)).2 h0
    exact ⟨t', rep, h'⟩

/-- **C103 (options).**  `OUT_ALL` 1 prints every section, whatever the other options say; with −1 each section follows its own option; with 0 nothing is printed. -/
theorem C103_options {r : Option Report} (h : printpf area o isOPF base t = some (t', r)) :
    (o.OUT_ALL = 0 → r = none ∧ t' = t) ∧
    (o.OUT_ALL = 1 → ∃ rep, r = some rep ∧ rep.sys.isSome ∧ rep.areas.isSome ∧ rep.gens.isSome ∧ rep.buses.isSome ∧ rep.losses.isSome) ∧
    (o.OUT_ALL = -1 → ∃ rep, r = some rep ∧ rep.sys.isSome = o.OUT_SYS_SUM ∧ rep.areas.isSome = o.OUT_AREA_SUM ∧ rep.gens.isSome = o.OUT_GEN ∧ rep.buses.isSome = o.OUT_BUS ∧
      rep.losses.isSome = o.OUT_BRANCH) := by
  have pt : ∀ {α : Type} {b : Bool} {x : Option α} {y : Option α}, part b x = some y → y.isSome = b := by
    intro α b x y hp
    unfold part at hp
    split at hp
    · rename_i hb
      obtain ⟨z, -, rfl⟩ := Option.map_eq_some_iff.1 hp
      rw [hb]; rfl
    · rename_i hb
      cases hp
      simp only [Bool.not_eq_true] at hb
      rw [hb]; rfl
  unfold printpf at h
  split at h
  · rename_i h0
    cases h
    exact ⟨fun _ => ⟨rfl, rfl⟩, fun h => absurd (h0.symm.trans h) (by decide), fun h => absurd (h0.symm.trans h) (by decide)⟩
  rename_i h0
  simp only [Option.bind_eq_bind, Option.bind_eq_some_iff, Option.some.injEq, Prod.mk.injEq] at h
  obtain ⟨es, -, ars, -, sys, hsys, as, has, u, hu, v, -, -, hr⟩ := h
  have p1 := pt hsys
  have p2 := pt has
  have p3 := pt hu
  refine ⟨fun h => absurd h h0, fun h => ⟨_, hr.symm, ?_⟩, fun h => ⟨_, hr.symm, ?_⟩⟩
  · have hf : ∀ f, o.flag f = true := fun f => by unfold PrintOpt.flag; rw [h]; rfl
    simp only [hf] at p1 p2 p3 ⊢
    exact ⟨p1, p2, p3, rfl, rfl⟩
  · have hf : ∀ f, o.flag f = f o := fun f => by
      unfold PrintOpt.flag; rw [h]
      cases f o <;> rfl
    simp only [hf] at p1 p2 p3 ⊢
    refine ⟨p1, p2, p3, ?_, ?_⟩
    · split <;> simp_all
    · split <;> simp_all

end

end Verif.Printpf
