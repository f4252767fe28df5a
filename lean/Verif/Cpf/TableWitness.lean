import Verif.Cpf.TableProps
import Verif.Runpf.TableDc

/-!
# C102: identical cases, and a case with a successful run
-/

open Matrix ComplexConjugate

namespace Verif.Cpf

open Verif.Opf (Tables BusD GenD BrD)
open Verif.Index (BusRow GenRow BranchRow IsArgsort WF GenInService BranchInService posOf)
open Verif.Runpf (Case Out readPf initialV pfOff PfBridge IsSlack)
open Verif.Network Verif.Solvers Verif.Pfsoln

section
variable {srt : List ℕ → List ℕ} (hs : IsArgsort srt) {base : ℝ} {o : CpfOpt} {lin : ∀ {n : ℕ}, LinSolver (Fin n)} {cb ct : Index.Case Tables} {fuel : ℕ}
  (hwb : WF cb) (hwt : WF ct) (hN : SameNet cb ct)

include hs hwb hwt hN in
/-- **C102, identical cases.** Base and target with the same loading: the call raises, instead of returning the base solution as the printed message announces. -/
theorem C102_identical (hg : ct.gen = cb.gen)
    (hd : ∀ (i : ℕ) b t, cb.bus[i]? = some b → ct.bus[i]? = some t → t.data.PD = b.data.PD ∧ t.data.QD = b.data.QD) :
    runcpfTables srt base base o lin cb ct fuel = none := by
  unfold runcpfTables
  simp only [Option.bind_eq_bind, Option.bind_eq_none_iff]
  intro b hb p hp c hc t ht r hr
  exfalso
  obtain ⟨R, u, bp, gp, lp, -, hX⟩ := transfer_eq hs hwb hwt hN hb hc hp ht
  have h0 : (netOf base p t lin o.tol o.maxIt).X = 0 := by
    funext k
    obtain ⟨b0, t0, h1, h2, h3⟩ := hX lin o.tol o.maxIt k
    obtain ⟨e1, e2⟩ := hd _ _ _ h1 h2
    rw [h3 hg, e1, e2]
    simp
  unfold traceFrom at hr
  cases hV : initialV p with
  | none => simp [hV, h0] at hr
  | some V =>
    rw [hV] at hr
    simp only [runcpf, Option.bind_eq_bind, Option.bind_eq_some_iff] at hr
    obtain ⟨q, -, hr⟩ := hr
    simp [h0] at hr

end

theorem column_exists {srt : List ℕ → List ℕ} (hs : IsArgsort srt) {cb ct b c : Index.Case Tables} (hwb : WF cb) (hwt : WF ct) (hN : SameNet cb ct)
    (heb : Index.ext2int srt cb = some b) (hec : Index.ext2int srt ct = some c) (V : Fin b.bus.length → ℂ) : ∃ col, column cb.bus.length c V = some col := by
  obtain ⟨b2, ob, pos, _, hb2, _, _, hcb, hpos, _⟩ := Index.ext2int_corr hs hwb
  rw [heb] at hb2; cases hb2
  obtain ⟨c2, o, pos', _, hc2, ho, _, hcc, hpos', hoe⟩ := Index.ext2int_corr hs hwt
  rw [hec] at hc2; cases hc2
  subst hpos hpos'
  have hon : o.busOn = posOf srt cb .bus := by
    rw [hoe, ← hN.rows.posBus]; rfl
  have hlb : b.bus.length = (posOf srt cb .bus).length := hcb.busLen
  have hin : ∀ i ∈ posOf srt cb .bus, i < cb.bus.length := by
    intro i hi
    obtain ⟨k, hk⟩ := List.getElem?_of_mem hi
    obtain ⟨x, hx, -⟩ := hcb.busRow k i hk
    exact (List.getElem?_eq_some_iff.1 hx).1
  obtain ⟨r, h1, -⟩ := NumPy.scatter_spec (List.replicate cb.bus.length (none : Option ℂ)) (posOf srt cb .bus) (List.ofFn fun k => some (V k))
    (hcb.busOrder.imp fun h => ne_of_lt h) (by simpa using hin) (by simpa using hlb)
  unfold column
  rw [ho, Option.bind_eq_bind, Option.bind_some, hon]
  exact ⟨_, h1⟩

theorem mapM_exists {α β : Type} (f : α → Option β) (l : List α) (h : ∀ a, ∃ b, f a = some b) : ∃ r, l.mapM f = some r := by
  induction l with
  | nil => exact ⟨[], rfl⟩
  | cons a l ih =>
    obtain ⟨b, hb⟩ := h a
    obtain ⟨r, hr⟩ := ih
    exact ⟨b :: r, by simp [List.mapM_cons, hb, hr]⟩

theorem curve_exists {srt : List ℕ → List ℕ} (hs : IsArgsort srt) {cb ct b c : Index.Case Tables} (hwb : WF cb) (hwt : WF ct) (hN : SameNet cb ct)
    (heb : Index.ext2int srt cb = some b) (hec : Index.ext2int srt ct = some c) (r : Report (Fin b.bus.length)) : ∃ cv, curveOf cb.bus.length c r = some cv := by
  unfold curveOf
  split_ifs
  · obtain ⟨Vp, h1⟩ := mapM_exists (fun e : Entry (Fin b.bus.length) => column cb.bus.length c e.p.1) r.hist fun e => column_exists hs hwb hwt hN heb hec _
    obtain ⟨Vc, h2⟩ := mapM_exists (fun e : Entry (Fin b.bus.length) => column cb.bus.length c e.c.1) r.hist fun e => column_exists hs hwb hwt hN heb hec _
    rw [h1, h2]
    exact ⟨_, rfl⟩
  · exact ⟨_, rfl⟩

theorem finish_exists {srt : List ℕ → List ℕ} (hs : IsArgsort srt) {cb ct b c : Index.Case Tables} (hwb : WF cb) (hwt : WF ct) (hN : SameNet cb ct)
    (heb : Index.ext2int srt cb = some b) (hec : Index.ext2int srt ct = some c) {base : ℝ} {p : Case (Fin b.bus.length) (Fin b.branch.length) b.gen.length}
    (hp : readPf base b = some p) {t : Target b.bus.length b.gen.length c.branch.length} (ht : readTarget base c b.bus.length b.gen.length = some t)
    (o : CpfOpt) {lin : ∀ {n : ℕ}, LinSolver (Fin n)} {fuel : ℕ} {r : Option (Report (Fin b.bus.length))}
    (hr : traceFrom o (netOf base p t lin o.tol o.maxIt) (initialV p) fuel = some r) :
    ∃ x, runcpfTables srt base base o lin cb ct fuel = some x ∧ ∀ r', r = some r' → ∃ ret, x = some ret ∧ ret.success = r'.success := by
  obtain ⟨d, hn, hm, hdd, -⟩ := readTarget_eq ht
  unfold runcpfTables
  rw [heb, Option.bind_eq_bind, Option.bind_some, hp, Option.bind_eq_bind, Option.bind_some, hec, Option.bind_eq_bind, Option.bind_some, ht, Option.bind_eq_bind,
    Option.bind_some, hr, Option.bind_eq_bind, Option.bind_some]
  cases r with
  | none => exact ⟨_, rfl, by simp⟩
  | some r =>
    dsimp only
    rw [dif_pos ⟨hn, hm⟩]
    have hT : ∃ T, cpfTables o base p c t hn hm r = some T := by
      unfold cpfTables
      split
      · obtain ⟨s, hs'⟩ := cpfOut_exists hs hwb hwt hN heb hec hp ht o.EPS ‹_› ‹_› r.success
        obtain ⟨c', dc, hec', -, hint⟩ := Opf.bridge_exists hs base hwt
        rw [hec] at hec'; cases hec'
        rename_i V lam _ _
        obtain ⟨q, hq⟩ := hint (cpfUpd hn hm (loadAt p.bus t lam) s)
        rw [hs', Option.bind_eq_bind, Option.bind_some, hq]
        exact ⟨_, rfl⟩
      · exact ⟨_, rfl⟩
    obtain ⟨T, hT⟩ := hT
    obtain ⟨cv, hcv⟩ := curve_exists hs hwb hwt hN heb hec r
    rw [hT, hcv]
    exact ⟨_, rfl, by rintro r' ⟨⟩; exact ⟨_, rfl, rfl⟩⟩

section
variable {srt : List ℕ → List ℕ} (hs : IsArgsort srt) {base : ℝ} (hbase : base ≠ 0) {cb ct : Index.Case Tables} (hwb : WF cb) (hwt : WF ct)
    (hN : SameNet cb ct) (hsl : ∃ i, IsSlack cb i) (hns : ∃ (i : ℕ) (b : BusRow BusD), cb.bus[i]? = some b ∧ b.typ ≠ 4 ∧ ¬ IsSlack cb i)
    (hg : ct.gen = cb.gen) (hd : ∃ (i : ℕ) (b t : BusRow BusD), cb.bus[i]? = some b ∧ ct.bus[i]? = some t ∧ b.typ ≠ 4 ∧ t.data.PD ≠ b.data.PD)

include hs hbase hwb hwt hN hsl hns hg hd

theorem prepared : ∃ (b c : Index.Case Tables) (p : Case (Fin b.bus.length) (Fin b.branch.length) b.gen.length) (t : Target b.bus.length b.gen.length c.branch.length),
    Index.ext2int srt cb = some b ∧ Index.ext2int srt ct = some c ∧ readPf base b = some p ∧ readTarget base c b.bus.length b.gen.length = some t ∧
    ¬ (p.pv = [] ∧ p.pq = []) ∧ (∀ lin tol maxIt, (netOf base p t lin tol maxIt).X ≠ 0) ∧
    ((∀ b ∈ cb.bus, b.typ ≠ 4 → b.data.VM ≠ 0) → ∃ V0, initialV p = some V0) := by
  obtain ⟨b, p, heb, hp, hw⟩ := Runpf.prep_exists hs base hwb hsl
  obtain ⟨c, dc, hec, -, hint⟩ := Opf.bridge_exists hs base hwt
  obtain ⟨t, ht⟩ := readTarget_exists hs hwb hwt hN heb hec base
  obtain ⟨R, u, bp, gp, lp, B, hX⟩ := transfer_eq hs hwb hwt hN heb hec hp ht
  obtain ⟨d, hn, hm, hdd, -⟩ := readTarget_eq ht
  obtain ⟨D0, D, -⟩ := B.bridge
  refine ⟨b, c, p, t, heb, hec, hp, ht, ?_, ?_, ?_⟩
  · rintro ⟨h1, h2⟩
    obtain ⟨i, b, hb, ht, hn⟩ := hns
    obtain ⟨k, rfl⟩ := D.busOn i b hb ht
    have := B.cover k fun hh => hn ((B.ref k).1 hh)
    rw [h1, h2] at this
    simp at this
  · intro lin tol maxIt h0
    obtain ⟨i, b1, t1, hb1, ht1, hty, hpd⟩ := hd
    obtain ⟨k, rfl⟩ := D.busOn i b1 hb1 hty
    obtain ⟨b2, t2, h1, h2, h3⟩ := hX lin tol maxIt k
    rw [hb1] at h1; cases h1
    rw [ht1] at h2; cases h2
    have := congrFun h0 k
    rw [h3 hg, Pi.zero_apply, div_eq_zero_iff] at this
    rcases this with h | h
    · have := congrArg Complex.re h
      simp only [Complex.add_re, Complex.mul_re, Complex.I_re, Complex.I_im, Complex.ofReal_re, Complex.ofReal_im, Complex.zero_re] at this
      apply hpd
      linarith
    · exact hbase (by exact_mod_cast h)
  · intro hvm
    unfold initialV
    rw [if_neg]
    · exact ⟨_, rfl⟩
    · rintro ⟨k, -, h0⟩
      obtain ⟨b, hb, h1, -⟩ := B.vm k
      obtain ⟨b', hb', h2, -⟩ := D.bus k
      rw [hb] at hb'; cases hb'
      unfold Runpf.flat at h0
      rcases mul_eq_zero.1 h0 with h0 | h0
      · have : p.VM k = 0 := by exact_mod_cast h0
        exact hvm b (List.mem_of_getElem? hb) h2 (h1 ▸ this)
      · exact Complex.exp_ne_zero _ h0

/-- **C102, completion.** When the demand differs at a connected bus (and the generators are the same) the call does not raise: for any options and any linear
solver it is still running after `fuel` steps or returns. -/
theorem C102_completes (o : CpfOpt) (lin : ∀ {n : ℕ}, LinSolver (Fin n)) (fuel : ℕ) : ∃ x, runcpfTables srt base base o lin cb ct fuel = some x := by
  obtain ⟨b, c, p, t, heb, hec, hp, ht, hne, hX, -⟩ := prepared hs hbase hwb hwt hN hsl hns hg hd
  have hr : ∃ r, traceFrom o (netOf base p t lin o.tol o.maxIt) (initialV p) fuel = some r := by
    unfold traceFrom
    split
    · unfold runcpf newtonpf
      rw [if_neg (show ¬ ((netOf base p t lin o.tol o.maxIt).pv = [] ∧ (netOf base p t lin o.tol o.maxIt).pq = []) from hne), Option.bind_eq_bind, Option.bind_some,
        if_neg (by simpa using hX _ _ _)]
      split <;> exact ⟨_, rfl⟩
    · rw [if_neg (by simpa using hX _ _ _)]
      exact ⟨_, rfl⟩
  obtain ⟨r, hr⟩ := hr
  obtain ⟨x, hx, -⟩ := finish_exists hs hwb hwt hN heb hec hp ht o hr
  exact ⟨x, hx⟩

end

/-- A linear solver that returns the last unit vector. -/
def lastLin : ∀ {n : ℕ}, LinSolver (Fin n) := fun _ _ F => some (List.replicate (F.length - 1) 0 ++ [1])

theorem lookup_zero {B : Type} [DecidableEq B] (idx : List B) (n : ℕ) (b : B) {x : ℝ} (h : (idx.zip (List.replicate n (0 : ℝ))).reverse.lookup b = some x) : x = 0 := by
  obtain ⟨l1, l2, he, -⟩ := List.lookup_eq_some_iff.1 h
  have : (b, x) ∈ (idx.zip (List.replicate n (0 : ℝ))).reverse := by rw [he]; simp
  have := (List.of_mem_zip (List.mem_reverse.1 this)).2
  exact (List.mem_replicate.1 this).2

theorem setAt_zero {B : Type} [DecidableEq B] (idx : List B) (n : ℕ) : setAt (0 : B → ℝ) idx (List.replicate n 0) = 0 := by
  funext b
  unfold setAt
  cases h : (idx.zip (List.replicate n (0 : ℝ))).reverse.lookup b with
  | none => rfl
  | some x => simpa using lookup_zero _ _ _ h

theorem addAt_zero {B : Type} [DecidableEq B] (f : B → ℝ) (idx : List B) (n : ℕ) : addAt f idx (List.replicate n 0) = f := by
  funext b
  unfold addAt
  split
  · rename_i e h
    rw [lookup_zero _ _ _ h, add_zero]
  · rfl

theorem unit_pred {n : ℕ} (N : Net (Fin n)) (hl : N.lin = lastLin) (V : Fin n → ℂ) (step : ℝ) :
    predictor N (V, 0) step ⟨0, 0, 1⟩ (V, 0) .natural = some ((V, step), ⟨0, 0, 1⟩) := by
  have hz : setTan (⟨0, 0, 1⟩ : Tan (Fin n)) N.pv N.pq (List.replicate (N.pv.length + 2 * N.pq.length) 0 ++ [1]) = ⟨0, 0, 1⟩ := by
    unfold setTan
    congr 1
    · rw [List.take_append_of_le_length (by simp; omega), List.take_replicate]
      exact setAt_zero _ _
    · rw [List.drop_append_of_le_length (by simp; omega), List.drop_replicate, List.take_append_of_le_length (by simp; omega), List.take_replicate]
      exact setAt_zero _ _
    · rw [List.drop_left' (by simp)]
      rfl
  have hu : (⟨0, 0, 1⟩ : Tan (Fin n)).unit = some ⟨0, 0, 1⟩ := by
    have h2 : (⟨0, 0, 1⟩ : Tan (Fin n)).norm = 1 := by simp [Tan.norm]
    unfold Tan.unit
    rw [h2]
    simp
    rfl
  unfold predictor
  simp only [hl, lastLin, Option.bind_eq_bind, Option.bind_some, List.length_append, List.length_replicate, List.length_cons, List.length_nil, Nat.zero_add,
    Nat.add_sub_cancel, hz, hu]
  unfold advance
  simp only [Option.pure_def, Option.some.injEq, Prod.mk.injEq, and_true]
  constructor
  · funext b
    have := polar_arg V b
    simpa [addAt_zero] using this
  · simp

theorem unit_run {n : ℕ} (N : Net (Fin n)) (hl : N.lin = lastLin) (V : Fin n → ℂ) (hne : ¬ (N.pv = [] ∧ N.pq = [])) (hX : N.X ≠ 0) (o : Adapt)
    (h0 : Solved N.Y N.S N.pv N.pq N.tol V) (h1 : OnCurve N.Y N.S N.X N.pv N.pq N.tol (V, 1)) (ht : 0 < N.tol) :
    ∃ r, runcpf N (.lam 1) o ⟨some 1, .natural, false⟩ V 1 = some (some r) ∧ r.success = true ∧ r.V = some V ∧ r.lam = some 1 := by
  have hc : corrector N ⟨.natural, 1, ⟨0, 0, 1⟩, (V, 0)⟩ (some (V, 1)) = (some (V, 1), true, 0) := by
    have hok : corrOk N ⟨.natural, 1, ⟨0, 0, 1⟩, (V, 0)⟩ (some (V, 1)) := by
      rw [corrOk_iff]
      refine ⟨h1, ?_⟩
      simpa [distance, required] using ht
    unfold corrector
    cases N.maxIt with
    | zero => simp [loop, hok]
    | succ m => simp [loop, hok]
  unfold runcpf
  rw [C30_start _ _ _ _ _ _ _ _ hne h0]
  have hp : pass N (.lam 1) o (start V ⟨some 1, .natural, false⟩) = .done ⟨(V, 1), (V, 0), ⟨0, 0, 1⟩, ⟨some 1, .natural, false⟩, 1, [⟨(V, 0), (V, 0)⟩, ⟨(V, 1), (V, 1)⟩]⟩ := by
    unfold pass start
    dsimp only
    rw [unit_pred N hl]
    dsimp only
    unfold correct
    dsimp only
    rw [hc]
    dsimp only
    unfold accept
    have : stopOrGo (.lam 1) 1 0 1 ⟨some 1, .natural, false⟩ = none := by
      unfold stopOrGo
      norm_num
    simp only [this]
    rfl
  simp only [Option.bind_eq_bind, Option.bind_some]
  rw [if_neg (by simpa using hX)]
  unfold trace
  rw [hp]
  exact ⟨_, rfl, rfl, rfl, rfl⟩

/-- A tolerance for any voltages and loading. -/
theorem tol_exists {n : ℕ} (Y : Matrix (Fin n) (Fin n) ℂ) (S : Fin n → ℂ) (V : Fin n → ℂ) : ∃ t : ℝ, 0 < t ∧ ∀ tol, t ≤ tol → ∀ pv pq, Solved Y S pv pq tol V := by
  let m : Fin n → ℂ := fun b => V b * conj (∑ j, Y b j * V j) - S b
  have hm : ∀ b, ‖m b‖ ≤ ∑ b, ‖m b‖ := fun b => Finset.single_le_sum (f := fun b => ‖m b‖) (fun _ _ => norm_nonneg _) (Finset.mem_univ b)
  have h0 : 0 ≤ ∑ b, ‖m b‖ := Finset.sum_nonneg fun _ _ => norm_nonneg _
  refine ⟨1 + ∑ b, ‖m b‖, by linarith, fun tol ht pv pq => ⟨fun b _ => ?_, fun b _ => ?_⟩⟩
  · have := Complex.abs_re_le_norm (m b)
    have := hm b
    show |(m b).re| < _
    linarith
  · have := Complex.abs_im_le_norm (m b)
    have := hm b
    show |(m b).im| < _
    linarith

/-- With a large enough tolerance the run succeeds, so that the theorems are not empty. -/
theorem runcpf_succeeds {srt : List ℕ → List ℕ} (hs : IsArgsort srt) {base : ℝ} (hbase : base ≠ 0) {cb ct : Index.Case Tables} (hwb : WF cb) (hwt : WF ct)
    (hN : SameNet cb ct) (hsl : ∃ i, IsSlack cb i) (hns : ∃ (i : ℕ) (b : BusRow BusD), cb.bus[i]? = some b ∧ b.typ ≠ 4 ∧ ¬ IsSlack cb i)
    (hg : ct.gen = cb.gen) (hd : ∃ (i : ℕ) (b t : BusRow BusD), cb.bus[i]? = some b ∧ ct.bus[i]? = some t ∧ b.typ ≠ 4 ∧ t.data.PD ≠ b.data.PD)
    (hvm : ∀ b ∈ cb.bus, b.typ ≠ 4 → b.data.VM ≠ 0) (EPS : ℝ) (maxIt : ℕ) (ad : Adapt) :
    ∃ tol ret, runcpfTables srt base base ⟨tol, maxIt, .lam 1, ad, ⟨some 1, .natural, false⟩, EPS⟩ lastLin cb ct 1 = some (some ret) ∧ ret.success = true := by
  obtain ⟨b, c, p, t, heb, hec, hp, ht, hne, hX, hV⟩ := prepared hs hbase hwb hwt hN hsl hns hg hd
  obtain ⟨V0, hV⟩ := hV hvm
  let N : ℝ → Net (Fin b.bus.length) := fun tol => netOf base p t lastLin tol maxIt
  obtain ⟨t1, -, h1⟩ := tol_exists (Ybus p.baseMVA p.bus p.branch) (makeSbus p.baseMVA p.bus fun g => (p.gen g).toGen) V0
  obtain ⟨t2, ht2, h2⟩ := tol_exists (Ybus p.baseMVA p.bus p.branch) (fun b => makeSbus p.baseMVA p.bus (fun g => (p.gen g).toGen) b + ((1 : ℝ) : ℂ) * (N 0).X b) V0
  let tol := max t1 t2
  obtain ⟨r, hr, hsucc, hrV, hrl⟩ := unit_run (N tol) rfl V0 hne (hX _ tol _) ad (h1 tol (le_max_left _ _) _ _) (h2 tol (le_max_right _ _) _ _) (lt_max_of_lt_right ht2)
  have hr' : traceFrom ⟨tol, maxIt, .lam 1, ad, ⟨some 1, .natural, false⟩, EPS⟩ (netOf base p t lastLin tol maxIt) (initialV p) 1 = some (some r) := by
    rw [hV]
    exact hr
  obtain ⟨x, hx, hx'⟩ := finish_exists hs hwb hwt hN heb hec hp ht ⟨tol, maxIt, .lam 1, ad, ⟨some 1, .natural, false⟩, EPS⟩ hr'
  obtain ⟨ret, rfl, e⟩ := hx' r rfl
  exact ⟨tol, ret, hx, e.trans hsucc⟩

/-! ## The hypotheses on a concrete case: `Opf.exTables` and the same with 30 MW more at bus 2 -/

def exTarget : Index.Case Tables := { Opf.exTables with
  bus := [⟨9, 3, ⟨0, 0, 0, 0, 1, 5, 1.1, 0.9, 0, 0, 0, 0, []⟩⟩, ⟨7, 4, ⟨10, 5, 0, 0, 1, 0, 1.1, 0.9, 0, 0, 0, 0, []⟩⟩,
    ⟨2, 1, ⟨120, 30, 1, 2, 1, 0, 1.1, 0.9, 0, 0, 0, 0, [345]⟩⟩] }

theorem exTarget_wf : WF exTarget where
  busNodup := by simp [exTarget]
  typValid := by simp [exTarget]
  someOn := ⟨_, List.mem_cons_self, by decide⟩
  genRef := by simp [exTarget, Opf.exTables, Index.HasBus]
  fRef := by simp [exTarget, Opf.exTables, Index.HasBus]
  tRef := by simp [exTarget, Opf.exTables, Index.HasBus]
  areaRef := by simp [exTarget, Opf.exTables]
  costRows := by simp [exTarget, Opf.exTables]
  aCols := by simp [exTarget, Opf.exTables]
  nCols := by simp [exTarget, Opf.exTables]
  notInternal := by simp [exTarget, Opf.exTables]

theorem exSame : SameNet Opf.exTables exTarget := ⟨rfl, rfl, rfl⟩

theorem exDemand : ∃ (i : ℕ) (b t : BusRow BusD), Opf.exTables.bus[i]? = some b ∧ exTarget.bus[i]? = some t ∧ b.typ ≠ 4 ∧ t.data.PD ≠ b.data.PD :=
  ⟨2, _, _, rfl, rfl, by decide, by norm_num⟩

/-- C102: a successful run between the two cases exists. -/
example (EPS : ℝ) : ∃ o ret, WF Opf.exTables ∧ WF exTarget ∧ SameNet Opf.exTables exTarget ∧
    runcpfTables Index.stableArgsort 100 100 o lastLin Opf.exTables exTarget 1 = some (some ret) ∧ ret.success = true := by
  obtain ⟨tol, ret, h⟩ := runcpf_succeeds Index.stableArgsort_isArgsort (base := 100) (by norm_num) Opf.exTables_wf exTarget_wf exSame ⟨0, Runpf.exSlack⟩
    Runpf.exOther rfl exDemand (by simp [Opf.exTables]) EPS 10 ⟨0, 0, 0⟩
  exact ⟨_, ret, Opf.exTables_wf, exTarget_wf, exSame, h⟩

/-- The hypotheses of the completion theorem and of the negation. -/
example (o : CpfOpt) (lin : ∀ {n : ℕ}, LinSolver (Fin n)) : (∃ x, runcpfTables Index.stableArgsort 100 100 o lin Opf.exTables exTarget 7 = some x) ∧
    runcpfTables Index.stableArgsort 100 100 o lin Opf.exTables Opf.exTables 7 = none :=
  ⟨C102_completes Index.stableArgsort_isArgsort (by norm_num) Opf.exTables_wf exTarget_wf exSame ⟨0, Runpf.exSlack⟩ Runpf.exOther rfl exDemand o lin 7,
    C102_identical Index.stableArgsort_isArgsort Opf.exTables_wf Opf.exTables_wf ⟨rfl, rfl, rfl⟩ rfl
      (by intro i b t hb ht; rw [hb] at ht; cases ht; exact ⟨rfl, rfl⟩)⟩

end Verif.Cpf
