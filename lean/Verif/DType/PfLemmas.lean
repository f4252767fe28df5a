import Verif.DType.PfModel
import Verif.Runpf.TableDc

/-!
# Lemmas: truncation; two updates of the same case
-/

namespace Verif.DType

open Verif.Opf (Tables Upd write zeroOff BusD GenD BrD)
open Verif.Index (BusRow GenRow BranchRow IsArgsort WF GenInService BranchInService)
open Verif.Network Verif.Pfsoln Verif.Solvers Verif.Runpf
open ComplexConjugate

theorem trunc_whole (x : ℝ) : Whole (trunc x) := by
  unfold trunc
  split
  · exact ⟨_, rfl⟩
  · exact ⟨_, rfl⟩

theorem trunc_of_whole {x : ℝ} (h : Whole x) : trunc x = x := by
  obtain ⟨z, rfl⟩ := h
  unfold trunc
  split <;> simp

theorem trunc_near (x : ℝ) : |x - trunc x| < 1 := by
  unfold trunc
  split
  · have h1 := Int.floor_le x
    have h2 := Int.lt_floor_add_one x
    rw [abs_lt]; constructor <;> linarith
  · have h1 := Int.le_ceil x
    have h2 := Int.ceil_lt_add_one x
    rw [abs_lt]; constructor <;> linarith

theorem trunc_abs_le (x : ℝ) : |trunc x| ≤ |x| := by
  unfold trunc
  split
  · rename_i h
    rw [abs_of_nonneg h, abs_of_nonneg (by exact_mod_cast Int.floor_nonneg.2 h)]
    exact Int.floor_le x
  · rename_i h
    have h0 : x < 0 := not_le.1 h
    have h1 : (⌈x⌉ : ℝ) ≤ 0 := by exact_mod_cast Int.ceil_le.2 (by simpa using h0.le)
    rw [abs_of_nonpos h1, abs_of_neg h0]
    linarith [Int.le_ceil x]

theorem Whole.sub {x y : ℝ} (hx : Whole x) (hy : Whole y) : Whole (x - y) := by
  obtain ⟨a, rfl⟩ := hx
  obtain ⟨b, rfl⟩ := hy
  exact ⟨a - b, by push_cast; ring⟩

theorem Whole.add {x y : ℝ} (hx : Whole x) (hy : Whole y) : Whole (x + y) := by
  obtain ⟨a, rfl⟩ := hx
  obtain ⟨b, rfl⟩ := hy
  exact ⟨a + b, by push_cast; ring⟩

theorem whole_zero : Whole 0 := ⟨0, by simp⟩

theorem whole_sum {ι : Type} (l : List ι) (f : ι → ℝ) (h : ∀ i ∈ l, Whole (f i)) : Whole (l.map f).sum := by
  induction l with
  | nil => exact whole_zero
  | cons a l ih =>
    rw [List.map_cons, List.sum_cons]
    exact (h a (by simp)).add (ih fun i hi => h i (by simp [hi]))

/-- Two updates of one case touch the same rows. -/
theorem two_bridges {srt : List ℕ → List ℕ} (hs : IsArgsort srt) {c : Index.Case Tables} (h : WF c) {c' r r' : Index.Case Tables}
    (he : Index.ext2int srt c = some c') {base : ℝ} {p : Case (Fin c'.bus.length) (Fin c'.branch.length) c'.gen.length} (hp : readPf base c' = some p)
    {u u' : Upd c'.bus.length c'.gen.length c'.branch.length} (hr : Index.int2ext (write c' u) = some r) (hr' : Index.int2ext (write c' u') = some r') :
    ∃ bp gp lp, PfBridge c (zeroOff pfOff r) base p u bp gp lp ∧ PfBridge c (zeroOff pfOff r') base p u' bp gp lp := by
  obtain ⟨bp, gp, lp, B, b1, b2, b3⟩ := pf_bridge_at hs h he hp u hr
  obtain ⟨bp', gp', lp', B', b1', b2', b3'⟩ := pf_bridge_at hs h he hp u' hr'
  have e1 : bp' = bp := funext fun k => by
    have := b1 k
    rw [b1' k] at this
    exact Option.some.inj this
  have e2 : gp' = gp := funext fun k => by
    have := b2 k
    rw [b2' k] at this
    exact Option.some.inj this
  have e3 : lp' = lp := funext fun k => by
    have := b3 k
    rw [b3' k] at this
    exact Option.some.inj this
  subst e1 e2 e3
  exact ⟨_, _, _, B, B'⟩

section rows
variable {c R R' : Index.Case Tables} {base : ℝ} {nb ng nl : ℕ} {p : Case (Fin nb) (Fin nl) ng} {u u' : Upd nb ng nl} {bp : Fin nb → ℕ} {gp : Fin ng → ℕ}
  {lp : Fin nl → ℕ} (B : PfBridge c R base p u bp gp lp) (B' : PfBridge c R' base p u' bp gp lp)

include B B'

theorem bus_eq (hu : ∀ k b, u'.bus k b = u.bus k b) : R'.bus = R.bus := by
  obtain ⟨d, D, -⟩ := B.bridge
  obtain ⟨d', D', -⟩ := B'.bridge
  apply List.ext_getElem?
  intro i
  cases hc : c.bus[i]? with
  | none =>
    have : c.bus.length ≤ i := List.getElem?_eq_none_iff.1 hc
    rw [List.getElem?_eq_none (by rw [D'.busLen]; exact this), List.getElem?_eq_none (by rw [D.busLen]; exact this)]
  | some b =>
    by_cases h4 : b.typ = 4
    · rw [D.busOff i b hc h4, D'.busOff i b hc h4]
    · obtain ⟨k, rfl⟩ := D.busOn i b hc h4
      obtain ⟨b1, h1, -, h2, -⟩ := D.bus k
      obtain ⟨b2, h3, -, h5, -⟩ := D'.bus k
      rw [hc] at h1 h3; cases h1; cases h3
      rw [h2, h5, hu]

theorem branch_eq (hu : ∀ k b, u'.branch k b = u.branch k b) : R'.branch = R.branch := by
  obtain ⟨d, D, -⟩ := B.bridge
  obtain ⟨d', D', -⟩ := B'.bridge
  apply List.ext_getElem?
  intro i
  cases hc : c.branch[i]? with
  | none =>
    have : c.branch.length ≤ i := List.getElem?_eq_none_iff.1 hc
    rw [List.getElem?_eq_none (by rw [D'.brLen]; exact this), List.getElem?_eq_none (by rw [D.brLen]; exact this)]
  | some b =>
    by_cases h4 : BranchInService c b
    · obtain ⟨k, rfl⟩ := D.brOn i b hc h4
      obtain ⟨b1, h1, -, h2, -⟩ := D.branch k
      obtain ⟨b2, h3, -, h5, -⟩ := D'.branch k
      rw [hc] at h1 h3; cases h1; cases h3
      rw [h2, h5, hu]
    · rw [D.brOff i b hc h4, D'.brOff i b hc h4]

theorem gen_map (f : GenD → GenD) (hoff : ∀ g, f (pfOff.gen g) = pfOff.gen g) (hu : ∀ k (g : GenRow GenD), c.gen[gp k]? = some g → u'.gen k g.data = f (u.gen k g.data)) :
    R'.gen = R.gen.map fun g => { g with data := f g.data } := by
  obtain ⟨d, D, -⟩ := B.bridge
  obtain ⟨d', D', -⟩ := B'.bridge
  apply List.ext_getElem?
  intro i
  rw [List.getElem?_map]
  cases hc : c.gen[i]? with
  | none =>
    have : c.gen.length ≤ i := List.getElem?_eq_none_iff.1 hc
    rw [List.getElem?_eq_none (by rw [D'.genLen]; exact this), List.getElem?_eq_none (by rw [D.genLen]; exact this)]
    rfl
  | some b =>
    by_cases h4 : GenInService c b
    · obtain ⟨k, rfl⟩ := D.genOn i b hc h4
      obtain ⟨b1, h1, -, h2, -⟩ := D.gen k
      obtain ⟨b2, h3, -, h5, -⟩ := D'.gen k
      have hc' := hc
      rw [hc] at h1 h3; cases h1; cases h3
      rw [h2, h5, hu k _ hc']
      rfl
    · rw [D.genOff i b hc h4, D'.genOff i b hc h4]
      simp only [Option.map_some, hoff]

end rows

/-! ## The power flow of a float table -/

variable {B L : Type} [Fintype B] [Fintype L] [DecidableEq B] [DecidableEq L] {ng : Nat}

theorem newQGT_float (EPS baseMVA : ℝ) (bus : B → Bus) (gen : Fin ng → GenQ B) (Y : Matrix B B ℂ) (V : B → ℂ) :
    newQGT .float EPS baseMVA bus gen Y V = newQG EPS baseMVA bus gen Y V := rfl

theorem newPGT_float (baseMVA : ℝ) (bus : B → Bus) (gen : Fin ng → GenQ B) (Y : Matrix B B ℂ) (V : B → ℂ) (ref : List B) :
    newPGT .float baseMVA bus gen Y V ref = newPG baseMVA bus gen Y V ref := by
  induction ref with
  | nil => rfl
  | cons r rs ih =>
    funext PG
    unfold newPGT newPG
    rw [ih]
    congr 1
    unfold slackStepT slackStep
    cases refgen gen r with
    | nil => rfl
    | cons g rest => cases rest <;> simp [Elem.put]

theorem runACT_float (EPS viol : ℝ) (qlim : Bool) (solve : Solver B) (c : Case B L ng) :
    runACT .float EPS viol qlim solve c = runAC EPS viol qlim solve c := by
  have : finishT .float EPS viol qlim c = finish EPS viol qlim c := by
    funext r
    unfold finishT finish
    cases r.V with
    | none => rfl
    | some V =>
      dsimp only
      unfold solutionT solution
      rw [newPGT_float, newQGT_float]
  unfold runACT runAC
  rw [this]
  cases initialV c <;> rfl

/-! ## The slack loop on whole numbers -/

section slack
variable (baseMVA : ℝ) (bus : B → Bus) (gen : Fin ng → GenQ B) (Y : Matrix B B ℂ) (V : B → ℂ)

theorem newPGT_isSome (e : Elem) (ref : List B) (PG PG' : Fin ng → ℝ) :
    (newPGT e baseMVA bus gen Y V ref PG).isSome = (newPG baseMVA bus gen Y V ref PG').isSome := by
  induction ref generalizing PG PG' with
  | nil => rfl
  | cons r rs ih =>
    unfold newPGT newPG slackStepT slackStep
    cases refgen gen r with
    | nil => rfl
    | cons g rest => exact ih _ _

theorem newPGT_whole (ref : List B) {PG PG' : Fin ng → ℝ} (hPG : ∀ g, Whole (PG g)) (h : newPGT .int baseMVA bus gen Y V ref PG = some PG') (g : Fin ng) :
    Whole (PG' g) := by
  induction ref generalizing PG with
  | nil => cases h; exact hPG g
  | cons r rs ih =>
    unfold newPGT slackStepT at h
    split at h
    · simp at h
    · rename_i g0 rest _
      refine ih ?_ h
      intro x
      by_cases hx : x = g0
      · subst hx
        rw [Function.update_self]
        split
        · exact trunc_whole _
        · exact trunc_whole _
      · rw [Function.update_of_ne hx]
        exact hPG x

theorem newQGT_whole (EPS : ℝ) (g : Fin ng) : Whole (newQGT .int EPS baseMVA bus gen Y V g) := by
  unfold newQGT
  split
  · dsimp only
    split
    · split
      · exact trunc_whole _
      · exact trunc_whole _
    · exact trunc_whole _
  · exact trunc_whole _

/-- On whole numbers the loop is the loop of a float table for demands such that the requirement of each bus is truncated. -/
theorem newPGT_int (ref : List B) {PG : Fin ng → ℝ} (hPG : ∀ g, Whole (PG g)) : newPGT .int baseMVA bus gen Y V ref PG =
    newPG baseMVA (fun r => { bus r with PD := trunc ((Sinj Y V r).re * baseMVA + (bus r).PD) - (Sinj Y V r).re * baseMVA }) gen Y V ref PG := by
  induction ref generalizing PG with
  | nil => rfl
  | cons r rs ih =>
    unfold newPGT newPG
    have e : slackStepT .int baseMVA bus gen Y V PG r =
        slackStep baseMVA (fun r => { bus r with PD := trunc ((Sinj Y V r).re * baseMVA + (bus r).PD) - (Sinj Y V r).re * baseMVA }) gen Y V PG r := by
      unfold slackStepT slackStep
      cases refgen gen r with
      | nil => rfl
      | cons g rest =>
        dsimp only
        congr 2
        have hw : Whole (trunc ((Sinj Y V r).re * baseMVA + (bus r).PD) - (rest.map PG).sum) := (trunc_whole _).sub (whole_sum _ _ fun i _ => hPG i)
        have e2 : (if rest.isEmpty = true then Elem.int.put ((Sinj Y V r).re * baseMVA + (bus r).PD)
            else Elem.int.put (Elem.int.put ((Sinj Y V r).re * baseMVA + (bus r).PD) - (rest.map PG).sum)) =
            trunc ((Sinj Y V r).re * baseMVA + (bus r).PD) - (rest.map PG).sum := by
          cases rest with
          | nil => simp [Elem.put]
          | cons a l => exact trunc_of_whole hw
        rw [e2]
        ring
    rw [e]
    cases hst : slackStep baseMVA (fun r => { bus r with PD := trunc ((Sinj Y V r).re * baseMVA + (bus r).PD) - (Sinj Y V r).re * baseMVA }) gen Y V PG r with
    | none => rfl
    | some PG1 =>
      refine ih ?_
      intro x
      rw [← e] at hst
      exact newPGT_whole baseMVA bus gen Y V [r] hPG (by unfold newPGT; rw [hst]; rfl) x

/-- The shares of an integer table add up to the requirement of the bus, up to two units for each generator and one for the bus, whatever the float table gives. -/
theorem newQGT_near {EPS : ℝ} (hE : 0 ≤ EPS) (b : B) (hex : ∃ g, (gen g).stat > 0 ∧ (gen g).bus = b)
    (hle : atBus gen (fun h => (gen h).QMIN) b ≤ atBus gen (fun h => (gen h).QMAX) b) :
    |atBus gen (newQGT .int EPS baseMVA bus gen Y V) b - atBus gen (newQG EPS baseMVA bus gen Y V) b| < 2 * atBus gen (fun _ => 1) b + 1 := by
  set S : Finset (Fin ng) := Finset.univ.filter fun g => (gen g).stat > 0 ∧ (gen g).bus = b with hS
  have hmem : ∀ g ∈ S, (gen g).stat > 0 ∧ (gen g).bus = b := fun g hg => (Finset.mem_filter.1 hg).2
  set q := qTotal baseMVA bus Y V b with hq
  set k : ℝ := atBus gen (fun _ => 1) b with hk
  set lo := atBus gen (fun h => (gen h).QMIN) b with hlo
  set hi := atBus gen (fun h => (gen h).QMAX) b with hhi
  have hkS : k = S.card := by
    rw [hk]; unfold atBus; rw [Finset.sum_const]; simp [hS]
  have hk1 : 1 ≤ k := by
    obtain ⟨g, hg⟩ := hex
    rw [hkS]
    exact_mod_cast Finset.card_pos.2 ⟨g, Finset.mem_filter.2 ⟨Finset.mem_univ _, hg⟩⟩
  have t0 := trunc_near q
  by_cases hn : 1 < (onList gen).length
  · have hT : |trunc (trunc q / k) * k - q| < k + 1 := by
      have t1 := trunc_near (trunc q / k)
      have e : trunc (trunc q / k) * k - q = -(trunc q / k - trunc (trunc q / k)) * k - (q - trunc q) := by field_simp; ring
      rw [e]
      refine (abs_sub _ _).trans_lt ?_
      rw [abs_mul, abs_neg, abs_of_nonneg (by linarith : (0:ℝ) ≤ k)]
      nlinarith
    have q1i : atBus gen (fun h => Elem.int.put (Elem.int.put (qTotal baseMVA bus Y V (gen h).bus) / atBus gen (fun _ => 1) (gen h).bus)) b =
        trunc (trunc q / k) * k := by
      unfold atBus
      rw [Finset.sum_congr rfl (g := fun _ => trunc (trunc q / k))]
      · rw [Finset.sum_const, hkS, nsmul_eq_mul, mul_comm]
      · intro g hg
        beta_reduce
        rw [(hmem g hg).2]
        rfl
    have q1f : atBus gen (fun h => qTotal baseMVA bus Y V (gen h).bus / atBus gen (fun _ => 1) (gen h).bus) b = q := by
      unfold atBus
      rw [Finset.sum_congr rfl (g := fun _ => q / k)]
      · rw [Finset.sum_const, ← hS, nsmul_eq_mul, ← hkS]
        field_simp
      · intro g hg
        beta_reduce
        rw [(hmem g hg).2]
        rfl
    by_cases hlh : lo = hi
    · have ei : atBus gen (newQGT .int EPS baseMVA bus gen Y V) b = trunc (trunc q / k) * k := by
        rw [← q1i]
        refine Finset.sum_congr rfl fun g hg => ?_
        obtain ⟨h1, h2⟩ := hmem g hg
        unfold newQGT
        simp only [if_pos h1, if_pos hn]
        rw [if_pos (by rw [h2]; exact hlh)]
      have ef : atBus gen (newQG EPS baseMVA bus gen Y V) b = q := by
        rw [← q1f]
        refine Finset.sum_congr rfl fun g hg => ?_
        obtain ⟨h1, h2⟩ := hmem g hg
        unfold newQG
        simp only [if_pos h1, if_pos hn]
        rw [if_pos (by rw [h2]; exact hlh)]
      rw [ei, ef]
      linarith
    · have hpos : 0 < hi - lo := sub_pos.2 (lt_of_le_of_ne hle hlh)
      have hpos' : 0 < hi - lo + EPS := by linarith
      have ef : atBus gen (newQG EPS baseMVA bus gen Y V) b = lo + (q - lo) / (hi - lo + EPS) * (hi - lo) := by
        have : ∀ g ∈ S, newQG EPS baseMVA bus gen Y V g = (gen g).QMIN + (q - lo) / (hi - lo + EPS) * ((gen g).QMAX - (gen g).QMIN) := by
          intro g hg
          obtain ⟨h1, h2⟩ := hmem g hg
          unfold newQG
          simp only [if_pos h1, if_pos hn]
          rw [if_neg (by rw [h2]; exact hlh), h2, q1f]
        unfold atBus
        rw [← hS, Finset.sum_congr rfl this, Finset.sum_add_distrib, ← Finset.mul_sum, Finset.sum_sub_distrib]
        rfl
      set T := trunc (trunc q / k) * k with hTdef
      have hi' : ∀ g ∈ S, newQGT .int EPS baseMVA bus gen Y V g = trunc ((gen g).QMIN + (T - lo) / (hi - lo + EPS) * ((gen g).QMAX - (gen g).QMIN)) := by
        intro g hg
        obtain ⟨h1, h2⟩ := hmem g hg
        unfold newQGT
        simp only [if_pos h1, if_pos hn]
        rw [if_neg (by rw [h2]; exact hlh), h2, q1i]
        rfl
      have ei : |atBus gen (newQGT .int EPS baseMVA bus gen Y V) b - (lo + (T - lo) / (hi - lo + EPS) * (hi - lo))| ≤ k := by
        have e : lo + (T - lo) / (hi - lo + EPS) * (hi - lo) = ∑ g ∈ S, ((gen g).QMIN + (T - lo) / (hi - lo + EPS) * ((gen g).QMAX - (gen g).QMIN)) := by
          rw [Finset.sum_add_distrib, ← Finset.mul_sum, Finset.sum_sub_distrib]
          rfl
        rw [e]
        unfold atBus
        rw [← hS, ← Finset.sum_sub_distrib, hkS]
        refine (Finset.abs_sum_le_sum_abs _ _).trans ?_
        have : ∀ g ∈ S, |newQGT .int EPS baseMVA bus gen Y V g - ((gen g).QMIN + (T - lo) / (hi - lo + EPS) * ((gen g).QMAX - (gen g).QMIN))| ≤ 1 := by
          intro g hg
          rw [hi' g hg, abs_sub_comm]
          exact (trunc_near _).le
        refine (Finset.sum_le_sum this).trans ?_
        simp
      rw [ef]
      have hd : |(lo + (T - lo) / (hi - lo + EPS) * (hi - lo)) - (lo + (q - lo) / (hi - lo + EPS) * (hi - lo))| < k + 1 := by
        have e : (lo + (T - lo) / (hi - lo + EPS) * (hi - lo)) - (lo + (q - lo) / (hi - lo + EPS) * (hi - lo)) = (T - q) * ((hi - lo) / (hi - lo + EPS)) := by
          field_simp; ring
        rw [e, abs_mul, abs_of_pos (div_pos hpos hpos')]
        refine lt_of_le_of_lt ?_ hT
        refine mul_le_of_le_one_right (abs_nonneg _) ?_
        rw [div_le_one hpos']
        linarith
      rw [abs_le] at ei
      rw [abs_lt] at hd ⊢
      constructor <;> linarith
  · have ei : atBus gen (newQGT .int EPS baseMVA bus gen Y V) b = k * trunc q := by
      unfold atBus
      rw [Finset.sum_congr rfl (g := fun _ => trunc q)]
      · rw [Finset.sum_const, ← hS, nsmul_eq_mul, ← hkS]
      · intro g hg
        obtain ⟨h1, h2⟩ := hmem g hg
        unfold newQGT
        simp only [if_pos h1, if_neg hn]
        rw [h2]
        rfl
    have ef : atBus gen (newQG EPS baseMVA bus gen Y V) b = k * q := by
      unfold atBus
      rw [Finset.sum_congr rfl (g := fun _ => q)]
      · rw [Finset.sum_const, ← hS, nsmul_eq_mul, ← hkS]
      · intro g hg
        obtain ⟨h1, h2⟩ := hmem g hg
        unfold newQG
        simp only [if_pos h1, if_neg hn]
        rw [h2]
    rw [ei, ef, ← mul_sub, abs_mul, abs_of_nonneg (by linarith : (0:ℝ) ≤ k), abs_sub_comm]
    nlinarith [abs_nonneg (q - trunc q)]

end slack

/-- The two AC runs side by side, without enforcement of the reactive limits. -/
theorem runACT_pair (EPS viol : ℝ) (solve : Solver B) (c : Case B L ng) :
    (runACT .int EPS viol false solve c = none ∧ runAC EPS viol false solve c = none) ∨
    (∃ s, runACT .int EPS viol false solve c = some (.nan s) ∧ runAC EPS viol false solve c = some (.nan s)) ∨
    ∃ (V : B → ℂ) (s : Out B L ng) (PG' : Fin ng → ℝ), runAC EPS viol false solve c = some (.ok s) ∧
      runACT .int EPS viol false solve c = some (.ok { s with PG := PG', QG := newQGT .int EPS c.baseMVA c.bus c.gen (Ybus c.baseMVA c.bus c.branch) V }) ∧
      s.QG = newQG EPS c.baseMVA c.bus c.gen (Ybus c.baseMVA c.bus c.branch) V ∧
      newPG c.baseMVA c.bus c.gen (Ybus c.baseMVA c.bus c.branch) V c.ref (fun g => (c.gen g).PG) = some s.PG ∧
      newPGT .int c.baseMVA c.bus c.gen (Ybus c.baseMVA c.bus c.branch) V c.ref (fun g => (c.gen g).PG) = some PG' := by
  unfold runACT runAC
  cases initialV c with
  | none => exact Or.inr (Or.inl ⟨false, rfl, rfl⟩)
  | some V0 =>
    dsimp only
    cases solve (makeSbus c.baseMVA c.bus fun g => (c.gen g).toGen) V0 with
    | none => exact Or.inl ⟨rfl, rfl⟩
    | some q =>
      rw [Option.bind_some, Option.bind_some]
      unfold finishT finish
      cases q.V with
      | none => exact Or.inr (Or.inl ⟨_, rfl, rfl⟩)
      | some V =>
        dsimp only
        have hsome := newPGT_isSome c.baseMVA c.bus c.gen (Ybus c.baseMVA c.bus c.branch) V .int c.ref (fun g => (c.gen g).PG) (fun g => (c.gen g).PG)
        unfold solutionT solution
        cases h1 : newPGT .int c.baseMVA c.bus c.gen (Ybus c.baseMVA c.bus c.branch) V c.ref (fun g => (c.gen g).PG) with
        | none =>
          cases h2 : newPG c.baseMVA c.bus c.gen (Ybus c.baseMVA c.bus c.branch) V c.ref (fun g => (c.gen g).PG) with
          | none => exact Or.inl ⟨rfl, rfl⟩
          | some PG => rw [h1, h2] at hsome; simp at hsome
        | some PG' =>
          cases h2 : newPG c.baseMVA c.bus c.gen (Ybus c.baseMVA c.bus c.branch) V c.ref (fun g => (c.gen g).PG) with
          | none => rw [h1, h2] at hsome; simp at hsome
          | some PG => exact Or.inr (Or.inr ⟨V, _, PG', rfl, rfl, rfl, h2, h1⟩)

end Verif.DType
