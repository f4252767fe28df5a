import Mathlib.Algebra.Order.Ring.Int
import Verif.NumPyLemmas
import Verif.Uopf.Model

/-!
# C51: unit decommitment
-/

namespace Verif.Uopf

open Verif.NumPy

variable {B R : Type} [CommRing R] [LinearOrder R]

/-! ## Specification -/

/-- What is assumed of the optimal power flow: it returns the generator rows in order with status and PMIN as given, and
no PMIN multiplier for rows out of service (the last is what `opf` does by zeroing, C65). -/
structure Keeps (opf : B → List (Row R) → Option (Res B R)) : Prop where
  rows : ∀ b g r, opf b g = some r → r.gen.map (fun x => (x.status, x.pmin)) = g.map (fun x => (x.status, x.pmin))
  mult : ∀ b g r, opf b g = some r → ∀ x ∈ r.gen, x.status ≤ 0 → x.muPmin = 0

/-- Generator `k` is binding at a positive PMIN in the result `r`. -/
def Candidate (r : Res B R) (k : Nat) : Prop := ∃ x, r.gen[k]? = some x ∧ 0 < x.muPmin ∧ 0 < x.pmin

/-- `t` is the OPF result with candidate `k` of `r` shut down. -/
def Trial (opf : B → List (Row R) → Option (Res B R)) (r : Res B R) (k : Nat) (t : Res B R) : Prop :=
  Candidate r k ∧ opf r.bus (switchOff r.gen k) = some t

/-- One stage: `t` comes from `r` by shutting down one candidate, it is successful and strictly cheaper, and no other
candidate is better. -/
def Stage (opf : B → List (Row R) → Option (Res B R)) (r t : Res B R) : Prop :=
  t.success = true ∧ t.f < r.f ∧ (∃ k, Trial opf r k t)
    ∧ ∀ k t', Trial opf r k t' → t'.success = true → t.f ≤ t'.f

/-- `Run r t`: a sequence of stages leads from `r` to `t`. -/
inductive Run (opf : B → List (Row R) → Option (Res B R)) : Res B R → Res B R → Prop where
  | refl (r : Res B R) : Run opf r r
  | step {r s t : Res B R} : Stage opf r s → Run opf s t → Run opf r t

/-- No single shut down improves on `r`. -/
def Final (opf : B → List (Row R) → Option (Res B R)) (r : Res B R) : Prop :=
  ∀ k t, Trial opf r k t → t.success = true → r.f ≤ t.f

/-! ## Lemmas -/

theorem mem_candidates (r : Res B R) (k : Nat) : k ∈ candidates r.gen ↔ Candidate r k := by
  unfold candidates Candidate
  rw [mem_find]
  rw [List.getElem?_map]
  cases r.gen[k]? with
  | none => simp
  | some x => simp

theorem tryAll_spec (opf : B → List (Row R) → Option (Res B R)) (r0 : Res B R) (ks : List Nat) (r1 : Res B R)
    (improved : Bool) (out : Res B R) (flag : Bool) (h : tryAll opf r0 ks r1 improved = some (out, flag)) :
    (∀ k ∈ ks, ∀ t, opf r0.bus (switchOff r0.gen k) = some t → t.success = true → out.f ≤ t.f) ∧ out.f ≤ r1.f
      ∧ ((out = r1 ∧ flag = improved)
        ∨ (flag = true ∧ out.success = true ∧ out.f < r1.f
          ∧ ∃ k ∈ ks, opf r0.bus (switchOff r0.gen k) = some out)) := by
  induction ks generalizing r1 improved with
  | nil =>
    simp only [tryAll, Option.some.injEq, Prod.mk.injEq] at h
    obtain ⟨rfl, rfl⟩ := h
    exact ⟨by simp, le_refl _, Or.inl ⟨rfl, rfl⟩⟩
  | cons k ks ih =>
    unfold tryAll at h
    cases ho : opf r0.bus (switchOff r0.gen k) with
    | none => simp [ho] at h
    | some r =>
      simp only [ho] at h
      by_cases hb : r.success = true ∧ r.f < r1.f
      · rw [if_pos (by simp [hb.1, hb.2])] at h
        obtain ⟨h1, h2, h3⟩ := ih r true h
        refine ⟨?_, le_trans h2 hb.2.le, ?_⟩
        · intro j hj t ht hs
          rcases List.mem_cons.1 hj with rfl | hj
          · have : r = t := Option.some.inj (ho.symm.trans ht)
            rw [← this]; exact h2
          · exact h1 j hj t ht hs
        · right
          rcases h3 with ⟨rfl, rfl⟩ | ⟨h4, h5, h6, j, hj, h7⟩
          · exact ⟨rfl, hb.1, hb.2, k, by simp, ho⟩
          · exact ⟨h4, h5, lt_trans h6 hb.2, j, by simp [hj], h7⟩
      · rw [if_neg (by simpa using hb)] at h
        obtain ⟨h1, h2, h3⟩ := ih r1 improved h
        refine ⟨?_, h2, ?_⟩
        · intro j hj t ht hs
          rcases List.mem_cons.1 hj with rfl | hj
          · have : r = t := Option.some.inj (ho.symm.trans ht)
            subst this
            have : ¬ r.f < r1.f := fun hlt => hb ⟨hs, hlt⟩
            exact le_trans h2 (not_lt.1 this)
          · exact h1 j hj t ht hs
        · rcases h3 with h3 | ⟨h4, h5, h6, j, hj, h7⟩
          · exact Or.inl h3
          · exact Or.inr ⟨h4, h5, h6, j, by simp [hj], h7⟩

theorem stages_spec (opf : B → List (Row R) → Option (Res B R)) (n : Nat) (r t : Res B R)
    (h : stages opf n r = .done t) : Run opf r t ∧ Final opf t := by
  induction n generalizing r with
  | zero => simp [stages] at h
  | succ n ih =>
    unfold stages at h
    cases hc : candidates r.gen with
    | nil =>
      simp only [hc, Outcome.done.injEq] at h
      subst h
      refine ⟨.refl _, ?_⟩
      intro k t' ht
      have := (mem_candidates r k).2 ht.1
      rw [hc] at this; simp at this
    | cons k ks =>
      simp only [hc] at h
      cases ht : tryAll opf r (k :: ks) r false with
      | none => simp [ht] at h
      | some p =>
        obtain ⟨out, flag⟩ := p
        obtain ⟨h1, h2, h3⟩ := tryAll_spec opf r (k :: ks) r false out flag ht
        have hmem : ∀ j, j ∈ (k :: ks) ↔ Candidate r j := fun j => by rw [← hc]; exact mem_candidates r j
        cases flag with
        | false =>
          simp only [ht, Outcome.done.injEq] at h
          subst h
          refine ⟨.refl _, ?_⟩
          intro j t' htr hs
          rcases h3 with ⟨rfl, -⟩ | ⟨h4, -⟩
          · exact h1 j ((hmem j).2 htr.1) t' htr.2 hs
          · simp at h4
        | true =>
          simp only [ht] at h
          obtain ⟨hrun, hfin⟩ := ih out h
          refine ⟨.step ?_ hrun, hfin⟩
          rcases h3 with ⟨-, h4⟩ | ⟨-, h5, h6, j, hj, h7⟩
          · simp at h4
          · exact ⟨h5, h6, ⟨j, (hmem j).1 hj, h7⟩, fun i t' htr hs => h1 i ((hmem i).2 htr.1) t' htr.2 hs⟩

/-- Number of generators in service. -/
def onCount (g : List (Row R)) : Nat := (g.filter fun x => decide (0 < x.status)).length

theorem onCount_map (g g' : List (Row R))
    (h : g.map (fun x => (x.status, x.pmin)) = g'.map (fun x => (x.status, x.pmin))) : onCount g = onCount g' := by
  have key : ∀ g : List (Row R), onCount g
      = ((g.map fun x => (x.status, x.pmin)).filter fun p => decide (0 < p.1)).length := by
    intro g
    unfold onCount
    rw [List.filter_map, List.length_map]; rfl
  rw [key, key, h]

theorem onCount_switchOff (g : List (Row R)) (k : Nat) (x : Row R) (h : g[k]? = some x) (hx : 0 < x.status) :
    onCount (switchOff g k) + 1 = onCount g := by
  induction g generalizing k with
  | nil => simp at h
  | cons y ys ih =>
    cases k with
    | zero =>
      simp only [List.getElem?_cons_zero, Option.some.injEq] at h
      subst h
      simp [switchOff, onCount, hx]
    | succ k =>
      simp only [List.getElem?_cons_succ] at h
      have := ih k h
      unfold onCount switchOff at this ⊢
      rw [List.modify_succ_cons, List.filter_cons, List.filter_cons]
      split
      · simp only [List.length_cons]; omega
      · exact this

theorem stage_onCount (opf : B → List (Row R) → Option (Res B R)) (hk : Keeps opf) (r t : Res B R)
    (hr : ∀ x ∈ r.gen, x.status ≤ 0 → x.muPmin = 0) (h : ∃ k, Trial opf r k t) :
    onCount t.gen + 1 = onCount r.gen := by
  obtain ⟨k, ⟨x, hx, hmu, -⟩, ho⟩ := h
  have hst : 0 < x.status := by
    by_contra hle
    have := hr x (List.mem_of_getElem? hx) (not_lt.1 hle)
    rw [this] at hmu; exact lt_irrefl _ hmu
  rw [onCount_map _ _ (hk.rows _ _ _ ho)]
  exact onCount_switchOff _ _ _ hx hst

theorem stages_terminate (opf : B → List (Row R) → Option (Res B R)) (hk : Keeps opf) (n : Nat) (r : Res B R)
    (hr : ∀ x ∈ r.gen, x.status ≤ 0 → x.muPmin = 0) (hn : onCount r.gen < n) : stages opf n r ≠ .running := by
  induction n generalizing r with
  | zero => omega
  | succ n ih =>
    unfold stages
    cases hc : candidates r.gen with
    | nil => simp
    | cons k ks =>
      simp only
      cases ht : tryAll opf r (k :: ks) r false with
      | none => simp
      | some p =>
        obtain ⟨out, flag⟩ := p
        cases flag with
        | false => simp
        | true =>
          simp only
          obtain ⟨-, -, h3⟩ := tryAll_spec opf r (k :: ks) r false out true ht
          rcases h3 with ⟨-, h4⟩ | ⟨-, -, -, j, hj, h7⟩
          · simp at h4
          · have htr : Trial opf r j out := ⟨(mem_candidates r j).1 (by rw [hc]; exact hj), h7⟩
            have := stage_onCount opf hk r out hr ⟨j, htr⟩
            exact ih out (hk.mult _ _ _ h7) (by omega)

/-- With feasible PMIN limits nothing is decommitted up front. -/
theorem precommit_ok (pd : List R) (cost : List (Row R) → List R) (n : Nat) (gen : List (Row R))
    (h : sumPmin gen ≤ loadCapacity pd gen) : precommit pd cost n gen = some gen := by
  cases n with
  | zero => rfl
  | succ n => simp [precommit, not_lt.2 h]

/-! ## C51 -/

/-- **C51, outcome (partial).** Whatever the OPF does, if `uopf` returns a result, it was reached from the OPF result of
the given case by successive shut downs of single units at a binding positive PMIN, each strictly cheaper than the one
before and the cheapest successful one of its stage, and no further single shut down helps.
Missing with respect to C51: cases whose PMIN limits exceed the load capacity, see `C51_negation`. -/
theorem C51_partial (opf : B → List (Row R) → Option (Res B R)) (pd : B → List R) (cost : List (Row R) → List R)
    (n : Nat) (bus : B) (gen : List (Row R)) (t : Res B R) (h : uopf opf pd cost n bus gen = .done t) :
    ∃ r, opf bus gen = some r ∧ Run opf r t ∧ Final opf t := by
  unfold uopf at h
  cases hp : precommit (pd bus) cost (gen.length + 1) gen with
  | none => simp [hp] at h
  | some gen' =>
    have hg : gen' = gen := by
      simp only [precommit, fairmax] at hp
      split at hp
      · simp at hp
      · simpa using hp.symm
    subst hg
    simp only [hp] at h
    cases ho : opf bus gen' with
    | none => simp [ho] at h
    | some r =>
      simp only [ho] at h
      exact ⟨r, rfl, stages_spec opf n r t h⟩

/-- A run never increases the objective, and after at least one stage the result is a successful one. -/
theorem C51_objective (opf : B → List (Row R) → Option (Res B R)) (r t : Res B R) (h : Run opf r t) :
    t.f ≤ r.f ∧ (t = r ∨ t.f < r.f ∧ t.success = true) := by
  induction h with
  | refl r => exact ⟨le_refl _, Or.inl rfl⟩
  | step h1 _ ih =>
    obtain ⟨h2, h3⟩ := ih
    refine ⟨le_trans h2 h1.2.1.le, Or.inr ?_⟩
    rcases h3 with rfl | ⟨h3, h4⟩
    · exact ⟨h1.2.1, h1.1⟩
    · exact ⟨lt_trans h3 h1.2.1, h4⟩

/-- A run only switches units off: the rows keep their PMIN, and a status is either kept or set to zero, the latter only
for a unit with positive PMIN. -/
theorem C51_only_off (opf : B → List (Row R) → Option (Res B R)) (hk : Keeps opf) (r t : Res B R) (h : Run opf r t) :
    t.gen.length = r.gen.length ∧ ∀ (k : Nat) (x y : Row R), r.gen[k]? = some x → t.gen[k]? = some y →
      y.pmin = x.pmin ∧ (y.status = x.status ∨ y.status = 0 ∧ 0 < x.pmin) := by
  induction h with
  | refl r =>
    refine ⟨rfl, ?_⟩
    intro k x y hx hy
    have : x = y := Option.some.inj (hx.symm.trans hy)
    subst this; exact ⟨rfl, Or.inl rfl⟩
  | @step r s t h1 _ ih =>
    obtain ⟨hl, ih⟩ := ih
    obtain ⟨-, -, ⟨j, ⟨z, hz, -, hzp⟩, ho⟩, -⟩ := h1
    have hrows := hk.rows _ _ _ ho
    have hlen : s.gen.length = r.gen.length := by
      have := congrArg List.length hrows
      simpa [switchOff] using this
    refine ⟨hl.trans hlen, ?_⟩
    intro k x y hx hy
    have hkl : k < s.gen.length := by rw [hlen]; exact (List.getElem?_eq_some_iff.1 hx).1
    have hw : s.gen[k]? = some s.gen[k] := List.getElem?_eq_getElem hkl
    obtain ⟨hyp, hys⟩ := ih k s.gen[k] y hw hy
    have hmap := congrArg (fun l => l[k]?) hrows
    simp only [List.getElem?_map, hw, Option.map_some, switchOff, List.getElem?_modify, hx] at hmap
    have hs : s.gen[k].pmin = x.pmin ∧ (s.gen[k].status = x.status ∨ s.gen[k].status = 0 ∧ 0 < x.pmin) := by
      by_cases hjk : j = k
      · subst hjk
        have hxz : x = z := Option.some.inj (hx.symm.trans hz)
        subst hxz
        simp only [if_true, Option.map_eq_map, Option.map_some, Option.some.injEq, Prod.mk.injEq] at hmap
        exact ⟨hmap.2, Or.inr ⟨hmap.1, hzp⟩⟩
      · simp only [hjk, if_false, Option.map_eq_map, Option.map_some, Option.some.injEq, Prod.mk.injEq] at hmap
        exact ⟨hmap.2, Or.inl hmap.1⟩
    refine ⟨hyp.trans hs.1, ?_⟩
    rcases hys with h5 | ⟨h5, h6⟩
    · rcases hs.2 with h7 | h7
      · exact Or.inl (h5.trans h7)
      · exact Or.inr ⟨h5.trans h7.1, h7.2⟩
    · exact Or.inr ⟨h5, by rw [← hs.1]; exact h6⟩

/-- **C51, termination.** If the OPF keeps statuses and reports no PMIN multiplier for units out of service, the search ends
after at most one more stage than there are units in service. -/
theorem C51_terminates (opf : B → List (Row R) → Option (Res B R)) (hk : Keeps opf) (pd : B → List R)
    (cost : List (Row R) → List R) (bus : B) (gen : List (Row R)) (n : Nat) (hn : gen.length < n) :
    uopf opf pd cost n bus gen ≠ .running := by
  unfold uopf
  cases hp : precommit (pd bus) cost (gen.length + 1) gen with
  | none => simp
  | some gen' =>
    have hg : gen' = gen := by
      simp only [precommit, fairmax] at hp
      split at hp
      · simp at hp
      · simpa using hp.symm
    subst hg
    simp only
    cases ho : opf bus gen' with
    | none => simp
    | some r =>
      simp only
      refine stages_terminate opf hk n r (hk.mult _ _ _ ho) ?_
      rw [onCount_map _ _ (hk.rows _ _ _ ho)]
      exact lt_of_le_of_lt (List.length_filter_le _ _) hn

/-- **C51, an answer is returned** when the PMIN limits are feasible and the OPF does not raise. -/
theorem C51_returns (opf : B → List (Row R) → Option (Res B R)) (hk : Keeps opf) (htot : ∀ b g, (opf b g).isSome = true)
    (pd : B → List R) (cost : List (Row R) → List R) (bus : B) (gen : List (Row R)) (n : Nat) (hn : gen.length < n)
    (hfeas : sumPmin gen ≤ loadCapacity (pd bus) gen) : ∃ t, uopf opf pd cost n bus gen = .done t := by
  have hnr := C51_terminates opf hk pd cost bus gen n hn
  have htry : ∀ (r0 : Res B R) (ks : List Nat) (r1 : Res B R) (b : Bool), (tryAll opf r0 ks r1 b).isSome = true := by
    intro r0 ks
    induction ks with
    | nil => intro r1 b; rfl
    | cons k ks ih =>
      intro r1 b
      unfold tryAll
      obtain ⟨r, hr⟩ := Option.isSome_iff_exists.1 (htot r0.bus (switchOff r0.gen k))
      simp only [hr]
      split
      · exact ih _ _
      · exact ih _ _
  have hraise : ∀ (m : Nat) (r : Res B R), stages opf m r ≠ .raised := by
    intro m
    induction m with
    | zero => intro r; simp [stages]
    | succ m ih =>
      intro r
      unfold stages
      cases hc : candidates r.gen with
      | nil => simp
      | cons k ks =>
        simp only
        obtain ⟨⟨o, fl⟩, ho⟩ := Option.isSome_iff_exists.1 (htry r (k :: ks) r false)
        rw [ho]
        cases fl with
        | false => simp
        | true => exact ih o
  unfold uopf at hnr ⊢
  rw [precommit_ok _ _ _ _ hfeas] at hnr ⊢
  obtain ⟨r, hr⟩ := Option.isSome_iff_exists.1 (htot bus gen)
  simp only [hr] at hnr ⊢
  cases hst : stages opf n r with
  | done t => exact ⟨t, rfl⟩
  | raised => exact absurd hst (hraise n r)
  | running => exact absurd hst hnr

/-- **C51, negation of the up-front decommitment.** If the PMIN limits of the units in service exceed the load capacity,
`uopf` raises instead of shutting units down, whatever the OPF and the costs. -/
theorem C51_negation (opf : B → List (Row R) → Option (Res B R)) (pd : B → List R) (cost : List (Row R) → List R)
    (n : Nat) (bus : B) (gen : List (Row R)) (h : loadCapacity (pd bus) gen < sumPmin gen) :
    uopf opf pd cost n bus gen = .raised := by
  simp [uopf, precommit, fairmax, h]

/-! ## Non-vacuity -/

/-- A toy OPF on integers: cost 10 per unit in service, a unit with PMIN 1 is binding. -/
def toyOpf (b : Unit) (g : List (Row Int)) : Option (Res Unit Int) :=
  some ⟨b, g.map fun x => { x with muPmin := if 0 < x.status then 1 else 0 }, true,
    10 * ((g.map Row.status).sum)⟩

theorem toyOpf_keeps : Keeps toyOpf := by
  refine ⟨?_, ?_⟩
  · intro b g r h
    have h' : r = _ := (Option.some.inj h).symm
    rw [h']; simp
  · intro b g r h x hx hs
    have h' : r = _ := (Option.some.inj h).symm
    rw [h'] at hx
    simp only [List.mem_map] at hx
    obtain ⟨y, -, rfl⟩ := hx
    simp only at hs
    simp [not_lt.2 hs]

example : uopf toyOpf (fun _ => [5]) (fun _ => []) 3 () [⟨1, 1, 3, 0, 0, 0⟩, ⟨1, 0, 3, 0, 0, 0⟩]
    = .done ⟨(), [⟨0, 1, 3, 0, 0, 0⟩, ⟨1, 0, 3, 0, 0, 1⟩], true, 10⟩ := by rfl

example : uopf toyOpf (fun _ => [1]) (fun _ => []) 3 () [⟨1, 2, 3, 0, 0, 0⟩] = .raised :=
  C51_negation _ _ _ _ _ _ (by decide)

end Verif.Uopf
