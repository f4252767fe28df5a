import Verif.NumPyLemmas
import Verif.Opf.RunProps
import Verif.UnitOpf.Spec

/-!
# Lemmas on unit decommitment
-/

namespace Verif.UnitOpf

open Verif.Index (BusRow GenRow BranchRow IsArgsort WF GenInService BranchInService Connected HasBus)
open Verif.Opf Verif.Pips

theorem mem_candidates (r : Ret) (k : ℕ) : k ∈ candidates r.tables ↔ Binding r k := by
  unfold candidates Binding
  rw [NumPy.mem_find, List.getElem?_map]
  cases r.tables.gen[k]? with
  | none => simp
  | some x => simp

section search
variable (opf : Index.Case Tables → Option Ret) (c : Index.Case Tables)

theorem tryAll_spec (r0 : Ret) (ks : List ℕ) (r1 : Ret) (improved : Bool) (out : Ret) (flag : Bool) (h : tryAll opf c r0 ks r1 improved = some (out, flag)) :
    (∀ k ∈ ks, ∀ t, opf (withOff c r0 k) = some t → t.success = true → out.f ≤ t.f) ∧ out.f ≤ r1.f ∧
      ((out = r1 ∧ flag = improved) ∨ (flag = true ∧ out.success = true ∧ out.f < r1.f ∧ ∃ k ∈ ks, opf (withOff c r0 k) = some out)) := by
  induction ks generalizing r1 improved with
  | nil =>
    simp only [tryAll, Option.some.injEq, Prod.mk.injEq] at h
    obtain ⟨rfl, rfl⟩ := h
    exact ⟨by simp, le_refl _, Or.inl ⟨rfl, rfl⟩⟩
  | cons k ks ih =>
    unfold tryAll at h
    cases ho : opf (withOff c r0 k) with
    | none => simp [ho] at h
    | some r =>
      simp only [ho] at h
      by_cases hb : r.success = true ∧ r.f < r1.f
      · rw [if_pos hb] at h
        obtain ⟨h1, h2, h3⟩ := ih r true h
        refine ⟨?_, le_trans h2 hb.2.le, ?_⟩
        · intro j hj t ht hs
          rcases List.mem_cons.1 hj with rfl | hj
          · have : r = t := Option.some.inj (ho.symm.trans ht)
            rw [← this]; exact h2
          · exact h1 j hj t ht hs
        · right
          rcases h3 with ⟨rfl, rfl⟩ | ⟨h4, h5, h6, j, hj, h7⟩
          · exact ⟨rfl, hb.1, hb.2, k, by simp, ho⟩
          · exact ⟨h4, h5, lt_trans h6 hb.2, j, by simp [hj], h7⟩
      · rw [if_neg hb] at h
        obtain ⟨h1, h2, h3⟩ := ih r1 improved h
        refine ⟨?_, h2, ?_⟩
        · intro j hj t ht hs
          rcases List.mem_cons.1 hj with rfl | hj
          · have : r = t := Option.some.inj (ho.symm.trans ht)
            subst this
            have : ¬ r.f < r1.f := fun hlt => hb ⟨hs, hlt⟩
            exact le_trans h2 (not_lt.1 this)
          · exact h1 j hj t ht hs
        · rcases h3 with h3 | ⟨h4, h5, h6, j, hj, h7⟩
          · exact Or.inl h3
          · exact Or.inr ⟨h4, h5, h6, j, by simp [hj], h7⟩

theorem stages_spec (n : ℕ) (off : Finset ℕ) (r t : Ret) (hr : Best opf c off r) (h : stages opf c n r = .done t) :
    ∃ off', off ⊆ off' ∧ Best opf c off' t ∧ ∀ k t', Trial opf c t k t' → t'.success = true → t.f ≤ t'.f := by
  induction n generalizing r off with
  | zero => simp [stages] at h
  | succ n ih =>
    unfold stages at h
    cases hc : candidates r.tables with
    | nil =>
      simp only [hc, Outcome.done.injEq] at h
      subst h
      refine ⟨off, subset_rfl, hr, ?_⟩
      intro k t' ht
      have := (mem_candidates r k).2 ht.1
      rw [hc] at this; simp at this
    | cons k ks =>
      simp only [hc] at h
      cases ht : tryAll opf c r (k :: ks) r false with
      | none => simp [ht] at h
      | some p =>
        obtain ⟨out, flag⟩ := p
        obtain ⟨h1, h2, h3⟩ := tryAll_spec opf c r (k :: ks) r false out flag ht
        have hmem : ∀ j, j ∈ (k :: ks) ↔ Binding r j := fun j => by rw [← hc]; exact mem_candidates r j
        cases flag with
        | false =>
          simp only [ht, Outcome.done.injEq] at h
          subst h
          refine ⟨off, subset_rfl, hr, ?_⟩
          intro j t' htr hs
          rcases h3 with ⟨rfl, -⟩ | ⟨h4, -⟩
          · exact h1 j ((hmem j).2 htr.1) t' htr.2 hs
          · simp at h4
        | true =>
          simp only [ht] at h
          rcases h3 with ⟨-, h4⟩ | ⟨-, h5, h6, j, hj, h7⟩
          · simp at h4
          · obtain ⟨off', h8, h9⟩ := ih (insert j off) out
              (.shut hr ⟨(hmem j).1 hj, h7⟩ h5 h6 fun i t' htr hs => h1 i ((hmem i).2 htr.1) t' htr.2 hs) h
            exact ⟨off', (Finset.subset_insert _ _).trans h8, h9⟩

end search

/-! ### What the search does to the tables -/

section tables
variable {c : Index.Case Tables} {off : Finset ℕ} {bus : List (BusRow BusD)} {gen : List (GenRow GenD)}

theorem map_row {α β : Type} {f : α → β} {l l' : List α} (h : l.map f = l'.map f) {i : ℕ} {a : α} (ha : l'[i]? = some a) : ∃ b, l[i]? = some b ∧ f b = f a := by
  have := congrArg (fun x => x[i]?) h
  simp only [List.getElem?_map, ha, Option.map_some] at this
  obtain ⟨b, hb, e⟩ := Option.map_eq_some_iff.1 this
  exact ⟨b, hb, e⟩

theorem busInput_num {a b : BusRow BusD} (h : busInput a = busInput b) : a.num = b.num ∧ a.typ = b.typ ∧ a.data.PD = b.data.PD ∧ a.data.GS = b.data.GS ∧
    a.data.VMIN = b.data.VMIN ∧ a.data.VMAX = b.data.VMAX := by
  have e1 := congrArg BusRow.num h
  have e2 := congrArg BusRow.typ h
  have e3 := congrArg (fun x : BusRow BusD => x.data.PD) h
  have e4 := congrArg (fun x : BusRow BusD => x.data.GS) h
  have e5 := congrArg (fun x : BusRow BusD => x.data.VMIN) h
  have e6 := congrArg (fun x : BusRow BusD => x.data.VMAX) h
  exact ⟨e1, e2, e3, e4, e5, e6⟩

theorem genInput_cols {a b : GenRow GenD} (h : genInput a = genInput b) : a.bus = b.bus ∧ a.status = b.status ∧ a.data.PMIN = b.data.PMIN ∧ a.data.PMAX = b.data.PMAX ∧
    a.data.QMIN = b.data.QMIN ∧ a.data.QMAX = b.data.QMAX := by
  have e1 := congrArg GenRow.bus h
  have e2 := congrArg GenRow.status h
  have e3 := congrArg (fun x : GenRow GenD => x.data.PMIN) h
  have e4 := congrArg (fun x : GenRow GenD => x.data.PMAX) h
  have e5 := congrArg (fun x : GenRow GenD => x.data.QMIN) h
  have e6 := congrArg (fun x : GenRow GenD => x.data.QMAX) h
  exact ⟨e1, e2, e3, e4, e5, e6⟩

theorem busInput_mem {b : BusRow BusD} (hB : bus.map busInput = c.bus.map busInput) (hb : b ∈ bus) : ∃ b0 ∈ c.bus, busInput b = busInput b0 := by
  obtain ⟨i, hi⟩ := List.getElem?_of_mem hb
  obtain ⟨b0, h0, e⟩ := map_row hB.symm hi
  exact ⟨b0, List.mem_of_getElem? h0, e.symm⟩

theorem connected_iff (k : Index.Case Tables) (hB : k.bus.map busInput = c.bus.map busInput) (n : ℕ) : Connected k n ↔ Connected c n := by
  constructor
  · rintro ⟨b, hb, h1, h2⟩
    obtain ⟨b0, h0, e⟩ := busInput_mem hB hb
    have := busInput_num e
    exact ⟨b0, h0, by rw [← this.1, h1], by rw [← this.2.1]; exact h2⟩
  · rintro ⟨b, hb, h1, h2⟩
    obtain ⟨b0, h0, e⟩ := busInput_mem (c := k) hB.symm hb
    have := busInput_num e
    exact ⟨b0, h0, by rw [← this.1, h1], by rw [← this.2.1]; exact h2⟩

theorem hasBus_of (k : Index.Case Tables) (hB : k.bus.map busInput = c.bus.map busInput) {n : ℕ} (h : HasBus c n) : HasBus k n := by
  obtain ⟨b, hb, h1⟩ := h
  obtain ⟨b0, h0, e⟩ := busInput_mem (c := k) hB.symm hb
  exact ⟨b0, h0, by rw [← (busInput_num e).1, h1]⟩

/-- A row of the decommitted table and the caller's. -/
theorem Committed.row (h : Committed c off bus gen) {i : ℕ} {g' : GenRow GenD} (hg : gen[i]? = some g') :
    ∃ g, c.gen[i]? = some g ∧ genInput g' = genInput (if i ∈ off then { g with status := 0 } else g) := by
  have hi := (List.getElem?_eq_some_iff.1 hg).1
  rw [h.len] at hi
  obtain ⟨g'', h1, h2⟩ := h.gen i c.gen[i] (List.getElem?_eq_getElem hi)
  rw [hg] at h1; cases h1
  exact ⟨_, List.getElem?_eq_getElem hi, h2⟩

theorem Committed.wf (hw : WF c) (h : Committed c off bus gen) : WF { c with bus := bus, gen := gen } := by
  have hB : ({ c with bus := bus, gen := gen } : Index.Case Tables).bus.map busInput = c.bus.map busInput := h.bus
  have hl : bus.length = c.bus.length := by simpa using congrArg List.length h.bus
  have hmin : Index.minCols ({ c with bus := bus, gen := gen } : Index.Case Tables) = Index.minCols c := by
    have hdc : Index.isDC ({ c with bus := bus, gen := gen } : Index.Case Tables) = Index.isDC c := by
      unfold Index.isDC
      cases hA : c.A <;> cases hN : c.N <;> simp [hl, h.len]
    simp only [Index.minCols, hdc, hl, h.len]
  refine ⟨?_, ?_, ?_, ?_, fun l hm => hasBus_of _ hB (hw.fRef l hm), fun l hm => hasBus_of _ hB (hw.tRef l hm),
    fun as ha a hm => hasBus_of _ hB (hw.areaRef as ha a hm), fun gc hgc => ?_, fun m hm => ?_, fun m hm => ?_, hw.notInternal⟩
  · have e : bus.map (·.num) = c.bus.map (·.num) := by
      have := congrArg (fun l => l.map BusRow.num) h.bus
      simpa [List.map_map, Function.comp_def, busInput] using this
    show (bus.map (·.num)).Nodup
    rw [e]; exact hw.busNodup
  · intro b hb
    obtain ⟨b0, h0, e⟩ := busInput_mem h.bus hb
    rw [(busInput_num e).2.1]; exact hw.typValid b0 h0
  · obtain ⟨b, hb, ht⟩ := hw.someOn
    obtain ⟨b0, h0, e⟩ := busInput_mem (c := { c with bus := bus, gen := gen }) hB.symm hb
    exact ⟨b0, h0, by rw [← (busInput_num e).2.1]; exact ht⟩
  · intro g' hg
    obtain ⟨i, hi⟩ := List.getElem?_of_mem hg
    obtain ⟨g, h0, e⟩ := h.row hi
    have e1 := (genInput_cols e).1
    have : g'.bus = g.bus := by rw [e1]; split_ifs <;> rfl
    rw [this]
    exact hasBus_of _ hB (hw.genRef g (List.mem_of_getElem? h0))
  · show gen.length ≤ _
    rw [h.len]; exact hw.costRows gc hgc
  · rw [hmin]; exact hw.aCols m hm
  · rw [hmin]; exact hw.nCols m hm

theorem Committed.start (c : Index.Case Tables) (hB : bus.map busInput = c.bus.map busInput) (hG : gen.map genInput = c.gen.map genInput) : Committed c ∅ bus gen where
  bus := hB
  len := by simpa using congrArg List.length hG
  gen := fun i g hg => by
    obtain ⟨g', h1, h2⟩ := map_row hG hg
    exact ⟨g', h1, by simpa using h2⟩
  was := by simp

/-- Same inputs, same commitment. -/
theorem Committed.congr (h : Committed c off bus gen) {bus' : List (BusRow BusD)} {gen' : List (GenRow GenD)} (hB : bus'.map busInput = bus.map busInput)
    (hG : gen'.map genInput = gen.map genInput) : Committed c off bus' gen' where
  bus := hB.trans h.bus
  len := (by simpa using congrArg List.length hG : gen'.length = gen.length).trans h.len
  gen := fun i g hg => by
    obtain ⟨g1, h1, h2⟩ := h.gen i g hg
    obtain ⟨g2, h3, h4⟩ := map_row hG h1
    exact ⟨g2, h3, h4.trans h2⟩
  was := h.was

theorem genInput_shut (g : GenRow GenD) : genInput (shutRow g) = genInput { g with status := 0 } := rfl

theorem Committed.shut (h : Committed c off bus gen) {k : ℕ} {g0 : GenRow GenD} (hk : c.gen[k]? = some g0) (hon : GenInService c g0) (hp : 0 < g0.data.PMIN) :
    Committed c (insert k off) bus (gen.modify k shutRow) where
  bus := h.bus
  len := by rw [List.length_modify]; exact h.len
  gen := fun i g hg => by
    obtain ⟨g', h1, h2⟩ := h.gen i g hg
    by_cases e : k = i
    · subst e
      refine ⟨shutRow g', by simp [h1], ?_⟩
      rw [if_pos (Finset.mem_insert_self _ _), genInput_shut]
      have : genInput { g' with status := 0 } = { genInput g' with status := 0 } := rfl
      rw [this, h2]
      split_ifs <;> rfl
    · refine ⟨g', by simp [e, h1], ?_⟩
      rw [h2]
      simp [Finset.mem_insert, show i ≠ k from fun h => e h.symm]
  was := fun i hi => by
    rcases Finset.mem_insert.1 hi with rfl | hi
    · exact ⟨g0, hk, hon, hp⟩
    · exact h.was i hi

end tables

section best
variable {opf : Index.Case Tables → Option Ret} (hk : Keeps opf) {c : Index.Case Tables} (hw : WF c)
include hk hw

omit hw in
/-- A binding unit is in service and has a positive lower limit in the caller's tables, and was not shut down before. -/
theorem binding_on {off : Finset ℕ} {k : Index.Case Tables} (hkw : WF k) (hkc : Committed c off k.bus k.gen) {r : Ret} (hr : opf k = some r) {j : ℕ} (hj : Binding r j) :
    j ∉ off ∧ ∃ g, c.gen[j]? = some g ∧ GenInService c g ∧ 0 < g.data.PMIN := by
  obtain ⟨g, hg, hmu, hp⟩ := hj
  have hB := hk.bus k r hkw hr
  have hrc := hkc.congr hB (hk.gen k r hkw hr)
  have hon : GenInService r.tables g := by
    by_contra hn
    rw [hk.mult k r hkw hr g (List.mem_of_getElem? hg) hn] at hmu
    exact lt_irrefl _ hmu
  obtain ⟨g0, h0, e⟩ := hrc.row hg
  obtain ⟨e1, e2, e3, -⟩ := genInput_cols e
  have hoff : j ∉ off := by
    intro hj
    rw [if_pos hj] at e2
    have := hon.1
    rw [e2] at this
    exact lt_irrefl _ this
  rw [if_neg hoff] at e1 e2 e3
  exact ⟨hoff, g0, h0, ⟨e2 ▸ hon.1, (connected_iff _ (hB.trans hkc.bus) _).1 (e1 ▸ hon.2)⟩, e3 ▸ hp⟩

theorem best_case {off : Finset ℕ} {r : Ret} (h : Best opf c off r) :
    ∃ bus gen, opf { c with bus := bus, gen := gen } = some r ∧ Committed c off bus gen ∧ Committed c off r.tables.bus r.tables.gen ∧
      (bus = c.bus ∨ ∃ off' r', Best opf c off' r' ∧ bus = r'.tables.bus) := by
  induction h with
  | @start r h =>
    exact ⟨c.bus, c.gen, h, .start c rfl rfl, .start c (hk.bus c r hw h) (hk.gen c r hw h), Or.inl rfl⟩
  | @shut off r t k hb htr _ _ _ ih =>
    obtain ⟨bus, gen, h1, h2, h3, -⟩ := ih
    obtain ⟨-, g0, h4, h5, h6⟩ := binding_on hk (h2.wf hw) h2 h1 htr.1
    have h7 := h3.shut h4 h5 h6
    have h8 : WF (withOff c r k) := h7.wf hw
    exact ⟨_, _, htr.2, h7, h7.congr (hk.bus (withOff c r k) t h8 htr.2) (hk.gen (withOff c r k) t h8 htr.2), Or.inr ⟨off, r, hb, rfl⟩⟩

/-- Shutting down a binding unit of a best result gives a well-formed case. -/
theorem best_trial {off : Finset ℕ} {r : Ret} (h : Best opf c off r) {k : ℕ} (hb : Binding r k) :
    k ∉ off ∧ Committed c (insert k off) (withOff c r k).bus (withOff c r k).gen ∧ WF (withOff c r k) := by
  obtain ⟨bus, gen, h1, h2, h3, -⟩ := best_case hk hw h
  obtain ⟨h0, g0, h4, h5, h6⟩ := binding_on hk (h2.wf hw) h2 h1 hb
  have h7 := h3.shut h4 h5 h6
  exact ⟨h0, h7, h7.wf hw⟩

theorem best_card {off : Finset ℕ} {r : Ret} (h : Best opf c off r) : off ⊆ Finset.range c.gen.length := by
  obtain ⟨bus, gen, -, h2, -⟩ := best_case hk hw h
  intro i hi
  obtain ⟨g, hg, -⟩ := h2.was i hi
  exact Finset.mem_range.2 (List.getElem?_eq_some_iff.1 hg).1

theorem stages_end (n : ℕ) (off : Finset ℕ) (r : Ret) (hr : Best opf c off r) (hn : c.gen.length < n + off.card) : stages opf c n r ≠ .running := by
  induction n generalizing r off with
  | zero =>
    have := Finset.card_le_card (best_card hk hw hr)
    rw [Finset.card_range] at this
    omega
  | succ n ih =>
    unfold stages
    cases hc : candidates r.tables with
    | nil => simp
    | cons k ks =>
      simp only
      cases ht : tryAll opf c r (k :: ks) r false with
      | none => simp
      | some p =>
        obtain ⟨out, flag⟩ := p
        cases flag with
        | false => simp
        | true =>
          simp only
          obtain ⟨h1, -, h3⟩ := tryAll_spec opf c r (k :: ks) r false out true ht
          have hmem : ∀ j, j ∈ (k :: ks) ↔ Binding r j := fun j => by rw [← hc]; exact mem_candidates r j
          rcases h3 with ⟨-, h4⟩ | ⟨-, h5, h6, j, hj, h7⟩
          · simp at h4
          · have hb := (hmem j).1 hj
            have hnot := (best_trial hk hw hr hb).1
            refine ih (insert j off) out (.shut hr ⟨hb, h7⟩ h5 h6 fun i t' htr hs => h1 i ((hmem i).2 htr.1) t' htr.2 hs) ?_
            rw [Finset.card_insert_of_notMem hnot]
            omega

omit hk hw in
/-- If no optimal power flow of the search raises, the search does not. -/
theorem stages_returns (htot : ∀ off r k, Best opf c off r → Binding r k → ∃ t, opf (withOff c r k) = some t) (n : ℕ) (off : Finset ℕ) (r : Ret)
    (hr : Best opf c off r) : stages opf c n r ≠ .raised := by
  have htry : ∀ (off : Finset ℕ) (r0 : Ret), Best opf c off r0 → ∀ (ks : List ℕ), (∀ k ∈ ks, Binding r0 k) → ∀ (r1 : Ret) (b : Bool),
      ∃ p, tryAll opf c r0 ks r1 b = some p := by
    intro off r0 h0 ks
    induction ks with
    | nil => intro _ r1 b; exact ⟨_, rfl⟩
    | cons k ks ih =>
      intro hks r1 b
      obtain ⟨t, ht⟩ := htot off r0 k h0 (hks k (by simp))
      unfold tryAll
      simp only [ht]
      split
      · exact ih (fun j hj => hks j (by simp [hj])) _ _
      · exact ih (fun j hj => hks j (by simp [hj])) _ _
  induction n generalizing r off with
  | zero => simp [stages]
  | succ n ih =>
    unfold stages
    cases hc : candidates r.tables with
    | nil => simp
    | cons k ks =>
      simp only
      have hmem : ∀ j, j ∈ (k :: ks) ↔ Binding r j := fun j => by rw [← hc]; exact mem_candidates r j
      obtain ⟨⟨out, flag⟩, ht⟩ := htry off r hr (k :: ks) (fun j hj => (hmem j).1 hj) r false
      rw [ht]
      cases flag with
      | false => simp
      | true =>
        simp only
        obtain ⟨h1, -, h3⟩ := tryAll_spec opf c r (k :: ks) r false out true ht
        rcases h3 with ⟨-, h4⟩ | ⟨-, h5, h6, j, hj, h7⟩
        · simp at h4
        · exact ih (insert j off) out (.shut hr ⟨(hmem j).1 hj, h7⟩ h5 h6 fun i t' htr hs => h1 i ((hmem i).2 htr.1) t' htr.2 hs)

end best

/-! ### The optimal power flows of `Verif/Opf` -/

theorem bridge_mult {c R : Index.Case Tables} {nb ng nl : ℕ} {d : Case nb ng nl} {u : Upd nb ng nl} {bp : Fin nb → ℕ} {gp : Fin ng → ℕ} {lp : Fin nl → ℕ}
    (B : Bridge c R opfOff d u bp gp lp) : ∀ g ∈ R.gen, ¬ GenInService R g → g.data.MU_PMIN = 0 := by
  intro g hg hoff
  obtain ⟨i, hi⟩ := List.getElem?_of_mem hg
  obtain ⟨g0, h0, h1, h2, -⟩ := B.gen_at hi
  have hoff' : ¬ GenInService c g0 := fun hin => hoff ((B.genIn_iff h1 h2).2 hin)
  have := B.genOff i g0 h0 hoff'
  rw [hi] at this
  cases this
  rfl

theorem keeps_dc {srt : List ℕ → List ℕ} (hs : IsArgsort srt) (base : ℝ) (S : DcSetup) (o : Opt) (solve : AnySolver) : Keeps (opfDc srt base S o solve) where
  bus := fun c r h hr => (C86_dc_inputs hs h hr).1
  gen := fun c r h hr => (C86_dc_inputs hs h hr).2.1
  mult := fun c r h hr => by
    obtain ⟨nb, ng, nl, c', d, m, H, C, C0, x0, s, p, bp, gp, lp, B, -⟩ := dc_bridge hs h hr
    exact bridge_mult B

theorem keeps_ac {srt : List ℕ → List ℕ} (hs : IsArgsort srt) (base : ℝ) (lim : Int) (S : AcSetup) (o : Opt) (solve : AnySolver) :
    Keeps (opfAc srt base lim S o solve) where
  bus := fun c r h hr => (C86_ac_inputs hs h hr).1
  gen := fun c r h hr => (C86_ac_inputs hs h hr).2.1
  mult := fun c r h hr => by
    obtain ⟨nb, ng, nl, c', d, m, cost, x0, s, p, bp, gp, lp, B, -⟩ := ac_bridge hs h hr
    exact bridge_mult B

end Verif.UnitOpf
