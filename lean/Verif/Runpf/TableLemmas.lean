import Verif.Runpf.TableModel
import Verif.Runpf.TableSpec
import Verif.Runpf.Core
import Verif.Bustypes.Props
import Verif.Opf.RunLemmas

/-!
# Classification of the buses in the caller's numbering
-/

namespace Verif.Runpf

open Verif.Opf (Tables readCase Upd write Off zeroOff Bridge BusD GenD BrD)
open Verif.Index (BusRow GenRow BranchRow IsArgsort WF GenInService BranchInService Connected)
open Verif.Network Verif.Solvers
open Verif.Bustypes (bustypes HasGen HasType)

theorem mem_idxOf {n : ℕ} {l : List ℕ} {k : Fin n} : k ∈ idxOf n l ↔ (k : ℕ) ∈ l := by
  unfold idxOf
  rw [List.mem_filterMap]
  constructor
  · rintro ⟨i, hi, h⟩
    split at h
    · injection h with h
      rw [← h]; exact hi
    · simp at h
  · intro h
    exact ⟨k, h, by rw [dif_pos k.isLt]⟩

theorem prop_pv {R P Q C S : Prop} (h1 : ¬ (R ∧ P) ∧ ¬ (R ∧ Q) ∧ ¬ (P ∧ Q)) (h2 : Q ↔ ¬ C) (h3 : R ↔ S) (h4 : R ∨ P ∨ Q) : P ↔ C ∧ ¬ S := by
  tauto

/-- The internal case of the driver, its relation to the caller's tables, and the class of every bus in terms of the latter. -/
structure PfBridge (c R : Index.Case Tables) (base : ℝ) {nb ng nl : ℕ} (p : Case (Fin nb) (Fin nl) ng) (u : Upd nb ng nl) (bp : Fin nb → ℕ) (gp : Fin ng → ℕ)
    (lp : Fin nl → ℕ) : Prop where
  bridge : ∃ d : Opf.Case nb ng nl, Bridge c R pfOff d u bp gp lp ∧ p.baseMVA = base ∧ p.bus = d.bus ∧ p.VA = d.va ∧ p.branch = d.branch ∧
    (∀ k, p.gen k = ⟨d.gen k, d.qmin k, d.qmax k⟩)
  vm : ∀ k, ∃ b : BusRow BusD, c.bus[bp k]? = some b ∧ p.VM k = b.data.VM ∧ p.VA k = b.data.VA
  gen : ∀ k, ∃ g : GenRow GenD, c.gen[gp k]? = some g ∧ p.VG k = g.data.VG ∧ (p.gen k).PG = g.data.PG ∧ (p.gen k).QG = g.data.QG
  stat : ∀ k, (p.gen k).stat > 0
  hasGen : ∀ k b, c.bus[bp k]? = some b → ((∃ g, (p.gen g).stat > 0 ∧ (p.gen g).bus = k) ↔ HasGenOn c b.num)
  ref : ∀ k, k ∈ p.ref ↔ IsSlack c (bp k)
  pq : ∀ k, k ∈ p.pq ↔ ¬ IsControlled c (bp k)
  pv : ∀ k, k ∈ p.pv ↔ IsControlled c (bp k) ∧ ¬ IsSlack c (bp k)
  slack : ∃ k, k ∈ p.ref

/-- The bridge, with the rows given by `posOf`. -/
theorem pf_bridge_at {srt : List ℕ → List ℕ} (hs : IsArgsort srt) {c : Index.Case Tables} (h : WF c) {c' r : Index.Case Tables}
    (he : Index.ext2int srt c = some c') {base : ℝ} {p : Case (Fin c'.bus.length) (Fin c'.branch.length) c'.gen.length} (hp : readPf base c' = some p)
    (u : Upd c'.bus.length c'.gen.length c'.branch.length) (hr : Index.int2ext (write c' u) = some r) :
    ∃ bp gp lp, PfBridge c (zeroOff pfOff r) base p u bp gp lp ∧ (∀ k : Fin c'.bus.length, (Index.posOf srt c .bus)[(k : ℕ)]? = some (bp k)) ∧
      (∀ k : Fin c'.gen.length, (Index.posOf srt c .gen)[(k : ℕ)]? = some (gp k)) ∧ (∀ k : Fin c'.branch.length, (Index.posOf srt c .branch)[(k : ℕ)]? = some (lp k)) := by
  unfold readPf at hp
  simp only [Option.bind_eq_bind, Option.bind_eq_some_iff] at hp
  obtain ⟨d, hd, ⟨ref, pv, pq⟩, ht, e⟩ := hp
  injection e with e
  obtain ⟨bp, gp, lp, B, hmono, hbus, hgen, -, -, hposs⟩ := Opf.bridge_at hs h he hd u hr pfOff
  have hbase := Opf.readCase_base hd
  -- the two columns read by `bustypes`
  have htyp : ∀ (k : Fin c'.bus.length) b t, c.bus[bp k]? = some b → (HasType (c'.bus.map (·.typ)) k t ↔ b.typ = t) := by
    intro k b t hb
    obtain ⟨b', h1, h2, -⟩ := hbus k
    rw [hb] at h1; cases h1
    unfold HasType
    rw [List.getElem?_map, List.getElem?_eq_getElem k.isLt]
    simp only [Option.map_some, Option.some.injEq]
    exact ⟨fun e => h2 ▸ e, fun e => h2.trans e⟩
  have hstat : ∀ k, (d.gen k).stat > 0 := by
    intro k
    obtain ⟨g, -, hin, -, -, h5, -⟩ := B.gen k
    rw [h5]
    exact_mod_cast hin.1
  have hgenOn : ∀ k b, c.bus[bp k]? = some b → ((∃ g, (d.gen g).bus = k) ↔ HasGenOn c b.num) := by
    intro k b hb
    constructor
    · rintro ⟨g, rfl⟩
      obtain ⟨g0, h1, hin, -, ⟨b', h2, h3⟩, -⟩ := B.gen g
      rw [hb] at h2; cases h2
      exact ⟨g0, List.mem_of_getElem? h1, hin, h3.symm⟩
    · rintro ⟨g0, hg, hin, hn⟩
      obtain ⟨i, hi⟩ := List.getElem?_of_mem hg
      obtain ⟨g, rfl⟩ := B.genOn i g0 hi hin
      obtain ⟨g1, h1, -, -, ⟨b', h2, h3⟩, -⟩ := B.gen g
      rw [hi] at h1; cases h1
      exact ⟨g, (B.sameBus h h2 hb).1 (h3.trans hn)⟩
  have hhas : ∀ (k : Fin c'.bus.length) b, c.bus[bp k]? = some b → (HasGen (c'.gen.map fun g => ⟨g.bus, g.status⟩) k ↔ HasGenOn c b.num) := by
    intro k b hb
    rw [← hgenOn k b hb]
    unfold HasGen
    constructor
    · rintro ⟨x, hx, hxk, -⟩
      obtain ⟨g, hg, rfl⟩ := List.mem_map.1 hx
      obtain ⟨i, hi, rfl⟩ := List.mem_iff_getElem.1 hg
      obtain ⟨g0, -, -, -, h4⟩ := hgen ⟨i, hi⟩
      refine ⟨⟨i, hi⟩, Fin.ext ?_⟩
      rw [← h4]
      exact hxk
    · rintro ⟨g, hg⟩
      obtain ⟨g0, h0, h2, -, h4⟩ := hgen g
      refine ⟨⟨c'.gen[g].bus, c'.gen[g].status⟩, List.mem_map.2 ⟨c'.gen[g], List.getElem_mem _, rfl⟩, ?_, ?_⟩
      · show c'.gen[g].bus = (k : ℕ)
        rw [h4, hg]
      · show 0 < c'.gen[g].status
        obtain ⟨g1, h5, hin, -⟩ := B.gen g
        rw [h0] at h5; cases h5
        rw [h2]
        exact hin.1
  obtain ⟨hne, hdis, -, hlt, hcover, hpq, hA, hB⟩ := Bustypes.C10_classification ht
  have rowOf : ∀ n : Fin c'.bus.length, ∃ b, c.bus[bp n]? = some b ∧ b.typ ≠ 4 := fun n => by
    obtain ⟨b, h1, h2, -⟩ := B.bus n
    exact ⟨b, h1, h2⟩
  have htlen : (c'.bus.map (·.typ)).length = c'.bus.length := List.length_map _
  have inBus : ∀ (n : ℕ) t, HasType (c'.bus.map (·.typ)) n t → n < c'.bus.length := by
    intro n t ht
    rw [← htlen]
    exact (List.getElem?_eq_some_iff.1 ht).1
  -- a declared reference with a generator, inside and outside
  have exRef : (∃ i, HasType (c'.bus.map (·.typ)) i 3 ∧ HasGen (c'.gen.map fun g => ⟨g.bus, g.status⟩) i) ↔ ∃ b' ∈ c.bus, b'.typ = 3 ∧ HasGenOn c b'.num := by
    constructor
    · rintro ⟨i, h1, h2⟩
      obtain ⟨b, hb, -⟩ := rowOf ⟨i, inBus i 3 h1⟩
      exact ⟨b, List.mem_of_getElem? hb, (htyp _ b 3 hb).1 h1, (hhas _ b hb).1 h2⟩
    · rintro ⟨b, hb, h1, h2⟩
      obtain ⟨i, hi⟩ := List.getElem?_of_mem hb
      obtain ⟨k, rfl⟩ := B.busOn i b hi (by rw [h1]; decide)
      exact ⟨k, (htyp k b 3 hi).2 h1, (hhas k b hi).2 h2⟩
  have hslack : ∀ k : Fin c'.bus.length, (k : ℕ) ∈ ref ↔ IsSlack c (bp k) := by
    intro k
    obtain ⟨b, hb, hb4⟩ := rowOf k
    by_cases hex : ∃ b' ∈ c.bus, b'.typ = 3 ∧ HasGenOn c b'.num
    · rw [(hA (exRef.2 hex)).1, htyp k b 3 hb, hhas k b hb]
      constructor
      · rintro ⟨h1, h2⟩
        exact ⟨b, hb, h2, Or.inl h1⟩
      · rintro ⟨b', hb', h2, h3⟩
        rw [hb] at hb'; cases hb'
        rcases h3 with h3 | h3
        · exact ⟨h3, h2⟩
        · exact absurd hex h3.2.1
    · obtain ⟨r0, hr0, h2, h3, h4, -⟩ := hB (fun hh => hex (exRef.1 hh))
      rw [hr0, List.mem_singleton]
      have hr0lt := inBus r0 2 h2
      constructor
      · rintro rfl
        refine ⟨b, hb, (hhas k b hb).1 h3, Or.inr ⟨(htyp k b 2 hb).1 h2, hex, ?_⟩⟩
        intro j b' hj ht' hg'
        obtain ⟨k', rfl⟩ := B.busOn j b' hj (by rw [ht']; decide)
        exact hmono.monotone (Fin.le_def.2 (h4 k' ((htyp k' b' 2 hj).2 ht') ((hhas k' b' hj).2 hg')))
      · rintro ⟨b', hb', hg', h5⟩
        rw [hb] at hb'; cases hb'
        rcases h5 with h5 | ⟨h5, -, h6⟩
        · exact absurd ⟨b, List.mem_of_getElem? hb, h5, hg'⟩ hex
        · obtain ⟨b0, hb0, -⟩ := rowOf ⟨r0, hr0lt⟩
          have h7 := h6 _ b0 hb0 ((htyp ⟨r0, hr0lt⟩ b0 2 hb0).1 h2) ((hhas ⟨r0, hr0lt⟩ b0 hb0).1 h3)
          have h8 : k ≤ ⟨r0, hr0lt⟩ := hmono.le_iff_le.1 h7
          exact le_antisymm h8 (h4 k ((htyp k b 2 hb).2 h5) ((hhas k b hb).2 hg'))
  have hctl : ∀ k : Fin c'.bus.length, (k : ℕ) ∈ pq ↔ ¬ IsControlled c (bp k) := by
    intro k
    obtain ⟨b, hb, hb4⟩ := rowOf k
    rw [hpq, htyp k b 1 hb, hhas k b hb, htlen]
    unfold IsControlled
    constructor
    · rintro ⟨-, h1⟩ ⟨b', hb', h2, h3⟩
      rw [hb] at hb'; cases hb'
      rcases h1 with h1 | h1
      · rw [h1] at h2; revert h2; decide
      · exact h1 h3
    · intro h1
      refine ⟨k.isLt, ?_⟩
      by_cases hg : HasGenOn c b.num
      · left
        have hv := h.typValid b (List.mem_of_getElem? hb)
        have : ¬ (b.typ = 2 ∨ b.typ = 3) := fun hh => h1 ⟨b, hb, hh, hg⟩
        omega
      · exact Or.inr hg
  refine ⟨bp, gp, lp, ⟨⟨d, B, ?_, ?_, ?_, ?_, ?_⟩, ?_, ?_, ?_, ?_, ?_, ?_, ?_, ?_⟩, hposs⟩
  · rw [← e]; exact hbase
  · rw [← e]
  · rw [← e]
  · rw [← e]
  · intro k; rw [← e]
  · intro k
    obtain ⟨b, h1, -, h2⟩ := hbus k
    refine ⟨b, h1, ?_, ?_⟩
    · rw [← e]
      unfold readCase at hd
      split at hd
      · injection hd with hd
        rw [← hd]
        show c'.bus[k].data.VM = _
        rw [h2]
      · simp at hd
    · rw [← e]
      unfold readCase at hd
      split at hd
      · injection hd with hd
        rw [← hd]
        show c'.bus[k].data.VA = _
        rw [h2]
      · simp at hd
  · intro k
    obtain ⟨g, h1, -, h2, -⟩ := hgen k
    have hq : (d.gen k).PG = g.data.PG ∧ (d.gen k).QG = g.data.QG := by
      unfold readCase at hd
      split at hd
      · injection hd with hd
        rw [← hd]
        constructor
        · show c'.gen[k].data.PG = _
          rw [h2]
        · show c'.gen[k].data.QG = _
          rw [h2]
      · simp at hd
    refine ⟨g, h1, ?_, ?_, ?_⟩
    · rw [← e]
      show c'.gen[k].data.VG = _
      rw [h2]
    · rw [← e]; exact hq.1
    · rw [← e]; exact hq.2
  · intro k
    rw [← e]
    exact hstat k
  · intro k b hb
    rw [← hgenOn k b hb, ← e]
    constructor
    · rintro ⟨g, -, hg⟩; exact ⟨g, hg⟩
    · rintro ⟨g, hg⟩; exact ⟨g, hstat g, hg⟩
  · intro k
    rw [← e, mem_idxOf]
    exact hslack k
  · intro k
    rw [← e, mem_idxOf]
    exact hctl k
  · intro k
    rw [← e, mem_idxOf]
    show (k : ℕ) ∈ pv ↔ _
    have h1 := hdis k
    have h2 := hctl k
    have h3 := hslack k
    have h4 : (k : ℕ) ∈ ref ∨ (k : ℕ) ∈ pv ∨ (k : ℕ) ∈ pq := by
      obtain ⟨b, hb, hb4⟩ := rowOf k
      have hv := h.typValid b (List.mem_of_getElem? hb)
      exact hcover k b.typ ((htyp k b b.typ hb).2 rfl) (by omega)
    exact prop_pv h1 h2 h3 h4
  · obtain ⟨x, xs, hx⟩ := List.exists_cons_of_ne_nil hne
    have hxm : x ∈ ref := by rw [hx]; simp
    have := hlt x (Or.inl hxm)
    rw [htlen] at this
    exact ⟨⟨x, this⟩, by rw [← e, mem_idxOf]; exact hxm⟩

theorem pf_bridge {srt : List ℕ → List ℕ} (hs : IsArgsort srt) {c : Index.Case Tables} (h : WF c) {c' r : Index.Case Tables}
    (he : Index.ext2int srt c = some c') {base : ℝ} {p : Case (Fin c'.bus.length) (Fin c'.branch.length) c'.gen.length} (hp : readPf base c' = some p)
    (u : Upd c'.bus.length c'.gen.length c'.branch.length) (hr : Index.int2ext (write c' u) = some r) :
    ∃ bp gp lp, PfBridge c (zeroOff pfOff r) base p u bp gp lp := by
  obtain ⟨bp, gp, lp, B, -⟩ := pf_bridge_at hs h he hp u hr
  exact ⟨bp, gp, lp, B⟩

end Verif.Runpf
