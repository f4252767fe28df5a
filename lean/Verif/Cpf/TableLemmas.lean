import Verif.Cpf.TableModel
import Verif.Cpf.TableSpec
import Verif.Cpf.Kept
import Verif.Runpf.TableCore

/-!
# The rows of two cases with the same network
-/

open Matrix ComplexConjugate

namespace Verif.Cpf

open Verif.Opf (Tables readCase Upd write Off zeroOff Bridge BusD GenD BrD)
open Verif.Index (BusRow GenRow BranchRow IsArgsort WF GenInService BranchInService Connected posOf)
open Verif.Runpf (Case Out readPf initialV pfOff PfBridge HasGenOn IsControlled IsSlack runAC Guarantee Writes)
open Verif.Network Verif.Solvers Verif.Pfsoln

/-- The same buses and the same generators, whatever their data. -/
structure SameRows (c1 c2 : Index.Case Tables) : Prop where
  bus : c2.bus.map (fun b => (b.num, b.typ)) = c1.bus.map fun b => (b.num, b.typ)
  gen : c2.gen.map netGen = c1.gen.map netGen

theorem map_at {α β : Type} {f : α → β} {xs ys : List α} (h : ys.map f = xs.map f) {i : ℕ} {x : α} (hx : xs[i]? = some x) : ∃ y, ys[i]? = some y ∧ f y = f x := by
  have := congrArg (fun l => l[i]?) h
  simp only [List.getElem?_map, hx, Option.map_some, Option.map_eq_some_iff] at this
  exact this

theorem map_mem {α β : Type} {f : α → β} {xs ys : List α} (h : ys.map f = xs.map f) {x : α} (hx : x ∈ xs) : ∃ y ∈ ys, f y = f x := by
  obtain ⟨i, hi⟩ := List.getElem?_of_mem hx
  obtain ⟨y, hy, e⟩ := map_at h hi
  exact ⟨y, List.mem_of_getElem? hy, e⟩

theorem map_filter {α β γ : Type} {xs ys : List α} (π : α → β) (h : ys.map π = xs.map π) (P Q : α → Bool) (f g : α → γ) (F : β → Bool) (G : β → γ)
    (hP : ∀ x, P x = F (π x)) (hQ : ∀ x, Q x = F (π x)) (hf : ∀ x, f x = G (π x)) (hg : ∀ x, g x = G (π x)) :
    (ys.filter P).map f = (xs.filter Q).map g := by
  have key : ∀ (zs : List α) (P : α → Bool) (f : α → γ), (∀ x, P x = F (π x)) → (∀ x, f x = G (π x)) → (zs.filter P).map f = ((zs.map π).filter F).map G := by
    intro zs P f hP hf
    rw [List.filter_map, List.map_map]
    congr 1
    · funext x; exact hf x
    · congr 1; funext x; exact hP x
  rw [key ys P f hP hf, key xs Q g hQ hg, h]

theorem SameRows.symm {c1 c2 : Index.Case Tables} (h : SameRows c1 c2) : SameRows c2 c1 := ⟨h.bus.symm, h.gen.symm⟩

theorem SameRows.connected {c1 c2 : Index.Case Tables} (h : SameRows c1 c2) {n : ℕ} (hc : Connected c1 n) : Connected c2 n := by
  obtain ⟨b, hb, h1, h2⟩ := hc
  obtain ⟨y, hy, e⟩ := map_mem h.bus hb
  simp only [Prod.mk.injEq] at e
  exact ⟨y, hy, by rw [e.1]; exact h1, by rw [e.2]; exact h2⟩

theorem SameRows.hasGenOn {c1 c2 : Index.Case Tables} (h : SameRows c1 c2) {n : ℕ} (hc : HasGenOn c1 n) : HasGenOn c2 n := by
  obtain ⟨g, hg, ⟨h1, h2⟩, h3⟩ := hc
  obtain ⟨y, hy, e⟩ := map_mem h.gen hg
  simp only [netGen, Prod.mk.injEq] at e
  exact ⟨y, hy, ⟨by rw [e.2]; exact h1, by rw [e.1]; exact h.connected h2⟩, by rw [e.1]; exact h3⟩

theorem SameRows.controlled {c1 c2 : Index.Case Tables} (h : SameRows c1 c2) {i : ℕ} (hc : IsControlled c1 i) : IsControlled c2 i := by
  obtain ⟨b, hb, h1, h2⟩ := hc
  obtain ⟨y, hy, e⟩ := map_at h.bus hb
  simp only [Prod.mk.injEq] at e
  exact ⟨y, hy, by rw [e.2]; exact h1, by rw [e.1]; exact h.hasGenOn h2⟩

theorem SameRows.slack {c1 c2 : Index.Case Tables} (h : SameRows c1 c2) {i : ℕ} (hc : IsSlack c1 i) : IsSlack c2 i := by
  obtain ⟨b, hb, h1, h2⟩ := hc
  obtain ⟨y, hy, e⟩ := map_at h.bus hb
  simp only [Prod.mk.injEq] at e
  refine ⟨y, hy, by rw [e.1]; exact h.hasGenOn h1, ?_⟩
  rw [e.2]
  refine h2.imp id fun ⟨h3, h4, h5⟩ => ⟨h3, ?_, ?_⟩
  · rintro ⟨b', hb', ht, hg⟩
    obtain ⟨y', hy', e'⟩ := map_mem h.bus.symm hb'
    simp only [Prod.mk.injEq] at e'
    exact h4 ⟨y', hy', by rw [e'.2]; exact ht, by rw [e'.1]; exact h.symm.hasGenOn hg⟩
  · intro j b' hj ht hg
    obtain ⟨y', hy', e'⟩ := map_at h.bus.symm hj
    simp only [Prod.mk.injEq] at e'
    exact h5 j y' hy' (by rw [e'.2]; exact ht) (by rw [e'.1]; exact h.symm.hasGenOn hg)

theorem SameNet.rows {cb ct : Index.Case Tables} (h : SameNet cb ct) : SameRows cb ct := by
  refine ⟨?_, h.gen⟩
  have := congrArg (List.map fun x : ℕ × ℤ × ℝ × ℝ => (x.1, x.2.1)) h.bus
  simpa [List.map_map, Function.comp_def, netBus] using this

theorem SameRows.posBus {c1 c2 : Index.Case Tables} (h : SameRows c1 c2) (srt : List ℕ → List ℕ) : posOf srt c2 .bus = posOf srt c1 .bus := by
  show NumPy.find _ = NumPy.find _
  have := congrArg (List.map fun x : ℕ × ℤ => (x.2 != Index.NONE)) h.bus
  simp only [List.map_map, Function.comp_def] at this
  exact congrArg _ this

theorem SameRows.connB {c1 c2 : Index.Case Tables} (h : SameRows c1 c2) (n : ℕ) : Index.connB c2.bus n = Index.connB c1.bus n := by
  rw [Bool.eq_iff_iff, Index.conn_iff, Index.conn_iff]
  exact ⟨h.symm.connected, h.connected⟩

theorem SameRows.posGen {c1 c2 : Index.Case Tables} (h : SameRows c1 c2) (srt : List ℕ → List ℕ) : posOf srt c2 .gen = posOf srt c1 .gen := by
  have hi : Index.i2eOf c2 = Index.i2eOf c1 :=
    map_filter (fun b : BusRow BusD => (b.num, b.typ)) h.bus _ _ _ _ (fun x => x.2 != Index.NONE) (fun x => x.1) (fun _ => rfl) (fun _ => rfl) (fun _ => rfl) fun _ => rfl
  have h1 : NumPy.find (c2.gen.map (Index.genK c2.bus)) = NumPy.find (c1.gen.map (Index.genK c1.bus)) := by
    have := congrArg (List.map fun x : ℕ × ℤ => decide (0 < x.2) && Index.connB c1.bus x.1) h.gen
    simp only [List.map_map, Function.comp_def, netGen] at this
    have e : ∀ g : GenRow GenD, Index.genK c2.bus g = (decide (0 < g.status) && Index.connB c1.bus g.bus) := fun g => by
      unfold Index.genK; rw [h.connB]
    rw [show Index.genK c2.bus = fun g : GenRow GenD => decide (0 < g.status) && Index.connB c1.bus g.bus from funext e]
    exact congrArg _ this
  have h2 : (Index.genU c2).map (·.bus) = (Index.genU c1).map (·.bus) := by
    unfold Index.genU
    rw [List.map_map, List.map_map, hi]
    exact map_filter netGen h.gen _ _ _ _ (fun x => decide (0 < x.2) && Index.connB c1.bus x.1) (fun x => (Index.i2eOf c1).idxOf x.1)
      (fun g => by unfold Index.genK; rw [h.connB]; rfl) (fun _ => rfl) (fun _ => rfl) fun _ => rfl
  show (NumPy.gather _ _).getD [] = (NumPy.gather _ _).getD []
  rw [h1, h2]

theorem SameNet.posBranch {cb ct : Index.Case Tables} (h : SameNet cb ct) (srt : List ℕ → List ℕ) : posOf srt ct .branch = posOf srt cb .branch := by
  have := congrArg (List.map fun x : ℕ × ℕ × ℤ × ℝ × ℝ × ℝ × ℝ × ℝ => decide (x.2.2.1 % 2 = 1) && Index.connB cb.bus x.1 && Index.connB cb.bus x.2.1) h.branch
  simp only [List.map_map, Function.comp_def, netBr] at this
  have e : ∀ l : BranchRow BrD, Index.brK ct.bus l = (decide (l.status % 2 = 1) && Index.connB cb.bus l.f && Index.connB cb.bus l.t) := fun l => by
    unfold Index.brK; rw [h.rows.connB, h.rows.connB]
  show NumPy.find _ = NumPy.find _
  rw [show Index.brK ct.bus = fun l : BranchRow BrD => decide (l.status % 2 = 1) && Index.connB cb.bus l.f && Index.connB cb.bus l.t from funext e]
  exact congrArg _ this

end Verif.Cpf
