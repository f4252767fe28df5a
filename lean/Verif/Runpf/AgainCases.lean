import Verif.Runpf.AgainProps

/-! C130 on a concrete case: slack bus 9 in row 0, isolated bus 7 in row 1, bus 2 in row 2 whose voltage is controlled; one generator, one bus and two branches out of service. -/

namespace Verif.Runpf

open Verif.Opf (Tables BusD)
open Verif.Index (BusRow WF GenInService Connected)

noncomputable def exAgain : Index.Case Tables :=
  { Opf.exTables with
    bus := [⟨9, 3, ⟨0, 0, 0, 0, 1, 5, 1.1, 0.9, 0, 0, 0, 0, []⟩⟩, ⟨7, 4, ⟨10, 5, 0, 0, 1, 0, 1.1, 0.9, 0, 0, 0, 0, []⟩⟩,
      ⟨2, 2, ⟨90, 30, 1, 2, 1, 0, 1.1, 0.9, 0, 0, 0, 0, [345]⟩⟩] }

theorem exAgain_wf : WF exAgain where
  busNodup := by simp [exAgain]
  typValid := by simp [exAgain]
  someOn := ⟨_, List.mem_cons_self, by decide⟩
  genRef := by simp [exAgain, Opf.exTables, Index.HasBus]
  fRef := by simp [exAgain, Opf.exTables, Index.HasBus]
  tRef := by simp [exAgain, Opf.exTables, Index.HasBus]
  areaRef := by simp [exAgain, Opf.exTables]
  costRows := by simp [exAgain, Opf.exTables]
  aCols := by simp [exAgain, Opf.exTables]
  nCols := by simp [exAgain, Opf.exTables]
  notInternal := by simp [exAgain, Opf.exTables]

theorem exAgain_slack : IsSlack exAgain 0 :=
  ⟨_, rfl, ⟨⟨9, 1, ⟨80, 0, 50, -50, 1, 200, 10, 0, 0, 0, 0, []⟩⟩, by simp [exAgain, Opf.exTables], by simp [GenInService, Connected, exAgain], rfl⟩, Or.inl rfl⟩

theorem exAgain_other : ∃ (i : ℕ) (b : BusRow BusD), exAgain.bus[i]? = some b ∧ b.typ ≠ 4 ∧ ¬ IsSlack exAgain i := by
  refine ⟨2, _, rfl, by decide, ?_⟩
  rintro ⟨b, hb, -, h⟩
  have e : exAgain.bus[2]? = some ⟨2, 2, ⟨90, 30, 1, 2, 1, 0, 1.1, 0.9, 0, 0, 0, 0, [345]⟩⟩ := rfl
  rw [e] at hb
  injection hb with hb
  subst hb
  rcases h with h | ⟨-, h, -⟩
  · simp at h
  · obtain ⟨b, h1, h2, h3⟩ := exAgain_slack
    refine h ⟨b, List.mem_of_getElem? h1, ?_, h2⟩
    have : exAgain.bus[0]? = some ⟨9, 3, ⟨0, 0, 0, 0, 1, 5, 1.1, 0.9, 0, 0, 0, 0, []⟩⟩ := rfl
    rw [this] at h1
    injection h1 with h1
    rw [← h1]

/-- The AC theorem. -/
example (lib : PfLib) : ∃ o R, WF exAgain ∧ runpfAc Index.stableArgsort 100 o lib exAgain = some ⟨true, some R⟩ ∧ (∀ g ∈ exAgain.gen, GenInService exAgain g → 0 < g.data.VG) ∧
    (∀ g ∈ exAgain.gen, GenInService exAgain g → ∀ b ∈ exAgain.bus, b.num = g.bus → b.typ ≠ 1) := by
  obtain ⟨tol, R, h⟩ := runpfAc_succeeds Index.stableArgsort_isArgsort 100 lib exAgain_wf ⟨0, exAgain_slack⟩ exAgain_other (by simp [exAgain])
  refine ⟨_, R, exAgain_wf, h, ?_, ?_⟩
  · simp [exAgain, Opf.exTables]
  · intro g _ _ b hb _
    simp only [exAgain, List.mem_cons, List.not_mem_nil, or_false] at hb
    rcases hb with rfl | rfl | rfl <;> simp

/-- The DC theorem. -/
example : ∃ R, WF Opf.exTables ∧ runpfDc Index.stableArgsort 100 invLib Opf.exTables = some ⟨true, some R⟩ :=
  let ⟨R, h⟩ := C87_dc_completes Index.stableArgsort_isArgsort Opf.exTables_wf (lib := invLib) (base := 100) ⟨0, exSlack⟩
  ⟨R, Opf.exTables_wf, h⟩

end Verif.Runpf
