import Verif.SaveMat.Props

/-!
# C118: cases that meet the hypotheses
-/

namespace Verif.SaveMat

open CaseIO Loadcase

/-- What was saved can be loaded: under the name `case.mat`, for example. -/
theorem reloaded_of {h h1 : Heap} {r : ℕ} {f : MatFile} {x : ℚ} {bus g b : Table ℚ} (hc : Complete h r x bus g b) (hs : savecase h r = (h1, .ok f)) (h2 : Heap) :
    ∃ h3 p, Nonempty (Reloaded h r h1 h3 p) := by
  have hn : resolve ⟨fun _ => some f, fun _ => none⟩ "case.mat".toList = some ("case".toList, .mat) := by
    unfold resolve
    rw [if_neg (by decide), if_pos (by decide)]
    dsimp only
    rw [if_pos (by decide)]
    rfl
  obtain ⟨h3, p, e, -⟩ := round hc hs ⟨fun _ => some f, fun _ => none⟩ "case.mat".toList "case".toList hn rfl h2
  exact ⟨h3, p, ⟨f, _, h2, _, _, hs, hn, rfl, e⟩⟩

/-- A plain case: one bus, one generator, no branch, costs, and reserves that will be lost. -/
def exGen : Table ℚ := ⟨10, [[1, 5, 0, 9, -9, 1, 100, 1, 8, 0]]⟩
def exBranch : Table ℚ := ⟨11, []⟩
def exBus : Table ℚ := ⟨2, [[1, 3]]⟩
def exCost : Table ℚ := ⟨6, [[2, 0, 0, 2, 3, 0]]⟩
def plain : Heap :=
  [.dict [("baseMVA", 1), ("bus", 2), ("gen", 3), ("branch", 4), ("gencost", 5), ("reserves", 6)], .leaf (.num 100), .leaf (.tab exBus), .leaf (.tab exGen), .leaf (.tab exBranch),
    .leaf (.tab exCost), .dict []]

theorem plain_complete : Complete plain 0 100 exBus exGen exBranch where
  good := ⟨_, rfl, by decide⟩
  base := Or.inl rfl
  bus := rfl
  gen := rfl
  branch := rfl

theorem plain_saves : ∃ f, savecase plain 0 = (store plain 0 "version" (.str "2"), .ok f) := by
  refine C118_saves plain_complete ?_ ?_
  · intro k hk
    simp only [List.mem_cons, List.not_mem_nil, or_false] at hk
    rcases hk with rfl | rfl
    · exact Or.inl rfl
    · exact Or.inr ⟨exCost, rfl⟩
  · decide

/-- It comes back with its costs, without its reserves, and can be run; saved and loaded again, it is the same. -/
example : ∃ h1 h3 p, Nonempty (Reloaded plain 0 h1 h3 p) ∧ fieldVal h3 p "gencost" = some (.tab exCost) ∧ field h3 p "reserves" = none ∧ orderState h3 p = .ok none := by
  obtain ⟨f, hs⟩ := plain_saves
  obtain ⟨h3, p, ⟨hl⟩⟩ := reloaded_of plain_complete hs []
  exact ⟨_, h3, p, ⟨hl⟩, (C118_case_partial hl plain_complete).2.2.2.2.2.1 "gencost" (by decide) exCost rfl, C118_lost hl plain_complete (by decide) (by decide),
    C118_fresh hl plain_complete rfl⟩
example : 10 ≤ exGen.cols := by decide

/-- A solved case with a user constraint: its numbering is in a dictionary. -/
def solved : Heap :=
  [.dict [("baseMVA", 1), ("bus", 2), ("gen", 3), ("branch", 4), ("A", 5), ("l", 6), ("order", 7)], .leaf (.num 100), .leaf (.tab exBus), .leaf (.tab exGen), .leaf (.tab exBranch),
    .leaf (.tab ⟨2, [[1, 0], [0, 1]]⟩), .leaf (.vec [3, 4]), .dict [("state", 8)], .leaf (.str "e")]

theorem solved_complete : Complete solved 0 100 exBus exGen exBranch where
  good := ⟨_, rfl, by decide⟩
  base := Or.inl rfl
  bus := rfl
  gen := rfl
  branch := rfl

theorem solved_saves : ∃ f, savecase solved 0 = (store solved 0 "version" (.str "2"), .ok f) := ⟨_, rfl⟩

/-- **C118 is false of the code**: there is a case that could be run, was saved without an error and loaded without an error, cannot be run any more, and has user bounds of
another shape than before. -/
theorem C118_negation : ∃ h r h1 h3 p, Nonempty (Reloaded h r h1 h3 p) ∧ (∃ s, orderState h r = .ok s) ∧ orderState h3 p = .error .other ∧
    fieldVal h r "l" = some (.vec [3, 4]) ∧ fieldVal h3 p "l" = some (.tab ⟨2, [[3, 4]]⟩) := by
  obtain ⟨f, hs⟩ := solved_saves
  obtain ⟨h3, p, ⟨hl⟩⟩ := reloaded_of solved_complete hs []
  refine ⟨solved, 0, _, h3, p, ⟨hl⟩, ⟨some 8, rfl⟩, C118_order hl solved_complete (o := 7) rfl (d := [("state", 8)]) rfl, rfl, ?_⟩
  exact (C118_vectors hl solved_complete).1 "l" (by decide) ⟨2, [[1, 0], [0, 1]]⟩ [3, 4] rfl (by simp) rfl (by simp)

/-- A sparse user matrix; bounds without a matrix. -/
example : (savecase [.dict [("A", 1)], .leaf (.other 0)] 0).2 = .error .type := C118_sparse ⟨_, rfl, by decide⟩ rfl
example : field plain 0 "A" = none := rfl
example : Good plain 0 := plain_complete.good

end Verif.SaveMat
