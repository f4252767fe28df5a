import Verif.Loadcase.Codes
import Mathlib.Tactic.IntervalCases

/-!
# C116: cases that meet the hypotheses
-/

namespace Verif.Loadcase

open CaseIO

/-- A case with one bus, one generator of ten columns, no branch, a note in a nested dictionary that is also under a second key, and a version that is not looked at. -/
def exGen : Table ℚ := ⟨10, [[1, 5, 0, 9, -9, 1, 100, 1, 8, 0]]⟩
def exBranch : Table ℚ := ⟨11, []⟩
def exHeap : Heap :=
  [.dict [("version", 1), ("baseMVA", 2), ("bus", 3), ("gen", 4), ("branch", 5), ("user", 6), ("copy", 6)], .leaf (.str "7"), .leaf (.num 100), .leaf (.tab ⟨2, [[1, 3]]⟩),
    .leaf (.tab exGen), .leaf (.tab exBranch), .dict [("note", 7)], .leaf (.str "mine")]

theorem ex_tables : HasTables exHeap 0 exGen exBranch where
  good := ⟨_, rfl, by decide⟩
  base := ⟨2, rfl, by simp [value, exHeap]⟩
  bus := ⟨3, rfl, by simp [value, exHeap]⟩
  gen := rfl
  branch := rfl

theorem ex_valid : Valid exHeap := by
  intro i d hd
  have hi : i < 8 := (List.getElem?_eq_some_iff.1 hd).1
  interval_cases i <;> simp only [exHeap, List.getElem?_cons_succ, List.getElem?_cons_zero, Option.some.injEq, Obj.dict.injEq, reduceCtorEq] at hd <;> subst hd <;> decide

theorem ex_field {a b : ℕ} {k : String} (h : field exHeap a k = some b) : 1 ≤ b := by
  obtain ⟨d, hd, hl⟩ := Option.bind_eq_some_iff.1 h
  have hm := mem_of_lookup hl
  have hi : a < 8 := (List.getElem?_eq_some_iff.1 (entries_iff.1 hd)).1
  interval_cases a <;> simp [entries, exHeap] at hd <;> subst hd <;> simp at hm <;> omega

theorem ex_reach {a b : ℕ} (ha : 1 ≤ a) (h : Reach exHeap a b) : 1 ≤ b := by
  induction h with
  | refl => exact ha
  | step hf _ ih => exact ih (ex_field hf)

theorem ex_notNested : NotNested exHeap 0 := fun _ _ hf hr => absurd (ex_reach (ex_field hf) hr) (by decide)

/-- The hypotheses of C116_case and C116_again are met. -/
example (w : World) : ∃ h' p, loadcase w exHeap (.dict 0) = (h', .ok (.obj p)) ∧ fieldVal h' p "version" = some (.str "2") := by
  obtain ⟨h', p, h1, h2, -⟩ := C116_case w ex_valid ex_tables ex_notNested
  exact ⟨h', p, h1, h2⟩
example : 10 ≤ exGen.cols := by decide

/-- A file with a syntax error, one that keeps its case, one whose case has no branch table. -/
def exBad : PyFile := ⟨fun h => (h, .error .other), fun h => (h, .error .other)⟩
def exKeeps : PyFile := ⟨fun h => (h, .ok ()), fun h => (h, .ok (.dict 0))⟩
def exShort : PyFile := ⟨fun h => (h, .ok ()), fun h => (h ++ [.leaf (.num 1), .dict [("baseMVA", h.length), ("bus", h.length), ("gen", h.length)]], .ok (.dict (h.length + 1)))⟩
def exWorld : World := ⟨fun _ => none, fun s => if s = "bad.py".toList then some exBad else if s = "keeps.py".toList then some exKeeps else if s = "short.py".toList then some exShort else none⟩

/-- **C116 is false of the code**: a file with a syntax error, a file without branch table and an argument of another type each raise instead of giving the documented code. -/
theorem C116_negation : (∃ w h s f, w.py s = some f ∧ (loadcase w h (.str s)).2 = .error .other) ∧ (∃ w h s f, w.py s = some f ∧ (loadcase w h (.str s)).2 = .error .key) ∧
    ∀ w h asObj eg ea, ¬ ∃ n, (loadcase w h .other asObj eg ea).2 = .ok (.code n) := by
  refine ⟨⟨exWorld, [], "bad.py".toList, exBad, rfl, ?_⟩, ⟨exWorld, [], "short.py".toList, exShort, rfl, ?_⟩, ?_⟩
  · exact congrArg Prod.snd (C116_syntax exWorld [] [] true true true (s := "bad.py".toList) (name := "bad".toList) (Or.inl ⟨by decide, rfl⟩) (f := exBad) rfl (e := .other) rfl (by decide))
  · exact congrArg Prod.snd (C116_missing exWorld [] [] _ true true (s := "short.py".toList) (name := "short".toList) (Or.inl ⟨by decide, rfl⟩) (f := exShort) rfl rfl (r := 1) rfl rfl
      (k := "branch") (by decide) rfl (by
        intro j hj hne
        simp only [List.mem_cons, List.not_mem_nil, or_false] at hj
        rcases hj with rfl | rfl | rfl | rfl
        · exact ⟨0, rfl, by simp [value]⟩
        · exact ⟨0, rfl, by simp [value]⟩
        · exact ⟨0, rfl, by simp [value]⟩
        · exact absurd rfl hne))
  · rintro w h asObj eg ea ⟨n, hn⟩
    rw [C116_argument] at hn
    cases hn

/-- A file that keeps its case, with and without the extension in the name. -/
example : Stands exWorld "keeps.py".toList "keeps".toList := Or.inl ⟨by decide, rfl⟩
example : Stands exWorld "keeps".toList "keeps".toList := Or.inr ⟨rfl, by decide, by decide, rfl, rfl⟩
example : exWorld.py ("keeps".toList ++ ".py".toList) = some exKeeps := rfl

/-- Absent files. -/
example (h : Heap) : loadcase exWorld h (.str "nothing".toList) = (h, .ok (.code 2)) := (C116_absent exWorld h true true true _).1 (by decide) (by decide) rfl rfl
example (h : Heap) : loadcase exWorld h (.str "x.mat".toList) = (h, .ok (.code 3)) := (C116_absent exWorld h true true true "x".toList).2.1 (by decide) rfl
example (h : Heap) : openCase exWorld h (.str "x.py".toList) = (h, .error .type) :=
  C116_run _ _ _ ((C116_absent exWorld h true true true "x".toList).2.2 (by decide) rfl)

/-- A case with areas and costs, loaded table by table. -/
def exHeap6 : Heap :=
  [.dict [("baseMVA", 1), ("bus", 1), ("gen", 2), ("branch", 3), ("areas", 1), ("gencost", 4)], .leaf (.num 100), .leaf (.tab exGen), .leaf (.tab exBranch), .leaf (.num 4)]

theorem ex_list : ∃ h' rs, loadcase exWorld exHeap6 (.dict 0) false = (h', .ok (.list rs)) ∧ rs.length = 6 := ⟨_, _, rfl, rfl⟩

end Verif.Loadcase
