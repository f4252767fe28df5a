import Verif.Caller.Props
import Verif.Loadcase.Cases
import Mathlib.Algebra.Order.Ring.Rat

/-!
# C117: cases that meet the hypotheses
-/

namespace Verif.Caller

open CaseIO Loadcase

/-- A case in memory, with costs, and constraints `A`, `l`, `u` beside it. -/
def exHeap : Heap :=
  [.dict [("baseMVA", 1), ("bus", 2), ("gen", 3), ("branch", 4), ("gencost", 5), ("note", 9)], .leaf (.num 100), .leaf (.tab ⟨2, [[1, 3]]⟩), .leaf (.tab exGen), .leaf (.tab exBranch),
    .leaf (.tab ⟨6, [[2, 0, 0, 2, 3, 0]]⟩), .leaf (.other 1), .leaf (.vec [0]), .leaf (.vec [1]), .leaf (.str "mine")]

theorem ex_tables : HasTables exHeap 0 exGen exBranch where
  good := ⟨_, rfl, by decide⟩
  base := ⟨1, rfl, by simp [value, exHeap]⟩
  bus := ⟨2, rfl, by simp [value, exHeap]⟩
  gen := rfl
  branch := rfl

/-- A power flow that writes into the branch table it loaded, puts a result into the case and returns the bus table. -/
example : ∃ h' ls, runpf exWorld exHeap (.dict 0) [.get 0 "branch", .write 1 (.tab ⟨1, [[7]]⟩), .leaf (.num 1), .set 0 "success" 2, .get 0 "bus"] = some (h', ls) := ⟨_, _, rfl⟩

set_option maxRecDepth 20000 in
/-- The same dictionary as both cases of a continuation power flow. -/
example : ∃ h' ls, runcpf exWorld exHeap (.dict 0) (.dict 0) [.get 0 "branch", .write 1 .none] [.copy 2, .del 3 "bus"] = some (h', ls) := ⟨_, _, rfl⟩

/-- A plain case. -/
example : (∀ k ∈ userKeys, field exHeap 0 k = none) ∧ fieldVal exHeap 0 "bus" = some (.tab ⟨2, [[1, 3]]⟩) ∧ ∃ h' ls, opf exWorld exHeap 0 [none] [.get 0 "gen", .write 1 .none] = some (h', ls) :=
  ⟨by decide, rfl, _, _, rfl⟩

theorem ex_opf : ∃ h' ls, opf exWorld exHeap 0 [some 6, some 7, some 8, none] [] = some (h', ls) := ⟨_, _, rfl⟩

section
open Uopf

/-- Two units at their minimum; shutting one down costs more. -/
def exRows : List (Row ℚ) := [⟨1, 5, 10, 5, 0, 1⟩, ⟨1, 5, 10, 5, 0, 1⟩]
def exOpf (_ : Unit) (gen : List (Row ℚ)) : Option (Res Unit ℚ) := some ⟨(), gen, true, if gen = exRows then 1 else 2⟩

theorem ex_uopf : uopfIn exOpf (fun _ => [20]) (fun _ => []) 5 () exRows = some (⟨(), exRows, true, 1⟩, (), switchOff exRows 1) := by decide +kernel

end

/-- **C117 is false of the code.**  A call of `opf` with constraints leaves them in the caller's dictionary, which had none; unit decommitment returns a solution with both units in service and leaves
one of them out of service in the caller's case. -/
theorem C117_negation :
    (∃ w h r A l u h' ls, opf w h r [some A, some l, some u, none] [] = some (h', ls) ∧ field h r "A" = none ∧ field h' r "A" = some A) ∧
    ∃ (opf : Unit → List (Uopf.Row ℚ) → Option (Uopf.Res Unit ℚ)) (gen g : List (Uopf.Row ℚ)) (r : Uopf.Res Unit ℚ),
      uopfIn opf (fun _ => [20]) (fun _ => []) 5 () gen = some (r, (), g) ∧ r.gen = gen ∧ gen.map (·.status) = [1, 1] ∧ g.map (·.status) = [1, 0] := by
  obtain ⟨h', ls, ho⟩ := ex_opf
  exact ⟨⟨exWorld, exHeap, 0, 6, 7, 8, h', ls, ho, rfl, (C117_sticky exWorld exHeap 0 6 7 8 none (by decide) [] ho).1⟩, exOpf, exRows, _, _, ex_uopf, rfl, rfl, rfl⟩

end Verif.Caller
