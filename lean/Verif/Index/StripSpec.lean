import Verif.Index.Spec

/-!
# C135: equipment out of service might as well not be in the tables
-/

namespace Verif.Index

open Classical

variable {P : Payload}

/-- `s` has the rows of `c` that are in service, in the same order, and no others: no bus of type 4, no generator or branch that is switched off or connected to a
bus of type 4. -/
structure Stripped (c s : Case P) : Prop where
  bus : s.bus = c.bus.filter fun b => b.typ ≠ 4
  gen : s.gen = c.gen.filter fun g => GenInService c g
  branch : s.branch = c.branch.filter fun l => BranchInService c l

/-- The rows of a list that belong to the generators in service. -/
noncomputable def ofGensOn (c : Case P) {α : Type} (xs : List α) : List α :=
  ((c.gen.zip xs).filter fun x => GenInService c x.1).map (·.2)

/-- The cost table of `s` has the rows of the generators in service: one row per generator, or one for active and one for reactive power. -/
def SameCosts (c s : Case P) : Prop :=
  match c.gencost with
  | none => s.gencost = none
  | some gc => (gc.length = c.gen.length ∧ s.gencost = some (ofGensOn c gc)) ∨
    (gc.length = 2 * c.gen.length ∧ s.gencost = some (ofGensOn c (gc.take c.gen.length) ++ ofGensOn c (gc.drop c.gen.length)))

end Verif.Index
