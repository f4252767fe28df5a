import Verif.Opf.RunSpec
import Mathlib.Logic.Relation

/-!
# Specification vocabulary for the returned tables of `runpf`

Everything is read off the tables in the caller's own numbering.
-/

namespace Verif.Runpf

open Verif.Opf (Tables BusD GenD)
open Verif.Index (BusRow GenRow GenInService)

/-- A generator in service is at bus number `n`. -/
def HasGenOn (c : Index.Case Tables) (n : ℕ) : Prop := ∃ g ∈ c.gen, GenInService c g ∧ g.bus = n

/-- Row `i` is a bus whose voltage magnitude is held at a generator set point: declared PV or REF, with a generator in service. -/
def IsControlled (c : Index.Case Tables) (i : ℕ) : Prop := ∃ b, c.bus[i]? = some b ∧ (b.typ = 2 ∨ b.typ = 3) ∧ HasGenOn c b.num

/-- Row `i` is a slack bus: declared REF with a generator in service; if there is none in the whole table, the first PV bus with a generator in service. -/
def IsSlack (c : Index.Case Tables) (i : ℕ) : Prop := ∃ b, c.bus[i]? = some b ∧ HasGenOn c b.num ∧
  (b.typ = 3 ∨ b.typ = 2 ∧ (¬ ∃ b' ∈ c.bus, b'.typ = 3 ∧ HasGenOn c b'.num) ∧
    ∀ (j : ℕ) b', c.bus[j]? = some b' → b'.typ = 2 → HasGenOn c b'.num → i ≤ j)

/-- Sum of a column over the generators *in service* at a bus. -/
noncomputable def genOnAt (t : Index.Case Tables) (n : ℕ) (f : GenD → ℝ) : ℝ :=
  ((t.gen.filter fun g => g.bus == n && @decide (GenInService t g) (Classical.dec _)).map fun g => f g.data).sum

/-- Bus numbers `m` and `n` are the ends of a branch in service. -/
def JoinedOn (c : Index.Case Tables) (m n : ℕ) : Prop :=
  ∃ l ∈ c.branch, Index.BranchInService c l ∧ (l.f = m ∧ l.t = n ∨ l.f = n ∧ l.t = m)

/-- Every connected bus is joined through branches in service to a slack bus. -/
def Tied (c : Index.Case Tables) : Prop :=
  ∀ b ∈ c.bus, b.typ ≠ 4 → ∃ (i : ℕ) (s : BusRow BusD), c.bus[i]? = some s ∧ IsSlack c i ∧ Relation.ReflTransGen (JoinedOn c) s.num b.num

/-- Branches in service have status 1, positive reactance and a tap ratio that is not negative (0 stands for 1). -/
def Inductive (c : Index.Case Tables) : Prop :=
  ∀ l ∈ c.branch, Index.BranchInService c l → l.status = 1 ∧ 0 < l.data.x ∧ 0 ≤ l.data.tap

/-- What a power flow must not change. -/
def pfBusInput (b : BusRow BusD) : BusRow BusD := { b with data := { b.data with VM := 0, VA := 0 } }
def pfGenInput (g : GenRow GenD) : GenRow GenD := { g with data := { g.data with PG := 0, QG := 0 } }
def pfBranchInput (l : Index.BranchRow Opf.BrD) : Index.BranchRow Opf.BrD := { l with data := { l.data with PF := 0, QF := 0, PT := 0, QT := 0 } }

end Verif.Runpf
