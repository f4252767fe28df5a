import Verif.Printpf.Model
import Verif.Opf.RunSpec

/-!
# Specification vocabulary for printed results

Everything is read off the tables that are printed.
-/

namespace Verif.Printpf

open Verif.Opf (Tables BusD GenD BrD asBranch rowPhasor)
open Verif.Index (BusRow GenRow BranchRow HasBus)
open Verif.Network (PiModel)
open ComplexConjugate

noncomputable section

/-- Distinct bus numbers; generators and branches refer to existing buses. -/
structure Refs (t : Index.Case Tables) : Prop where
  nodup : (t.bus.map (·.num)).Nodup
  gen : ∀ g ∈ t.gen, HasBus t g.bus
  f : ∀ l ∈ t.branch, HasBus t l.f
  t : ∀ l ∈ t.branch, HasBus t l.t

/-- The tables hold an AC operating point: no output of generators that are off, no flow in branches that are off; branches that are on have an impedance, and their flows are those of
the branch model at the voltages of their end buses. -/
structure AcPoint (base : ℝ) (t : Index.Case Tables) : Prop where
  genOff : ∀ g ∈ t.gen, g.status ≤ 0 → g.data.PG = 0 ∧ g.data.QG = 0
  branchOff : ∀ l ∈ t.branch, l.status = 0 → l.data.PF = 0 ∧ l.data.QF = 0 ∧ l.data.PT = 0 ∧ l.data.QT = 0
  impedance : ∀ l ∈ t.branch, l.status ≠ 0 → (l.data.r : ℂ) + Complex.I * l.data.x ≠ 0
  branchOn : ∀ l ∈ t.branch, l.status ≠ 0 → ∀ bf ∈ t.bus, bf.num = l.f → ∀ bt ∈ t.bus, bt.num = l.t →
    ∃ If It : ℂ, PiModel (asBranch l) (rowPhasor bf) (rowPhasor bt) If It ∧
      (l.data.PF : ℂ) + Complex.I * l.data.QF = rowPhasor bf * conj If * base ∧ (l.data.PT : ℂ) + Complex.I * l.data.QT = rowPhasor bt * conj It * base

/-- The tables hold a DC operating point: no output of generators that are off, what enters a branch leaves it. -/
structure DcPoint (t : Index.Case Tables) : Prop where
  genOff : ∀ g ∈ t.gen, g.status ≤ 0 → g.data.PG = 0
  lossless : ∀ l ∈ t.branch, l.data.PT = -l.data.PF

/-- Every bus is connected; branches have status 0 or 1, those in service have an impedance. -/
structure AllOn (c : Index.Case Tables) : Prop where
  bus : ∀ b ∈ c.bus, b.typ ≠ 4
  status : ∀ l ∈ c.branch, l.status = 0 ∨ l.status = 1
  impedance : ∀ l ∈ c.branch, l.status = 1 → (l.data.r : ℂ) + Complex.I * l.data.x ≠ 0

/-- The distinct area numbers of the buses. -/
def areasOf (area : List ℝ → ℤ) (t : Index.Case Tables) : Finset ℤ := (t.bus.map fun b => area b.data.rest).toFinset

/-- The buses of an area. -/
def busesIn (area : List ℝ → ℤ) (t : Index.Case Tables) (a : ℤ) : List (BusRow BusD) := t.bus.filter fun b => area b.data.rest == a

/-- Reactive power in MVAr produced at the buses of an area by the line charging of branches in service that lead to another area. -/
def tieCharging (area : List ℝ → ℤ) (base : ℝ) (t : Index.Case Tables) (a : ℤ) : ℝ :=
  ((busesIn area t a).map fun b =>
    ((t.branch.filter fun l => l.f == b.num && l.status != 0 && !(busesIn area t a).any fun b' => b'.num == l.t).map fun l =>
      b.data.VM ^ 2 / (if l.data.tap = 0 then 1 else l.data.tap) ^ 2 * l.data.b * base / 2).sum +
    ((t.branch.filter fun l => l.t == b.num && l.status != 0 && !(busesIn area t a).any fun b' => b'.num == l.f).map fun l =>
      b.data.VM ^ 2 * l.data.b * base / 2).sum).sum

end

end Verif.Printpf
