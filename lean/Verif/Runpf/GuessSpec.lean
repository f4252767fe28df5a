import Verif.Runpf.TableSpec

/-!
# C139: stored results that an AC power flow does not start from
-/

namespace Verif.Runpf

open Verif.Index (GenInService)
open Verif.Opf (Tables)

/-- Two cases that differ only in stored results which are not the start of an AC power flow: the flows of branches, the outputs of generators out of service, the voltage
magnitudes (positive) of buses held at a set point, the reactive outputs of generators there, and the active output of a generator that is alone at a slack bus. -/
structure OtherGuess (c1 c2 : Index.Case Tables) : Prop where
  busData : c1.bus.map pfBusInput = c2.bus.map pfBusInput
  genData : c1.gen.map pfGenInput = c2.gen.map pfGenInput
  branchData : c1.branch.map pfBranchInput = c2.branch.map pfBranchInput
  gencost : c1.gencost = c2.gencost
  A : c1.A = c2.A
  N : c1.N = c2.N
  angle : ∀ (i : ℕ) b1 b2, c1.bus[i]? = some b1 → c2.bus[i]? = some b2 → b2.data.VA = b1.data.VA
  magnitude : ∀ (i : ℕ) b1 b2, c1.bus[i]? = some b1 → c2.bus[i]? = some b2 →
    b2.data.VM = b1.data.VM ∨ IsControlled c1 i ∧ 0 < b1.data.VM ∧ 0 < b2.data.VM
  active : ∀ (i : ℕ) g1 g2, c1.gen[i]? = some g1 → c2.gen[i]? = some g2 → GenInService c1 g1 → g2.data.PG = g1.data.PG ∨
    (∃ (k : ℕ) (b : _), c1.bus[k]? = some b ∧ b.num = g1.bus ∧ IsSlack c1 k) ∧ ∀ (j : ℕ) g, c1.gen[j]? = some g → GenInService c1 g → g.bus = g1.bus → j = i
  reactive : ∀ (i : ℕ) g1 g2, c1.gen[i]? = some g1 → c2.gen[i]? = some g2 → GenInService c1 g1 → g2.data.QG = g1.data.QG ∨
    ∃ (k : ℕ) (b : _), c1.bus[k]? = some b ∧ b.num = g1.bus ∧ IsControlled c1 k

end Verif.Runpf
