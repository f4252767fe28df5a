import Verif.Runpf.TableSpec

/-! Specification of C134: cases on the same network with the same net injections. -/

namespace Verif.Runpf

open Verif.Index (BusRow GenRow BranchRow)
open Verif.Opf (Tables BusD GenD BrD)

/-- Power put into the network at a bus by the case as given: outputs of generators in service less demand and shunt, in MW. -/
noncomputable def injection (c : Index.Case Tables) (b : BusRow BusD) : ℝ := genOnAt c b.num GenD.PG - b.data.PD - b.data.GS

/-- The same network (bus numbers and types, branches in service with their reactances, taps and phase shifts), the same slack buses at the same angles, and the same net
injection at every other bus. The generator tables may be altogether different. -/
structure SameInjections (c1 c2 : Index.Case Tables) : Prop where
  bus : c2.bus.map (fun b => (b.num, b.typ)) = c1.bus.map (fun b => (b.num, b.typ))
  branch : c2.branch.map (fun l => (l.f, l.t, l.status, l.data.x, l.data.tap, l.data.shift)) = c1.branch.map (fun l => (l.f, l.t, l.status, l.data.x, l.data.tap, l.data.shift))
  slack : ∀ i, IsSlack c2 i ↔ IsSlack c1 i
  angle : ∀ (i : ℕ) b1 b2, c1.bus[i]? = some b1 → c2.bus[i]? = some b2 → IsSlack c1 i → b2.data.VA = b1.data.VA
  power : ∀ (i : ℕ) b1 b2, c1.bus[i]? = some b1 → c2.bus[i]? = some b2 → b1.typ ≠ 4 → ¬ IsSlack c1 i → injection c2 b2 = injection c1 b1

end Verif.Runpf
