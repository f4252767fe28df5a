import Verif.Runpf.TurnSpec
import Verif.Runpf.TableLemmas
import Verif.Index.Blocks

/-! Lemmas for C136: network matrices when branches are entered in the opposite direction. -/

namespace Verif.Network

open Matrix ComplexConjugate

variable {B L L' : Type} [Fintype B] [Fintype L] [Fintype L'] [DecidableEq B] [DecidableEq L] [DecidableEq L']

/-- A branch entered in the opposite direction. -/
structure Turn (a b : Branch B) : Prop where
  f : b.f = a.t
  t : b.t = a.f
  r : b.r = a.r * tapRatio a ^ 2
  x : b.x = a.x * tapRatio a ^ 2
  bc : b.b = a.b / tapRatio a ^ 2
  tap : tapRatio b = (tapRatio a)⁻¹
  shift : b.shift = -a.shift
  stat : b.stat = a.stat

section
variable {a b : Branch B} (h : Turn a b)
include h

theorem Turn.Ys : Network.Ys b = Network.Ys a / (tapRatio a : ℂ) ^ 2 := by
  have ht : (tapRatio a : ℂ) ≠ 0 := by exact_mod_cast tapRatio_ne a
  unfold Network.Ys
  rw [h.stat, h.r, h.x]
  push_cast
  rw [show (a.r : ℂ) * (tapRatio a : ℂ) ^ 2 + Complex.I * ((a.x : ℂ) * (tapRatio a : ℂ) ^ 2) = ((a.r : ℂ) + Complex.I * a.x) * (tapRatio a : ℂ) ^ 2 by ring, div_mul_eq_div_div]

theorem Turn.ctap : Network.ctap b = (conj (Network.ctap a)) / (tapRatio a : ℂ) ^ 2 := by
  have ht : (tapRatio a : ℂ) ≠ 0 := by exact_mod_cast tapRatio_ne a
  unfold Network.ctap
  rw [h.tap, h.shift, map_mul, Complex.conj_ofReal, ← Complex.exp_conj]
  have : (starRingEnd ℂ) (Complex.I * (Real.pi : ℂ) / 180 * (a.shift : ℂ)) = Complex.I * (Real.pi : ℂ) / 180 * ((-a.shift : ℝ) : ℂ) := by
    simp [map_div₀, Complex.conj_ofReal, show (starRingEnd ℂ) 180 = 180 from Complex.conj_ofNat 180, neg_div]
  rw [this]
  push_cast
  field_simp

omit h [Fintype B] [DecidableEq B] in
theorem ctap_norm (a : Branch B) : Network.ctap a * conj (Network.ctap a) = (tapRatio a : ℂ) ^ 2 := by
  unfold Network.ctap
  rw [map_mul, Complex.conj_ofReal, ← Complex.exp_conj]
  have : (starRingEnd ℂ) (Complex.I * (Real.pi : ℂ) / 180 * (a.shift : ℂ)) = -(Complex.I * (Real.pi : ℂ) / 180 * (a.shift : ℂ)) := by
    simp [map_div₀, Complex.conj_ofReal, show (starRingEnd ℂ) 180 = 180 from Complex.conj_ofNat 180, neg_div]
  rw [this, Complex.exp_neg]
  have := Complex.exp_ne_zero (Complex.I * (Real.pi : ℂ) / 180 * (a.shift : ℂ))
  field_simp

theorem Turn.Ytt : Network.Ytt b = Network.Yff a := by
  have ht : (tapRatio a : ℂ) ≠ 0 := by exact_mod_cast tapRatio_ne a
  unfold Network.Yff
  rw [ctap_norm]
  unfold Network.Ytt Network.Bc
  rw [h.Ys, h.stat, h.bc]
  push_cast
  field_simp

theorem Turn.Yff : Network.Yff b = Network.Ytt a := by
  have ht : (tapRatio a : ℂ) ≠ 0 := by exact_mod_cast tapRatio_ne a
  unfold Network.Yff
  rw [h.Ytt, ctap_norm, h.tap]
  unfold Network.Yff
  rw [ctap_norm]
  push_cast
  field_simp

theorem Turn.Yft : Network.Yft b = Network.Ytf a := by
  have ht : (tapRatio a : ℂ) ≠ 0 := by exact_mod_cast tapRatio_ne a
  have hc := ctap_ne a
  unfold Network.Yft Network.Ytf
  rw [h.Ys, h.ctap, map_div₀, Complex.conj_conj, map_pow, Complex.conj_ofReal]
  field_simp

theorem Turn.Ytf : Network.Ytf b = Network.Yft a := by
  have ht : (tapRatio a : ℂ) ≠ 0 := by exact_mod_cast tapRatio_ne a
  have hc : conj (Network.ctap a) ≠ 0 := by
    intro h0
    exact ctap_ne a (by simpa using h0)
  unfold Network.Yft Network.Ytf
  rw [h.Ys, h.ctap]
  field_simp

theorem Turn.bdc : Network.bdc b = Network.bdc a := by
  have ht := tapRatio_ne a
  unfold Network.bdc
  rw [h.stat, h.x, h.tap]
  by_cases hx : a.x = 0
  · simp [hx]
  · field_simp

end

section
variable {b1 : L → Branch B} {b2 : L' → Branch B} (e : L ≃ L') (h : ∀ l, b2 (e l) = b1 l ∨ Turn (b1 l) (b2 (e l)))
include h

theorem Ybus_turn (base : ℝ) (bus : B → Bus) : Ybus base bus b2 = Ybus base bus b1 := by
  ext i j
  rw [Ybus_apply, Ybus_apply, ← Finset.sum_add_distrib, ← Finset.sum_add_distrib, ← Equiv.sum_comp e]
  congr 1
  refine Finset.sum_congr rfl fun l _ => ?_
  rcases h l with hl | hl
  · rw [hl]
  · rw [hl.f, hl.t, hl.Yff, hl.Ytt, hl.Yft, hl.Ytf]
    split_ifs <;> ring

theorem Pbusinj_turn : Pbusinj b2 = Pbusinj b1 := by
  funext i
  unfold Pbusinj
  rw [CftT_mulVec, CftT_mulVec, ← Finset.sum_sub_distrib, ← Finset.sum_sub_distrib, ← Equiv.sum_comp e]
  refine Finset.sum_congr rfl fun l _ => ?_
  unfold Pfinj
  rcases h l with hl | hl
  · rw [hl]
  · rw [hl.f, hl.t, hl.bdc, hl.shift]
    split_ifs <;> ring

theorem Bbus_turn : Bbus b2 = Bbus b1 := by
  have key : ∀ θ, Bbus b2 *ᵥ θ = Bbus b1 *ᵥ θ := by
    intro θ
    funext i
    unfold Bbus
    rw [← Matrix.mulVec_mulVec, ← Matrix.mulVec_mulVec, CftT_mulVec, CftT_mulVec, ← Finset.sum_sub_distrib, ← Finset.sum_sub_distrib, ← Equiv.sum_comp e]
    refine Finset.sum_congr rfl fun l _ => ?_
    rw [Bf_mulVec, Bf_mulVec]
    rcases h l with hl | hl
    · rw [hl]
    · rw [hl.f, hl.t, hl.bdc]
      split_ifs <;> ring
  exact Matrix.mulVec_injective (funext key)

/-- The matrices of the fast decoupled methods, when the turned branches have ratio 1. -/
theorem Bp_turn (h1 : ∀ l, b2 (e l) = b1 l ∨ tapRatio (b1 l) = 1) (base : ℝ) (bus : B → Bus) (alg : ℕ) : Bp base bus b2 alg = Bp base bus b1 alg := by
  unfold Bp
  rw [Ybus_turn (b1 := fun l => { b1 l with b := 0, tap := 1, r := if alg = 2 then 0 else (b1 l).r })
    (b2 := fun l => { b2 l with b := 0, tap := 1, r := if alg = 2 then 0 else (b2 l).r }) e]
  intro l
  rcases h l with hl | hl
  · left; rw [hl]
  · rcases h1 l with h1 | h1
    · left; rw [h1]
    right
    have hr := hl.r
    have hx := hl.x
    rw [h1] at hr hx
    refine ⟨hl.f, hl.t, ?_, ?_, ?_, ?_, hl.shift, hl.stat⟩ <;> simp [tapRatio, hr, hx]

theorem Bpp_turn (h1 : ∀ l, b2 (e l) = b1 l ∨ tapRatio (b1 l) = 1) (base : ℝ) (bus : B → Bus) (alg : ℕ) : Bpp base bus b2 alg = Bpp base bus b1 alg := by
  unfold Bpp
  rw [Ybus_turn (b1 := fun l => { b1 l with shift := 0, r := if alg = 3 then 0 else (b1 l).r })
    (b2 := fun l => { b2 l with shift := 0, r := if alg = 3 then 0 else (b2 l).r }) e]
  intro l
  rcases h l with hl | hl
  · left; rw [hl]
  · rcases h1 l with h1 | h1
    · left; rw [h1]
    right
    have hr := hl.r
    have hx := hl.x
    have hb := hl.bc
    have e1 : ∀ (y : Branch B) (u v : ℝ), tapRatio { y with shift := u, r := v } = tapRatio y := fun _ _ _ => rfl
    rw [h1] at hr hx hb
    refine ⟨hl.f, hl.t, ?_, ?_, ?_, hl.tap, ?_, hl.stat⟩ <;> simp [e1, h1, hr, hx, hb]

end

end Verif.Network

namespace Verif.Runpf

open Verif.Network Verif.Pfsoln Verif.Solvers
open Verif.Index (BusRow GenRow BranchRow IsArgsort WF GenInService BranchInService Connected orderOf posOf)
open Verif.Opf (Tables BusD GenD BrD Upd write zeroOff readCase)

noncomputable section

variable {B L L' : Type} [Fintype B] [Fintype L] [Fintype L'] [DecidableEq B] [DecidableEq L] [DecidableEq L'] {ng : ℕ}

/-- The case with another branch table. -/
def withBranch (p : Case B L ng) (br : L' → Branch B) : Case B L' ng where
  baseMVA := p.baseMVA
  bus := p.bus
  VM := p.VM
  VA := p.VA
  gen := p.gen
  VG := p.VG
  branch := br
  ref := p.ref
  pv := p.pv
  pq := p.pq

/-- The flows over another branch table. -/
def reflow (base : ℝ) (br : L' → Branch B) (o : Out B L ng) : Out B L' ng where
  V := o.V
  VM := o.VM
  VA := o.VA
  PG := o.PG
  QG := o.QG
  Sf := brFrom base br (Yf br) o.V
  St := brTo base br (Yt br) o.V
  success := o.success

def reflowR (base : ℝ) (br : L' → Branch B) : Result B L ng → Result B L' ng
  | .ok o => .ok (reflow base br o)
  | .nan s => .nan s

theorem solution_flows {EPS : ℝ} {p : Case B L ng} {V : B → ℂ} {s : Bool} {o : Out B L ng} (h : solution EPS p V s = some o) :
    o.Sf = brFrom p.baseMVA p.branch (Yf p.branch) o.V ∧ o.St = brTo p.baseMVA p.branch (Yt p.branch) o.V := by
  unfold solution at h
  rw [Option.map_eq_some_iff] at h
  obtain ⟨PG, -, rfl⟩ := h
  exact ⟨rfl, rfl⟩

theorem runAC_flows {EPS viol : ℝ} {qlim : Bool} {s : Solver B} {p : Case B L ng} {o : Out B L ng} (h : runAC EPS viol qlim s p = some (.ok o)) :
    o.Sf = brFrom p.baseMVA p.branch (Yf p.branch) o.V ∧ o.St = brTo p.baseMVA p.branch (Yt p.branch) o.V := by
  unfold runAC at h
  split at h
  · simp at h
  · rw [Option.bind_eq_some_iff] at h
    obtain ⟨r, -, h⟩ := h
    unfold finish at h
    split at h
    · simp at h
    · rw [Option.bind_eq_some_iff] at h
      obtain ⟨o', h1, h2⟩ := h
      split at h2
      · simp at h2
      · simp only [Option.some.injEq, Result.ok.injEq] at h2
        subst h2
        exact solution_flows h1

/-- A run depends on the branch table through `Ybus` and the flows only. -/
theorem runAC_with (EPS viol : ℝ) (qlim : Bool) (s : Solver B) (p : Case B L ng) (br : L' → Branch B)
    (hY : Ybus p.baseMVA p.bus br = Ybus p.baseMVA p.bus p.branch) :
    runAC EPS viol qlim s (withBranch p br) = (runAC EPS viol qlim s p).map (reflowR p.baseMVA br) := by
  unfold runAC
  rw [show initialV (withBranch p br) = initialV p from rfl]
  cases initialV p with
  | none => rfl
  | some V0 =>
  simp only
  rw [show makeSbus (withBranch p br).baseMVA (withBranch p br).bus (fun g => ((withBranch p br).gen g).toGen) = makeSbus p.baseMVA p.bus (fun g => (p.gen g).toGen) from rfl]
  cases s (makeSbus p.baseMVA p.bus fun g => (p.gen g).toGen) V0 with
  | none => rfl
  | some r =>
  simp only [Option.bind_some]
  unfold finish
  cases r.V with
  | none => rfl
  | some V =>
  simp only
  have hsol : solution EPS (withBranch p br) V r.converged = (solution EPS p V r.converged).map (reflow p.baseMVA br) := by
    unfold solution
    rw [show Ybus (withBranch p br).baseMVA (withBranch p br).bus (withBranch p br).branch = Ybus p.baseMVA p.bus p.branch from hY]
    show (newPG p.baseMVA p.bus p.gen _ V p.ref fun g => (p.gen g).PG).map _ = _
    cases newPG p.baseMVA p.bus p.gen (Ybus p.baseMVA p.bus p.branch) V p.ref fun g => (p.gen g).PG with
    | none => rfl
    | some PG => rfl
  rw [hsol]
  cases solution EPS p V r.converged with
  | none => rfl
  | some o =>
  simp only [Option.map_some, Option.bind_some]
  rw [show violation viol (withBranch p br) (reflow p.baseMVA br o) = violation viol p o from rfl]
  split <;> rfl

theorem brFrom_turn {base : ℝ} {b1 : L → Branch B} {b2 : L' → Branch B} {l : L} {l' : L'} (h : Turn (b1 l) (b2 l')) (V : B → ℂ) :
    brFrom base b2 (Yf b2) V l' = brTo base b1 (Yt b1) V l := by
  unfold brFrom brTo
  rw [Yf_mulVec, Yt_mulVec, h.stat, h.f, h.t, h.Yff, h.Yft, add_comm]

theorem brTo_turn {base : ℝ} {b1 : L → Branch B} {b2 : L' → Branch B} {l : L} {l' : L'} (h : Turn (b1 l) (b2 l')) (V : B → ℂ) :
    brTo base b2 (Yt b2) V l' = brFrom base b1 (Yf b1) V l := by
  unfold brFrom brTo
  rw [Yf_mulVec, Yt_mulVec, h.stat, h.f, h.t, h.Ytt, h.Ytf, add_comm]

theorem brFrom_same {base : ℝ} {b1 : L → Branch B} {b2 : L' → Branch B} {l : L} {l' : L'} (h : b2 l' = b1 l) (V : B → ℂ) :
    brFrom base b2 (Yf b2) V l' = brFrom base b1 (Yf b1) V l := by
  unfold brFrom
  rw [Yf_mulVec, Yf_mulVec, h]

theorem brTo_same {base : ℝ} {b1 : L → Branch B} {b2 : L' → Branch B} {l : L} {l' : L'} (h : b2 l' = b1 l) (V : B → ℂ) :
    brTo base b2 (Yt b2) V l' = brTo base b1 (Yt b1) V l := by
  unfold brTo
  rw [Yt_mulVec, Yt_mulVec, h]

theorem dcPF_turn {base : ℝ} {b1 : L → Branch B} {b2 : L' → Branch B} {l : L} {l' : L'} (h : Turn (b1 l) (b2 l')) (Va : B → ℝ) :
    dcPF base b2 Va l' = -dcPF base b1 Va l := by
  unfold dcPF Pfinj
  rw [Bf_mulVec, Bf_mulVec, h.f, h.t, h.bdc, h.shift]
  ring

theorem dcPF_same {base : ℝ} {b1 : L → Branch B} {b2 : L' → Branch B} {l : L} {l' : L'} (h : b2 l' = b1 l) (Va : B → ℝ) :
    dcPF base b2 Va l' = dcPF base b1 Va l := by
  unfold dcPF Pfinj
  rw [Bf_mulVec, Bf_mulVec, h]

/-! ### Tables -/

theorem SameLine.on {c1 c2 : Index.Case Tables} (hb : c2.bus = c1.bus) {l l' : BranchRow BrD} (h : SameLine l l' ∨ TurnedLine l l') : BranchInService c2 l' ↔ BranchInService c1 l := by
  unfold BranchInService Connected
  rw [hb]
  rcases h with h | h
  · rw [h.status, h.f, h.t]
  · rw [h.status, h.f, h.t]
    exact and_congr_right fun _ => and_comm

section
variable {c1 c2 : Index.Case Tables} (h : Turned c1 c2)
include h

theorem Turned.at {i : ℕ} {l1 : BranchRow BrD} (h1 : c1.branch[i]? = some l1) : ∃ l2, c2.branch[i]? = some l2 ∧ (SameLine l1 l2 ∨ TurnedLine l1 l2) := by
  obtain ⟨hi, rfl⟩ := List.getElem?_eq_some_iff.1 h1
  have hl := h.branch.length_eq
  have hi2 : i < c2.branch.length := hl ▸ hi
  refine ⟨c2.branch[i], List.getElem?_eq_getElem hi2, ?_⟩
  exact (List.forall₂_iff_get.1 h.branch).2 i hi hi2

theorem Turned.mask : c2.branch.map (Index.brK c2.bus) = c1.branch.map (Index.brK c1.bus) := by
  refine List.ext_getElem (by simp [h.branch.length_eq]) fun i hi1 hi2 => ?_
  have hi : i < c1.branch.length := by simpa using hi2
  obtain ⟨l2, e1, e2⟩ := h.at (List.getElem?_eq_getElem hi)
  obtain ⟨hj, rfl⟩ := List.getElem?_eq_some_iff.1 e1
  simp only [List.getElem_map]
  rw [Bool.eq_iff_iff, Index.brK_iff, Index.brK_iff]
  exact SameLine.on h.bus e2

theorem Turned.i2e : Index.i2eOf c2 = Index.i2eOf c1 := by unfold Index.i2eOf; rw [h.bus]

omit h in
/-- Row `k` of the internal branch table. -/
theorem brI_at {c : Index.Case Tables} {k i : ℕ} {l : BranchRow BrD} (hk : (NumPy.find (c.branch.map (Index.brK c.bus)))[k]? = some i) (hl : c.branch[i]? = some l) :
    (Index.brI c)[k]? = some { l with f := (Index.i2eOf c).idxOf l.f, t := (Index.i2eOf c).idxOf l.t } := by
  unfold Index.brI
  rw [List.map_map, List.getElem?_map, Index.filter_get, hk]
  simp only [Option.bind_some, hl, Option.map_some]
  rfl

omit h in
theorem brI_length (c : Index.Case Tables) : (Index.brI c).length = (NumPy.find (c.branch.map (Index.brK c.bus))).length := by
  unfold Index.brI
  rw [List.length_map, List.length_map, NumPy.find_map_length]

/-- The internal tables: the same buses and generators, and each branch the same or turned. -/
theorem Turned.internal {srt : List ℕ → List ℕ} (hs : IsArgsort srt) (w1 : WF c1) (w2 : WF c2) {c' : Index.Case Tables} (he : Index.ext2int srt c1 = some c') :
    c'.branch = Index.brI c1 ∧ ∃ ar gc A N o, Index.ext2int srt c2 = some { c' with branch := Index.brI c2, areas := ar, gencost := gc, A := A, N := N, order := o } := by
  obtain ⟨gen, gc, A, N, h1, h2, -⟩ := Index.ext2int_result hs w1
  obtain ⟨gen2, gc2, A2, N2, k1, k2, k3, k4, k5⟩ := Index.ext2int_result hs w2
  rw [he] at h1
  cases h1
  have hg : Index.genU c2 = Index.genU c1 := by unfold Index.genU; rw [h.gen, h.bus, h.i2e]
  rw [hg, h2] at k2
  cases k2
  refine ⟨rfl, (Index.areas' c2).map (fun _ => Index.arI c2), gc2, A2, N2, some (Index.orderOf srt c2), ?_⟩
  rw [k1]
  unfold Index.intCase
  rw [show Index.busI c2 = Index.busI c1 by unfold Index.busI; rw [h.bus, h.i2e]]

end

/-- What is read from the internal tables. -/
theorem readPf_with {base : ℝ} {c' : Index.Case Tables} {br : List (BranchRow BrD)} {ar gc A N o}
    {d : Opf.Case c'.bus.length c'.gen.length c'.branch.length} (hd : readCase base c' = some d)
    {d2 : Opf.Case c'.bus.length c'.gen.length br.length} (hd2 : readCase base { c' with branch := br, areas := ar, gencost := gc, A := A, N := N, order := o } = some d2) :
    readPf base { c' with branch := br, areas := ar, gencost := gc, A := A, N := N, order := o } = (readPf base c').map (fun p => withBranch p d2.branch) ∧
    (∀ p, readPf base c' = some p → p.branch = d.branch) ∧
    (∀ k : Fin c'.branch.length, (d.branch k).f.val = c'.branch[k].f ∧ (d.branch k).t.val = c'.branch[k].t ∧ (d.branch k).r = c'.branch[k].data.r ∧
      (d.branch k).x = c'.branch[k].data.x ∧ (d.branch k).b = c'.branch[k].data.b ∧ (d.branch k).tap = c'.branch[k].data.tap ∧
      (d.branch k).shift = c'.branch[k].data.shift ∧ (d.branch k).stat = c'.branch[k].status) ∧
    (∀ k : Fin br.length, (d2.branch k).f.val = br[k].f ∧ (d2.branch k).t.val = br[k].t ∧ (d2.branch k).r = br[k].data.r ∧
      (d2.branch k).x = br[k].data.x ∧ (d2.branch k).b = br[k].data.b ∧ (d2.branch k).tap = br[k].data.tap ∧
      (d2.branch k).shift = br[k].data.shift ∧ (d2.branch k).stat = br[k].status) := by
  have hd' := hd
  have hd2' := hd2
  unfold readCase at hd hd2
  split at hd
  case isFalse => simp at hd
  split at hd2
  case isFalse => simp at hd2
  injection hd with hd
  injection hd2 with hd2
  refine ⟨?_, ?_, ?_, ?_⟩
  · unfold readPf
    rw [hd', hd2']
    simp only [Option.bind_eq_bind, Option.bind_some]
    cases Bustypes.bustypes (c'.bus.map (·.typ)) (c'.gen.map fun g => ⟨g.bus, g.status⟩) with
    | none => rfl
    | some t =>
      simp only [Option.bind_some, Option.map_some, Option.some.injEq]
      rw [← hd, ← hd2]
      rfl
  · intro p hp
    unfold readPf at hp
    rw [hd'] at hp
    simp only [Option.bind_eq_bind, Option.bind_some, Option.bind_eq_some_iff] at hp
    obtain ⟨t, -, hp⟩ := hp
    injection hp with hp
    rw [← hp]
  · intro k
    rw [← hd]
    exact ⟨rfl, rfl, rfl, rfl, rfl, rfl, rfl, rfl⟩
  · intro k
    rw [← hd2]
    exact ⟨rfl, rfl, rfl, rfl, rfl, rfl, rfl, rfl⟩

end

end Verif.Runpf
