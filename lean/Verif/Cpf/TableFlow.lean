import Verif.Cpf.TableRun

/-!
# From the power flow at a loading to the statements about the caller's tables
-/

open Matrix ComplexConjugate

namespace Verif.Cpf

open Verif.Opf (Tables readCase Upd write Off zeroOff Bridge BusD GenD BrD acBalanceP acBalanceQ rowPhasor)
open Verif.Index (BusRow GenRow BranchRow IsArgsort WF GenInService BranchInService Connected posOf)
open Verif.Runpf (Case Out readPf initialV pfOff PfBridge HasGenOn IsControlled IsSlack runAC Guarantee Writes solution genOnAt)
open Verif.Network Verif.Solvers Verif.Pfsoln

theorem SameRows.genIn {c1 c2 : Index.Case Tables} (h : SameRows c1 c2) {g1 g2 : GenRow GenD} (e : netGen g2 = netGen g1) : GenInService c2 g2 ↔ GenInService c1 g1 := by
  simp only [netGen, Prod.mk.injEq] at e
  constructor
  · rintro ⟨h1, h2⟩
    exact ⟨by rw [← e.2]; exact h1, by rw [← e.1]; exact h.symm.connected h2⟩
  · rintro ⟨h1, h2⟩
    exact ⟨by rw [e.2]; exact h1, by rw [e.1]; exact h.connected h2⟩

/-- Sums of a column that the two cases share over the generators in service. -/
theorem genOnAt_at (lam : ℝ) {cb ct : Index.Case Tables} (hN : SameNet cb ct) (n : ℕ) (f : GenD → ℝ) (hf : ∀ g t, f (genAt lam ct g t).data = f t.data) :
    genOnAt (atLoading lam cb ct) n f = genOnAt ct n f := by
  have hX := at_rows lam hN
  have key : (atLoading lam cb ct).gen.map (fun g => (netGen g, f g.data)) = ct.gen.map fun g => (netGen g, f g.data) :=
    zip_map (fun a b => by rw [genAt_key, hf]) (map_len hN.gen).symm
  unfold genOnAt
  congr 1
  classical
  refine map_filter (fun g : GenRow GenD => (netGen g, f g.data)) key _ _ _ _
    (fun x => (x.1.1 == n) && decide (0 < x.1.2 ∧ Connected ct x.1.1)) (fun x => x.2) (fun g => ?_) (fun g => ?_) (fun _ => rfl) (fun _ => rfl)
  · rw [Bool.eq_iff_iff]
    simp only [Bool.and_eq_true, decide_eq_true_eq]
    exact and_congr_right fun _ => hX.genIn rfl
  · rw [Bool.eq_iff_iff]
    simp only [Bool.and_eq_true, decide_eq_true_eq]
    exact Iff.rfl

section
variable {base lam tol EPS : ℝ} {cb ct R : Index.Case Tables} {nb ng nl : ℕ} {pX : Case (Fin nb) (Fin nl) ng} {uX : Upd nb ng nl}
  {sX : Out (Fin nb) (Fin nl) ng} {bp : Fin nb → ℕ} {gp : Fin ng → ℕ} {lp : Fin nl → ℕ} {solve : Runpf.Solver (Fin nb)}

theorem flowAt_of (hwt : WF ct) (hN : SameNet cb ct) (hb : 0 < base) (BX : PfBridge (atLoading lam cb ct) R base pX uX bp gp lp) (W : Writes uX sX)
    (hr : runAC EPS 0 false solve pX = some (.ok sX)) (hG : Guarantee solve (Ybus pX.baseMVA pX.bus pX.branch) pX.pv pX.pq fun _ _ => tol) (hok : sX.success = true) :
    FlowAt tol EPS base lam cb ct R := by
  have hw := at_wf lam hN hwt
  have hX := at_rows lam hN
  have hBX : SameRows cb (atLoading lam cb ct) := ⟨hX.bus.trans hN.rows.bus, hX.gen.trans hN.rows.gen⟩
  have hbal := Runpf.core_balance hw W BX hr (e := fun _ => tol) hG hb hok
  have hreact := Runpf.core_reactive hw W BX hr (e := fun _ => tol) hG hb hok
  have hvolt := Runpf.core_voltages W BX hr (e := fun _ => tol) hG
  obtain ⟨sg, hdisp⟩ := Runpf.core_dispatch W BX hr
  obtain ⟨dX, D, -⟩ := BX.bridge
  refine ⟨?_, ⟨sg, ?_⟩, ?_, ?_, ?_, ?_, ?_, Runpf.core_flows hw W BX hr⟩
  · intro i b0 t0 b h0 ht hR h4
    have hx : (atLoading lam cb ct).bus[i]? = some (busAt lam b0 t0) := zip_at h0 ht
    obtain ⟨x, hx', -, -, h6, -⟩ := D.bus_at hR
    rw [hx] at hx'; cases hx'
    have hk := busAt_key lam b0 t0
    simp only [Prod.mk.injEq] at hk
    obtain ⟨k, -, rfl⟩ := h6 (by rw [hk.2]; exact h4)
    obtain ⟨-, -, w3, w4, -⟩ := W.bus k (busAt lam b0 t0).data
    dsimp only
    rw [w3, w4]
    unfold busAt
    rw [if_neg h4]
    exact ⟨rfl, rfl⟩
  · intro j g0 t0 g h0 ht hR hin hne
    have hx : (atLoading lam cb ct).gen[j]? = some (genAt lam ct g0 t0) := zip_at h0 ht
    have hk := genAt_key lam ct g0 t0
    have hval : (genAt lam ct g0 t0).data.PG = between lam g0.data.PG t0.data.PG := by
      unfold genAt; rw [if_pos hin]
    obtain ⟨i, b, h1, h2, h3, h4⟩ := hdisp j g _ hR hx ((hX.genIn hk).2 hin) (by rw [hval]; exact hne)
    obtain ⟨y, hy, e⟩ := map_at hBX.bus.symm h1
    simp only [Prod.mk.injEq] at e
    refine ⟨i, y, hy, hBX.symm.slack h2, ?_, h4⟩
    obtain ⟨t', ht', e'⟩ := map_at hN.gen h0
    rw [ht] at ht'; cases ht'
    simp only [netGen, Prod.mk.injEq] at e' hk
    rw [e.1, h3, hk.1, e'.1]
  · intro i b hR h4 hs
    exact (hbal i b hR h4).1 fun hh => hs (hBX.symm.slack hh)
  · intro i b hR h4 hs
    exact (hbal i b hR h4).2.1 (hBX.slack hs)
  · intro i b hR h4 hs
    exact (hbal i b hR h4).2.2 fun hh => hs (hBX.symm.hasGenOn hh)
  · intro i b hR hg hE hle
    have := (hreact i b hR (hBX.hasGenOn hg)).2 hE
    rw [genOnAt_at lam hN _ GenD.QMIN (fun g t => by unfold genAt; split_ifs <;> rfl),
      genOnAt_at lam hN _ GenD.QMAX (fun g t => by unfold genAt; split_ifs <;> rfl)] at this
    exact this hle
  · intro i b b0 hR h0 hc
    obtain ⟨x, hx, e⟩ := map_at hBX.bus h0
    obtain ⟨b1, t0, h1, ht, hxe⟩ := zip_get hx
    rw [h0] at h1; cases h1
    obtain ⟨g, hg, hin, hgn, hvm, hsl⟩ := hvolt i b x hR hx (hBX.controlled hc)
    obtain ⟨j, hj⟩ := List.getElem?_of_mem hg
    obtain ⟨g0, gt, hg0, hgt, rfl⟩ := zip_get hj
    have hk := genAt_key lam ct g0 gt
    have hint := (hX.genIn hk).1 hin
    have hvg : (genAt lam ct g0 gt).data.VG = g0.data.VG := by unfold genAt; rw [if_pos hint]
    obtain ⟨t', ht', e'⟩ := map_at hN.gen hg0
    rw [hgt] at ht'; cases ht'
    have e'' := hk.trans e'
    have ht4 : t0.typ ≠ 4 := by
      obtain ⟨b', hb', h23, -⟩ := hc
      rw [h0] at hb'; cases hb'
      obtain ⟨t', ht', et⟩ := map_at hN.rows.bus h0
      rw [ht] at ht'; cases ht'
      simp only [Prod.mk.injEq] at et
      rw [et.2]; omega
    refine ⟨g0, List.mem_of_getElem? hg0, (hN.rows.genIn e').1 hint, ?_, by rw [hvm, hvg], ?_⟩
    · simp only [netGen, Prod.mk.injEq] at e''
      rw [← e''.1, hgn]
    · intro h5 h6 h7
      have hvmx : x.data.VM = b0.data.VM ∧ x.data.VA = b0.data.VA := by
        rw [hxe]; unfold busAt; rw [if_neg ht4]; exact ⟨rfl, rfl⟩
      rw [hsl (hBX.slack h5) (by rw [hvmx.1]; exact h6) (by rw [hvg]; exact h7), hvg]
      unfold rowPhasor
      dsimp only
      rw [hvmx.2]

/-- The voltages in the rows of the connected buses. -/
theorem phasor_of (BX : PfBridge (atLoading lam cb ct) R base pX uX bp gp lp) (W : Writes uX sX) (hr : runAC EPS 0 false solve pX = some (.ok sX)) (k : Fin nb) :
    ∃ b, R.bus[bp k]? = some b ∧ b.typ ≠ 4 ∧ rowPhasor b = sX.V k := by
  obtain ⟨dX, D, -⟩ := BX.bridge
  obtain ⟨b, h1, h2, h3, -⟩ := D.bus k
  exact ⟨_, h3, h2, (Runpf.polarRow W hr k b).1⟩

end

/-- A column of the curve. -/
theorem column_of {srt : List ℕ → List ℕ} (hs : IsArgsort srt) {cb ct b c R : Index.Case Tables} (hwb : WF cb) (hwt : WF ct) (hN : SameNet cb ct)
    (heb : Index.ext2int srt cb = some b) (hec : Index.ext2int srt ct = some c)
    (hlen : R.bus.length = ct.bus.length) (htyp : ∀ (i : ℕ) x t, R.bus[i]? = some x → ct.bus[i]? = some t → x.typ = t.typ) {V : Fin b.bus.length → ℂ}
    {bp : Fin b.bus.length → ℕ} (hbp : ∀ k : Fin b.bus.length, (posOf srt cb .bus)[(k : ℕ)]? = some (bp k))
    (hV : ∀ k, ∃ x, R.bus[bp k]? = some x ∧ x.typ ≠ 4 ∧ rowPhasor x = V k) {col : List (Option ℂ)} (hc : column cb.bus.length c V = some col) : ColumnOf R col := by
  obtain ⟨b2, ob, pos, _, hb2, _, _, hcb, hpos, _⟩ := Index.ext2int_corr hs hwb
  rw [heb] at hb2; cases hb2
  obtain ⟨c2, o, pos', _, hc2, ho, _, hcc, hpos', hoe⟩ := Index.ext2int_corr hs hwt
  rw [hec] at hc2; cases hc2
  subst hpos hpos'
  have hlen' : ct.bus.length = cb.bus.length := map_len hN.bus
  have hon : o.busOn = posOf srt cb .bus := by
    rw [hoe, ← hN.rows.posBus]; rfl
  have hlb : b.bus.length = (posOf srt cb .bus).length := hcb.busLen
  unfold column at hc
  rw [ho, Option.bind_eq_bind, Option.bind_some, hon] at hc
  have hin : ∀ i ∈ posOf srt cb .bus, i < cb.bus.length := by
    intro i hi
    obtain ⟨k, hk⟩ := List.getElem?_of_mem hi
    obtain ⟨x, hx, -⟩ := hcb.busRow k i hk
    exact (List.getElem?_eq_some_iff.1 hx).1
  obtain ⟨r, h1, h2, h3, h4⟩ := NumPy.scatter_spec (List.replicate cb.bus.length (none : Option ℂ)) (posOf srt cb .bus) (List.ofFn fun k => some (V k))
    (hcb.busOrder.imp fun h => ne_of_lt h) (by simpa using hin) (by simpa using hlb)
  rw [hc] at h1; cases h1
  refine ⟨by rw [h2, hlen, hlen']; simp, fun i x hx => ?_⟩
  have hi : i < ct.bus.length := by rw [← hlen]; exact (List.getElem?_eq_some_iff.1 hx).1
  have ht := htyp i x _ hx (List.getElem?_eq_getElem hi)
  have hmem : i ∈ posOf srt cb .bus ↔ x.typ ≠ 4 := by
    rw [ht, ← hN.rows.posBus]
    exact hcc.busIn i _ (List.getElem?_eq_getElem hi)
  refine ⟨fun h => ?_, fun h => ?_⟩
  · rw [h4 i (fun hh => (hmem.1 hh) h), List.getElem?_replicate, if_pos (by omega)]
  · obtain ⟨k, hk⟩ := List.getElem?_of_mem (hmem.2 h)
    have hkl : k < b.bus.length := by rw [hlb]; exact (List.getElem?_eq_some_iff.1 hk).1
    have e : bp ⟨k, hkl⟩ = i := Option.some_injective _ ((hbp ⟨k, hkl⟩).symm.trans hk)
    obtain ⟨y, hy, -, hyv⟩ := hV ⟨k, hkl⟩
    rw [e, hx] at hy; cases hy
    rw [h3 k i hk, hyv, List.getElem?_ofFn, dif_pos hkl]

end Verif.Cpf
