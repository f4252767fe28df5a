import Verif.Opf.IfLemmas

/-! # Runs of a DC optimal power flow with interface flow limits -/

namespace Verif.Opf

open Verif.Index (BusRow GenRow BranchRow IsArgsort WF GenInService BranchInService Connected posOf orderOf brK brK_iff)
open Verif.OpfModel Verif.Pips Verif.Network Verif.Cost Verif.OpfCost Verif.NumPy
open Verif.Iflims (MapRow LimRow Row members ifidx)

noncomputable section

/-- The limits as the code pairs them, row `k` of the limits with the `k`-th interface number in increasing order, can be handed to the solver. -/
def IfSane (base : ℝ) (c : Index.Case Tables) (ifmap : List MapRow) (lims : List LimRow) : Prop :=
  ∀ (k : ℕ) id l, (ifidx lims)[k]? = some id → lims[k]? = some l → l.2.1 ≤ l.2.2 ∧ |l.2.1 / base - ifShift c (counted c ifmap) id| < 10 ^ 10 ∧
    |l.2.2 / base - ifShift c (counted c ifmap) id| < 10 ^ 10

theorem IfInputs.sane {base : ℝ} {c : Index.Case Tables} {ifmap : List MapRow} {lims : List LimRow} (hi : IfInputs base c ifmap lims) : IfSane base c ifmap lims := by
  intro k id l hk hl
  rw [Iflims.ifidx_sorted lims hi.sorted, List.getElem?_map, hl, Option.map_some, Option.some.injEq] at hk
  subst hk
  have := List.mem_of_getElem? hl
  exact ⟨hi.order l this, hi.low l this, hi.upp l this⟩

theorem ifOps_novars (ifmap : List MapRow) (lims : List LimRow) (nb ng nl : ℕ) (d : Case nb ng nl) (c' : Index.Case Tables) : varBlocks (ifOps ifmap lims d c') = [] := by
  unfold ifOps
  split <;> rfl

theorem ifBlk_row {nb : ℕ} {rows : List (Row (Fin nb))} {k : ℕ} {r : Row (Fin nb)} (hk : rows[k]? = some r) :
    LinBlk.lo (ifBlk rows) k = (r.lower : EReal) ∧ LinBlk.hi (ifBlk rows) k = (r.upper : EReal) ∧
    ∀ y : List ℝ, rowDot (ifBlk rows).A k y = ∑ j, r.A j * y.getD j 0 := by
  obtain ⟨hlt, he⟩ := List.getElem?_eq_some_iff.1 hk
  have hne : rows ≠ [] := by rintro rfl; simp at hlt
  refine ⟨?_, ?_, ?_⟩
  · simp [LinBlk.lo, ifBlk, hne, List.getD_eq_getElem?_getD, hk]
  · simp [LinBlk.hi, ifBlk, hne, List.getD_eq_getElem?_getD, hk]
  · intro y
    have := rowDot_matOf (fun (i : Fin rows.length) j => (rows.get i).A j) ⟨k, hlt⟩ y
    simp only [List.get_eq_getElem, he] at this
    exact this

/-- Flows of a dispatch in the caller's tables. -/
theorem feasible_flows {c R t : Index.Case Tables} {z : Off} {nb ng nl : ℕ} {d : Case nb ng nl} {u : Upd nb ng nl} {bp : Fin nb → ℕ} {gp : Fin ng → ℕ} {lp : Fin nl → ℕ}
    (B : Bridge c R z d u bp gp lp) {E : Econ} {θ : ℕ → ℝ} (F : DcFeasible d.base E c t θ) :
    Flows c t lp (fun k => d.base * dcFlow (d.branch k) (fun k => vaAt t (bp k))) := by
  have hcon := same_connected F
  have busT : ∀ k b0, c.bus[bp k]? = some b0 → vaAt t (bp k) = θ b0.num := by
    intro k b0 h0
    obtain ⟨b, hb, e⟩ := map_at F.bus _ _ h0
    have e1 : b.num = b0.num := by simpa [busInput] using congrArg BusRow.num e
    rw [← e1, F.angles b (List.mem_of_getElem? hb)]
    simp [vaAt, hb]
  have row : ∀ (i : ℕ) l0, c.branch[i]? = some l0 → ∃ l, t.branch[i]? = some l ∧ l.f = l0.f ∧ l.t = l0.t ∧ l.status = l0.status ∧ l.data.x = l0.data.x ∧ l.data.tap = l0.data.tap ∧
      l.data.shift = l0.data.shift ∧ (BranchInService t l ↔ BranchInService c l0) := by
    intro i l0 h0
    obtain ⟨l, hl, e⟩ := map_at F.branch _ _ h0
    have e1 : l.f = l0.f := by simpa [branchInput] using congrArg BranchRow.f e
    have e2 : l.t = l0.t := by simpa [branchInput] using congrArg BranchRow.t e
    have e3 : l.status = l0.status := by simpa [branchInput] using congrArg BranchRow.status e
    refine ⟨l, hl, e1, e2, e3, by simpa [branchInput] using congrArg (fun l => l.data.x) e, by simpa [branchInput] using congrArg (fun l => l.data.tap) e,
      by simpa [branchInput] using congrArg (fun l => l.data.shift) e, ?_⟩
    unfold BranchInService
    rw [e1, e2, e3, hcon, hcon]
  constructor
  · intro k
    obtain ⟨l0, h0, h1, -, ⟨bf, hbf, hnf⟩, ⟨bt, hbt, hnt⟩, hr, hx, hb', htap, hshift, hstat, -⟩ := B.branch k
    obtain ⟨l, hl, e1, e2, e3, e4, e5, e6, e7⟩ := row _ _ h0
    simp only [pfAt, hl]
    rw [(F.flows l (List.mem_of_getElem? hl) (e7.2 h1)).1]
    congr 1
    simp only [dcFlow, asBranch, hstat, hx, htap, hshift, e1, e2, e3, e4, e5, e6, busT _ _ hbf, busT _ _ hbt, hnf, hnt]
  · intro i l0 h0 hoff
    obtain ⟨l, hl, -, -, -, -, -, -, e7⟩ := row _ _ h0
    simp only [pfAt, hl]
    exact (F.brOff l (List.mem_of_getElem? hl) fun hh => hoff (e7.1 hh)).1

/-- Flows of a run in the returned tables. -/
theorem run_flows {c R : Index.Case Tables} {nb ng nl : ℕ} {d : Case nb ng nl} {s : DcRes nb ng nl} {p : PostMu ng nl} {bp : Fin nb → ℕ} {gp : Fin ng → ℕ} {lp : Fin nl → ℕ}
    (B : Bridge c R opfOff d (dcUpd s p) bp gp lp) : Flows c R lp s.PF := by
  constructor
  · intro k
    obtain ⟨l0, -, -, h1, -⟩ := B.branch k
    simp [pfAt, h1, dcUpd]
  · intro i l h0 hoff
    simp [pfAt, B.brOff i l h0 hoff, opfOff]

section
variable {srt : List ℕ → List ℕ} (hs : IsArgsort srt) {base : ℝ} {c : Index.Case Tables} (h : WF c) (hin : DcInputs base c) (E : Econ) (hang : AngInputs E c)
  {ifmap : List MapRow} (hrows : MapRows c ifmap) {lims : List LimRow} (hst : ∀ l ∈ c.branch, l.status = 0 ∨ l.status = 1)

include hs h hrows hst in
theorem if_form' {c' : Index.Case Tables} {d : Case c'.bus.length c'.gen.length c'.branch.length} (he : Index.ext2int srt c = some c') (hd : readCase base c' = some d) :
    ∃ saved im rows, ifForm ifmap lims d c' = some (saved, im, rows) ∧ rows.length = (ifidx lims).length ∧
      (∀ (k : ℕ) id, (ifidx lims)[k]? = some id → ∃ l r, lims[k]? = some l ∧ rows[k]? = some r ∧
        r.lower = l.2.1 / base - ifShift c (counted c ifmap) id ∧ r.upper = l.2.2 / base - ifShift c (counted c ifmap) id) := by
  obtain ⟨c1, d1, he1, hd1, hw⟩ := bridge_exists hs base h
  rw [he] at he1; cases he1
  obtain ⟨r, hr⟩ := hw ⟨fun _ b => b, fun _ g => g, fun _ l => l⟩
  obtain ⟨bp, gp, lp, B, -, -, -, -, -, -, -, hlp⟩ := bridge_at hs h he hd _ hr opfOff
  obtain ⟨saved, im, rows, h1, h2, h3, -⟩ := if_form hs h hrows lims hst he B hlp
  refine ⟨saved, im, rows, h1, h2, fun k id hk => ?_⟩
  obtain ⟨l, r, e1, e2, e3, e4, -⟩ := h3 k id hk
  rw [readCase_base hd] at e3 e4
  exact ⟨l, r, e1, e2, e3, e4⟩

include hs h hin hang hrows hst in
theorem if_good (hsane : IfSane base c ifmap lims) :
    ∀ c' d, Index.ext2int srt c = some c' → readCase base c' = some d → Good (dcOps d ++ (ifSetup base E ifmap lims).extra d c') := by
  intro c' d he hd
  have g := econ_wellposed hs h hin E hang c' d he hd
  obtain ⟨saved, im, rows, h1, h2, h3⟩ := if_form' (lims := lims) hs h hrows hst he hd
  have e : (ifSetup base E ifmap lims).extra d c' = angOps E c'.bus.length c' ++ (pwlOps d.base (gcOf c') ++ [.addLin "iflims" (ifBlk rows).A (ifBlk rows).l (ifBlk rows).u (ifBlk rows).vs]) := by
    show angOps E _ c' ++ (pwlOps d.base _ ++ ifOps ifmap lims d c') = _
    unfold ifOps
    rw [h1]
  rw [e]
  refine block_good E c' (gcOf c') "iflims" (ifBlk rows) ?_ (by decide) ⟨by simp [ifBlk], ?_, Or.inr (by simp [ifBlk, matOf]), Or.inr (by simp [ifBlk, matOf])⟩ ?_
  · exact g
  · rw [econ_varBlocks]
    simp [ifBlk, matOf, eff, widthOf, OpfModel.size]
  · intro i hi
    have hi' : i < rows.length := hi
    obtain ⟨l, r, e1, e2, e3, e4⟩ := h3 i _ (List.getElem?_eq_getElem (by rw [← h2]; exact hi'))
    obtain ⟨b1, b2, -⟩ := ifBlk_row e2
    obtain ⟨s1, s2, s3⟩ := hsane i _ l (List.getElem?_eq_getElem (by rw [← h2]; exact hi')) e1
    rw [b1, b2]
    have hb := hin.pos
    refine sane_real ?_ ?_ ?_
    · rw [e3, e4]
      have := div_le_div_of_nonneg_right s1 hb.le
      linarith
    · rw [e3]; exact abs_lt.1 s2
    · rw [e4]; exact abs_lt.1 s3

include hs h hrows hst in
theorem if_runs : ∀ c' d, Index.ext2int srt c = some c' → readCase base c' = some d → ∃ m, OpfModel.run (dcOps d ++ (ifSetup base E ifmap lims).extra d c') = some m := by
  intro c' d he hd
  obtain ⟨saved, im, rows, h1, -⟩ := if_form' (lims := lims) hs h hrows hst he hd
  have e : (ifSetup base E ifmap lims).extra d c' = angOps E c'.bus.length c' ++ (pwlOps d.base (gcOf c') ++ [.addLin "iflims" (ifBlk rows).A (ifBlk rows).l (ifBlk rows).u (ifBlk rows).vs]) := by
    show angOps E _ c' ++ (pwlOps d.base _ ++ ifOps ifmap lims d c') = _
    unfold ifOps
    rw [h1]
  rw [e]
  exact block_runs E c' _ "iflims" (ifBlk rows) (readCase_valid hd E) (Or.inl rfl)

/-- What a run amounts to. -/
structure IfRun (srt : List ℕ → List ℕ) (bs : ℝ) (E : Econ) (ifmap : List MapRow) (lims : List LimRow) (o : Opt) (solve : AnySolver) (c : Index.Case Tables) (r : Ret) (out : IfOut)
    (c' : Index.Case Tables) (d : Case c'.bus.length c'.gen.length c'.branch.length) (m : Model) (s : DcRes c'.bus.length c'.gen.length c'.branch.length)
    (p : PostMu c'.gen.length c'.branch.length) (bp : Fin c'.bus.length → ℕ) (gp : Fin c'.gen.length → ℕ) (lp : Fin c'.branch.length → ℕ)
    (rows : List (Row (Fin c'.bus.length))) : Prop where
  add : AddRun srt bs E [.addLin "iflims" (ifBlk rows).A (ifBlk rows).l (ifBlk rows).u (ifBlk rows).vs] o solve c r c' d m s p bp gp lp
  len : rows.length = (ifidx lims).length
  pos : 0 < rows.length
  row : ∀ (k : ℕ) id, (ifidx lims)[k]? = some id → ∃ l r, lims[k]? = some l ∧ rows[k]? = some r ∧
      r.lower = l.2.1 / d.base - ifShift c (counted c ifmap) id ∧ r.upper = l.2.2 / d.base - ifShift c (counted c ifmap) id ∧
      ∀ (t : Index.Case Tables) (θ : Fin c'.bus.length → ℝ), Flows c t lp (fun k => d.base * dcFlow (d.branch k) θ) →
        d.base * (∑ j, r.A j * θ j + ifShift c (counted c ifmap) id) = ifFlow t (counted c ifmap) id
  P : out.P = (ifidx lims).map (ifFlow r.tables (counted c ifmap))
  mu_l : out.mu_l = (List.range rows.length).map fun k => s.mu_l (start (linBlocks (dcOps d ++ (angOps E c'.bus.length c' ++ (pwlOps d.base (gcOf c') ++
    [.addLin "iflims" (ifBlk rows).A (ifBlk rows).l (ifBlk rows).u (ifBlk rows).vs])))) "iflims" + k)
  mu_u : out.mu_u = (List.range rows.length).map fun k => s.mu_u (start (linBlocks (dcOps d ++ (angOps E c'.bus.length c' ++ (pwlOps d.base (gcOf c') ++
    [.addLin "iflims" (ifBlk rows).A (ifBlk rows).l (ifBlk rows).u (ifBlk rows).vs])))) "iflims" + k)

/-- Internal: the tables are those of `opfDc` with the setup. -/
theorem if_tables {srt : List ℕ → List ℕ} {base : ℝ} {E : Econ} {ifmap : List MapRow} {lims : List LimRow} {o : Opt} {solve : AnySolver} {c : Index.Case Tables} {r : Ret} {out : IfOut}
    (hrun : opfDcIflims srt base E ifmap lims o solve c = some (r, out)) : opfDc srt base (ifSetup base E ifmap lims) o solve c = some r := by
  unfold opfDcIflims at hrun
  simp only [Option.bind_eq_bind, Option.bind_eq_some_iff] at hrun
  obtain ⟨c', hc', d, hd, F, hF, m, hm, s, hs', out', hout, t, ht, e⟩ := hrun
  injection e with e
  obtain ⟨e1, e2⟩ := Prod.mk.inj e
  subst e1 e2
  unfold opfDc
  simp only [hc', hd, hm, Option.bind_eq_bind, Option.bind_some]
  show (dcopfSolver d m ((ifSetup base E ifmap lims).H c' m) ((ifSetup base E ifmap lims).C c' m) ((ifSetup base E ifmap lims).C0 c' m) o solve (E.x0 c' m)).bind _ = _
  rw [hs', Option.bind_some]
  show (Index.int2ext (write c' (dcUpd s (angPost E c' m s)))).bind _ = _
  rw [ht, Option.bind_some]

theorem if_i1 {E : Econ} {c' : Index.Case Tables} {d : Case c'.bus.length c'.gen.length c'.branch.length} {m : Model} {rows : List (Row (Fin c'.bus.length))}
    (hm : OpfModel.run (dcOps d ++ (angOps E c'.bus.length c' ++ (pwlOps d.base (gcOf c') ++ [.addLin "iflims" (ifBlk rows).A (ifBlk rows).l (ifBlk rows).u (ifBlk rows).vs]))) = some m)
    (g : Good (dcOps d ++ (angOps E c'.bus.length c' ++ (pwlOps d.base (gcOf c') ++ [.addLin "iflims" (ifBlk rows).A (ifBlk rows).l (ifBlk rows).u (ifBlk rows).vs])))) :
    m.lin.i1 "iflims" = some (start (linBlocks (dcOps d ++ (angOps E c'.bus.length c' ++ (pwlOps d.base (gcOf c') ++
      [.addLin "iflims" (ifBlk rows).A (ifBlk rows).l (ifBlk rows).u (ifBlk rows).vs])))) "iflims") := by
  have hln := (foldIdx_lookup (linBlocks (dcOps d ++ (angOps E c'.bus.length c' ++ (pwlOps d.base (gcOf c') ++
    [.addLin "iflims" (ifBlk rows).A (ifBlk rows).l (ifBlk rows).u (ifBlk rows).vs])))) (by rw [linBlocks_names]; exact g.linNames)).1
  rw [(Rep.run hm).lin, (hln "iflims" ?_).1]
  rw [linBlocks_names]
  simp [names, linBlks]

include hs h hrows hst in
theorem if_run (hgc : c.gencost.isSome) {o : Opt} {solve : AnySolver}
    (hgood : ∀ c' d, Index.ext2int srt c = some c' → readCase base c' = some d → Good (dcOps d ++ (ifSetup base E ifmap lims).extra d c'))
    {r : Ret} {out : IfOut} (hrun : opfDcIflims srt base E ifmap lims o solve c = some (r, out)) :
    ∃ c' d m s p bp gp lp rows, IfRun srt base E ifmap lims o solve c r out c' d m s p bp gp lp rows := by
  have htab := if_tables hrun
  obtain ⟨c', d, m, s, p, bp, gp, lp, R⟩ := add_run hs h hgc hgood (ifOps_novars ifmap lims) htab
  obtain ⟨saved, im, rows, h1, h2, h3, h4⟩ := if_form hs h hrows lims hst R.ext R.bridge R.lpos
  have hW : ifOps ifmap lims d c' = [.addLin "iflims" (ifBlk rows).A (ifBlk rows).l (ifBlk rows).u (ifBlk rows).vs] := by
    unfold ifOps; rw [h1]
  rw [hW] at R
  unfold opfDcIflims at hrun
  simp only [R.ext, R.read, h1, Option.bind_eq_bind, Option.bind_some] at hrun
  have e : (ifSetup base E ifmap lims).extra d c' = angOps E c'.bus.length c' ++ (pwlOps d.base (gcOf c') ++ [.addLin "iflims" (ifBlk rows).A (ifBlk rows).l (ifBlk rows).u (ifBlk rows).vs]) := by
    rw [← hW]; rfl
  rw [e, R.run, Option.bind_some] at hrun
  simp only [Option.bind_eq_some_iff] at hrun
  obtain ⟨s', hs', out', hout, t, ht, e⟩ := hrun
  injection e with e
  obtain ⟨e1, e2⟩ := Prod.mk.inj e
  subst e2
  have hw := dc_width R.run R.good
  simp only [ifSetup, addSetup, econSetup, dif_pos hw] at hs'
  have hb := R.base
  rw [← hb] at hs'
  have hs3 : some s' = some s := hs'.symm.trans R.sol
  cases hs3
  unfold ifResults at hout
  split_ifs at hout with hn
  simp only [h4 _ _ (run_flows R.bridge), if_i1 R.run R.good, Option.bind_eq_bind, Option.bind_some, Option.some.injEq] at hout
  subst hout
  exact ⟨c', d, m, s, p, bp, gp, lp, rows, R, h2, by omega, h3, rfl, by rw [h2], by rw [h2]⟩

end

end

end Verif.Opf
