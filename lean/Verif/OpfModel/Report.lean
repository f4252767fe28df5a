import Verif.OpfModel.Props

/-!
# Reporting of user cost values after an OPF (pypower/opf_execute.py:175-180)

Property C67 of `properties.jsonl`.
-/

namespace Verif.OpfModel

noncomputable section

/-- The loop over the cost blocks (opf_execute.py:178-180): `results['cost'][name] = om.compute_cost(results['x'], name)` for every non-empty
block in order.  `none`: an exception is raised. -/
def Model.reportCosts (m : Model) (x : Nat → ℝ) : List String → Option (List (String × ℝ))
  | [] => some []
  | nm :: rest =>
    if m.cost.getN (some nm) = 0 then m.reportCosts x rest
    else do
      let r ← m.computeCost x (some nm)
      let t ← r.2.reportCosts x rest
      some ((nm, r.1) :: t)

/-- The whole report (opf_execute.py:175-180). -/
def Model.costReport (m : Model) (x : Nat → ℝ) : Option (List (String × ℝ)) := m.reportCosts x m.cost.order

end

/-- Skipping empty blocks. -/
theorem report_skip (m : Model) (x : Nat → ℝ) (pre rest : List String) (h : ∀ v ∈ pre, m.cost.getN (some v) = 0) :
    m.reportCosts x (pre ++ rest) = m.reportCosts x rest := by
  induction pre with
  | nil => rfl
  | cons v pre ih =>
    rw [List.cons_append, Model.reportCosts, if_pos (h v (by simp))]
    exact ih fun w hw => h w (by simp [hw])

/-- Once the stored parameters have fewer rows than a later block ends at, the report raises. -/
theorem report_raises (m : Model) (x : Nat → ℝ) (P : Params) (hP : m.params = some P) (rest : List String)
    (hend : ∀ v ∈ rest, m.cost.getN (some v) ≠ 0 → ∃ i1 iN, m.cost.i1 v = some i1 ∧ m.cost.iN v = some iN ∧ P.nw < iN)
    (hex : ∃ v ∈ rest, m.cost.getN (some v) ≠ 0) : m.reportCosts x rest = none := by
  induction rest with
  | nil => obtain ⟨v, hv, _⟩ := hex; simp at hv
  | cons v rest ih =>
    rw [Model.reportCosts]
    by_cases hv : m.cost.getN (some v) = 0
    · rw [if_pos hv]
      refine ih (fun w hw => hend w (by simp [hw])) ?_
      obtain ⟨w, hw, hw'⟩ := hex
      rcases List.mem_cons.1 hw with rfl | hw
      · exact absurd hv hw'
      · exact ⟨w, hw, hw'⟩
    · rw [if_neg hv]
      obtain ⟨i1, iN, h1, h2, h3⟩ := hend v (by simp) hv
      have : m.computeCost x (some v) = none := by
        simp only [Model.computeCost, Model.getCostParams, hP, Option.bind_eq_bind, Option.bind_some, hv, if_false, h1, h2]
        rw [if_neg (by omega)]
        rfl
      rw [this]; rfl

/-- **C67 (negation).**  Whenever two (or more) non-empty user cost blocks were added under distinct names, reporting their values
after the OPF raises an exception: querying the first block has cut the stored parameters down to that block. -/
theorem C67_negation (h : List Op) (m m1 : Model) (hm : run h = some m) (hb : m.buildCostParams = some m1)
    (pre mid post : List (String × Nat)) (b1 b2 : String × Nat) (hbs : costBlocks h = pre ++ b1 :: (mid ++ b2 :: post))
    (hnd : (names (costBlocks h)).Nodup) (hpre : ∀ b ∈ pre, b.2 = 0) (h1 : 0 < b1.2) (h2 : 0 < b2.2) (x : Nat → ℝ) :
    m1.costReport x = none := by
  have r := Rep.run hm
  obtain ⟨P, rfl, hP⟩ := build_params_nw m m1 hb
  rw [r.cost, (foldIdx_basic _).1] at hP
  have hlook := (foldIdx_lookup (costBlocks h) hnd).1
  have hord : m.cost.order = names (costBlocks h) := by rw [r.cost]; exact (foldIdx_basic _).2.2
  have hN : ∀ b ∈ costBlocks h, m.cost.getN (some b.1) = b.2 := by
    intro b hbm
    obtain ⟨_, _, e⟩ := hlook b.1 (List.mem_map.2 ⟨b, hbm, rfl⟩)
    rw [Idx.getN, r.cost, e, Option.getD_some, size_of_mem _ hnd _ hbm]
  have hmem1 : b1 ∈ costBlocks h := by rw [hbs]; simp
  have hmem2 : b2 ∈ costBlocks h := by rw [hbs]; simp
  obtain ⟨i1, e1, n1⟩ := hlook b1.1 (List.mem_map.2 ⟨b1, hmem1, rfl⟩)
  have hs1 : start (costBlocks h) b1.1 = 0 := by
    have hnot : b1.1 ∉ names pre := by
      intro hc
      rw [hbs, names, List.map_append, List.nodup_append] at hnd
      exact hnd.2.2 _ hc _ (by simp) rfl
    rw [hbs, start_append_of_not_mem _ _ _ hnot]
    have : total pre = 0 := by
      unfold total
      rw [List.sum_eq_zero_iff_forall_eq_nat]
      intro a ha
      obtain ⟨b, hb, rfl⟩ := List.mem_map.1 ha
      exact hpre b hb
    rw [this]; simp [start, total]
  have hz1 := size_of_mem _ hnd _ hmem1
  rw [hs1] at i1 e1
  rw [hz1] at n1 e1
  have hle := start_size_le (costBlocks h) b1.1 (List.mem_map.2 ⟨b1, hmem1, rfl⟩)
  rw [hs1, hz1] at hle
  unfold Model.costReport
  show Model.reportCosts _ x m.cost.order = none
  rw [hord, hbs, names, List.map_append, List.map_cons]
  rw [report_skip]
  · rw [Model.reportCosts]
    have hg : ({ m with params := some P } : Model).cost.getN (some b1.1) ≠ 0 := by
      show m.cost.getN (some b1.1) ≠ 0
      rw [hN b1 hmem1]; omega
    rw [if_neg hg]
    have hc : ({ m with params := some P } : Model).computeCost x (some b1.1) =
        some ((P.slice 0 (0 + b1.2)).f x, { m with params := some (P.slice 0 (0 + b1.2)) }) := by
      have e1' : m.cost.iN b1.1 = some (0 + b1.2) := by rw [r.cost]; exact e1
      have i1' : m.cost.i1 b1.1 = some 0 := by rw [r.cost]; exact i1
      simp only [Model.computeCost, Model.getCostParams, Option.bind_eq_bind, Option.bind_some, if_neg hg, i1', e1']
      rw [if_pos (by omega)]
      simp [Params.slice]; omega
    rw [hc]
    simp only [Option.bind_eq_bind, Option.bind_some]
    rw [report_raises _ x (P.slice 0 (0 + b1.2)) rfl]
    · rfl
    · intro v hv hv0
      obtain ⟨b, hb, rfl⟩ := List.mem_map.1 hv
      have hbm : b ∈ costBlocks h := by rw [hbs]; simp at hb ⊢; tauto
      obtain ⟨i, l, e⟩ := hlook b.1 (List.mem_map.2 ⟨b, hbm, rfl⟩)
      refine ⟨_, _, by show m.cost.i1 _ = _; rw [r.cost]; exact i, by show m.cost.iN _ = _; rw [r.cost]; exact l, ?_⟩
      have hz := size_of_mem _ hnd _ hbm
      have hb0 : b.2 ≠ 0 := by
        have : m.cost.getN (some b.1) ≠ 0 := hv0
        rwa [hN b hbm] at this
      have hst : b1.2 ≤ start (costBlocks h) b.1 := by
        have hnot : b.1 ∉ names (pre ++ [b1]) := by
          intro hc
          have h' : costBlocks h = (pre ++ [b1]) ++ (mid ++ b2 :: post) := by rw [hbs]; simp
          rw [h', names, List.map_append, List.nodup_append] at hnd
          exact hnd.2.2 _ hc _ (List.mem_map.2 ⟨b, hb, rfl⟩) rfl
        have h' : costBlocks h = (pre ++ [b1]) ++ (mid ++ b2 :: post) := by rw [hbs]; simp
        rw [h', start_append_of_not_mem _ _ _ hnot, total_append]
        simp [total]; omega
      rw [hz]
      simp [Params.slice]; omega
    · refine ⟨b2.1, by simp, ?_⟩
      show m.cost.getN (some b2.1) ≠ 0
      rw [hN b2 hmem2]; omega
  · intro v hv
    obtain ⟨b, hb, rfl⟩ := List.mem_map.1 hv
    show m.cost.getN (some b.1) = 0
    rw [hN b (by rw [hbs]; simp [hb])]
    exact hpre b hb

/-- **C67 (partial).**  With exactly one non-empty user cost block (any number of empty ones) the report succeeds and gives that block's
documented cost function at the solution, for non-negative dead zones.  Missing: several non-empty blocks, where the code raises (`C67_negation`). -/
theorem C67_partial (h : List Op) (m m1 : Model) (hm : run h = some m) (hb : m.buildCostParams = some m1)
    (pre post : List (String × Nat)) (b1 : String × Nat) (hbs : costBlocks h = pre ++ b1 :: post)
    (hnd : (names (costBlocks h)).Nodup) (hpre : ∀ b ∈ pre, b.2 = 0) (hpost : ∀ b ∈ post, b.2 = 0) (h1 : 0 < b1.2) (x : Nat → ℝ)
    (P : Params) (hP : m1.params = some P) (hkk : ∀ i, i < P.nw → 0 ≤ P.kk i) :
    m1.costReport x = some [(b1.1, docF P x)] := by
  have r := Rep.run hm
  obtain ⟨P', rfl, hP'⟩ := build_params_nw m m1 hb
  simp only [Option.some.injEq] at hP
  subst hP
  rw [r.cost, (foldIdx_basic _).1] at hP'
  have hlook := (foldIdx_lookup (costBlocks h) hnd).1
  have hord : m.cost.order = names (costBlocks h) := by rw [r.cost]; exact (foldIdx_basic _).2.2
  have hN : ∀ b ∈ costBlocks h, m.cost.getN (some b.1) = b.2 := by
    intro b hbm
    obtain ⟨_, _, e⟩ := hlook b.1 (List.mem_map.2 ⟨b, hbm, rfl⟩)
    rw [Idx.getN, r.cost, e, Option.getD_some, size_of_mem _ hnd _ hbm]
  have hmem1 : b1 ∈ costBlocks h := by rw [hbs]; simp
  obtain ⟨i1, e1, n1⟩ := hlook b1.1 (List.mem_map.2 ⟨b1, hmem1, rfl⟩)
  have z0 : ∀ l : List (String × Nat), (∀ b ∈ l, b.2 = 0) → total l = 0 := by
    intro l hl
    unfold total
    rw [List.sum_eq_zero_iff_forall_eq_nat]
    intro a ha
    obtain ⟨b, hb, rfl⟩ := List.mem_map.1 ha
    exact hl b hb
  have hs1 : start (costBlocks h) b1.1 = 0 := by
    have hnot : b1.1 ∉ names pre := by
      intro hc
      rw [hbs, names, List.map_append, List.nodup_append] at hnd
      exact hnd.2.2 _ hc _ (by simp) rfl
    rw [hbs, start_append_of_not_mem _ _ _ hnot, z0 pre hpre]
    simp [start, total]
  have htot : total (costBlocks h) = b1.2 := by
    rw [hbs, total_append, z0 pre hpre, ← List.singleton_append, total_append, z0 post hpost]
    simp [total]
  have hz1 := size_of_mem _ hnd _ hmem1
  rw [hs1] at i1 e1
  rw [hz1] at n1 e1
  have hval := (C45_value ({ m with params := some P' } : Model) P' rfl hkk x).2 b1.1 0 b1.2
    (by show m.cost.N _ = _; rw [r.cost]; exact n1) (by show m.cost.i1 _ = _; rw [r.cost]; exact i1)
    (by show m.cost.iN _ = _; rw [r.cost]; exact e1) h1 (by omega)
  obtain ⟨m', hm'⟩ := hval
  have hsl : docF (costRows P' 0 b1.2) x = docF P' x := by
    have : costRows P' 0 b1.2 = P' := by
      have hnw : b1.2 = P'.nw := by omega
      cases P'
      simp only [costRows] at hnw ⊢
      simp [hnw]
    rw [this]
  have hcost : m'.cost = m.cost := by
    simp only [Model.computeCost, Option.bind_eq_bind, Option.bind_eq_some_iff] at hm'
    obtain ⟨a, ha, hm'⟩ := hm'
    split at hm'
    · simp at hm'
    · have : a.2 = m' := by simpa using (congrArg Prod.snd (Option.some.inj hm'))
      rw [← this]
      simp only [Model.getCostParams, Option.bind_eq_bind, Option.bind_some] at ha
      split at ha
      · rw [← Option.some.inj ha]
      · simp only [Option.bind_eq_some_iff] at ha
        obtain ⟨_, _, _, _, ha⟩ := ha
        split at ha
        · rw [← Option.some.inj ha]
        · simp at ha
  unfold Model.costReport
  show Model.reportCosts _ x m.cost.order = _
  rw [hord, hbs, names, List.map_append, List.map_cons, report_skip]
  · rw [Model.reportCosts, if_neg (by show m.cost.getN _ ≠ 0; rw [hN b1 hmem1]; omega), hm']
    simp only [Option.bind_eq_bind, Option.bind_some]
    have : m'.reportCosts x (post.map Prod.fst) = some [] := by
      have := report_skip m' x (post.map Prod.fst) [] (by
        intro v hv
        obtain ⟨b, hb, rfl⟩ := List.mem_map.1 hv
        rw [hcost, hN b (by rw [hbs]; simp [hb])]
        exact hpost b hb)
      rw [List.append_nil] at this
      rw [this]; rfl
    rw [this, hsl]
    rfl
  · intro v hv
    obtain ⟨b, hb, rfl⟩ := List.mem_map.1 hv
    show m.cost.getN (some b.1) = 0
    rw [hN b (by rw [hbs]; simp [hb])]
    exact hpre b hb

/-- The hypotheses of `C67_negation` are met by `exH3` (blocks "c" and "d"), those of `C67_partial` by `exH` (block "c"). -/
example : costBlocks exH3 = [] ++ ("c", 1) :: ([] ++ ("d", 1) :: []) ∧ (names (costBlocks exH3)).Nodup ∧ (∃ m, run exH3 = some m) := by
  refine ⟨by simp [exH3, costBlocks, costBlks, exCP], by simp [exH3, costBlocks, costBlks, names], ?_⟩
  simp only [run, exH3, List.foldlM_cons, List.foldlM_nil, step, Model.addCosts, storeVs, Model.resolve, Model.addVars, Idx.add,
    Model.init, Idx.empty]
  simp [exCP, badH, badLen, Model.width, Dict.set]

example : costBlocks exH = [] ++ ("c", 1) :: [] := by simp [exH, costBlocks, costBlks, exCP]

/-- And building the parameters succeeds for `exH3`. -/
example (m : Model) (hm : run exH3 = some m) : ∃ m1, m.buildCostParams = some m1 := by
  obtain ⟨P, h, _⟩ := C43_partial exH3 m hm (by simp [exH3, varBlocks, names]) (by simp [exH3, costBlks, names])
    (by
      intro b hb
      simp [exH3, costBlks] at hb
      rcases hb with rfl | rfl <;> constructor <;> simp [eff, widthOf, exH3, varBlocks, size, exCP])
    (Or.inl (by simp [exH3, costBlks, names]))
  exact ⟨_, h⟩

end Verif.OpfModel
