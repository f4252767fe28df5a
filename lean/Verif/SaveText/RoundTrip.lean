import Verif.SaveText.TableLemmas

/-!
# Lemmas for the round trip of a case
-/

namespace Verif.SaveText

open CaseIO

/-! ### The file name -/

theorem goodName_ident {root : List Char} (h : GoodName root) : IsIdent (basename root) := by
  obtain ⟨⟨c, s, h1, h2, h3⟩, h4, _⟩ := h
  exact ⟨⟨c, s, h1, by simpa [identStart] using h2, fun d hd => by simpa [identChar] using h3 d hd⟩, h4⟩

theorem drop_py (root : List Char) : (root ++ ".py".toList).dropLast.dropLast.dropLast = root := by
  have : root ++ ".py".toList = root ++ ['.'] ++ ['p'] ++ ['y'] := by
    rw [show ".py".toList = ['.', 'p', 'y'] from rfl]
    simp
  rw [this, List.dropLast_concat, List.dropLast_concat, List.dropLast_concat]

/-- Loading by the name that `savecase` returns. -/
theorem load_py {fs : Files} {root text : List Char} (h : GoodName root) (hf : fs (root ++ ".py".toList) = some text) :
    loadcase fs (root ++ ".py".toList) = loadText root text := by
  obtain ⟨⟨c, s, h1, h2, h3⟩, _, _⟩ := h
  unfold loadcase
  rw [if_pos (List.suffix_append _ _), drop_py, hf, if_neg]
  · rfl
  · rw [h1, List.all_cons]
    have : c ≠ '.' := by
      rintro rfl
      revert h2
      decide
    simp [this]

theorem suffix_py {root l r : List Char} (h : GoodName root) (hr : ∀ c ∈ r, c ≠ '/') (hd : ∃ c ∈ r, c.isAlphanum = false ∧ c ≠ '_') (e : root = l ++ r) : False := by
  obtain ⟨⟨c, s, h1, h2, h3⟩, _, _⟩ := h
  obtain ⟨d, hd1, hd2, hd3⟩ := hd
  have hm : d ∈ basename root := by
    rw [e, basename, List.rtakeWhile, List.reverse_append, List.mem_reverse, List.takeWhile_append_of_pos]
    · exact List.mem_append_left _ (List.mem_reverse.2 hd1)
    · intro a ha
      simpa using hr a (List.mem_reverse.1 ha)
  rw [h1] at hm
  rcases List.mem_cons.1 hm with rfl | hm
  · rcases h2 with h2 | h2
    · simp [Char.isAlphanum, h2] at hd2
    · exact hd3 h2
  · rcases h3 d hm with h | h
    · rw [h] at hd2
      simp at hd2
    · exact hd3 h

/-- Loading by the name without extension. -/
theorem load_root {fs : Files} {root text : List Char} (h : GoodName root) (hf : fs (root ++ ".py".toList) = some text) (hm : fs (root ++ ".mat".toList) = none) :
    loadcase fs root = loadText root text := by
  unfold loadcase
  rw [if_neg, if_neg, hf]
  · rfl
  · rintro (⟨l, hl⟩ | h')
    · exact suffix_py h (r := ".mat".toList) (by decide) ⟨'.', by decide, by decide, by decide⟩ hl.symm
    · rw [hm] at h'
      simp at h'
  · rintro ⟨l, hl⟩
    exact suffix_py h (r := ".py".toList) (by decide) ⟨'.', by decide, by decide, by decide⟩ hl.symm

/-- The root of a name given with or without extension. -/
theorem saveRoot_root {root : List Char} (h : GoodName root) : saveRoot root = (root, true) ∧ saveRoot (root ++ ".py".toList) = (root, true) := by
  constructor
  · unfold saveRoot
    rw [if_neg, if_neg]
    · rintro ⟨_, l, hl⟩
      exact suffix_py h (r := ".mat".toList) (by decide) ⟨'.', by decide, by decide, by decide⟩ hl.symm
    · rintro ⟨_, l, hl⟩
      exact suffix_py h (r := ".py".toList) (by decide) ⟨'.', by decide, by decide, by decide⟩ hl.symm
  · unfold saveRoot
    have hne : root ≠ [] := by
      rintro rfl
      obtain ⟨⟨c, s, h1, _⟩, _⟩ := h
      simp [basename, List.rtakeWhile] at h1
    rw [if_pos ⟨by simp, List.suffix_append _ _⟩, drop_py, if_neg hne]

/-! ### What a case prints -/

theorem bus_prints {c : SaveCase} (h : Shaped c) : ∃ fs, Describes [0, 1, 6, 10] 13 fs ∧ fs.length = busCols c.bus.cols ∧ busCols c.bus.cols ≤ c.bus.cols ∧
    saveBus c.bus = some (c.bus.rows.map fun r => fs.zip (r.take (busCols c.bus.cols))) := by
  have hb := h.bus
  unfold busCols saveBus
  split
  · exact ⟨_, describes_bus.1, rfl, hb, format_table (n := 13) rfl h.busRect hb⟩
  · exact ⟨_, describes_bus.2, rfl, by omega, format_table (n := 17) rfl h.busRect (by omega)⟩

theorem gen_prints {c : SaveCase} (h : Shaped c) : ∃ fs, Describes [0, 7] 21 fs ∧ fs.length = genCols c.gen.cols ∧ genCols c.gen.cols ≤ c.gen.cols ∧
    saveGen c.gen = some (c.gen.rows.map fun r => fs.zip (r.take (genCols c.gen.cols))) := by
  have hb := h.gen
  unfold genCols saveGen
  split
  · exact ⟨_, describes_gen.1, rfl, hb, format_table (n := 21) rfl h.genRect hb⟩
  · exact ⟨_, describes_gen.2, rfl, by omega, format_table (n := 25) rfl h.genRect (by omega)⟩

theorem branch_prints {c : SaveCase} (h : Shaped c) : ∃ fs, Describes [0, 1, 10] 13 fs ∧ fs.length = branchCols c.branch.cols ∧ branchCols c.branch.cols ≤ c.branch.cols ∧
    saveBranch c.branch = some (c.branch.rows.map fun r => fs.zip (r.take (branchCols c.branch.cols))) := by
  obtain ⟨h1, h2, h3⟩ := h.branch
  unfold branchCols saveBranch
  split
  · exact ⟨_, describes_branch.1, rfl, h1, format_table (n := 13) rfl h.branchRect h1⟩
  · split
    · exact ⟨_, describes_branch.2.1, rfl, by omega, format_table (n := 17) rfl h.branchRect (by omega)⟩
    · exact ⟨_, describes_branch.2.2, rfl, by omega, format_table (n := 21) rfl h.branchRect (by omega)⟩

theorem areas_prints {c : SaveCase} (h : Shaped c) : areasPrs c.areas = some (match c.areas with
    | some t => if t.rows = [] then none else some (t.rows.map fun r => [Fmt.d, Fmt.d].zip (r.take 2))
    | none => none) := by
  unfold areasPrs
  cases ha : c.areas with
  | none => rfl
  | some t =>
    obtain ⟨h1, h2⟩ := h.areas t ha
    dsimp only
    split
    · rfl
    · rw [format_table (fs := [.d, .d]) (n := 2) rfl h1 h2]
      rfl

theorem natOf_nat (k : ℕ) : natOf (.fin k) = some k := by
  simp [natOf]

theorem costColumns_eq {rows : List (CostRow Num)} {n : ℕ} (h1 : ∀ r ∈ rows, (if r.pwl then 2 * r.ncost else r.ncost) ≤ n)
    (h2 : ∃ r ∈ rows, (if r.pwl then 2 * r.ncost else r.ncost) = n) : costColumns rows = n := by
  have key : ∀ (rows : List (CostRow Num)) (m : ℕ), (∀ r ∈ rows, (if r.pwl then 2 * r.ncost else r.ncost) ≤ n) → m ≤ n →
      (m = n ∨ ∃ r ∈ rows, (if r.pwl then 2 * r.ncost else r.ncost) = n) →
      rows.foldl (fun m r => max m (if r.pwl then 2 * r.ncost else r.ncost)) m = n := by
    intro rows
    induction rows with
    | nil =>
      intro m _ _ h
      rcases h with rfl | ⟨r, hr, _⟩
      · rfl
      · simp at hr
    | cons r rows ih =>
      intro m ha hm h
      have hr := ha r List.mem_cons_self
      rw [List.foldl_cons]
      refine ih _ (fun r hr => ha r (List.mem_cons_of_mem _ hr)) (max_le hm hr) ?_
      rcases h with rfl | ⟨r', hr', he⟩
      · exact Or.inl (max_eq_left hr)
      · rcases List.mem_cons.1 hr' with rfl | hr'
        · exact Or.inl (by rw [he]; exact max_eq_right hm)
        · exact Or.inr ⟨r', hr', he⟩
  exact key rows 0 h1 (Nat.zero_le _) (Or.inr h2)

theorem mapAll_of {α β : Type} {f : α → Option β} {g : α → β} {l : List α} (h : ∀ a ∈ l, f a = some (g a)) : mapAll f l = some (l.map g) := by
  induction l with
  | nil => rfl
  | cons a l ih => rw [mapAll_cons, h a List.mem_cons_self, ih fun a ha => h a (List.mem_cons_of_mem _ ha)]; rfl

/-- The cost row that a row of the table is. -/
def costOf (r : List Num) : CostRow Num :=
  ⟨r[0]? = some (.fin 1), match r[3]? with
    | some n => (natOf n).getD 0
    | none => 0, r⟩

theorem cost_prints {t : Table Num} (hr : t.Rect) (h : CostShape t) : ∃ n, t.cols = n + 4 ∧
    costRows t = some (t.rows.map fun r => ([Fmt.d, Fmt.g9, Fmt.g9, Fmt.d] ++ List.replicate n Fmt.g9).zip (r.take t.cols)) := by
  obtain ⟨h1, r0, hr0, k0, hk0, h0⟩ := h
  have hcol : 4 ≤ t.cols := by rcases h0 with ⟨_, h⟩ | ⟨_, h⟩ <;> omega
  obtain ⟨n, hn⟩ : ∃ n, t.cols = n + 4 := ⟨t.cols - 4, by omega⟩
  have hrow : ∀ r ∈ t.rows, costRow r = some (costOf r) ∧ (if (costOf r).pwl then 2 * (costOf r).ncost else (costOf r).ncost) ≤ n := by
    intro r hm
    obtain ⟨k, hk, hc⟩ := h1 r hm
    rcases hc with ⟨hm1, hc⟩ | ⟨hm2, hc⟩
    · simp only [costRow, costOf, hm1, hk, natOf_nat, Option.bind_eq_bind, Option.bind_some, if_true, Option.getD_some, decide_true, true_and]
      omega
    · have : ¬ (Num.fin 2 = Num.fin 1) := by
        intro h
        injection h with h
        norm_num at h
      simp only [costRow, costOf, hm2, hk, natOf_nat, Option.bind_eq_bind, Option.bind_some, if_true, Option.getD_some, Option.some.injEq, this, if_false, decide_false, Bool.false_eq_true, true_and]
      omega
  have hcols : costColumns (t.rows.map costOf) = n := by
    refine costColumns_eq (fun r hm => ?_) ⟨costOf r0, List.mem_map_of_mem hr0, ?_⟩
    · obtain ⟨r', hr', rfl⟩ := List.mem_map.1 hm
      exact (hrow r' hr').2
    · rcases h0 with ⟨hm1, hc⟩ | ⟨hm2, hc⟩
      · simp only [costOf, hm1, hk0, natOf_nat, Option.getD_some, decide_true, if_true]
        omega
      · have : ¬ (Num.fin 2 = Num.fin 1) := by
          intro h
          injection h with h
          norm_num at h
        simp only [costOf, hm2, hk0, natOf_nat, Option.getD_some, Option.some.injEq, this, decide_false, Bool.false_eq_true, if_false]
        omega
  refine ⟨n, hn, ?_⟩
  unfold costRows
  rw [mapAll_of fun r hm => (hrow r hm).1, Option.bind_some, saveCost, hcols]
  refine formatRows_eq.2 ⟨fun r hm => ?_, ?_⟩
  · obtain ⟨cr, hcr, rfl⟩ := List.mem_map.1 hm
    obtain ⟨r, hm', rfl⟩ := List.mem_map.1 hcr
    have := hr r hm'
    simp only [id_eq, costOf, this, hn, List.length_append, List.length_cons, List.length_nil, List.length_replicate]
    omega
  · rw [List.map_map, List.map_map]
    refine List.map_congr_left fun r hm => ?_
    have : r.take t.cols = r := List.take_of_length_le (le_of_eq (hr r hm))
    rw [this]
    rfl

theorem user_prints {o : Option UserMat} (h : o = none ∨ o = some (.dense 0)) : userText o = some () := by
  rcases h with rfl | rfl <;> rfl

/-- What a vector of user variables prints. -/
def vecPrs : Option (List Num) → Option Prs
  | some [x] => some [[(.g9, x)]]
  | _ => none

theorem vec_prints {z : Option (List Num)} (h : ∀ l, z = some l → l.length ≤ 1) : zPrs z = some (vecPrs z) := by
  rcases z with _ | ⟨_ | ⟨a, _ | ⟨b, l⟩⟩⟩
  · rfl
  · rfl
  · rfl
  · have := h _ rfl
    simp at this

/-- What a cost table prints. -/
theorem costOpt_prints {c : SaveCase} (h : Shaped c) : ∃ o, costPrs c.gencost = some o ∧
    ((c.gencost = none ∨ ∃ t, c.gencost = some t ∧ t.rows = []) ∧ o = none ∨
      ∃ t n, c.gencost = some t ∧ t.rows ≠ [] ∧ t.cols = n + 4 ∧
        o = some (t.rows.map fun r => ([Fmt.d, Fmt.g9, Fmt.g9, Fmt.d] ++ List.replicate n Fmt.g9).zip (r.take t.cols))) := by
  unfold costPrs
  cases hc : c.gencost with
  | none => exact ⟨none, rfl, Or.inl ⟨Or.inl rfl, rfl⟩⟩
  | some t =>
    obtain ⟨h1, h2⟩ := h.gencost t hc
    dsimp only
    by_cases hr : t.rows = []
    · rw [if_pos hr]
      exact ⟨none, rfl, Or.inl ⟨Or.inr ⟨t, rfl, hr⟩, rfl⟩⟩
    · rw [if_neg hr]
      obtain ⟨n, hn, hp⟩ := cost_prints h1 (h2 hr)
      rw [hp]
      exact ⟨_, rfl, Or.inr ⟨t, n, rfl, hr, hn, rfl⟩⟩

/-- Everything a case of the right shape prints. -/
theorem shaped_prints {c : SaveCase} (h : Shaped c) : ∃ P fb fg fr, prints c = some P ∧
    (Describes [0, 1, 6, 10] 13 fb ∧ fb.length = busCols c.bus.cols ∧ P.bus = c.bus.rows.map fun r => fb.zip (r.take (busCols c.bus.cols))) ∧
    (Describes [0, 7] 21 fg ∧ fg.length = genCols c.gen.cols ∧ P.gen = c.gen.rows.map fun r => fg.zip (r.take (genCols c.gen.cols))) ∧
    (Describes [0, 1, 10] 13 fr ∧ fr.length = branchCols c.branch.cols ∧ P.branch = c.branch.rows.map fun r => fr.zip (r.take (branchCols c.branch.cols))) ∧
    (P.areas = match c.areas with
      | some t => if t.rows = [] then none else some (t.rows.map fun r => [Fmt.d, Fmt.d].zip (r.take 2))
      | none => none) ∧
    ((c.gencost = none ∨ ∃ t, c.gencost = some t ∧ t.rows = []) ∧ P.cost = none ∨
      ∃ t n, c.gencost = some t ∧ t.rows ≠ [] ∧ t.cols = n + 4 ∧
        P.cost = some (t.rows.map fun r => ([Fmt.d, Fmt.g9, Fmt.g9, Fmt.d] ++ List.replicate n Fmt.g9).zip (r.take t.cols))) ∧
    P.z0 = vecPrs c.z0 ∧ P.zl = none ∧ P.zu = vecPrs c.zu := by
  obtain ⟨fb, b1, b2, b3, b4⟩ := bus_prints h
  obtain ⟨fg, g1, g2, g3, g4⟩ := gen_prints h
  obtain ⟨fr, r1, r2, r3, r4⟩ := branch_prints h
  obtain ⟨o, o1, o2⟩ := costOpt_prints h
  have hzl : zPrs c.zl = some none := by
    cases hz : c.zl with
    | none => rfl
    | some l => rw [h.zl l hz]; rfl
  refine ⟨⟨_, _, _, _, o, vecPrs c.z0, none, vecPrs c.zu⟩, fb, fg, fr, ?_, ⟨b1, b2, rfl⟩, ⟨g1, g2, rfl⟩, ⟨r1, r2, rfl⟩, rfl, o2, rfl, rfl, rfl⟩
  unfold prints
  rw [b4, g4, r4, areas_prints h, o1, user_prints h.A, user_prints h.N, vec_prints h.z0, vec_prints h.zu, hzl]
  rfl

/-! ### Finite and infinite numbers -/

theorem dFin_zip {whole : List ℕ} {digits n : ℕ} {fs : List Fmt} (hd : Describes whole digits fs) {t : Table Num} (hf : WholeFinite whole t) :
    dFin (t.rows.map fun r => fs.zip (r.take n)) = true := by
  rw [dFin, List.all_eq_true]
  intro row hrow
  obtain ⟨r, hm, rfl⟩ := List.mem_map.1 hrow
  rw [List.all_eq_true]
  intro p hp
  obtain ⟨j, hj⟩ := List.getElem?_of_mem hp
  obtain ⟨i, hi⟩ := List.getElem?_of_mem hm
  rw [List.getElem?_zip_eq_some] at hj
  have h1 := hd.2 j p.1 hj.1
  have h2 : r[j]? = some p.2 := by
    have := hj.2
    rw [List.getElem?_take] at this
    split at this
    · exact this
    · simp at this
  by_cases hw : j ∈ whole
  · obtain ⟨q, hq⟩ := hf i j p.2 hw (by rw [entry, hi]; exact h2)
    rw [hq, show (Num.fin q).isFin = true from rfl, Bool.or_true]
  · rw [if_neg hw] at h1
    have : p.1 ≠ .d := by
      rw [h1]
      split <;> simp
    simp [this]

theorem finAll_unbounded {n : ℕ} {fs : List Fmt} (hn : fs.length = n) {t : Table Num} (h : Unbounded n t) : finAll (t.rows.map fun r => fs.zip (r.take n)) = false := by
  obtain ⟨i, j, x, hj, hx, hq⟩ := h
  obtain ⟨r, hi, hr⟩ := Option.bind_eq_some_iff.1 hx
  by_contra hc
  have hc : finAll (t.rows.map fun r => fs.zip (r.take n)) = true := by simpa using hc
  rw [finAll, List.all_eq_true] at hc
  have := hc _ (List.mem_map_of_mem (List.mem_of_getElem? hi))
  rw [finRow, List.all_eq_true] at this
  have hz : (fs.zip (r.take n))[j]? = some (fs[j]'(by omega), x) := by
    rw [List.getElem?_zip_eq_some]
    exact ⟨List.getElem?_eq_getElem _, by rw [List.getElem?_take_of_lt hj]; exact hr⟩
  have h2 := this _ (List.mem_of_getElem? hz)
  cases x with
  | fin q => exact hq q rfl
  | inf b => simp [Num.isFin] at h2
  | nan => simp [Num.isFin] at h2

theorem goodLines_iff (P : Prints) : GoodLines P.list = true ↔ finAll P.bus = true ∧ finAll P.gen = true ∧ finAll P.branch = true ∧ (∀ p, P.areas = some p → finAll p = true) ∧
    (∀ p, P.cost = some p → finAll p = true) ∧ (∀ p, P.z0 = some p → finAll p = true) ∧ P.zl = none ∧ (∀ p, P.zu = some p → finAll p = true) := by
  rcases P with ⟨b, g, r, _ | a, _ | c, _ | z0, _ | zl, _ | zu⟩ <;>
    simp [GoodLines, Prints.list, opt]

theorem allFinite_whole {whole : List ℕ} {t : Table Num} (h : AllFinite t) : WholeFinite whole t := by
  intro i j x _ hx
  obtain ⟨r, hi, hr⟩ := Option.bind_eq_some_iff.1 hx
  exact h r (List.mem_of_getElem? hi) x (List.mem_of_getElem? hr)

theorem finite_ids {c : SaveCase} (h : Finite c) : IdsFinite c :=
  ⟨allFinite_whole h.bus, allFinite_whole h.gen, allFinite_whole h.branch, fun t ht => allFinite_whole (h.areas t ht), fun t ht => allFinite_whole (h.gencost t ht)⟩

/-- A case of the right shape is saved. -/
theorem shaped_saves {c : SaveCase} (h : Shaped c) (hi : IdsFinite c) {P : Prints} (hP : prints c = some P) : P.dOk := by
  obtain ⟨P', fb, fg, fr, h0, ⟨b1, b2, b3⟩, ⟨g1, g2, g3⟩, ⟨r1, r2, r3⟩, ha, hc, _⟩ := shaped_prints h
  have : P' = P := by rw [hP] at h0; exact (Option.some.inj h0).symm
  subst this
  refine ⟨by rw [b3]; exact dFin_zip b1 hi.bus, by rw [g3]; exact dFin_zip g1 hi.gen, by rw [r3]; exact dFin_zip r1 hi.branch, fun p hp => ?_, fun p hp => ?_⟩
  · rw [ha] at hp
    cases hca : c.areas with
    | none => rw [hca] at hp; simp at hp
    | some t =>
      rw [hca] at hp
      dsimp only at hp
      split at hp
      · simp at hp
      · rw [← Option.some.inj hp]
        exact dFin_zip describes_areas (hi.areas t hca)
  · rcases hc with ⟨_, hc⟩ | ⟨t, n, hct, _, hn, hc⟩
    · rw [hc] at hp
      simp at hp
    · rw [hc] at hp
      rw [← Option.some.inj hp]
      exact dFin_zip (describes_cost n) (hi.gencost t hct)

theorem same_vec {z : Option (List Num)} (h1 : ∀ l, z = some l → l.length ≤ 1) (h2 : ∀ l, z = some l → ∀ x ∈ l, ∃ q : ℚ, x = .fin q) :
    (∀ p, vecPrs z = some p → finAll p = true) ∧ SameVec z ((vecPrs z).map arrOf) := by
  rcases z with _ | ⟨_ | ⟨a, _ | ⟨b, l⟩⟩⟩
  · exact ⟨by simp [vecPrs], rfl⟩
  · exact ⟨by simp [vecPrs], rfl⟩
  · obtain ⟨q, rfl⟩ := h2 _ rfl a List.mem_cons_self
    refine ⟨fun p hp => ?_, ?_⟩
    · rw [← Option.some.inj hp]
      rfl
    · refine ⟨_, rfl, same_table (whole := []) (digits := 1) (fs := [.g9]) (t := ⟨1, [[.fin q]]⟩) (describes_of (by simp) (by decide)) rfl (by norm_num) ?_ (le_refl _) ?_⟩
      · intro r hr
        rw [List.mem_singleton.1 hr]
        rfl
      · intro r hr x hx
        rw [List.mem_singleton.1 hr] at hx
        exact ⟨q, List.mem_singleton.1 hx⟩
  · have := h1 _ rfl
    simp at this

end Verif.SaveText
