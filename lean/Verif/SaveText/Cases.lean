import Verif.SaveText.Stable

/-!
# Cases for C115
-/

namespace Verif.SaveText

open CaseIO

/-- Two buses, one generator, one branch, one cost row: whole numbers, decimals and a third. -/
def exCase : SaveCase where
  base := .fin 100
  bus := ⟨13, [[1, 3, 0, 0, 0, 0, 1, 1, 0, 345, 1, 11 / 10, 9 / 10].map .fin, [2, 1, 163 / 3, 35, 0, 0, 1, 1, 0, 345, 1, 11 / 10, 9 / 10].map .fin]⟩
  gen := ⟨21, [[1, 0, 0, 300, -300, 1, 100, 1, 250, 10, 0, 0, 0, 0, 0, 0, 0, 0, 0, 0, 0].map .fin]⟩
  branch := ⟨13, [[1, 2, 17 / 1000, 23 / 250, 79 / 500, 250, 250, 250, 0, 0, 1, -360, 360].map .fin]⟩
  gencost := some ⟨7, [[2, 1500, 0, 3, 11 / 100, 5, 150].map .fin]⟩
  z0 := some [.fin (1 / 3)]

def exName : List Char := "dir/case_x".toList

theorem exName_good : GoodName exName := by
  refine ⟨⟨'c', "ase_x".toList, by decide, by decide, by decide⟩, by decide, by decide⟩

theorem ex_finite_of {t : Table Num} {qs : List (List ℚ)} (h : t.rows = qs.map fun r => r.map .fin) : AllFinite t := by
  intro r hr x hx
  rw [h] at hr
  obtain ⟨q, _, rfl⟩ := List.mem_map.1 hr
  obtain ⟨y, _, rfl⟩ := List.mem_map.1 hx
  exact ⟨y, rfl⟩

theorem exCase_shaped : Shaped exCase where
  busRect := by
    intro r hr
    simp only [exCase, List.mem_cons, List.not_mem_nil, or_false] at hr
    rcases hr with rfl | rfl <;> rfl
  genRect := by
    intro r hr
    simp only [exCase, List.mem_cons, List.not_mem_nil, or_false] at hr
    rcases hr with rfl
    rfl
  branchRect := by
    intro r hr
    simp only [exCase, List.mem_cons, List.not_mem_nil, or_false] at hr
    rcases hr with rfl
    rfl
  bus := by decide
  gen := by decide
  genRows := by simp [exCase]
  branch := by decide
  areas := by simp [exCase]
  gencost := by
    intro t ht
    simp only [exCase, Option.some.injEq] at ht
    subst ht
    refine ⟨?_, fun _ => ⟨?_, ?_⟩⟩
    · intro r hr
      rw [List.mem_singleton.1 hr]
      rfl
    · intro r hr
      rw [List.mem_singleton.1 hr]
      exact ⟨3, by simp, Or.inr ⟨by simp, by decide⟩⟩
    · exact ⟨_, List.mem_singleton.2 rfl, 3, by simp, Or.inr ⟨by simp, rfl⟩⟩
  A := Or.inl rfl
  N := Or.inl rfl
  z0 := by
    intro z hz
    simp only [exCase, Option.some.injEq] at hz
    subst hz
    simp
  zu := by simp [exCase]
  zl := by simp [exCase]

theorem exCase_finite : Finite exCase where
  base := ⟨_, rfl⟩
  bus := ex_finite_of (qs := [_, _]) rfl
  gen := ex_finite_of (qs := [_]) rfl
  branch := ex_finite_of (qs := [_]) rfl
  areas := by simp [exCase]
  gencost := by
    intro t ht
    simp only [exCase, Option.some.injEq] at ht
    subst ht
    exact ex_finite_of (qs := [_]) rfl
  z0 := by
    intro z hz x hx
    simp only [exCase, Option.some.injEq] at hz
    subst hz
    exact ⟨1 / 3, List.mem_singleton.1 hx⟩
  zu := by simp [exCase]

/-- The case goes to its file and back. -/
example : ∃ fs' l, savecase (fun _ => none) exName exCase ["two buses".toList] = some ("dir/case_x.py".toList, fs') ∧ loadcase fs' "dir/case_x.py".toList = some l ∧
    SameCase exCase l := by
  obtain ⟨fs', l, h1, _, _, h4, _, h6⟩ := C115_partial (fun _ => none) exName exCase ["two buses".toList] exName_good (by decide) exCase_shaped exCase_finite
  exact ⟨fs', l, h1, h4, h6⟩

/-- And once more. -/
example : ∃ fs' l fs'', savecase (fun _ => none) exName exCase [] = some (exName ++ ".py".toList, fs') ∧ loadcase fs' (exName ++ ".py".toList) = some l ∧
    savecase fs' exName l.toCase [] = some (exName ++ ".py".toList, fs'') ∧ loadcase fs'' (exName ++ ".py".toList) = some l := by
  obtain ⟨fs', l, fs'', h1, h2, _⟩ := C115_stable (fun _ => none) (fun _ => none) exName exName exCase [] [] exName_good exName_good (by simp) (by simp) exCase_shaped exCase_finite
    (by simp [exCase]) (by simp [exCase])
  obtain ⟨gs', m, gs'', g1, g2, g3, g4⟩ := C115_stable (fun _ => none) fs' exName exName exCase [] [] exName_good exName_good (by simp) (by simp) exCase_shaped exCase_finite
    (by simp [exCase]) (by simp [exCase])
  exact ⟨gs', m, gs'', g1, g2, by
    have : gs' = fs' := by
      rw [h1] at g1
      simpa using g1.symm
    rw [this]; exact g3, g4⟩

/-- The generator table of the case, whatever its element type was, comes back as one of integers. -/
example (l : Loaded) (h : SameCase exCase l) : l.gen.elem = .int := by
  refine C115_integer exCase_shaped exCase_finite h (by decide) fun i j x hj hx => ?_
  obtain ⟨r, hi, hr⟩ := Option.bind_eq_some_iff.1 hx
  have hm := List.mem_of_getElem? hi
  rw [show exCase.gen.rows = [[1, 0, 0, 300, -300, 1, 100, 1, 250, 10, 0, 0, 0, 0, 0, 0, 0, 0, 0, 0, 0].map Num.fin] from rfl, List.mem_singleton] at hm
  subst hm
  have hx := List.mem_of_getElem? hr
  simp only [List.mem_map, Num.fin.injEq, exists_eq_right] at hx
  simp only [List.mem_cons, List.not_mem_nil, or_false] at hx
  have hz : ∃ z : ℤ, x = z ∧ |z| < 10 ^ 9 := by
    rcases hx with rfl | rfl | rfl | rfl | rfl | rfl | rfl | rfl | rfl | rfl | rfl | rfl | rfl | rfl | rfl | rfl | rfl | rfl | rfl | rfl | rfl
    exacts [⟨1, by norm_num⟩, ⟨0, by norm_num⟩, ⟨0, by norm_num⟩, ⟨300, by norm_num⟩, ⟨-300, by norm_num⟩, ⟨1, by norm_num⟩, ⟨100, by norm_num⟩, ⟨1, by norm_num⟩, ⟨250, by norm_num⟩, ⟨10, by norm_num⟩, ⟨0, by norm_num⟩, ⟨0, by norm_num⟩, ⟨0, by norm_num⟩, ⟨0, by norm_num⟩, ⟨0, by norm_num⟩, ⟨0, by norm_num⟩, ⟨0, by norm_num⟩, ⟨0, by norm_num⟩, ⟨0, by norm_num⟩, ⟨0, by norm_num⟩, ⟨0, by norm_num⟩]
  obtain ⟨z, rfl, hz⟩ := hz
  exact ⟨⟨z, rfl⟩, by exact_mod_cast hz⟩

/-- The case with an infinite reactive limit. -/
def exInf : SaveCase :=
  { exCase with gen := ⟨21, [[.fin 1, .fin 0, .fin 0, .inf false, .inf true, .fin 1, .fin 100, .fin 1, .fin 250, .fin 10] ++ List.replicate 11 (.fin 0)]⟩ }

theorem exInf_shaped : Shaped exInf :=
  { exCase_shaped with
    genRect := by
      intro r hr
      rw [List.mem_singleton.1 hr]
      rfl
    gen := by decide
    genRows := by simp [exInf] }

theorem exInf_ids : IdsFinite exInf where
  bus := allFinite_whole exCase_finite.bus
  branch := allFinite_whole exCase_finite.branch
  areas := by simp [exInf, exCase]
  gencost := fun t ht => allFinite_whole (exCase_finite.gencost t ht)
  gen := by
    intro i j x hj hx
    obtain ⟨r, hi, hr⟩ := Option.bind_eq_some_iff.1 hx
    have hm := List.mem_of_getElem? hi
    have hm := List.mem_singleton.1 hm
    subst hm
    simp only [List.mem_cons, List.not_mem_nil, or_false] at hj
    rcases hj with rfl | rfl
    · exact ⟨1, by simpa using hr.symm⟩
    · exact ⟨1, by simpa using hr.symm⟩

/-- A limit `inf` is saved and cannot be loaded. -/
theorem C115_negation : ∃ (c : SaveCase) (fs' : Files), savecase (fun _ => none) exName c [] = some ("dir/case_x.py".toList, fs') ∧ loadcase fs' "dir/case_x.py".toList = none := by
  obtain ⟨fs', h1, h2⟩ := C115_infinite (fun _ => none) exName exInf [] exName_good (by simp) exInf_shaped exInf_ids
    (Or.inr (Or.inr (Or.inl ⟨0, 3, .inf false, by decide, rfl, by simp⟩)))
  exact ⟨exInf, fs', h1, h2⟩

/-- The same of a case with a lower limit for a user variable. -/
example : ∃ fs' : Files, savecase (fun _ => none) exName { exCase with zl := some [.fin 0] } [] = some (exName ++ ".py".toList, fs') ∧
    loadcase fs' (exName ++ ".py".toList) = none :=
  C115_zl (fun _ => none) exName { exCase with zl := some [.fin 0] } [] exName_good (by simp) exCase_shaped
    ⟨allFinite_whole exCase_finite.bus, allFinite_whole exCase_finite.gen, allFinite_whole exCase_finite.branch, by simp [exCase],
      fun t ht => allFinite_whole (exCase_finite.gencost t ht)⟩ rfl

/-- A case with a sparse constraint matrix is not saved. -/
example : savecase (fun _ => none) exName { exCase with A := some .sparse } [] = none := C115_user _ _ _ _ (m := .sparse) (by simp) (Or.inl rfl)

/-- `s.py` and `dir/a.py` cannot be loaded. -/
example (fs : Files) : loadcase fs "s.py".toList = none ∧ loadcase fs "dir/a.py".toList = none :=
  ⟨C115_name fs "s".toList (by decide), C115_name fs "dir/a".toList (by decide)⟩

/-- What "kept" says of a third and of a large number. -/
example : Kept [0] 13 2 (163 / 3) (round9 (163 / 3)) ∧ |round9 (163 / 3) - 163 / 3| ≤ |163 / 3| * (5 / 10 ^ 9) ∧ Sig9 (123456789 / 1000) := by
  have h : Kept [0] 13 2 (163 / 3) (round9 (163 / 3)) := round9_nearest _
  refine ⟨h, ((C115_kept h).2.1 (by simp) (by norm_num)).2, 123456789, -3, by norm_num, by norm_num⟩

end Verif.SaveText
