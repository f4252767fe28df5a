import Verif.SaveText.CaseLemmas
import Verif.SaveText.Spec

/-!
# The tables read against their specification
-/

namespace Verif.SaveText

open CaseIO

theorem trunc_kept (x : ℚ) : |(truncQ x : ℚ)| ≤ |x| ∧ |x - truncQ x| < 1 := by
  unfold truncQ
  split
  · rename_i h
    have h1 := Int.floor_le x
    have h2 := Int.lt_floor_add_one x
    have h3 : (0 : ℚ) ≤ (⌊x⌋ : ℤ) := by exact_mod_cast Int.floor_nonneg.2 h
    rw [abs_of_nonneg h, abs_of_nonneg h3, abs_lt]
    exact ⟨h1, by linarith, by linarith⟩
  · rename_i h
    have h0 : x < 0 := not_le.1 h
    have h1 := Int.le_ceil x
    have h2 := Int.ceil_lt_add_one x
    have h3 : ((⌈x⌉ : ℤ) : ℚ) ≤ 0 := by
      have : ⌈x⌉ ≤ 0 := Int.ceil_le.2 (by push_cast; linarith)
      exact_mod_cast this
    rw [abs_of_neg h0, abs_of_nonpos h3, abs_lt]
    exact ⟨by linarith, by linarith, by linarith⟩

/-- The formats of the columns. -/
def Describes (whole : List ℕ) (digits : ℕ) (fs : List Fmt) : Prop :=
  (∀ j ∈ whole, j < digits) ∧ ∀ (j : ℕ) (f : Fmt), fs[j]? = some f → f = if j ∈ whole then .d else if j < digits then .g9 else .f4

theorem cell_kept {whole : List ℕ} {digits : ℕ} {fs : List Fmt} (h : Describes whole digits fs) {j : ℕ} {f : Fmt} (hf : fs[j]? = some f) (x : ℚ) :
    Kept whole digits j x (cellVal f x) := by
  rw [h.2 j f hf, Kept]
  split
  · exact ⟨⟨_, rfl⟩, trunc_kept x⟩
  · split
    · exact round9_nearest x
    · exact round4_nearest x

theorem same_table {whole : List ℕ} {digits n : ℕ} {fs : List Fmt} (hd : Describes whole digits fs) (hn : fs.length = n) (hpos : 0 < n) {t : Table Num} (hr : t.Rect)
    (hc : n ≤ t.cols) (hf : AllFinite t) : SameTable whole digits n t (arrOf (t.rows.map fun r => fs.zip (r.take n))) := by
  have hlen : ∀ r ∈ t.rows, (fs.zip (r.take n)).length = n := by
    intro r hm
    have := hr r hm
    simp only [List.length_zip, List.length_take]
    omega
  -- what stands in a row
  have hcell : ∀ (i j : ℕ) (r : List Num), t.rows[i]? = some r → j < n → ∃ f x, fs[j]? = some f ∧ r[j]? = some (.fin x) ∧ (fs.zip (r.take n))[j]? = some (f, .fin x) := by
    intro i j r hi hj
    have hm : r ∈ t.rows := List.mem_of_getElem? hi
    have h1 : j < fs.length := by omega
    have h2 : j < r.length := by have := hr r hm; omega
    obtain ⟨x, hx⟩ := hf r hm r[j] (List.getElem_mem h2)
    refine ⟨fs[j], x, List.getElem?_eq_getElem h1, by rw [List.getElem?_eq_getElem h2, hx], ?_⟩
    rw [List.getElem?_zip_eq_some]
    refine ⟨List.getElem?_eq_getElem h1, ?_⟩
    rw [List.getElem?_take_of_lt hj, List.getElem?_eq_getElem h2, hx]
  have hrow : ∀ (i : ℕ) (r : List Num), t.rows[i]? = some r → (arrOf (t.rows.map fun r => fs.zip (r.take n))).table.rows[i]? = some ((fs.zip (r.take n)).map valOf) := by
    intro i r hi
    simp [arrOf, hi]
  have hentry : ∀ (i j : ℕ) (v : ℚ), entry (arrOf (t.rows.map fun r => fs.zip (r.take n))).table i j = some v →
      ∃ r f x, t.rows[i]? = some r ∧ j < n ∧ fs[j]? = some f ∧ r[j]? = some (.fin x) ∧ v = cellVal f x := by
    intro i j v hv
    obtain ⟨row, h1, h2⟩ := Option.bind_eq_some_iff.1 hv
    cases hi : t.rows[i]? with
    | none => simp [arrOf, hi] at h1
    | some r =>
      rw [hrow i r hi] at h1
      have hm : r ∈ t.rows := List.mem_of_getElem? hi
      rw [← Option.some.inj h1] at h2
      have hj : j < n := by
        have := (List.getElem?_eq_some_iff.1 h2).1
        rw [List.length_map, hlen r hm] at this
        exact this
      obtain ⟨f, x, a1, a2, a3⟩ := hcell i j r hi hj
      refine ⟨r, f, x, rfl, hj, a1, a2, ?_⟩
      rw [List.getElem?_map, a3] at h2
      exact (Option.some.inj h2).symm
  refine ⟨by simp [arrOf], ?_, ?_, ?_, ?_⟩
  · intro row hrow
    simp only [arrOf, List.map_map, List.mem_map, Function.comp] at hrow
    obtain ⟨r, hm, rfl⟩ := hrow
    rw [List.length_map, hlen r hm]
  · intro hne
    obtain ⟨r, rs, hrs⟩ := List.exists_cons_of_ne_nil hne
    have := hlen r (by rw [hrs]; exact List.mem_cons_self)
    simpa [arrOf, hrs] using this
  · intro i j x hj hx
    obtain ⟨r, h1, h2⟩ := Option.bind_eq_some_iff.1 hx
    obtain ⟨f, x', a1, a2, a3⟩ := hcell i j r h1 hj
    have : x' = x := by rw [a2] at h2; simpa using h2
    subst this
    refine ⟨cellVal f x', ?_, cell_kept hd a1 x'⟩
    rw [entry, hrow i r h1, Option.bind_some, List.getElem?_map, a3]
    rfl
  · have helem : (arrOf (t.rows.map fun r => fs.zip (r.take n))).elem = .int ↔
        t.rows ≠ [] ∧ ∀ r ∈ t.rows, ∀ p ∈ fs.zip (r.take n), intOf p = true := by
      have he : ((t.rows.map fun r => fs.zip (r.take n)).all List.isEmpty = false) ↔ t.rows ≠ [] := by
        rw [ne_eq, Bool.eq_false_iff, not_iff_not, List.all_eq_true]
        constructor
        · intro h
          by_contra hne
          obtain ⟨r, rs, hrs⟩ := List.exists_cons_of_ne_nil hne
          have hm : r ∈ t.rows := by rw [hrs]; exact List.mem_cons_self
          have h1 := h _ (List.mem_map_of_mem hm)
          have h2 := hlen r hm
          rw [List.isEmpty_iff] at h1
          rw [h1] at h2
          simp only [List.length_nil] at h2
          omega
        · intro h
          simp [h]
      unfold arrOf
      dsimp only
      split
      · rename_i h
        simp only [Bool.and_eq_true, Bool.not_eq_true', he, List.all_eq_true, List.mem_map, forall_exists_index, and_imp, forall_apply_eq_imp_iff₂] at h
        exact ⟨fun _ => ⟨h.2, h.1⟩, fun _ => rfl⟩
      · rename_i h
        simp only [Bool.and_eq_true, Bool.not_eq_true', he, List.all_eq_true, List.mem_map, forall_exists_index, and_imp, forall_apply_eq_imp_iff₂] at h
        exact ⟨fun h' => (by cases h'), fun h' => absurd ⟨h'.2, h'.1⟩ h⟩
    rw [helem]
    constructor
    · rintro ⟨hne, hall⟩
      refine ⟨hne, ?_, ?_⟩
      · by_contra hlt
        obtain ⟨r, rs, hrs⟩ := List.exists_cons_of_ne_nil hne
        obtain ⟨f, x, a1, a2, a3⟩ := hcell 0 digits r (by rw [hrs]; rfl) (by omega)
        have h1 := hall r (by rw [hrs]; exact List.mem_cons_self) _ (List.mem_of_getElem? a3)
        have h2 := hd.2 digits f a1
        rw [if_neg (fun hm => lt_irrefl _ (hd.1 _ hm)), if_neg (lt_irrefl _)] at h2
        rw [h2] at h1
        simp [intOf, litInt] at h1
      · intro i j v hj hv
        obtain ⟨r, f, x, h1, h2, h3, h4, rfl⟩ := hentry i j v hv
        obtain ⟨f', x', a1, a2, a3⟩ := hcell i j r h1 h2
        have e1 : f' = f := by rw [h3] at a1; exact (Option.some.inj a1).symm
        have e2 : x' = x := by rw [h4] at a2; simpa using a2.symm
        subst e1 e2
        have h5 := hall r (List.mem_of_getElem? h1) _ (List.mem_of_getElem? a3)
        have hdig : n ≤ digits := by
          by_contra hlt
          obtain ⟨f, x, b1, b2, b3⟩ := hcell i digits r h1 (by omega)
          have h1 := hall r (List.mem_of_getElem? h1) _ (List.mem_of_getElem? b3)
          have h2 := hd.2 digits f b1
          rw [if_neg (fun hm => lt_irrefl _ (hd.1 _ hm)), if_neg (lt_irrefl _)] at h2
          rw [h2] at h1
          simp [intOf, litInt] at h1
        have h6 := hd.2 j f' h3
        rw [if_neg hj, if_pos (by omega)] at h6
        rw [h6] at h5 ⊢
        simp only [intOf, litInt, decide_eq_true_eq] at h5
        exact ⟨(whole_iff _).2 h5.1, h5.2⟩
    · rintro ⟨hne, hdig, hall⟩
      refine ⟨hne, fun r hm p hp => ?_⟩
      obtain ⟨i, hi⟩ := List.getElem?_of_mem hm
      obtain ⟨j, hj⟩ := List.getElem?_of_mem hp
      have hjn : j < n := by
        have := (List.getElem?_eq_some_iff.1 hj).1
        rwa [hlen r hm] at this
      obtain ⟨f, x, a1, a2, a3⟩ := hcell i j r hi hjn
      have : p = (f, .fin x) := by rw [hj] at a3; exact Option.some.inj a3
      subst this
      have h6 := hd.2 j f a1
      by_cases hw : j ∈ whole
      · rw [if_pos hw] at h6
        rw [h6]
        rfl
      · rw [if_neg hw, if_pos (by omega)] at h6
        have := hall i j (cellVal f x) hw (by rw [entry, hrow i r hi, Option.bind_some, List.getElem?_map, a3]; rfl)
        rw [h6] at this ⊢
        simp only [intOf, litInt, decide_eq_true_eq]
        exact ⟨(whole_iff _).1 this.1, this.2⟩

/-- A table of finite numbers prints finite numbers. -/
theorem finAll_zip {fs : List Fmt} {t : Table Num} (n : ℕ) (hf : AllFinite t) : finAll (t.rows.map fun r => fs.zip (r.take n)) = true := by
  rw [finAll, List.all_eq_true]
  intro row hrow
  obtain ⟨r, hm, rfl⟩ := List.mem_map.1 hrow
  rw [finRow, List.all_eq_true]
  intro p hp
  have := (List.of_mem_zip (a := p.1) (b := p.2) hp).2
  obtain ⟨q, hq⟩ := hf r hm p.2 (List.mem_of_mem_take this)
  rw [hq]
  rfl

theorem dFin_of_fin {t : Prs} (h : finAll t = true) : dFin t = true := by
  rw [finAll, List.all_eq_true] at h
  rw [dFin, List.all_eq_true]
  intro r hr
  have := h r hr
  rw [finRow, List.all_eq_true] at this
  rw [List.all_eq_true]
  intro p hp
  rw [this p hp, Bool.or_true]

/-! ### The formats of the tables -/

/-- Checking the formats column by column. -/
theorem describes_of {whole : List ℕ} {digits : ℕ} {fs : List Fmt} (h : ∀ j ∈ whole, j < digits)
    (hf : ∀ j < fs.length, fs[j]? = some (if j ∈ whole then .d else if j < digits then .g9 else .f4)) : Describes whole digits fs := by
  refine ⟨h, fun j f hj => ?_⟩
  have hl := (List.getElem?_eq_some_iff.1 hj).1
  have := hf j hl
  rw [hj] at this
  exact Option.some.inj this

theorem describes_bus : Describes [0, 1, 6, 10] 13 busBase ∧ Describes [0, 1, 6, 10] 13 (busBase ++ [.f4, .f4, .f4, .f4]) :=
  ⟨describes_of (by decide) (by decide), describes_of (by decide) (by decide)⟩

theorem describes_gen : Describes [0, 7] 21 genBase ∧ Describes [0, 7] 21 (genBase ++ [.f4, .f4, .f4, .f4]) :=
  ⟨describes_of (by decide) (by decide), describes_of (by decide) (by decide)⟩

theorem describes_branch : Describes [0, 1, 10] 13 branchBase ∧ Describes [0, 1, 10] 13 (branchBase ++ [.f4, .f4, .f4, .f4]) ∧
    Describes [0, 1, 10] 13 (branchBase ++ [.f4, .f4, .f4, .f4, .f4, .f4, .f4, .f4]) :=
  ⟨describes_of (by decide) (by decide), describes_of (by decide) (by decide), describes_of (by decide) (by decide)⟩

theorem describes_areas : Describes [0, 1] 2 [.d, .d] := describes_of (by decide) (by decide)

theorem describes_cost (n : ℕ) : Describes [0, 3] (n + 4) ([.d, .g9, .g9, .d] ++ List.replicate n .g9) := by
  refine describes_of (by simp) fun j hj => ?_
  rw [List.length_append, List.length_replicate] at hj
  simp only [List.length_cons, List.length_nil] at hj
  rcases j with _ | _ | _ | _ | j
  · rfl
  · rw [if_neg (by simp), if_pos (by omega)]
    rfl
  · rw [if_neg (by simp), if_pos (by omega)]
    rfl
  · rfl
  · rw [if_neg (by simp), if_pos (by omega), List.getElem?_append_right (by simp)]
    simp only [List.length_cons, List.length_nil]
    rw [List.getElem?_replicate]
    rw [if_pos (by omega)]

/-- What a table of the right width prints. -/
theorem format_table {fs : List Fmt} {n : ℕ} (hn : fs.length = n) {t : Table Num} (hr : t.Rect) (hc : n ≤ t.cols) :
    formatRows fs (List.take n) t.rows = some (t.rows.map fun r => fs.zip (r.take n)) := by
  refine formatRows_eq.2 ⟨fun r hm => ?_, rfl⟩
  have := hr r hm
  rw [List.length_take]
  omega

end Verif.SaveText
