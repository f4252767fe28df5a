import Verif.SaveText.RoundTrip

/-!
# C115: a case saved to a Python file and loaded again
-/

namespace Verif.SaveText

open CaseIO

/-- A finite case of the shapes `savecase` prints, saved under a usable name with or without `.py` and with comments of one line each: `savecase` returns the name with
`.py` and changes that file only; `loadcase` on that name, or on the name without extension when there is no `.mat` file of that name, returns the same case up to the
digits printed.  The full property, for every case `savecase` accepts, fails: see `C115_infinite`, `C115_zl`, `C115_name`, and `C115_user` for what is not accepted. -/
theorem C115_partial (fs : Files) (root : List Char) (c : SaveCase) (comment : List (List Char)) (hn : GoodName root) (hcom : ∀ l ∈ comment, '\n' ∉ l) (hs : Shaped c)
    (hf : Finite c) :
    ∃ fs' l, savecase fs root c comment = some (root ++ ".py".toList, fs') ∧ savecase fs (root ++ ".py".toList) c comment = some (root ++ ".py".toList, fs') ∧
      (∀ n, n ≠ root ++ ".py".toList → fs' n = fs n) ∧ loadcase fs' (root ++ ".py".toList) = some l ∧
      (fs (root ++ ".mat".toList) = none → loadcase fs' root = some l) ∧ SameCase c l := by
  obtain ⟨P, fb, fg, fr, hP, ⟨b1, b2, b3⟩, ⟨g1, g2, g3⟩, ⟨r1, r2, r3⟩, ha, hc, hz0, hzl, hzu⟩ := shaped_prints hs
  have hok := shaped_saves hs (finite_ids hf) hP
  obtain ⟨text, htext⟩ := save_some hP hok (basename root) comment
  obtain ⟨e1, e2⟩ := saveRoot_root hn
  obtain ⟨b, hb⟩ := hf.base
  obtain ⟨z1, z2⟩ := same_vec hs.z0 hf.z0
  obtain ⟨y1, y2⟩ := same_vec hs.zu hf.zu
  have hbc : busCols c.bus.cols ≤ c.bus.cols := by have := hs.bus; unfold busCols; split <;> omega
  have hgc : genCols c.gen.cols ≤ c.gen.cols := by have := hs.gen; unfold genCols; split <;> omega
  have hrc : branchCols c.branch.cols ≤ c.branch.cols := by
    obtain ⟨h1, h2, h3⟩ := hs.branch
    unfold branchCols
    split
    · exact h1
    · split <;> omega
  have hgood : GoodLines P.list = true := by
    rw [goodLines_iff]
    refine ⟨by rw [b3]; exact finAll_zip _ hf.bus, by rw [g3]; exact finAll_zip _ hf.gen, by rw [r3]; exact finAll_zip _ hf.branch, fun p hp => ?_, fun p hp => ?_,
      fun p hp => z1 p (by rw [← hz0]; exact hp), hzl, fun p hp => y1 p (by rw [← hzu]; exact hp)⟩
    · rw [ha] at hp
      cases hca : c.areas with
      | none => rw [hca] at hp; simp at hp
      | some t =>
        rw [hca] at hp
        dsimp only at hp
        split at hp
        · simp at hp
        · rw [← Option.some.inj hp]
          exact finAll_zip _ (hf.areas t hca)
    · rcases hc with ⟨_, hc⟩ | ⟨t, n, hct, _, hn, hc⟩
      · rw [hc] at hp
        simp at hp
      · rw [hc] at hp
        rw [← Option.some.inj hp]
        exact finAll_zip _ (hf.gencost t hct)
  have hgen : P.gen ≠ [] := by
    rw [g3]
    simpa using hs.genRows
  have hload : loadText root text = some (loadedOf b P) := by
    rw [load_saved (goodName_ident hn) hn.2.2 hcom htext hP, hb]
    dsimp only
    rw [if_pos ⟨hgood, hgen⟩]
  refine ⟨fun n => if n = root ++ ".py".toList then some text else fs n, loadedOf b P, ?_, ?_, ?_, ?_, ?_, ?_⟩
  · unfold savecase
    rw [e1, if_pos rfl, htext]
    rfl
  · unfold savecase
    rw [e2, if_pos rfl, htext]
    rfl
  · intro n hne
    exact if_neg hne
  · rw [load_py hn (if_pos rfl), hload]
  · intro hmat
    refine (load_root hn (if_pos rfl) ((if_neg ?_).trans hmat)).trans hload
    intro e
    have := List.append_cancel_left e
    revert this
    decide
  · refine ⟨?_, ?_, ?_, ?_, ?_, ?_, ?_, ?_, ?_⟩
    · intro b' hb'
      rw [hb] at hb'
      rw [← Num.fin.inj hb']
      exact round9_nearest b
    · show SameTable _ _ _ _ (arrOf P.bus)
      rw [b3]
      exact same_table b1 b2 (by unfold busCols; split <;> omega) hs.busRect hbc hf.bus
    · show SameTable _ _ _ _ (arrOf P.gen)
      rw [g3]
      exact same_table g1 g2 (by unfold genCols; split <;> omega) hs.genRect hgc hf.gen
    · show SameTable _ _ _ _ (arrOf P.branch)
      rw [r3]
      refine same_table r1 r2 ?_ hs.branchRect hrc hf.branch
      unfold branchCols
      split
      · omega
      · split <;> omega
    · show SameOpt _ _ _ _ (P.areas.map arrOf)
      rw [ha]
      unfold SameOpt
      cases hca : c.areas with
      | none => rfl
      | some t =>
        dsimp only
        split
        · rfl
        · exact ⟨_, rfl, same_table describes_areas rfl (by norm_num) (hs.areas t hca).1 (hs.areas t hca).2 (hf.areas t hca)⟩
    · show SameOpt _ _ _ _ (P.cost.map arrOf)
      unfold SameOpt
      rcases hc with ⟨h1, h2⟩ | ⟨t, n, hct, hne, hn, h2⟩
      · rw [h2]
        rcases h1 with h1 | ⟨t, h1, h3⟩
        · rw [h1]
          rfl
        · rw [h1]
          dsimp only
          rw [if_pos h3]
          rfl
      · rw [h2, hct]
        dsimp only
        rw [if_neg hne]
        refine ⟨_, rfl, ?_⟩
        have := same_table (describes_cost n) (n := t.cols) (by simp [hn]) (by omega) (hs.gencost t hct).1 (le_refl _) (hf.gencost t hct)
        rw [hn] at this ⊢
        exact this
    · show SameVec _ (P.z0.map arrOf)
      rw [hz0]
      exact z2
    · show P.zl.map arrOf = none
      rw [hzl]
      rfl
    · show SameVec _ (P.zu.map arrOf)
      rw [hzu]
      exact y2

/-- What "kept" means for a number: in a column of whole numbers a whole number is read as it was; elsewhere a number of at most nine significant digits is, and any number
with a relative error of at most 5·10⁻⁹; among the results a multiple of 0.0001 is, and any number with an error of at most 0.00005. -/
theorem C115_kept {whole : List ℕ} {digits j : ℕ} {x r : ℚ} (h : Kept whole digits j x r) :
    (j ∈ whole → (∃ z : ℤ, x = z) → r = x) ∧
    (j ∉ whole → j < digits → (Sig9 x → r = x) ∧ |r - x| ≤ |x| * (5 / 10 ^ 9)) ∧
    (j ∉ whole → digits ≤ j → ((∃ n : ℤ, x = n / 10 ^ 4) → r = x) ∧ |r - x| ≤ 5 / 10 ^ 5) := by
  unfold Kept at h
  refine ⟨fun hj => ?_, fun hj hd => ?_, fun hj hd => ?_⟩
  · rw [if_pos hj] at h
    obtain ⟨⟨z, rfl⟩, _, h2⟩ := h
    rintro ⟨w, rfl⟩
    have : |w - z| < 1 := by exact_mod_cast h2
    rw [Int.abs_lt_one_iff] at this
    have : z = w := by omega
    rw [this]
  · rw [if_neg hj, if_pos hd] at h
    refine ⟨fun hs => ?_, (h.2 _ (round9_nearest x).1).trans (round9_near x)⟩
    have := h.2 x hs
    rw [sub_self, abs_zero] at this
    exact sub_eq_zero.1 (abs_nonpos_iff.1 this)
  · rw [if_neg hj, if_neg (by omega)] at h
    obtain ⟨n, hn⟩ := (round4_nearest x).1
    refine ⟨?_, ?_⟩
    · rintro ⟨m, hm⟩
      have := h.2 m
      rw [← hm, sub_self, abs_zero] at this
      exact sub_eq_zero.1 (abs_nonpos_iff.1 this)
    · have := h.2 n
      rw [← hn] at this
      exact this.trans (round4_near x)

/-- A case with an infinite number, or one that is not a number, outside the columns of whole numbers: `savecase` saves it without complaint, and `loadcase` raises on the
file. -/
theorem C115_infinite (fs : Files) (root : List Char) (c : SaveCase) (comment : List (List Char)) (hn : GoodName root) (hcom : ∀ l ∈ comment, '\n' ∉ l) (hs : Shaped c)
    (hids : IdsFinite c) (hinf : HasInfinite c) :
    ∃ fs', savecase fs root c comment = some (root ++ ".py".toList, fs') ∧ loadcase fs' (root ++ ".py".toList) = none := by
  obtain ⟨P, fb, fg, fr, hP, ⟨b1, b2, b3⟩, ⟨g1, g2, g3⟩, ⟨r1, r2, r3⟩, ha, hc, hz0, hzl, hzu⟩ := shaped_prints hs
  obtain ⟨text, htext⟩ := save_some hP (shaped_saves hs hids hP) (basename root) comment
  refine ⟨fun n => if n = root ++ ".py".toList then some text else fs n, ?_, ?_⟩
  · unfold savecase
    rw [(saveRoot_root hn).1, if_pos rfl, htext]
    rfl
  · rw [load_py hn (if_pos rfl), load_saved (goodName_ident hn) hn.2.2 hcom htext hP]
    cases hb : c.base with
    | inf b => rfl
    | nan => rfl
    | fin b =>
      dsimp only
      rw [if_neg]
      rintro ⟨hg, _⟩
      rw [goodLines_iff] at hg
      obtain ⟨k1, k2, k3, _, k5, _⟩ := hg
      rcases hinf with h | h | h | h | ⟨t, ht, h⟩
      · exact h b hb
      · rw [b3, finAll_unbounded b2 h] at k1
        simp at k1
      · rw [g3, finAll_unbounded g2 h] at k2
        simp at k2
      · rw [r3, finAll_unbounded r2 h] at k3
        simp at k3
      · rcases hc with ⟨h1 | ⟨t', h1, h3⟩, _⟩ | ⟨t', n, hct, hne, hn, h2⟩
        · rw [ht] at h1
          simp at h1
        · rw [ht] at h1
          obtain ⟨i, j, x, _, hx, _⟩ := h
          obtain ⟨r, hi, _⟩ := Option.bind_eq_some_iff.1 hx
          rw [Option.some.inj h1, h3] at hi
          simp at hi
        · rw [ht] at hct
          have e := Option.some.inj hct
          subst e
          have := k5 _ h2
          rw [finAll_unbounded (by simp [hn]) h] at this
          simp at this

/-- A case with one lower limit for a user variable: `savecase` saves it, and `loadcase` raises on the file, since the line of `zl` has another indentation. -/
theorem C115_zl (fs : Files) (root : List Char) (c : SaveCase) (comment : List (List Char)) (hn : GoodName root) (hcom : ∀ l ∈ comment, '\n' ∉ l)
    (hs : Shaped { c with zl := none }) (hids : IdsFinite c) {x : Num} (hz : c.zl = some [x]) :
    ∃ fs', savecase fs root c comment = some (root ++ ".py".toList, fs') ∧ loadcase fs' (root ++ ".py".toList) = none := by
  obtain ⟨P, fb, fg, fr, hP, _, _, _, _, _, _, hzl, _⟩ := shaped_prints hs
  have hids' : IdsFinite { c with zl := none } := ⟨hids.bus, hids.gen, hids.branch, hids.areas, hids.gencost⟩
  have hok := shaped_saves hs hids' hP
  have hP' : prints c = some { P with zl := some [[(.g9, x)]] } := by
    unfold prints at hP ⊢
    obtain ⟨pb, hpb, hP⟩ := Option.bind_eq_some_iff.1 hP
    obtain ⟨pg, hpg, hP⟩ := Option.bind_eq_some_iff.1 hP
    obtain ⟨pr, hpr, hP⟩ := Option.bind_eq_some_iff.1 hP
    obtain ⟨oa, hoa, hP⟩ := Option.bind_eq_some_iff.1 hP
    obtain ⟨oc, hoc, hP⟩ := Option.bind_eq_some_iff.1 hP
    obtain ⟨⟨⟩, hA, hP⟩ := Option.bind_eq_some_iff.1 hP
    obtain ⟨⟨⟩, hN, hP⟩ := Option.bind_eq_some_iff.1 hP
    obtain ⟨z0, hz0, hP⟩ := Option.bind_eq_some_iff.1 hP
    obtain ⟨zl, hzl, hP⟩ := Option.bind_eq_some_iff.1 hP
    obtain ⟨zu, hzu, hP⟩ := Option.bind_eq_some_iff.1 hP
    dsimp only at hpb hpg hpr hoa hoc hA hN hz0 hzl hzu
    rw [hpb, hpg, hpr, hoa, hoc, hA, hN, hz0, hz, hzu, ← Option.some.inj hP]
    rfl
  have hok' : Prints.dOk { P with zl := some [[(.g9, x)]] } := hok
  obtain ⟨text, htext⟩ := save_some hP' hok' (basename root) comment
  refine ⟨fun n => if n = root ++ ".py".toList then some text else fs n, ?_, ?_⟩
  · unfold savecase
    rw [(saveRoot_root hn).1, if_pos rfl, htext]
    rfl
  · rw [load_py hn (if_pos rfl), load_saved (goodName_ident hn) hn.2.2 hcom htext hP']
    cases c.base with
    | inf b => rfl
    | nan => rfl
    | fin b =>
      dsimp only
      rw [if_neg]
      rintro ⟨hg, _⟩
      rw [goodLines_iff] at hg
      simp at hg

/-- A case with user constraints or user costs is not saved: `savecase` raises, whatever the matrix, unless it is a dense one without rows. -/
theorem C115_user (fs : Files) (fname : List Char) (c : SaveCase) (comment : List (List Char)) {m : UserMat} (hm : m ≠ .dense 0) (h : c.A = some m ∨ c.N = some m) :
    savecase fs fname c comment = none := by
  have hu : userText (some m) = none := by
    rcases m with _ | _ | n
    · rfl
    · exact absurd rfl hm
    · rfl
  unfold savecase
  split
  · have : saveText (basename (saveRoot fname).1) comment c = none := by
      by_contra hne
      obtain ⟨t, ht⟩ := Option.ne_none_iff_exists'.1 hne
      unfold saveText at ht
      obtain ⟨xb, hb, ht⟩ := Option.bind_eq_some_iff.1 ht
      obtain ⟨xg, hg, ht⟩ := Option.bind_eq_some_iff.1 ht
      obtain ⟨xr, hr, ht⟩ := Option.bind_eq_some_iff.1 ht
      obtain ⟨xa, ha, ht⟩ := Option.bind_eq_some_iff.1 ht
      obtain ⟨xc, hc, ht⟩ := Option.bind_eq_some_iff.1 ht
      obtain ⟨⟨⟩, hA, ht⟩ := Option.bind_eq_some_iff.1 ht
      obtain ⟨⟨⟩, hN, ht⟩ := Option.bind_eq_some_iff.1 ht
      rcases h with h | h
      · rw [h, hu] at hA
        simp at hA
      · rw [h, hu] at hN
        simp at hN
    rw [this]
    rfl
  · rfl

/-- A file named like a local variable of `loadcase` cannot be loaded, whatever is in it. -/
theorem C115_name (fs : Files) (root : List Char) (h : basename root ∈ localNames) : loadcase fs (root ++ ".py".toList) = none := by
  unfold loadcase
  rw [if_pos (List.suffix_append _ _), drop_py]
  split
  · rfl
  · cases fs (root ++ ".py".toList) with
    | none => rfl
    | some t =>
      show loadText root t = none
      rw [loadText, if_pos h]

end Verif.SaveText
