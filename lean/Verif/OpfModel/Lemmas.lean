import Verif.OpfModel.Spec
import Mathlib.Algebra.BigOperators.Ring.Finset
import Mathlib.Algebra.BigOperators.Intervals
import Mathlib.Tactic.Ring
import Mathlib.Tactic.Linarith

/-! # Lemmas about the optimisation model object -/

namespace Verif.OpfModel

/-- Bookkeeping obtained by registering blocks one after the other. -/
def foldIdx (bs : List (String × Nat)) : Idx := bs.foldl (fun s b => s.add b.1 b.2) Idx.empty

theorem foldIdx_snoc (bs : List (String × Nat)) (b : String × Nat) : foldIdx (bs ++ [b]) = (foldIdx bs).add b.1 b.2 := by
  simp [foldIdx, List.foldl_append]

theorem total_append (a b : List (String × Nat)) : total (a ++ b) = total a + total b := by simp [total]

theorem foldIdx_basic (bs : List (String × Nat)) :
    (foldIdx bs).total = total bs ∧ (foldIdx bs).NS = bs.length ∧ (foldIdx bs).order = names bs := by
  induction bs using List.reverseRecOn with
  | nil => simp [foldIdx, Idx.empty, total, names]
  | append_singleton bs b ih =>
    rw [foldIdx_snoc, total_append]
    simp only [Idx.add, ih]
    simp [total, names]

theorem foldIdx_names (bs : List (String × Nat)) : (foldIdx bs).names = names bs := by
  obtain ⟨_, h2, h3⟩ := foldIdx_basic bs
  rw [Idx.names, h2, h3, List.take_of_length_le (by simp [names])]

theorem find_append_of_mem (bs cs : List (String × Nat)) (v : String) (hv : v ∈ names bs) :
    (bs ++ cs).find? (fun b => b.1 = v) = bs.find? (fun b => b.1 = v) := by
  rw [List.find?_append]
  obtain ⟨b, hb, rfl⟩ := List.mem_map.1 hv
  cases h : bs.find? (fun c => c.1 = b.1) with
  | none => rw [List.find?_eq_none] at h; exact absurd (by simp) (h b hb)
  | some x => rfl

theorem size_append_of_mem (bs cs : List (String × Nat)) (v : String) (hv : v ∈ names bs) : size (bs ++ cs) v = size bs v := by
  rw [size, find_append_of_mem _ _ _ hv]; rfl

theorem size_append_of_not_mem (bs cs : List (String × Nat)) (v : String) (hv : v ∉ names bs) : size (bs ++ cs) v = size cs v := by
  rw [size, List.find?_append]
  have : bs.find? (fun b => decide (b.1 = v)) = none := by
    rw [List.find?_eq_none]; intro b hb h; exact hv (List.mem_map.2 ⟨b, hb, by simpa using h⟩)
  rw [this]; rfl

theorem start_append_of_mem (bs cs : List (String × Nat)) (v : String) (hv : v ∈ names bs) : start (bs ++ cs) v = start bs v := by
  unfold start
  congr 1
  induction bs with
  | nil => simp [names] at hv
  | cons b bs ih =>
    by_cases hb : b.1 = v
    · simp [hb]
    · have hv' : v ∈ names bs := by simp [names] at hv ⊢; grind
      rw [List.cons_append, List.takeWhile_cons, List.takeWhile_cons]; simp [hb]; simpa using ih hv'

theorem start_append_of_not_mem (bs cs : List (String × Nat)) (v : String) (hv : v ∉ names bs) : start (bs ++ cs) v = total bs + start cs v := by
  unfold start
  rw [List.takeWhile_append_of_pos, total_append]
  intro b hb
  have : b.1 ≠ v := by rintro rfl; exact hv (List.mem_map.2 ⟨b, hb, rfl⟩)
  simpa using this

theorem start_size_le (bs : List (String × Nat)) (v : String) (hv : v ∈ names bs) : start bs v + size bs v ≤ total bs := by
  induction bs with
  | nil => simp [names] at hv
  | cons b bs ih =>
    by_cases hb : b.1 = v
    · simp [start, size, hb, total]
    · have hv' : v ∈ names bs := by simp [names] at hv ⊢; grind
      have := ih hv'
      simp only [start, size, total, List.takeWhile_cons, List.find?_cons, ne_eq, hb, not_false_eq_true, decide_true, if_true, decide_false,
        List.map_cons, List.sum_cons] at this ⊢
      omega

theorem foldIdx_lookup (bs : List (String × Nat)) (hnd : (names bs).Nodup) :
    (∀ v ∈ names bs, (foldIdx bs).i1 v = some (start bs v) ∧ (foldIdx bs).iN v = some (start bs v + size bs v) ∧ (foldIdx bs).N v = some (size bs v)) ∧
    (∀ v, v ∉ names bs → (foldIdx bs).i1 v = none ∧ (foldIdx bs).iN v = none ∧ (foldIdx bs).N v = none) := by
  induction bs using List.reverseRecOn with
  | nil => simp [foldIdx, Idx.empty, names]
  | append_singleton bs b ih =>
    have hnd' : (names bs).Nodup ∧ b.1 ∉ names bs := by
      simp only [names, List.map_append, List.map_cons, List.map_nil] at hnd ⊢
      rw [List.nodup_append] at hnd
      exact ⟨hnd.1, fun h => hnd.2.2 _ h _ (by simp) rfl⟩
    obtain ⟨ih1, ih2⟩ := ih hnd'.1
    have ht := (foldIdx_basic bs).1
    rw [foldIdx_snoc]
    constructor
    · intro v hv
      by_cases hvb : v = b.1
      · subst hvb
        rw [start_append_of_not_mem _ _ _ hnd'.2, size_append_of_not_mem _ _ _ hnd'.2]
        simp [Idx.add, Dict.set, ht, start, size, total]
      · have hv' : v ∈ names bs := by simp [names] at hv ⊢; grind
        rw [start_append_of_mem _ _ _ hv', size_append_of_mem _ _ _ hv']
        simpa [Idx.add, Dict.set, hvb] using ih1 v hv'
    · intro v hv
      have hvb : v ≠ b.1 := by rintro rfl; exact hv (by simp [names])
      have hv' : v ∉ names bs := fun h => hv (by simp [names] at h ⊢; grind)
      simpa [Idx.add, Dict.set, hvb] using ih2 v hv'

/-- Dict obtained by storing the blocks' values one after the other. -/
def foldDict {α β : Type} (bs : List (String × α)) (f : α → β) : Dict β := bs.foldl (fun d b => d.set b.1 (f b.2)) (fun _ => none)

/-- Same with optional values. -/
def foldDictOpt {α β : Type} (bs : List (String × α)) (f : α → Option β) : Dict β := bs.foldl (fun d b => d.setOpt b.1 (f b.2)) (fun _ => none)

theorem foldDict_snoc {α β : Type} (bs : List (String × α)) (f : α → β) (b : String × α) :
    foldDict (bs ++ [b]) f = (foldDict bs f).set b.1 (f b.2) := by simp [foldDict, List.foldl_append]

theorem foldDictOpt_snoc {α β : Type} (bs : List (String × α)) (f : α → Option β) (b : String × α) :
    foldDictOpt (bs ++ [b]) f = (foldDictOpt bs f).setOpt b.1 (f b.2) := by simp [foldDictOpt, List.foldl_append]

theorem foldDict_not_mem {α β : Type} (bs : List (String × α)) (f : α → β) (v : String) (hv : v ∉ names bs) : foldDict bs f v = none := by
  induction bs using List.reverseRecOn with
  | nil => rfl
  | append_singleton bs b ih =>
    rw [foldDict_snoc]
    have h1 : v ≠ b.1 := by rintro rfl; exact hv (by simp [names])
    have h2 : v ∉ names bs := fun h => hv (by simp [names] at h ⊢; grind)
    simp [Dict.set, h1, ih h2]

theorem foldDict_mem {α β : Type} (bs : List (String × α)) (f : α → β) (hnd : (names bs).Nodup) (b : String × α) (hb : b ∈ bs) :
    foldDict bs f b.1 = some (f b.2) := by
  induction bs using List.reverseRecOn with
  | nil => simp at hb
  | append_singleton bs c ih =>
    have hnd' : (names bs).Nodup ∧ c.1 ∉ names bs := by
      simp only [names, List.map_append, List.map_cons, List.map_nil] at hnd ⊢
      rw [List.nodup_append] at hnd
      exact ⟨hnd.1, fun h => hnd.2.2 _ h _ (by simp) rfl⟩
    rw [foldDict_snoc]
    rcases List.mem_append.1 hb with hb | hb
    · have : b.1 ≠ c.1 := by intro h; exact hnd'.2 (h ▸ List.mem_map.2 ⟨b, hb, rfl⟩)
      simp [Dict.set, this, ih hnd'.1 hb]
    · simp only [List.mem_singleton] at hb; subst hb; simp [Dict.set]

theorem foldDictOpt_not_mem {α β : Type} (bs : List (String × α)) (f : α → Option β) (v : String) (hv : v ∉ names bs) : foldDictOpt bs f v = none := by
  induction bs using List.reverseRecOn with
  | nil => rfl
  | append_singleton bs b ih =>
    rw [foldDictOpt_snoc]
    have h1 : v ≠ b.1 := by rintro rfl; exact hv (by simp [names])
    have h2 : v ∉ names bs := fun h => hv (by simp [names] at h ⊢; grind)
    cases f b.2 <;> simp [Dict.setOpt, Dict.set, h1, ih h2]

theorem foldDictOpt_mem {α β : Type} (bs : List (String × α)) (f : α → Option β) (hnd : (names bs).Nodup) (b : String × α) (hb : b ∈ bs) :
    foldDictOpt bs f b.1 = f b.2 := by
  induction bs using List.reverseRecOn with
  | nil => simp at hb
  | append_singleton bs c ih =>
    have hnd' : (names bs).Nodup ∧ c.1 ∉ names bs := by
      simp only [names, List.map_append, List.map_cons, List.map_nil] at hnd ⊢
      rw [List.nodup_append] at hnd
      exact ⟨hnd.1, fun h => hnd.2.2 _ h _ (by simp) rfl⟩
    rw [foldDictOpt_snoc]
    rcases List.mem_append.1 hb with hb | hb
    · have : b.1 ≠ c.1 := by intro h; exact hnd'.2 (h ▸ List.mem_map.2 ⟨b, hb, rfl⟩)
      cases h : f c.2 <;> simp [Dict.setOpt, Dict.set, this, ih hnd'.1 hb]
    · simp only [List.mem_singleton] at hb; subst hb
      cases h : f b.2
      · simp [Dict.setOpt, foldDictOpt_not_mem _ _ _ hnd'.2]
      · simp [Dict.setOpt, Dict.set]

/-- What the object's state is after a history, field by field. -/
structure Rep (h : List Op) (m : Model) : Prop where
  var : m.var = foldIdx (varBlocks h)
  v0 : m.v0 = foldDict (varVals h) (fun b => orDefault b.n 0 b.v0)
  vl : m.vl = foldDict (varVals h) (fun b => orDefault b.n ⊥ b.vl)
  vu : m.vu = foldDict (varVals h) (fun b => orDefault b.n ⊤ b.vu)
  nln : m.nln = foldIdx (nlnBlocks h)
  lin : m.lin = foldIdx (linBlocks h)
  A : m.A = foldDict (linBlks h) LinBlk.A
  l : m.l = foldDict (linBlks h) (fun b => orDefault b.A.rows ⊥ (some b.l))
  u : m.u = foldDict (linBlks h) (fun b => orDefault b.A.rows ⊤ (some b.u))
  linVs : m.linVs = foldDict (linBlks h) (fun b => storeVs b.vs)
  linEx : ∀ b ∈ linBlks h, ∀ v ∈ b.2.vs, v ∈ names (varBlocks h)
  cost : m.cost = foldIdx (costBlocks h)
  cN : m.cN = foldDict (costBlks h) (fun b => b.cp.N)
  cCw : m.cCw = foldDict (costBlks h) (fun b => b.cp.Cw)
  cH : m.cH = foldDictOpt (costBlks h) (fun b => b.cp.H)
  costVs : m.costVs = foldDict (costBlks h) (fun b => storeVs b.vs)
  costEx : ∀ b ∈ costBlks h, ∀ v ∈ b.2.vs, v ∈ names (varBlocks h)
  costLen : ∀ b ∈ costBlks h, b.2.cp.Cw.length = b.2.cp.N.rows ∧ (∀ H, b.2.cp.H = some H → H.rows = b.2.cp.N.rows ∧ H.cols = b.2.cp.N.rows)
  dd : ∀ k, k ≠ "name" → m.dd k = none
  rh : ∀ k, k ≠ "name" → m.rh k = none
  kk : ∀ k, k ≠ "name" → m.kk k = none
  mm : ∀ k, k ≠ "name" → m.mm k = none
  noOpt : (∀ b ∈ costBlks h, b.2.cp.dd = none ∧ b.2.cp.rh = none ∧ b.2.cp.kk = none ∧ b.2.cp.mm = none) →
    m.dd "name" = none ∧ m.rh "name" = none ∧ m.kk "name" = none ∧ m.mm "name" = none
  params : m.params = none

theorem filterMap_snoc {α β : Type} (f : α → Option β) (l : List α) (a : α) : (l ++ [a]).filterMap f = l.filterMap f ++ (f a).toList := by
  rw [List.filterMap_append]; cases h : f a <;> simp [h]

theorem names_foldIdx_mem (h : List Op) (m : Model) (r : m.var = foldIdx (varBlocks h)) (v : String) (n : Nat) (hv : m.var.N v = some n) :
    v ∈ names (varBlocks h) := by
  rw [r] at hv
  by_contra hc
  have : ∀ bs : List (String × Nat), v ∉ names bs → (foldIdx bs).N v = none := by
    intro bs
    induction bs using List.reverseRecOn with
    | nil => intro _; rfl
    | append_singleton bs b ih =>
      intro hv
      have h1 : v ≠ b.1 := by rintro rfl; exact hv (by simp [names])
      have h2 : v ∉ names bs := fun h => hv (by simp [names] at h ⊢; grind)
      rw [foldIdx_snoc]; simp [Idx.add, Dict.set, h1, ih h2]
  rw [this _ hc] at hv; simp at hv

theorem width_mem (h : List Op) (m : Model) (r : m.var = foldIdx (varBlocks h)) (vs : List String) (w : Nat) (hw : m.width vs = some w) :
    ∀ v ∈ vs, v ∈ names (varBlocks h) := by
  induction vs generalizing w with
  | nil => simp
  | cons v vs ih =>
    simp only [Model.width] at hw
    cases hn : m.var.N v with
    | none => rw [hn] at hw; simp at hw
    | some n =>
      rw [hn] at hw
      cases hr : m.width vs with
      | none => rw [hr] at hw; simp at hw
      | some r' =>
        intro x hx
        rcases List.mem_cons.1 hx with rfl | hx
        · exact names_foldIdx_mem h m r x n hn
        · exact ih r' hr x hx

theorem resolve_names_mem (h : List Op) (m : Model) (r : m.var = foldIdx (varBlocks h)) (vs : List String) (w : Nat)
    (hw : m.width (m.resolve (storeVs vs)) = some w) : ∀ v ∈ vs, v ∈ names (varBlocks h) := by
  by_cases hvs : vs = []
  · subst hvs; simp
  · rw [storeVs, if_neg hvs, Model.resolve] at hw
    exact width_mem h m r vs w hw

theorem Rep.init : Rep [] Model.init := by
  constructor <;> first | rfl | (intros; simp_all [linBlks, costBlks]; done) | (intros; rfl) | skip
  intro _; exact ⟨rfl, rfl, rfl, rfl⟩

theorem varBlocks_append (h h' : List Op) : varBlocks (h ++ h') = varBlocks h ++ varBlocks h' := List.filterMap_append
theorem nlnBlocks_append (h h' : List Op) : nlnBlocks (h ++ h') = nlnBlocks h ++ nlnBlocks h' := List.filterMap_append
theorem linBlks_append (h h' : List Op) : linBlks (h ++ h') = linBlks h ++ linBlks h' := List.filterMap_append
theorem costBlks_append (h h' : List Op) : costBlks (h ++ h') = costBlks h ++ costBlks h' := List.filterMap_append
theorem varVals_append (h h' : List Op) : varVals (h ++ h') = varVals h ++ varVals h' := List.filterMap_append
theorem linBlocks_append (h h' : List Op) : linBlocks (h ++ h') = linBlocks h ++ linBlocks h' := by simp [linBlocks, linBlks_append]
theorem costBlocks_append (h h' : List Op) : costBlocks (h ++ h') = costBlocks h ++ costBlocks h' := by simp [costBlocks, costBlks_append]

theorem Rep.step {h : List Op} {m m' : Model} (r : Rep h m) (op : Op) (hs : step m op = some m') : Rep (h ++ [op]) m' := by
  cases op with
  | addVars name n v0 vl vu =>
    simp only [OpfModel.step, Option.some.injEq] at hs
    subst hs
    have e1 : varBlocks (h ++ [.addVars name n v0 vl vu]) = varBlocks h ++ [(name, n)] := by rw [varBlocks_append]; rfl
    have e2 : nlnBlocks (h ++ [.addVars name n v0 vl vu]) = nlnBlocks h := by rw [nlnBlocks_append]; simp [nlnBlocks]
    have e3 : linBlks (h ++ [.addVars name n v0 vl vu]) = linBlks h := by rw [linBlks_append]; simp [linBlks]
    have e4 : costBlks (h ++ [.addVars name n v0 vl vu]) = costBlks h := by rw [costBlks_append]; simp [costBlks]
    have e5 : varVals (h ++ [.addVars name n v0 vl vu]) = varVals h ++ [(name, ⟨n, v0, vl, vu⟩)] := by rw [varVals_append]; rfl
    have e6 : linBlocks (h ++ [.addVars name n v0 vl vu]) = linBlocks h := by simp [linBlocks, e3]
    have e7 : costBlocks (h ++ [.addVars name n v0 vl vu]) = costBlocks h := by simp [costBlocks, e4]
    constructor
    · rw [e1, foldIdx_snoc, ← r.var]; rfl
    · rw [e5, foldDict_snoc, ← r.v0]; rfl
    · rw [e5, foldDict_snoc, ← r.vl]; rfl
    · rw [e5, foldDict_snoc, ← r.vu]; rfl
    · rw [e2]; exact r.nln
    · rw [e6]; exact r.lin
    · rw [e3]; exact r.A
    · rw [e3]; exact r.l
    · rw [e3]; exact r.u
    · rw [e3]; exact r.linVs
    · rw [e3, e1]; intro b hb v hv; have := r.linEx b hb v hv; simp [names] at this ⊢; grind
    · rw [e7]; exact r.cost
    · rw [e4]; exact r.cN
    · rw [e4]; exact r.cCw
    · rw [e4]; exact r.cH
    · rw [e4]; exact r.costVs
    · rw [e4, e1]; intro b hb v hv; have := r.costEx b hb v hv; simp [names] at this ⊢; grind
    · rw [e4]; exact r.costLen
    · exact r.dd
    · exact r.rh
    · exact r.kk
    · exact r.mm
    · rw [e4]; exact r.noOpt
    · exact r.params
  | addNln name n =>
    simp only [OpfModel.step, Option.some.injEq] at hs
    subst hs
    have e1 : varBlocks (h ++ [.addNln name n]) = varBlocks h := by rw [varBlocks_append]; simp [varBlocks]
    have e2 : nlnBlocks (h ++ [.addNln name n]) = nlnBlocks h ++ [(name, n)] := by rw [nlnBlocks_append]; rfl
    have e3 : linBlks (h ++ [.addNln name n]) = linBlks h := by rw [linBlks_append]; simp [linBlks]
    have e4 : costBlks (h ++ [.addNln name n]) = costBlks h := by rw [costBlks_append]; simp [costBlks]
    have e5 : varVals (h ++ [.addNln name n]) = varVals h := by rw [varVals_append]; simp [varVals]
    have e6 : linBlocks (h ++ [.addNln name n]) = linBlocks h := by simp [linBlocks, e3]
    have e7 : costBlocks (h ++ [.addNln name n]) = costBlocks h := by simp [costBlocks, e4]
    constructor
    · rw [e1]; exact r.var
    · rw [e5]; exact r.v0
    · rw [e5]; exact r.vl
    · rw [e5]; exact r.vu
    · rw [e2, foldIdx_snoc, ← r.nln]; rfl
    · rw [e6]; exact r.lin
    · rw [e3]; exact r.A
    · rw [e3]; exact r.l
    · rw [e3]; exact r.u
    · rw [e3]; exact r.linVs
    · rw [e3, e1]; exact r.linEx
    · rw [e7]; exact r.cost
    · rw [e4]; exact r.cN
    · rw [e4]; exact r.cCw
    · rw [e4]; exact r.cH
    · rw [e4]; exact r.costVs
    · rw [e4, e1]; exact r.costEx
    · rw [e4]; exact r.costLen
    · exact r.dd
    · exact r.rh
    · exact r.kk
    · exact r.mm
    · rw [e4]; exact r.noOpt
    · exact r.params
  | addLin name A l u vs =>
    simp only [OpfModel.step, Model.addLin] at hs
    cases hw : m.width (m.resolve (storeVs vs)) with
    | none => rw [hw] at hs; simp at hs
    | some w =>
    rw [hw] at hs
    simp only [Option.bind_eq_bind, Option.bind_some, Option.some.injEq] at hs
    subst hs
    have e1 : varBlocks (h ++ [.addLin name A l u vs]) = varBlocks h := by rw [varBlocks_append]; simp [varBlocks]
    have e2 : nlnBlocks (h ++ [.addLin name A l u vs]) = nlnBlocks h := by rw [nlnBlocks_append]; simp [nlnBlocks]
    have e3 : linBlks (h ++ [.addLin name A l u vs]) = linBlks h ++ [(name, ⟨A, l, u, vs⟩)] := by rw [linBlks_append]; rfl
    have e4 : costBlks (h ++ [.addLin name A l u vs]) = costBlks h := by rw [costBlks_append]; simp [costBlks]
    have e5 : varVals (h ++ [.addLin name A l u vs]) = varVals h := by rw [varVals_append]; simp [varVals]
    have e6 : linBlocks (h ++ [.addLin name A l u vs]) = linBlocks h ++ [(name, A.rows)] := by simp [linBlocks, e3]
    have e7 : costBlocks (h ++ [.addLin name A l u vs]) = costBlocks h := by simp [costBlocks, e4]
    constructor
    · rw [e1]; exact r.var
    · rw [e5]; exact r.v0
    · rw [e5]; exact r.vl
    · rw [e5]; exact r.vu
    · rw [e2]; exact r.nln
    · rw [e6, foldIdx_snoc, ← r.lin]
    · rw [e3, foldDict_snoc, ← r.A]
    · rw [e3, foldDict_snoc, ← r.l]
    · rw [e3, foldDict_snoc, ← r.u]
    · rw [e3, foldDict_snoc, ← r.linVs]
    · rw [e3, e1]
      intro b hb v hv
      rcases List.mem_append.1 hb with hb | hb
      · exact r.linEx b hb v hv
      · simp only [List.mem_singleton] at hb; subst hb
        exact resolve_names_mem h m r.var vs w hw v hv
    · rw [e7]; exact r.cost
    · rw [e4]; exact r.cN
    · rw [e4]; exact r.cCw
    · rw [e4]; exact r.cH
    · rw [e4]; exact r.costVs
    · rw [e4, e1]; exact r.costEx
    · rw [e4]; exact r.costLen
    · exact r.dd
    · exact r.rh
    · exact r.kk
    · exact r.mm
    · rw [e4]; exact r.noOpt
    · exact r.params
  | addCosts name cp vs =>
    simp only [OpfModel.step, Model.addCosts] at hs
    cases hw : m.width (m.resolve (storeVs vs)) with
    | none => rw [hw] at hs; simp at hs
    | some w =>
    rw [hw] at hs
    simp only [Option.bind_eq_bind, Option.bind_some] at hs
    split at hs
    · simp at hs
    split at hs
    · simp at hs
    split at hs
    · simp at hs
    rename_i hc1 hc2 hc3
    simp only [Option.some.injEq] at hs
    subst hs
    have e1 : varBlocks (h ++ [.addCosts name cp vs]) = varBlocks h := by rw [varBlocks_append]; simp [varBlocks]
    have e2 : nlnBlocks (h ++ [.addCosts name cp vs]) = nlnBlocks h := by rw [nlnBlocks_append]; simp [nlnBlocks]
    have e3 : linBlks (h ++ [.addCosts name cp vs]) = linBlks h := by rw [linBlks_append]; simp [linBlks]
    have e4 : costBlks (h ++ [.addCosts name cp vs]) = costBlks h ++ [(name, ⟨cp, vs⟩)] := by rw [costBlks_append]; rfl
    have e5 : varVals (h ++ [.addCosts name cp vs]) = varVals h := by rw [varVals_append]; simp [varVals]
    have e6 : linBlocks (h ++ [.addCosts name cp vs]) = linBlocks h := by simp [linBlocks, e3]
    have e7 : costBlocks (h ++ [.addCosts name cp vs]) = costBlocks h ++ [(name, cp.N.rows)] := by simp [costBlocks, e4]
    have hopt : ∀ (d : Dict (List ℝ)) (o : Option (List ℝ)), (∀ k, k ≠ "name" → d k = none) → ∀ k, k ≠ "name" → d.setOpt "name" o k = none := by
      intro d o hd k hk
      cases o <;> simp [Dict.setOpt, Dict.set, hk, hd k hk]
    constructor
    · rw [e1]; exact r.var
    · rw [e5]; exact r.v0
    · rw [e5]; exact r.vl
    · rw [e5]; exact r.vu
    · rw [e2]; exact r.nln
    · rw [e6]; exact r.lin
    · rw [e3]; exact r.A
    · rw [e3]; exact r.l
    · rw [e3]; exact r.u
    · rw [e3]; exact r.linVs
    · rw [e3, e1]; exact r.linEx
    · rw [e7, foldIdx_snoc, ← r.cost]
    · rw [e4, foldDict_snoc, ← r.cN]
    · rw [e4, foldDict_snoc, ← r.cCw]
    · rw [e4, foldDictOpt_snoc, ← r.cH]
    · rw [e4, foldDict_snoc, ← r.costVs]
    · rw [e4, e1]
      intro b hb v hv
      rcases List.mem_append.1 hb with hb | hb
      · exact r.costEx b hb v hv
      · simp only [List.mem_singleton] at hb; subst hb
        exact resolve_names_mem h m r.var vs w hw v hv
    · rw [e4]
      intro b hb
      rcases List.mem_append.1 hb with hb | hb
      · exact r.costLen b hb
      · simp only [List.mem_singleton] at hb; subst hb
        refine ⟨not_not.1 hc2, ?_⟩
        intro H hH
        simp only at hH
        rw [hH] at hc3
        simp [badH] at hc3
        exact hc3.1.1.1.1
    · exact hopt _ _ r.dd
    · exact hopt _ _ r.rh
    · exact hopt _ _ r.kk
    · exact hopt _ _ r.mm
    · rw [e4]
      intro hall
      have h1 := hall (name, ⟨cp, vs⟩) (by simp)
      have h2 := r.noOpt (fun b hb => hall b (by simp [hb]))
      simp only at h1
      simp only [h1.1, h1.2.1, h1.2.2.1, h1.2.2.2, Dict.setOpt]
      exact h2
    · exact r.params

theorem Rep.run {h : List Op} {m : Model} (hm : run h = some m) : Rep h m := by
  have : ∀ (h h0 : List Op) (m0 m : Model), Rep h0 m0 → h.foldlM OpfModel.step m0 = some m → Rep (h0 ++ h) m := by
    intro h
    induction h with
    | nil => intro h0 m0 m r hm; simp at hm; subst hm; simpa using r
    | cons op h ih =>
      intro h0 m0 m r hm
      rw [List.foldlM_cons] at hm
      cases hs : OpfModel.step m0 op with
      | none => rw [hs] at hm; simp at hm
      | some m1 =>
        rw [hs] at hm
        have := ih (h0 ++ [op]) m1 m (r.step op hs) hm
        simpa using this
  simpa using this h [] Model.init m Rep.init hm

end Verif.OpfModel
