import Verif.Graph.Model
import Mathlib.Tactic.Linarith
import Mathlib.Tactic.Ring
import Mathlib.Tactic.SplitIfs
import Mathlib.Data.List.Sort

/-!
# Lemmas about graph construction
-/

namespace Verif

open Finset

noncomputable section

namespace Graph

section Ids

variable {ι : Type} [LinearOrder ι]

theorem mem_dropRepeats (x : ι) : ∀ l : List ι, x ∈ dropRepeats l ↔ x ∈ l
  | [] => by simp [dropRepeats]
  | [a] => by simp [dropRepeats]
  | a :: b :: l => by
    unfold dropRepeats
    split_ifs with h
    · rw [mem_dropRepeats x (b :: l), h]
      simp
    · rw [List.mem_cons, mem_dropRepeats x (b :: l)]
      simp

theorem dropRepeats_sorted : ∀ l : List ι, l.Pairwise (· ≤ ·) → (dropRepeats l).Pairwise (· < ·)
  | [], _ => by simp [dropRepeats]
  | [a], _ => by simp [dropRepeats]
  | a :: b :: l, h => by
    have ih := dropRepeats_sorted (b :: l) (List.pairwise_cons.mp h).2
    unfold dropRepeats
    split_ifs with hab
    · exact ih
    · refine List.pairwise_cons.mpr ⟨fun x hx => ?_, ih⟩
      rw [mem_dropRepeats] at hx
      have hx1 := (List.pairwise_cons.mp h).1 b (by simp)
      have hlt : a < b := lt_of_le_of_ne hx1 hab
      rcases List.mem_cons.mp hx with rfl | hx
      · exact hlt
      · exact hlt.trans_le ((List.pairwise_cons.mp (List.pairwise_cons.mp h).2).1 x hx)

theorem mem_npUnique (x : ι) (l : List ι) : x ∈ npUnique l ↔ x ∈ l := by
  unfold npUnique
  rw [mem_dropRepeats, List.mem_mergeSort]

theorem npUnique_sorted (l : List ι) : (npUnique l).Pairwise (· < ·) := by
  apply dropRepeats_sorted
  have := List.pairwise_mergeSort (le := fun a b : ι => decide (a ≤ b))
    (fun a b c hab hbc => by simp only [decide_eq_true_eq] at *; exact hab.trans hbc)
    (fun a b => by simp only [Bool.or_eq_true, decide_eq_true_eq]; exact le_total a b) l
  simpa using this

theorem npUnique_nodup (l : List ι) : (npUnique l).Nodup :=
  (npUnique_sorted l).imp (fun h => ne_of_lt h)

theorem npUnique_congr {l l' : List ι} (h : ∀ x, x ∈ l ↔ x ∈ l') : npUnique l = npUnique l' := by
  refine List.Perm.eq_of_pairwise (le := (· < ·)) (fun a b _ _ h1 h2 => absurd h2 h1.asymm)
    (npUnique_sorted l) (npUnique_sorted l') ?_
  rw [List.perm_ext_iff_of_nodup (npUnique_nodup l) (npUnique_nodup l')]
  intro x
  rw [mem_npUnique, mem_npUnique, h]

theorem npUnique_perm {l : List ι} (h : l.Nodup) : (npUnique l).Perm l := by
  rw [List.perm_ext_iff_of_nodup (npUnique_nodup l) h]
  exact fun x => mem_npUnique x l

theorem counts_iff (l : List ι) :
    (npUnique l).all (fun x => l.count x == 1) = true ↔ l.Nodup := by
  rw [List.all_eq_true, List.nodup_iff_count_le_one]
  constructor
  · intro h x
    by_cases hx : x ∈ l
    · have := h x ((mem_npUnique x l).mpr hx)
      simp only [beq_iff_eq] at this
      omega
    · rw [List.count_eq_zero.mpr hx]
      omega
  · intro h x hx
    rw [mem_npUnique] at hx
    have := h x
    have := List.count_pos_iff.mpr hx
    simp only [beq_iff_eq]
    omega

/-- Lookup in an enumeration. -/
theorem lookup_zipIdx : ∀ (l : List ι) (n k : ℕ) (x : ι), l.Nodup →
    ((l.zipIdx n).lookup x = some k ↔ ∃ i, k = n + i ∧ l[i]? = some x)
  | [], n, k, x, _ => by simp
  | a :: l, n, k, x, h => by
    rw [List.nodup_cons] at h
    rw [List.zipIdx_cons, List.lookup_cons]
    by_cases hxa : x = a
    · subst hxa
      simp only [beq_self_eq_true, Option.some.injEq]
      constructor
      · rintro rfl
        exact ⟨0, rfl, rfl⟩
      · rintro ⟨i, hi, hl⟩
        cases i with
        | zero => omega
        | succ i =>
          rw [List.getElem?_cons_succ] at hl
          exact absurd (List.mem_of_getElem? hl) h.1
    · have : (x == a) = false := beq_false_of_ne hxa
      rw [this]
      simp only
      rw [lookup_zipIdx l (n + 1) k x h.2]
      constructor
      · rintro ⟨i, hi, hl⟩
        exact ⟨i + 1, by omega, by rw [List.getElem?_cons_succ]; exact hl⟩
      · rintro ⟨i, hi, hl⟩
        cases i with
        | zero =>
          simp only [List.getElem?_cons_zero, Option.some.injEq] at hl
          exact absurd hl.symm hxa
        | succ i => exact ⟨i, by omega, by rw [List.getElem?_cons_succ] at hl; exact hl⟩

theorem lookup_dict (l : List ι) (k : ℕ) (x : ι) :
    (npUnique l).zipIdx.lookup x = some k ↔ (npUnique l)[k]? = some x := by
  rw [lookup_zipIdx _ _ _ _ (npUnique_nodup l)]
  constructor
  · rintro ⟨i, hi, h⟩
    rw [hi, Nat.zero_add]; exact h
  · intro h
    exact ⟨k, by omega, h⟩

theorem lookup_isSome (l : List ι) (x : ι) :
    ((npUnique l).zipIdx.lookup x).isSome = true ↔ x ∈ l := by
  rw [← mem_npUnique x l, List.mem_iff_getElem?, Option.isSome_iff_exists]
  exact exists_congr (fun k => lookup_dict l k x)

/-- What the numbering of identifiers has to satisfy: `f` numbers exactly the elements of `l`, by
`0, …, N - 1`, one-to-one and in increasing order. -/
structure Numbering (l : List ι) (N : ℕ) (f : ι → Option ℕ) : Prop where
  dom : ∀ x, (f x).isSome = true ↔ x ∈ l
  range : ∀ x k, f x = some k → k < N
  onto : ∀ k < N, ∃ x, f x = some k
  mono : ∀ x y i j, f x = some i → f y = some j → (x < y ↔ i < j)

theorem numbering_dict (l : List ι) :
    Numbering l (npUnique l).length (fun x => (npUnique l).zipIdx.lookup x) where
  dom := lookup_isSome l
  range := fun x k h => by
    rw [lookup_dict] at h
    exact (List.getElem?_eq_some_iff.mp h).1
  onto := fun k hk => ⟨(npUnique l)[k], by
    rw [lookup_dict]; exact List.getElem?_eq_getElem hk⟩
  mono := fun x y i j hx hy => by
    rw [lookup_dict] at hx hy
    obtain ⟨hi, rfl⟩ := List.getElem?_eq_some_iff.mp hx
    obtain ⟨hj, rfl⟩ := List.getElem?_eq_some_iff.mp hy
    have hs := List.pairwise_iff_getElem.mp (npUnique_sorted l)
    constructor
    · intro h
      by_contra hcon
      rcases Nat.lt_or_eq_of_le (not_lt.mp hcon) with h' | h'
      · exact absurd (hs j i hj hi h') h.asymm
      · subst h'; exact lt_irrefl _ h
    · exact hs i j hi hj

theorem Numbering.inj {l : List ι} {N : ℕ} {f : ι → Option ℕ} (h : Numbering l N f) {x y : ι}
    {k : ℕ} (hx : f x = some k) (hy : f y = some k) : x = y := by
  by_contra hne
  rcases lt_or_gt_of_ne hne with hlt | hlt
  · exact lt_irrefl _ ((h.mono x y k k hx hy).mp hlt)
  · exact lt_irrefl _ ((h.mono y x k k hy hx).mp hlt)

end Ids

/-! ### The flat writes -/

section Mat

variable {V : Type}

theorem pyRange_diag (n : ℕ) : pyRange (n * n) (n + 1) = (List.range n).map (fun k => k * (n + 1)) := by
  unfold pyRange
  have : (n * n + (n + 1) - 1) / (n + 1) = n := by
    have e : n * n + (n + 1) - 1 = n * (n + 1) := by
      have : n * (n + 1) = n * n + n := by ring
      omega
    rw [e]
    exact Nat.mul_div_cancel n (Nat.succ_pos n)
  rw [this]
  refine List.ext_getElem (by simp) (fun i h1 h2 => ?_)
  simp [List.getElem_range', Nat.mul_comm]

theorem flatSets_append (n : ℕ) (A : Mat V) (l l' : List (ℕ × V)) :
    flatSets n A (l ++ l') = flatSets n (flatSets n A l) l' := by
  simp [flatSets]

/-- Positions of the diagonal in the flattened array. -/
theorem flat_diag {n i j k : ℕ} (hj : j < n) (hk : k < n) :
    i * n + j = k * (n + 1) ↔ i = k ∧ j = k := by
  constructor
  · intro h
    have h' : i * n + j = k * n + k := by rw [h]; ring
    have e1 : (i * n + j) / n = i := by
      rw [Nat.add_comm, Nat.add_mul_div_right _ _ (by omega), Nat.div_eq_of_lt hj]; omega
    have e2 : (k * n + k) / n = k := by
      rw [Nat.add_comm, Nat.add_mul_div_right _ _ (by omega), Nat.div_eq_of_lt hk]; omega
    have : i = k := by rw [← e1, ← e2, h']
    subst this
    exact ⟨rfl, by omega⟩
  · rintro ⟨rfl, rfl⟩
    ring

theorem flatSets_diag (n : ℕ) (A : Mat V) (d : ℕ → V) : ∀ m ≤ n, ∀ i j, j < n →
    flatSets n A ((List.range m).map (fun k => (k * (n + 1), d k))) i j =
      if i = j ∧ i < m then d i else A i j := by
  intro m
  induction m with
  | zero => intro _ i j _; simp [flatSets]
  | succ m ih =>
    intro hm i j hj
    rw [List.range_succ, List.map_append, flatSets_append]
    simp only [List.map_cons, List.map_nil, flatSets, List.foldl_cons, List.foldl_nil]
    rw [show (List.foldl (fun A (pv : ℕ × V) => flatSet n A pv.1 pv.2) A
      (List.map (fun k => (k * (n + 1), d k)) (List.range m))) =
        flatSets n A ((List.range m).map (fun k => (k * (n + 1), d k))) from rfl]
    unfold flatSet
    rw [ih (by omega) i j hj]
    by_cases h1 : i = m ∧ j = m
    · obtain ⟨rfl, rfl⟩ := h1
      rw [if_pos ⟨by ring, hj⟩, if_pos ⟨rfl, by omega⟩]
    · rw [if_neg (by rw [flat_diag hj (by omega)]; tauto)]
      by_cases h2 : i = j ∧ i < m
      · rw [if_pos h2, if_pos ⟨h2.1, by omega⟩]
      · rw [if_neg h2, if_neg]
        rintro ⟨h3, h4⟩
        apply h1
        subst h3
        have : ¬ i < m := fun h => h2 ⟨rfl, h⟩
        omega

/-- The strided write replaces exactly the diagonal. -/
theorem setDiag_eq (n : ℕ) (A D : Mat V) {i j : ℕ} (hi : i < n) (hj : j < n) :
    setDiag n A D i j = if i = j then D i i else A i j := by
  unfold setDiag
  rw [pyRange_diag, List.zip_map', flatSets_diag n A (fun k => D k k) n le_rfl i j hj]
  simp [hi]

theorem Dense.diagIndex_eq (n l r : ℕ) (hr : r < n) :
    (l * n + r) * (n + 1) - n * ((l * n + r) / n) = l * (n * n) + r * n + r := by
  have e1 : (l * n + r) / n = l := by
    rw [Nat.add_comm, Nat.add_mul_div_right _ _ (by omega), Nat.div_eq_of_lt hr]; omega
  rw [e1]
  have : (l * n + r) * (n + 1) = (l * (n * n) + r * n + r) + n * l := by ring
  omega

end Mat

/-! ### Element types -/

/-- Laws of the element types used in the proofs. -/
class LawfulDtype (V : Type) [Dtype V] : Prop where
  zero_add : ∀ a : V, Dtype.add Dtype.zero a = a
  add_right_comm : ∀ a b c : V, Dtype.add (Dtype.add a b) c = Dtype.add (Dtype.add a c) b
  nz_zero : Dtype.nz (Dtype.zero : V) = false
  num_of_nz : ∀ a : V, Dtype.nz a = false → Dtype.num a = 0
  nz_of_pos : ∀ a : V, Dtype.pos a = true → Dtype.nz a = true
  add_pos : ∀ a b : V, Dtype.pos a = true → Dtype.pos b = true → Dtype.pos (Dtype.add a b) = true

instance : LawfulDtype ℝ where
  zero_add := fun a => by simp [Dtype.add, Dtype.zero]
  add_right_comm := fun a b c => by simp only [Dtype.add]; ring
  nz_zero := by simp [Dtype.nz, Dtype.zero]
  num_of_nz := fun a h => by
    simp only [Dtype.nz, ne_eq, decide_eq_false_iff_not, not_not] at h
    simp [Dtype.num, h]
  nz_of_pos := fun a h => by
    simp only [Dtype.pos, decide_eq_true_eq] at h
    simp [Dtype.nz, h.ne']
  add_pos := fun a b ha hb => by
    simp only [Dtype.pos, decide_eq_true_eq] at *
    simp only [Dtype.add]
    linarith

instance : LawfulDtype Bool where
  zero_add := fun a => by cases a <;> rfl
  add_right_comm := fun a b c => by cases a <;> cases b <;> cases c <;> rfl
  nz_zero := rfl
  num_of_nz := fun a h => by
    simp only [Dtype.nz] at h
    simp [Dtype.num, h]
  nz_of_pos := fun a h => h
  add_pos := fun a b ha _ => by simp only [Dtype.pos, Dtype.add] at *; simp [ha]

section Build

variable {V : Type} [Dtype V] [LawfulDtype V]

omit [LawfulDtype V] in
theorem coo_append (l : List (Row ℕ V)) (r : Row ℕ V) (i j : ℕ) :
    coo (l ++ [r]) i j =
      if i = r.src ∧ j = r.dst then Dtype.add (coo l i j) r.val else coo l i j := by
  simp [coo]

omit [LawfulDtype V] in
theorem assign_append (l : List (Row ℕ V)) (r : Row ℕ V) (i j : ℕ) :
    assign (l ++ [r]) i j = if i = r.src ∧ j = r.dst then r.val else assign l i j := by
  simp [assign]

omit [LawfulDtype V] in
theorem coo_none (l : List (Row ℕ V)) {i j : ℕ} (h : ∀ r ∈ l, ¬ (i = r.src ∧ j = r.dst)) :
    coo l i j = Dtype.zero := by
  induction l using List.reverseRecOn with
  | nil => rfl
  | append_singleton l r ih =>
    rw [coo_append, if_neg (h r (by simp))]
    exact ih (fun r' hr' => h r' (by simp [hr']))

omit [LawfulDtype V] in
theorem assign_none (l : List (Row ℕ V)) {i j : ℕ} (h : ∀ r ∈ l, ¬ (i = r.src ∧ j = r.dst)) :
    assign l i j = Dtype.zero := by
  induction l using List.reverseRecOn with
  | nil => rfl
  | append_singleton l r ih =>
    rw [assign_append, if_neg (h r (by simp))]
    exact ih (fun r' hr' => h r' (by simp [hr']))

/-- Without repeated positions storing and adding are the same. -/
theorem assign_eq_coo (l : List (Row ℕ V)) (h : (l.map (fun r => (r.src, r.dst))).Nodup) :
    assign l = coo l := by
  induction l using List.reverseRecOn with
  | nil => rfl
  | append_singleton l r ih =>
    rw [List.map_append, List.nodup_append] at h
    funext i j
    rw [assign_append, coo_append, ih h.1]
    split_ifs with hr
    · rw [coo_none l, LawfulDtype.zero_add]
      intro r' hr' hcon
      exact h.2.2 (r'.src, r'.dst) (List.mem_map.mpr ⟨r', hr', rfl⟩) (r.src, r.dst) (by simp)
        (by rw [← hcon.1, ← hcon.2, hr.1, hr.2])
    · rfl

theorem coo_perm {l l' : List (Row ℕ V)} (h : l.Perm l') : coo l = coo l' := by
  unfold coo
  refine List.Perm.foldl_eq' h (fun x _ y _ A => ?_) _
  funext i j
  simp only
  split_ifs <;> first | rfl | rw [LawfulDtype.add_right_comm]

/-- An entry is non-zero iff some row has that position. -/
theorem coo_pos (l : List (Row ℕ V)) (hp : ∀ r ∈ l, Dtype.pos r.val = true) (i j : ℕ) :
    (∃ r ∈ l, i = r.src ∧ j = r.dst) → Dtype.pos (coo l i j) = true := by
  induction l using List.reverseRecOn with
  | nil => simp
  | append_singleton l r ih =>
    have ih' := ih (fun r' hr' => hp r' (by simp [hr']))
    rw [coo_append]
    rintro ⟨r', hr', hm⟩
    split_ifs with hr
    · by_cases hex : ∃ r ∈ l, i = r.src ∧ j = r.dst
      · exact LawfulDtype.add_pos _ _ (ih' hex) (hp r (by simp))
      · push Not at hex
        rw [coo_none l (fun r' hr' hcon => hex r' hr' hcon.1 hcon.2), LawfulDtype.zero_add]
        exact hp r (by simp)
    · rcases List.mem_append.mp hr' with h | h
      · exact ih' ⟨r', h, hm⟩
      · rw [List.mem_singleton.mp h] at hm
        exact absurd hm hr

omit [LawfulDtype V] in
theorem assign_pos (l : List (Row ℕ V)) (hp : ∀ r ∈ l, Dtype.pos r.val = true) (i j : ℕ) :
    (∃ r ∈ l, i = r.src ∧ j = r.dst) → Dtype.pos (assign l i j) = true := by
  induction l using List.reverseRecOn with
  | nil => simp
  | append_singleton l r ih =>
    have ih' := ih (fun r' hr' => hp r' (by simp [hr']))
    rw [assign_append]
    rintro ⟨r', hr', hm⟩
    split_ifs with hr
    · exact hp r (by simp)
    · rcases List.mem_append.mp hr' with h | h
      · exact ih' ⟨r', h, hm⟩
      · rw [List.mem_singleton.mp h] at hm
        exact absurd hm hr

theorem coo_nz (l : List (Row ℕ V)) (hp : ∀ r ∈ l, Dtype.pos r.val = true) (i j : ℕ) :
    ne0 (coo l) i j = true ↔ ∃ r ∈ l, i = r.src ∧ j = r.dst := by
  constructor
  · intro h
    by_contra hcon
    push Not at hcon
    have h' := coo_none l (i := i) (j := j) (fun r hr hc => hcon r hr hc.1 hc.2)
    unfold ne0 at h
    rw [h', LawfulDtype.nz_zero] at h
    cases h
  · exact fun h => LawfulDtype.nz_of_pos _ (coo_pos l hp i j h)

theorem assign_nz (l : List (Row ℕ V)) (hp : ∀ r ∈ l, Dtype.pos r.val = true) (i j : ℕ) :
    ne0 (assign l) i j = true ↔ ∃ r ∈ l, i = r.src ∧ j = r.dst := by
  constructor
  · intro h
    by_contra hcon
    push Not at hcon
    have h' := assign_none l (i := i) (j := j) (fun r hr hc => hcon r hr hc.1 hc.2)
    unfold ne0 at h
    rw [h', LawfulDtype.nz_zero] at h
    cases h
  · exact fun h => LawfulDtype.nz_of_pos _ (assign_pos l hp i j h)

end Build

theorem coo_real (l : List (Row ℕ ℝ)) (i j : ℕ) :
    coo l i j = ((l.filter (fun r => i = r.src ∧ j = r.dst)).map Row.val).sum := by
  induction l using List.reverseRecOn with
  | nil => rfl
  | append_singleton l r ih =>
    rw [coo_append, List.filter_append, List.map_append, List.sum_append, ← ih]
    by_cases h : i = r.src ∧ j = r.dst
    · rw [if_pos h]
      simp [h, Dtype.add]
    · rw [if_neg h]
      simp [h]

/-! ### The common part of the constructors -/

theorem mapM_option {α β : Type} (f : α → Option β) : ∀ l : List α,
    l.mapM f = if l.all (fun a => (f a).isSome) then some (l.filterMap f) else none
  | [] => by simp
  | a :: l => by
    rw [List.mapM_cons, mapM_option f l, List.all_cons, List.filterMap_cons]
    cases ha : f a with
    | none => simp
    | some b =>
      simp only [Option.isSome_some, Bool.true_and]
      split_ifs <;> simp

section Base

variable {ι γ V : Type} [LinearOrder ι] [LinearOrder γ] [Dtype V]

/-- Internal id of an identifier in a vertex table. -/
def idOf (v : List (ι × γ)) (x : ι) : Option ℕ := (npUnique (v.map Prod.fst)).zipIdx.lookup x

omit [LinearOrder γ] [Dtype V] in
theorem toInternal_isSome (v : List (ι × γ)) (r : Row ι V) :
    (toInternal (npUnique (v.map Prod.fst)).zipIdx r).isSome = true ↔
      r.src ∈ v.map Prod.fst ∧ r.dst ∈ v.map Prod.fst := by
  rw [← lookup_isSome, ← lookup_isSome]
  unfold toInternal
  cases (npUnique (v.map Prod.fst)).zipIdx.lookup r.src <;>
    cases (npUnique (v.map Prod.fst)).zipIdx.lookup r.dst <;> simp

omit [LinearOrder γ] [Dtype V] in
theorem toInternal_some {v : List (ι × γ)} {r : Row ι V} {r' : Row ℕ V} :
    toInternal (npUnique (v.map Prod.fst)).zipIdx r = some r' ↔
      idOf v r.src = some r'.src ∧ idOf v r.dst = some r'.dst ∧ r.val = r'.val := by
  unfold toInternal idOf
  cases (npUnique (v.map Prod.fst)).zipIdx.lookup r.src <;>
    cases (npUnique (v.map Prod.fst)).zipIdx.lookup r.dst <;> simp
  · rename_i a b
    constructor
    · rintro rfl
      exact ⟨rfl, rfl, rfl⟩
    · rintro ⟨rfl, rfl, h⟩
      rw [h]

/-- Vertex rows in the order of their internal ids. -/
def sortedRows (v : List (ι × γ)) : List (ι × γ) :=
  v.mergeSort (fun a b => decide ((idOf v a.1).getD 0 ≤ (idOf v b.1).getD 0))

/-- Groups in the order of the vertices. -/
def groupsOf (v : List (ι × γ)) : List ℕ :=
  (sortedRows v).map (fun r => ((npUnique ((sortedRows v).map Prod.snd)).zipIdx.lookup r.2).getD 0)

/-- Edges with internal ids. -/
def edgesOf (v : List (ι × γ)) (e : List (Row ι V)) : List (Row ℕ V) :=
  e.filterMap (toInternal (npUnique (v.map Prod.fst)).zipIdx)

theorem base_eq (v : List (ι × γ)) (e : List (Row ι V)) :
    base v e =
      if ¬ (v.map Prod.fst).Nodup then .error .repeatedId
      else if ¬ (∀ r ∈ e, r.src ∈ v.map Prod.fst ∧ r.dst ∈ v.map Prod.fst) then
        .error .unknownVertex
      else if (edgesOf v e).all (fun r => Dtype.pos r.val) then
        .ok ⟨v.length, (npUnique (v.map Prod.fst)).zipIdx,
          (npUnique ((sortedRows v).map Prod.snd)).zipIdx, groupsOf v, edgesOf v e⟩
      else .error .badWeight := by
  unfold base generate_id_dict
  by_cases h1 : (v.map Prod.fst).Nodup
  · have hc := (counts_iff (v.map Prod.fst)).mpr h1
    simp only [hc, Bool.not_true, Bool.and_false, Bool.false_eq_true, if_false, h1, not_true_eq_false,
      Bool.false_and]
    rw [mapM_option]
    by_cases h2 : ∀ r ∈ e, r.src ∈ v.map Prod.fst ∧ r.dst ∈ v.map Prod.fst
    · have h2' : e.all (fun r => (toInternal (npUnique (v.map Prod.fst)).zipIdx r).isSome) = true :=
        List.all_eq_true.mpr (fun r hr => (toInternal_isSome v r).mpr (h2 r hr))
      rw [if_pos h2', if_neg (not_not.mpr h2)]
      rfl
    · have h2' : ¬ e.all (fun r => (toInternal (npUnique (v.map Prod.fst)).zipIdx r).isSome) = true :=
        fun h => h2 (fun r hr => (toInternal_isSome v r).mp (List.all_eq_true.mp h r hr))
      rw [if_neg h2', if_pos h2]
  · have hc : (npUnique (v.map Prod.fst)).all (fun x => (v.map Prod.fst).count x == 1) = false := by
      rw [← Bool.not_eq_true, counts_iff]; exact h1
    simp [hc, h1]

omit [LinearOrder γ] [Dtype V] in
theorem edges_val (v : List (ι × γ)) (e : List (Row ι V))
    (h2 : ∀ r ∈ e, r.src ∈ v.map Prod.fst ∧ r.dst ∈ v.map Prod.fst) :
    (edgesOf v e).map Row.val = e.map Row.val := by
  induction e with
  | nil => rfl
  | cons r e ih =>
    have hs := (toInternal_isSome v r).mpr (h2 r (by simp))
    obtain ⟨r', hr'⟩ := Option.isSome_iff_exists.mp hs
    unfold edgesOf at *
    rw [List.filterMap_cons_some hr', List.map_cons, List.map_cons,
      ih (fun r hr => h2 r (by simp [hr])), (toInternal_some.mp hr').2.2]

theorem base_ok {v : List (ι × γ)} {e : List (Row ι V)} {b : Base ι γ V} (h : base v e = .ok b) :
    (v.map Prod.fst).Nodup ∧ (∀ r ∈ e, r.src ∈ v.map Prod.fst ∧ r.dst ∈ v.map Prod.fst) ∧
    (∀ r ∈ e, Dtype.pos r.val = true) ∧
    b = ⟨v.length, (npUnique (v.map Prod.fst)).zipIdx,
      (npUnique ((sortedRows v).map Prod.snd)).zipIdx, groupsOf v, edgesOf v e⟩ := by
  rw [base_eq] at h
  split_ifs at h with h1 h2 h3
  simp only [Except.ok.injEq] at h
  refine ⟨h1, h2, ?_, h.symm⟩
  intro r hr
  have hv := edges_val v e h2
  have : r.val ∈ (edgesOf v e).map Row.val := by rw [hv]; exact List.mem_map.mpr ⟨r, hr, rfl⟩
  obtain ⟨r', hr', he⟩ := List.mem_map.mp this
  rw [← he]
  exact List.all_eq_true.mp h3 r' hr'

omit [LinearOrder γ] [Dtype V] in
theorem mem_edgesOf {v : List (ι × γ)} {e : List (Row ι V)} {r' : Row ℕ V} :
    r' ∈ edgesOf v e ↔ ∃ r ∈ e, idOf v r.src = some r'.src ∧ idOf v r.dst = some r'.dst ∧
      r.val = r'.val := by
  unfold edgesOf
  rw [List.mem_filterMap]
  simp only [toInternal_some]

omit [LinearOrder γ] in
theorem idOf_numbering (v : List (ι × γ)) :
    Numbering (v.map Prod.fst) (npUnique (v.map Prod.fst)).length (idOf v) :=
  numbering_dict (v.map Prod.fst)

omit [LinearOrder γ] [Dtype V] in
/-- Filtering internal edges at the ids of two identifiers. -/
theorem edges_filter {v : List (ι × γ)} (e : List (Row ι V)) {a c : ι} {i j : ℕ}
    (ha : idOf v a = some i) (hc : idOf v c = some j)
    (h2 : ∀ r ∈ e, r.src ∈ v.map Prod.fst ∧ r.dst ∈ v.map Prod.fst) :
    ((edgesOf v e).filter (fun r => i = r.src ∧ j = r.dst)).map Row.val =
      (e.filter (fun r => r.src = a ∧ r.dst = c)).map Row.val := by
  induction e with
  | nil => rfl
  | cons r e ih =>
    have hs := (toInternal_isSome v r).mpr (h2 r (by simp))
    obtain ⟨r', hr'⟩ := Option.isSome_iff_exists.mp hs
    have ih' := ih (fun r hr => h2 r (by simp [hr]))
    have ht := toInternal_some.mp hr'
    have hiff : (i = r'.src ∧ j = r'.dst) ↔ (r.src = a ∧ r.dst = c) := by
      constructor
      · rintro ⟨rfl, rfl⟩
        exact ⟨(idOf_numbering v).inj ht.1 ha, (idOf_numbering v).inj ht.2.1 hc⟩
      · rintro ⟨rfl, rfl⟩
        rw [ht.1, Option.some.injEq] at ha
        rw [ht.2.1, Option.some.injEq] at hc
        exact ⟨ha.symm, hc.symm⟩
    have hcons : edgesOf v (r :: e) = r' :: edgesOf v e := by
      unfold edgesOf
      rw [List.filterMap_cons_some hr']
    rw [hcons, List.filter_cons, List.filter_cons]
    by_cases hm : i = r'.src ∧ j = r'.dst
    · have hm' := hiff.mp hm
      simp only [hm, hm', and_self, decide_true, if_true, List.map_cons, ht.2.2]
      congr 1
      have hm2 : ∀ r'' : Row ℕ V, (i = r''.src ∧ j = r''.dst) = (r'.src = r''.src ∧ r'.dst = r''.dst) :=
        fun r'' => by rw [hm.1, hm.2]
      simpa only [hm2, hm'.1, hm'.2] using ih'
    · have hm' : ¬ (r.src = a ∧ r.dst = c) := fun h => hm (hiff.mpr h)
      simp only [hm, hm', decide_false, Bool.false_eq_true, if_false]
      exact ih'

end Base

end Graph

end

end Verif
