import Verif.Round.LayerModel
import Verif.Round.AllSums
import Verif.Round.Grid
import Verif.Layer.LawProps
import Verif.Sampled.MeanLemmas

/-! # Loops over one label in two arithmetics, and samples from 53 bits -/

namespace Verif.Round

open XR Verif.Spec MeasureTheory

/-! ## Loops -/

/-- Two folds over the same list, with a relation that depends on what has been visited. -/
theorem foldl_rel_prefix {γ σ τ : Type} {f : σ → γ → σ} {g : τ → γ → τ} (R : List γ → σ → τ → Prop)
    (l : List γ) {s : σ} {t : τ} (h0 : R [] s t)
    (hs : ∀ pre e suf s t, l = pre ++ e :: suf → R pre s t → R (pre ++ [e]) (f s e) (g t e)) :
    R l (l.foldl f s) (l.foldl g t) := by
  have key : ∀ suf pre s t, l = pre ++ suf → R pre s t → R l (suf.foldl f s) (suf.foldl g t) := by
    intro suf
    induction suf with
    | nil => intro pre s t hl h; rw [hl, List.append_nil]; exact h
    | cons e suf ih =>
      intro pre s t hl h
      rw [List.foldl_cons, List.foldl_cons]
      exact ih (pre ++ [e]) _ _ (by rw [hl]; simp) (hs pre e suf s t hl h)
  exact key l [] s t rfl h0

/-- The entries of two columns visited together, in order. -/
def visits {α : Type} (a b : List (ℕ × α)) (sl : Bool) : List ((ℕ × α) × (ℕ × α)) :=
  a.flatMap fun x => b.flatMap fun y => if admissible x.1 y.1 sl then [(x, y)] else []

theorem foldl_visits {α σ : Type} (f : σ → ℕ × α → ℕ × α → σ) (a b : List (ℕ × α)) (sl : Bool)
    (s : σ) :
    a.foldl (fun st x => b.foldl (fun st y => if admissible x.1 y.1 sl then f st x y else st) st) s
      = (visits a b sl).foldl (fun st v => f st v.1 v.2) s := by
  unfold visits
  rw [foldl_flatMap]
  congr 1
  funext st x
  rw [foldl_flatMap]
  congr 1
  funext st y
  split <;> rfl

theorem mem_visits {α : Type} {a b : List (ℕ × α)} {sl : Bool} {v : (ℕ × α) × (ℕ × α)} :
    v ∈ visits a b sl ↔ v.1 ∈ a ∧ v.2 ∈ b ∧ admissible v.1.1 v.2.1 sl = true := by
  simp only [visits, List.mem_flatMap]
  constructor
  · rintro ⟨x, hx, y, hy, h⟩
    split at h
    · next hadm => rw [List.mem_singleton] at h; subst h; exact ⟨hx, hy, hadm⟩
    · simp at h
  · rintro ⟨h1, h2, h3⟩
    exact ⟨v.1, h1, v.2, h2, by rw [if_pos h3]; simp⟩

theorem map_visits {α : Type} (a b : List (ℕ × α)) (sl : Bool) :
    (visits a b sl).map (fun v => (v.1.1, v.2.1)) = Layer.pairOrder a b sl := by
  unfold visits Layer.pairOrder
  rw [List.map_flatMap]
  congr 1
  funext x
  rw [List.map_flatMap]
  congr 1
  funext y
  split <;> rfl

/-- Expected number of edges of one label, in two arithmetics. -/
theorem edges_layer_acc {c : ℝ} (c0 : 0 ≤ c) (c1 : c ≤ 1) {p q : XR → XR → XR → XR → XR} {D : XR}
    {a b : List (ℕ × XR)} {dyad : ℕ → ℕ → XR} {sl : Bool} (hN : (visits a b sl).length ≤ 2 ^ 53)
    (h : ∀ x ∈ a, ∀ y ∈ b, Term c (p D x.2 y.2 (dyad x.1 y.1)) (q D x.2 y.2 (dyad x.1 y.1))) :
    Acc c (visits a b sl).length (exp_edges_layer binary64 p D a b dyad sl)
      (Layer.exp_edges_layer q D a b dyad sl) := by
  unfold exp_edges_layer Layer.exp_edges_layer
  rw [foldl_visits (fun e x y => binary64.add e (p D x.2 y.2 (dyad x.1 y.1))) a b sl,
    foldl_visits (fun e x y => e + q D x.2 y.2 (dyad x.1 y.1)) a b sl]
  refine foldl_rel_prefix (fun pre s t => Acc c pre.length s t) _ (acc_zero c) ?_
  intro pre e suf s t hl hst
  rw [List.length_append, List.length_singleton]
  have he : e ∈ visits a b sl := by rw [hl]; simp
  obtain ⟨h1, h2, _⟩ := mem_visits.1 he
  refine acc_add c0 c1 ?_ hst (h _ h1 _ h2)
  rw [hl, List.length_append, List.length_cons] at hN
  omega

/-! ### Degrees -/

/-- Two dictionaries whose entries are related sums, with the numbers of terms `m`. -/
def DictRel (c : ℝ) (m : ℕ × ℕ → ℕ) (s t : Layer.Dict) : Prop :=
  ∀ key, (s key = none ∧ t key = none) ∨
    ∃ v w, s key = some v ∧ t key = some w ∧ Acc c (m key) v w

theorem acc_one {c : ℝ} (c0 : 0 ≤ c) (c1 : c ≤ 1) {v w : XR} (h : Term c v w) : Acc c 1 v w := by
  obtain ⟨s, hs, t, e1, e2, s0, s1, t0, t1, hw⟩ := h
  have hu := ulp2_pos
  have hu' := ulp2_small
  refine ⟨s, hs, t, e1, e2, s0, t0, by simpa using s1, le_trans ?_ hw.1, hw.2.trans ?_⟩
  · refine mul_le_mul_of_nonneg_left ?_ t0
    rw [pow_one]
    exact mul_le_of_le_one_right (by linarith) (by linarith)
  · refine mul_le_mul_of_nonneg_left ?_ t0
    rw [pow_one]
    exact le_mul_of_one_le_right (by linarith) (by linarith)

theorem acc_mono {c : ℝ} (c0 : 0 ≤ c) (c1 : c ≤ 1) {k : ℕ} {v w : XR} (h : Acc c k v w) :
    Acc c (k + 1) v w := by
  obtain ⟨s, hs, t, e1, e2, s0, t0, sk, g1, g2⟩ := h
  have hu := ulp2_pos
  have hu' := ulp2_small
  refine ⟨s, hs, t, e1, e2, s0, t0, by push_cast; linarith, le_trans ?_ g1, g2.trans ?_⟩
  · refine mul_le_mul_of_nonneg_left (mul_le_mul_of_nonneg_left ?_ (by linarith)) t0
    exact pow_le_pow_of_le_one (by linarith) (by linarith) (Nat.le_succ k)
  · refine mul_le_mul_of_nonneg_left (mul_le_mul_of_nonneg_left ?_ (by linarith)) t0
    exact pow_le_pow_right₀ (by linarith) (Nat.le_succ k)

/-- The three dictionaries, with numbers of terms `m`; the same keys are present in all of them. -/
def DictsRel (c c' : ℝ) (m : ℕ × ℕ → ℕ) (s t : Layer.Dicts) : Prop :=
  DictRel c' m s.d t.d ∧ DictRel c m s.dOut t.dOut ∧ DictRel c m s.dIn t.dIn ∧
    (∀ key, (s.d key).isSome = (s.dOut key).isSome ∧ (s.d key).isSome = (s.dIn key).isSome)

theorem DictRel.isSome {c : ℝ} {m : ℕ × ℕ → ℕ} {s t : Layer.Dict} (h : DictRel c m s t)
    (key : ℕ × ℕ) : (s key).isSome = (t key).isSome := by
  rcases h key with ⟨h1, h2⟩ | ⟨v, w, h1, h2, _⟩ <;> rw [h1, h2]; rfl

theorem DictRel.inc {c : ℝ} (c0 : 0 ≤ c) (c1 : c ≤ 1) {m : ℕ × ℕ → ℕ} {s t : Layer.Dict}
    (h : DictRel c m s t) {key : ℕ × ℕ} (hm : m key < 2 ^ 53) {v w : XR} (hv : Term c v w) :
    DictRel c (Function.update m key (m key + 1)) (incLabel binary64 s key v)
      (Layer.inc t key w) := by
  intro k
  unfold incLabel Layer.inc
  by_cases hk : k = key
  · subst hk
    simp only [Function.update_self]
    rcases h k with ⟨h1, h2⟩ | ⟨v', w', h1, h2, ha⟩
    · left; rw [h1, h2]; exact ⟨rfl, rfl⟩
    · right
      rw [h1, h2]
      exact ⟨_, _, rfl, rfl, acc_add c0 c1 hm ha hv⟩
  · simp only [Function.update_of_ne hk]
    exact h k

theorem acc_succ {c : ℝ} (c0 : 0 ≤ c) (c1 : c ≤ 1) {v w : XR} (h : Term c v w) (k : ℕ) :
    Acc c (k + 1) v w := by
  induction k with
  | zero => exact acc_one c0 c1 h
  | succ k ih => exact acc_mono c0 c1 ih

theorem DictRel.set {c : ℝ} (c0 : 0 ≤ c) (c1 : c ≤ 1) {m : ℕ × ℕ → ℕ} {s t : Layer.Dict}
    (h : DictRel c m s t) {key : ℕ × ℕ} {v w : XR} (hv : Term c v w) :
    DictRel c (Function.update m key (m key + 1)) (Layer.set s key v) (Layer.set t key w) := by
  intro k
  unfold Layer.set
  by_cases hk : k = key
  · subst hk
    simp only [Function.update_self]
    exact .inr ⟨_, _, rfl, rfl, acc_succ c0 c1 hv _⟩
  · simp only [Function.update_of_ne hk]
    exact h k

theorem DictsRel.bump {c c' : ℝ} (c0 : 0 ≤ c) (c1 : c ≤ 1) (c0' : 0 ≤ c') (c1' : c' ≤ 1)
    {m : ℕ × ℕ → ℕ} {s t : Layer.Dicts} (h : DictsRel c c' m s t) {key : ℕ × ℕ}
    (hm : m key < 2 ^ 53) {v w v1 w1 v2 w2 : XR} (hv : Term c' v w) (h1 : Term c v1 w1)
    (h2 : Term c v2 w2) :
    DictsRel c c' (Function.update m key (m key + 1)) (bumpLabel binary64 s key v v1 v2)
      (Layer.bump t key w w1 w2) := by
  obtain ⟨a, b, d, e⟩ := h
  unfold bumpLabel Layer.bump
  rw [← a.isSome key]
  split
  · refine ⟨a.inc c0' c1' hm hv, b.inc c0 c1 hm h1, d.inc c0 c1 hm h2, fun k => ?_⟩
    unfold incLabel
    by_cases hk : k = key
    · subst hk; simpa using e k
    · simpa [Function.update_of_ne hk] using e k
  · refine ⟨a.set c0' c1' hv, b.set c0 c1 h1, d.set c0 c1 h2, fun k => ?_⟩
    unfold Layer.set
    by_cases hk : k = key
    · subst hk; simp
    · simpa [Function.update_of_ne hk] using e k

/-- All visits of all labels, in order. -/
def allVisits (n L : ℕ) (X Y : ℕ → List (ℕ × XR)) (sl : Bool) :
    List (ℕ × (ℕ × XR) × (ℕ × XR)) :=
  (List.range L).flatMap fun k =>
    (visits (Layer.column n X k) (Layer.column n Y k) sl).map fun v => (k, v)

/-- Number of visits that concern vertex `key.1` under label `key.2`. -/
def touches (l : List (ℕ × (ℕ × XR) × (ℕ × XR))) (key : ℕ × ℕ) : ℕ :=
  l.countP fun v => decide (v.1 = key.2 ∧ (v.2.1.1 = key.1 ∨ v.2.2.1 = key.1))

theorem degrees_label_fold (A : Arith) (p : XR → XR → XR → XR → XR) (n L : ℕ) (D : ℕ → XR)
    (X Y : ℕ → List (ℕ × XR)) (dyad : ℕ → ℕ → XR) (sl : Bool) :
    exp_degrees_label A p n L D X Y dyad sl
      = (allVisits n L X Y sl).foldl (fun s v =>
          exp_degrees_label_step A p (D v.1) (Layer.column n X v.1) (Layer.column n Y v.1) dyad sl
            v.1 v.2.1 s v.2.2) ⟨fun _ => none, fun _ => none, fun _ => none⟩ := by
  unfold exp_degrees_label allVisits
  rw [foldl_flatMap]
  congr 1
  funext s k
  rw [List.foldl_map, ← foldl_visits (fun s x y => exp_degrees_label_step A p (D k)
    (Layer.column n X k) (Layer.column n Y k) dyad sl k x s y)]
  congr 1
  funext s x
  congr 1
  funext s y
  by_cases h : admissible x.1 y.1 sl = true
  · rw [if_pos h]
  · rw [if_neg h]
    have h' : x.1 = y.1 ∧ sl = false := by
      simpa [admissible] using h
    unfold exp_degrees_label_step
    simp [h'.1, h'.2]

theorem touches_snoc (l : List (ℕ × (ℕ × XR) × (ℕ × XR))) (v : ℕ × (ℕ × XR) × (ℕ × XR)) :
    touches (l ++ [v]) = if v.2.1.1 = v.2.2.1
      then Function.update (touches l) (v.2.1.1, v.1) (touches l (v.2.1.1, v.1) + 1)
      else Function.update (Function.update (touches l) (v.2.1.1, v.1)
          (touches l (v.2.1.1, v.1) + 1)) (v.2.2.1, v.1)
        (Function.update (touches l) (v.2.1.1, v.1) (touches l (v.2.1.1, v.1) + 1)
          (v.2.2.1, v.1) + 1) := by
  obtain ⟨k, ⟨i, a⟩, ⟨j, b⟩⟩ := v
  have key : ∀ q : ℕ × ℕ, touches (l ++ [(k, (i, a), (j, b))]) q
      = touches l q + if k = q.2 ∧ (i = q.1 ∨ j = q.1) then 1 else 0 := by
    intro q
    unfold touches
    rw [List.countP_append, List.countP_singleton]
    simp
  funext q
  rw [key q]
  obtain ⟨q1, q2⟩ := q
  dsimp only
  by_cases hij : i = j
  · subst hij
    rw [if_pos rfl]
    by_cases h : (q1, q2) = (i, k)
    · obtain ⟨rfl, rfl⟩ := Prod.mk.inj h
      simp
    · rw [Function.update_of_ne h, if_neg]
      · rfl
      · rintro ⟨h1, h2⟩
        exact h (Prod.ext (by tauto) h1.symm)
  · rw [if_neg hij]
    by_cases h : (q1, q2) = (j, k)
    · obtain ⟨rfl, rfl⟩ := Prod.mk.inj h
      rw [Function.update_self, Function.update_of_ne (by simpa using fun h => hij h.symm)]
      simp
    · rw [Function.update_of_ne h]
      by_cases h' : (q1, q2) = (i, k)
      · obtain ⟨rfl, rfl⟩ := Prod.mk.inj h'
        simp
      · rw [Function.update_of_ne h', if_neg]
        · rfl
        · rintro ⟨rfl, rfl | rfl⟩
          · exact h' rfl
          · exact h rfl

theorem touches_le (l : List (ℕ × (ℕ × XR) × (ℕ × XR))) (key : ℕ × ℕ) :
    touches l key ≤ l.length := List.countP_le_length

theorem mem_of_lookup {α : Type} {r : List (ℕ × α)} {m : ℕ} {w : α} (h : r.lookup m = some w) :
    (m, w) ∈ r := by
  induction r with
  | nil => simp at h
  | cons e r ih =>
    rw [List.lookup_cons] at h
    by_cases he : m = e.1
    · subst he
      simp only [beq_self_eq_true, Option.some.injEq] at h
      subst h
      simp
    · rw [beq_false_of_ne he] at h
      exact List.mem_cons_of_mem _ (ih h)

/-- Expected degrees by label, in two arithmetics. -/
theorem degrees_label_rel {c : ℝ} (c0 : 0 ≤ c) (hc : c ≤ 2 ^ 39) {n L : ℕ}
    {p q : XR → XR → XR → XR → XR} {D : ℕ → XR} {X Y : ℕ → List (ℕ × XR)} {dyad : ℕ → ℕ → XR}
    {sl : Bool} (hN : ∀ key, touches (allVisits n L X Y sl) key ≤ 2 ^ 50)
    (h : ∀ k < L, ∀ a b : XR, ∀ z, (a = 0 ∨ ∃ i, (i, a) ∈ Layer.column n X k) →
      (b = 0 ∨ ∃ j, (j, b) ∈ Layer.column n Y k) → Term (c * ulp2) (p (D k) a b z) (q (D k) a b z)) :
    DictsRel (c * ulp2) ((c + 5.1) * ulp2) (touches (allVisits n L X Y sl))
      (exp_degrees_label binary64 p n L D X Y dyad sl)
      (Layer.exp_degrees_label q n L D X Y dyad sl) := by
  have hu := ulp2_pos
  have hcs : ∀ {c : ℝ}, c ≤ 2 ^ 40 → c * ulp2 ≤ 1 / 100 := by
    intro c hc
    calc c * ulp2 ≤ 2 ^ 40 * ulp2 := mul_le_mul_of_nonneg_right hc ulp2_pos.le
      _ ≤ 2 ^ 40 * (1 / 2 ^ 53) := mul_le_mul_of_nonneg_left (by unfold ulp2; norm_num) (by norm_num)
      _ ≤ _ := by norm_num
  have a1 := hcs (c := c) (hc.trans (by norm_num))
  have a2 := hcs (c := c + 5.1) (by linarith)
  have g0 : 0 ≤ c * ulp2 := mul_nonneg c0 hu.le
  have g0' : 0 ≤ (c + 5.1) * ulp2 := by positivity
  rw [← exp_degrees_label_exact, degrees_label_fold, degrees_label_fold]
  refine foldl_rel_prefix (fun pre s t => DictsRel (c * ulp2) ((c + 5.1) * ulp2) (touches pre) s t)
    _ ?_ ?_
  · exact ⟨fun _ => .inl ⟨rfl, rfl⟩, fun _ => .inl ⟨rfl, rfl⟩, fun _ => .inl ⟨rfl, rfl⟩,
      fun _ => ⟨rfl, rfl⟩⟩
  intro pre v suf s t hl hst
  have hv : v ∈ allVisits n L X Y sl := by rw [hl]; simp
  have hsn : ∀ key, touches (pre ++ [v]) key ≤ 2 ^ 50 := by
    intro key
    refine le_trans ?_ (hN key)
    rw [hl, show pre ++ v :: suf = (pre ++ [v]) ++ suf by simp]
    unfold touches
    rw [List.countP_append (l₁ := pre ++ [v])]
    omega
  have hpre : ∀ key, touches pre key ≤ 2 ^ 50 := by
    intro key
    refine le_trans ?_ (hsn key)
    unfold touches
    rw [List.countP_append]
    omega
  obtain ⟨k, ⟨i, a⟩, ⟨j, b⟩⟩ := v
  have hmem : k < L ∧ (i, a) ∈ Layer.column n X k ∧ (j, b) ∈ Layer.column n Y k := by
    unfold allVisits at hv
    obtain ⟨k', hk', hv⟩ := List.mem_flatMap.1 hv
    obtain ⟨w, hw, e⟩ := List.mem_map.1 hv
    obtain ⟨rfl, rfl⟩ := Prod.mk.inj e
    obtain ⟨h1, h2, _⟩ := mem_visits.1 hw
    exact ⟨List.mem_range.1 hk', h1, h2⟩
  obtain ⟨hk, ha, hb⟩ := hmem
  have hent : ∀ (r : List (ℕ × XR)) (m : ℕ), entry r m = 0 ∨ ∃ i, (i, entry r m) ∈ r := by
    intro r m
    unfold entry
    cases hlk : r.lookup m with
    | none => exact .inl rfl
    | some w => exact .inr ⟨m, mem_of_lookup hlk⟩
  have tij := h k hk a b (dyad i j) (.inr ⟨i, ha⟩) (.inr ⟨j, hb⟩)
  have tji := h k hk (entry (Layer.column n X k) j) (entry (Layer.column n Y k) i) (dyad j i)
    (hent _ _) (hent _ _)
  rw [touches_snoc]
  unfold exp_degrees_label_step
  dsimp only
  by_cases hij : i = j
  · subst hij
    simp only [if_true, ne_eq, not_true_eq_false, if_false]
    by_cases hsl : sl = true
    · simp only [hsl, if_true]
      exact hst.bump g0 (by linarith) g0' (by linarith) (by have := hpre (i, k); omega)
        (tij.mono (by linarith)) tij tij
    · exfalso
      unfold allVisits at hv
      obtain ⟨k', hk', hv⟩ := List.mem_flatMap.1 hv
      obtain ⟨w, hw, e⟩ := List.mem_map.1 hv
      obtain ⟨rfl, rfl⟩ := Prod.mk.inj e
      obtain ⟨-, -, h3⟩ := mem_visits.1 hw
      simp [admissible] at h3
      exact hsl h3
  · simp only [ne_eq, hij, not_false_eq_true, if_true]
    have tu : Term ((c + 5.1) * ulp2)
        (binary64.sub (binary64.add (p (D k) a b (dyad i j)) (p (D k) (entry (Layer.column n X k) j)
          (entry (Layer.column n Y k) i) (dyad j i))) (binary64.mul (p (D k) a b (dyad i j))
          (p (D k) (entry (Layer.column n X k) j) (entry (Layer.column n Y k) i) (dyad j i))))
        (Arith.exact.sub (Arith.exact.add (q (D k) a b (dyad i j)) (q (D k)
          (entry (Layer.column n X k) j) (entry (Layer.column n Y k) i) (dyad j i)))
          (Arith.exact.mul (q (D k) a b (dyad i j))
          (q (D k) (entry (Layer.column n X k) j) (entry (Layer.column n Y k) i) (dyad j i)))) := by
      obtain ⟨s, hs, t, e1, e2, s0, s1, t0, t1, hw⟩ := tij
      obtain ⟨s', hs', t', e1', e2', s0', s1', t0', t1', hw'⟩ := tji
      rw [e1, e2, e1', e2']
      obtain ⟨r, hr, er, r0, r1, hrw⟩ := union_acc (e := c * ulp2) (mul_nonneg c0 hu.le) a1
        hs hs' s0 s1 s0' s1' t0 t1 t0' t1' hw hw'
      refine ⟨r, hr, t + t' - t * t', er, rfl, r0, r1, ?_, ?_, ?_⟩
      · nlinarith
      · nlinarith
      · rwa [add_mul]
    have hb1 := hst.bump g0 (by linarith) g0' (by linarith) (key := (i, k))
      (by have := hpre (i, k); omega) tu tij tji
    refine hb1.bump g0 (by linarith) g0' (by linarith) ?_ tu tji tij
    rw [Function.update_of_ne (by simpa using fun h => hij h.symm)]
    have := hpre (j, k); omega

/-! ## Samples -/

section

variable {Ω E : Type} [MeasurableSpace Ω] [DecidableEq E] {P : Measure Ω} [IsProbabilityMeasure P]
  {U : ℕ → Ω → ℝ} {S : Finset E} {pos : E → ℕ} {p : E → ℝ} {X : Ω → Finset E}

/-- The law of a set each of whose elements is included when its own random number is below its own
probability. -/
theorem grid_law (hU : IsGrid P U) (hpos : Set.InjOn pos S) (hp1 : ∀ e ∈ S, p e ≤ 1)
    (hX : ∀ ω e, e ∈ X ω ↔ e ∈ S ∧ U (pos e) ω < p e) (G : Finset E) (hG : G ⊆ S) :
    P {ω | X ω = G} = ENNReal.ofReal (Law.prob S (fun e => roundUp (p e)) G) := by
  have hinj : Function.Injective (fun e : {e // e ∈ S} => pos e.1) :=
    fun a b hab => Subtype.ext (hpos a.2 b.2 hab)
  have hbox := (hU.precomp hinj).measure_box Finset.univ (fun e => p e.1) (fun e _ => hp1 _ e.2)
    (fun e => e.1 ∈ G)
  have hset : {ω | X ω = G}
      = {ω | ∀ e ∈ (Finset.univ : Finset {e // e ∈ S}), U (pos e.1) ω < p e.1 ↔ e.1 ∈ G} := by
    ext ω
    constructor
    · intro h e _
      have h' : X ω = G := h
      rw [← h', hX]
      exact ⟨fun h => ⟨e.2, h⟩, fun h => h.2⟩
    · intro h
      show X ω = G
      ext e
      rw [hX]
      exact ⟨fun he => (h ⟨e, he.1⟩ (Finset.mem_univ _)).1 he.2,
        fun he => ⟨hG he, (h ⟨e, hG he⟩ (Finset.mem_univ _)).2 he⟩⟩
  rw [hset, hbox]
  congr 1
  unfold Law.prob
  exact Finset.prod_attach S (fun e => if e ∈ G then roundUp (p e) else 1 - roundUp (p e))

theorem grid_mean (hU : IsGrid P U) (hpos : Set.InjOn pos S) (hp1 : ∀ e ∈ S, p e ≤ 1)
    (hX : ∀ ω e, e ∈ X ω ↔ e ∈ S ∧ U (pos e) ω < p e) (F : Finset E → ℝ) :
    Integrable (fun ω => F (X ω)) P ∧
    ∫ ω, F (X ω) ∂P = Law.mean S (fun e => roundUp (p e)) F := by
  refine integral_of_law (fun e he => roundUp_mem (hp1 e he)) (fun ω e he => ((hX ω e).1 he).1)
    (fun e he => ?_) (fun G hG => grid_law hU hpos hp1 hX G hG) F
  have : {ω | e ∈ X ω} = U (pos e) ⁻¹' Set.Iio (p e) := by
    ext ω
    exact (hX ω e).trans ⟨fun h => h.2, fun h => ⟨he, h⟩⟩
  rw [this]
  exact hU.meas _ measurableSet_Iio

/-- Distance from a set with other probabilities. -/
theorem grid_dist (hU : IsGrid P U) (hpos : Set.InjOn pos S) {q : E → ℝ} {c : ℝ} (c0 : 0 ≤ c)
    (hpq : ∀ e ∈ S, 0 ≤ p e ∧ p e ≤ 1 ∧ 0 ≤ q e ∧ q e ≤ 1 ∧ Within (c * ulp2) (q e) (p e))
    (hX : ∀ ω e, e ∈ X ω ↔ e ∈ S ∧ U (pos e) ω < p e) {B : ℝ} (F : Finset E → ℝ)
    (hF : ∀ G, 0 ≤ F G ∧ F G ≤ B) :
    |∫ ω, F (X ω) ∂P - Law.mean S q F| ≤ (c + 1) * (2 : ℝ) ^ (-53 : ℤ) * S.card * B ∧
    ∀ T ⊆ S, |∫ ω, ((X ω ∩ T).card : ℝ) ∂P - ∑ e ∈ T, q e|
      ≤ (2 : ℝ) ^ (-53 : ℤ) * T.card + c * (2 : ℝ) ^ (-53 : ℤ) * ∑ e ∈ T, q e := by
  have hu := ulp2_pos
  have hu' : (1 : ℝ) / 2 ^ 53 = (2 : ℝ) ^ (-53 : ℤ) := by norm_num
  have hd : ∀ e ∈ S, |roundUp (p e) - q e| ≤ (2 : ℝ) ^ (-53 : ℤ) + c * (2 : ℝ) ^ (-53 : ℤ) * q e := by
    intro e he
    obtain ⟨p0, p1, q0, q1, w1, w2⟩ := hpq e he
    have h1 := le_roundUp (p e)
    have h2 := roundUp_lt p0
    rw [hu'] at h2
    have e2 : (2 : ℝ) ^ (-53 : ℤ) = ulp2 := rfl
    rw [e2] at h2 ⊢
    have : 0 ≤ c * ulp2 * q e := by positivity
    rw [abs_le]
    constructor <;> linarith
  have hp1 : ∀ e ∈ S, p e ≤ 1 := fun e he => (hpq e he).2.1
  have hsum : ∀ T ⊆ S, ∑ e ∈ T, |roundUp (p e) - q e|
      ≤ (2 : ℝ) ^ (-53 : ℤ) * T.card + c * (2 : ℝ) ^ (-53 : ℤ) * ∑ e ∈ T, q e := by
    intro T hT
    refine (Finset.sum_le_sum fun e he => hd e (hT he)).trans (le_of_eq ?_)
    rw [Finset.sum_add_distrib, ← Finset.mul_sum, Finset.sum_const, nsmul_eq_mul]
    ring
  constructor
  · rw [(grid_mean hU hpos hp1 hX F).2]
    refine (Law.mean_dist S (fun e he => roundUp_mem (hp1 e he))
      (fun e he => ⟨(hpq e he).2.2.1, (hpq e he).2.2.2.1⟩) F hF).trans
      (mul_le_mul_of_nonneg_right ((hsum S subset_rfl).trans ?_) ((hF ∅).1.trans (hF ∅).2))
    have hq1 : ∑ e ∈ S, q e ≤ S.card := by
      refine (Finset.sum_le_sum fun e he => (hpq e he).2.2.2.1).trans (le_of_eq ?_)
      simp
    have := mul_le_mul_of_nonneg_left hq1 (show 0 ≤ c * (2 : ℝ) ^ (-53 : ℤ) by positivity)
    linarith
  · intro T hT
    have hXT : ∀ ω e, e ∈ X ω ∩ T ↔ e ∈ T ∧ U (pos e) ω < p e := by
      intro ω e
      rw [Finset.mem_inter, hX]
      exact ⟨fun h => ⟨h.2, h.1.2⟩, fun h => ⟨⟨hT h.1, h.2⟩, h.1⟩⟩
    rw [(grid_mean hU (hpos.mono (by exact_mod_cast hT)) (fun e he => hp1 e (hT he)) hXT
      (fun G => (G.card : ℝ))).2, Law.mean_card, ← Finset.sum_sub_distrib]
    exact (Finset.abs_sum_le_sum_abs _ _).trans (hsum T hT)

end

/-! ### The sampler of the layers -/

open Layer in
theorem layer_sample_eq (p_ijk : XR → XR → XR → XR → XR) (D : XR) {a b : List (ℕ × XR)}
    (ha : RowSorted a) (hb : RowSorted b) (dyad : ℕ → ℕ → XR) (s : Bool) (u : ℕ → ℝ) (c : ℕ)
    {p : ℕ × ℕ → ℝ}
    (hp : ∀ x ∈ a, ∀ y ∈ b, p_ijk D x.2 y.2 (dyad x.1 y.1) = fin (p (x.1, y.1))) :
    binary_sample_layer_stream p_ijk D a b dyad s u c
      = (c + (pairOrder a b s).length, (pairOrder a b s).filter (fun e =>
          decide (u (c + (pairOrder a b s).idxOf e) < p e))) := by
  unfold binary_sample_layer_stream
  have e1 : ∀ st : ℕ × List (ℕ × ℕ), a.foldl (fun st x => b.foldl (fun st y =>
        if admissible x.1 y.1 s then
          (st.1 + 1, if ltb (fin (u st.1)) (p_ijk D x.2 y.2 (dyad x.1 y.1))
            then st.2 ++ [(x.1, y.1)] else st.2)
        else st) st) st
      = a.foldl (fun st x => b.foldl (fun st y =>
        if admissible x.1 y.1 s then
          (st.1 + 1, if decide (u st.1 < p (x.1, y.1))
            then st.2 ++ [(x.1, y.1)] else st.2)
        else st) st) st := by
    intro st
    refine foldl_congr_mem _ _ _ (fun x hx st => ?_) st
    refine foldl_congr_mem _ _ _ (fun y hy st => ?_) st
    rw [hp x hx y hy]
    simp only [ltb_fin_fin]
    rfl
  rw [e1, foldl_pairOrder (fun (st : ℕ × List (ℕ × ℕ)) i j =>
      (st.1 + 1, if decide (u st.1 < p (i, j)) then st.2 ++ [(i, j)] else st.2)) a b s,
    stream_fold' (fun k e => decide (u k < p e)) (fun e => e) _ (nodup_pairOrder ha hb s)]
  simp

open Layer in
theorem sample_stream_gen (p_ijk : XR → XR → XR → XR → XR) (n L : ℕ) (D : ℕ → XR)
    (X Y : ℕ → List (ℕ × XR)) (hX : ∀ i, RowSorted (X i)) (hY : ∀ i, RowSorted (Y i))
    (dyad : ℕ → ℕ → XR) (s : Bool) (u : ℕ → ℝ) {p : ℕ → ℕ × ℕ → ℝ}
    (hp : ∀ k < L, ∀ x ∈ column n X k, ∀ y ∈ column n Y k,
      p_ijk (D k) x.2 y.2 (dyad x.1 y.1) = fin (p k (x.1, y.1))) :
    let O := fun k => pairOrder (column n X k) (column n Y k) s
    sample_stream p_ijk n L D X Y dyad s u
      = (∑ m ∈ Finset.range L, (O m).length, (List.range L).map (fun k => (O k).filter (fun e =>
          decide (u (pos O k e) < p k e)))) := by
  dsimp only
  unfold sample_stream
  induction L with
  | zero => simp
  | succ L ih =>
    rw [List.range_succ, List.foldl_append, ih (fun k hk => hp k (by omega))]
    simp only [List.foldl_cons, List.foldl_nil]
    rw [layer_sample_eq p_ijk (D L) (column_sorted hX L) (column_sorted hY L) dyad s u _
      (hp L (by omega))]
    simp only [List.map_append, List.map_cons, List.map_nil, Finset.sum_range_succ]
    rfl

open Layer in
theorem dense_stream_gen (p_ijk : XR → XR → XR → XR → XR) (n L : ℕ) (D : ℕ → XR)
    (X Y : ℕ → ℕ → XR) (dyad : ℕ → ℕ → XR) (s : Bool) (u : ℕ → ℝ) {p : ℕ → ℕ × ℕ → ℝ}
    (hp : ∀ k < L, ∀ i < n, ∀ j < n, p_ijk (D k) (X i k) (Y j k) (dyad i j) = fin (p k (i, j))) :
    Dense.binary_sample_tensor_stream p_ijk n L D X Y dyad s u
      = (∑ _m ∈ Finset.range L, (order n s).length, (List.range L).flatMap (fun k =>
          ((order n s).filter (fun e => decide (u (pos (fun _ => order n s) k e) < p k e))).map
            (fun e => (k, e.1, e.2)))) := by
  unfold Dense.binary_sample_tensor_stream
  induction L with
  | zero => simp
  | succ L ih =>
    rw [List.range_succ, List.foldl_append, ih (fun k hk => hp k (by omega))]
    simp only [List.foldl_cons, List.foldl_nil]
    have e1 : ∀ st : ℕ × List (ℕ × ℕ × ℕ), (List.range n).foldl (fun st i =>
        (List.range n).foldl (fun st j =>
        if admissible i j s then
          (st.1 + 1, if ltb (fin (u st.1)) (p_ijk (D L) (X i L) (Y j L) (dyad i j))
            then st.2 ++ [(L, i, j)] else st.2)
        else st) st) st
      = (List.range n).foldl (fun st i => (List.range n).foldl (fun st j =>
        if admissible i j s then
          (st.1 + 1, if decide (u st.1 < p L (i, j)) then st.2 ++ [(L, i, j)] else st.2)
        else st) st) st := by
      intro st
      refine foldl_congr_mem _ _ _ (fun i hi st => ?_) st
      refine foldl_congr_mem _ _ _ (fun j hj st => ?_) st
      rw [hp L (by omega) i (List.mem_range.1 hi) j (List.mem_range.1 hj)]
      simp only [ltb_fin_fin]
      rfl
    rw [e1, foldl_order (fun (st : ℕ × List (ℕ × ℕ × ℕ)) i j =>
      (st.1 + 1, if decide (u st.1 < p L (i, j)) then st.2 ++ [(L, i, j)] else st.2)) n s,
      stream_fold' (fun k e => decide (u k < p L e)) (fun e => (L, e.1, e.2)) _ (nodup_order n s)]
    simp only [List.flatMap_append, List.flatMap_cons, List.flatMap_nil, List.append_nil,
      Finset.sum_range_succ]
    rfl

end Verif.Round
