import Verif.Round.LikeLemmas
import Verif.Round.LayerLemmas
import Verif.Layer.Model
import Verif.Cond.Lemmas

/-!
# Log-likelihoods of labelled graphs in any arithmetic

The tensor branches of `log_likelihood` with the additions of an arithmetic `A`.  For `Arith.exact` they
are the definitions of `Verif.Layer`.  The first pass over the links (`Layer.precheck`) computes nothing
and is taken over as it is.
-/

namespace Verif.Round

open XR

section

variable (A : Arith)

/-- Second pass of `_likelihood_layer`
(`/repo/src/graph_ensembles/sparse/models/ensembles.py:1085-1100`). -/
def layerLoop (logp_ijk log1mp_ijk : XR → XR → XR → XR → XR) (param : XR)
    (prop_out prop_in : List (ℕ × XR)) (dyad : ℕ → ℕ → XR) (nbrs : ℕ → List ℕ) (selfloops : Bool) :
    Except XR XR :=
  prop_out.foldlM (fun like a =>
    prop_in.foldlM (fun like b =>
      if admissible a.1 b.1 selfloops then
        let tmp := if (nbrs a.1).contains b.1 then logp_ijk param a.2 b.2 (dyad a.1 b.1)
          else log1mp_ijk param a.2 b.2 (dyad a.1 b.1)
        if tmp.isInf then .error tmp else .ok (A.add like tmp)
      else .ok like) like) 0

/-- `_likelihood_layer` (`/repo/src/graph_ensembles/sparse/models/ensembles.py:1048-1100`,
`spark/models.py:2924-2977`). -/
noncomputable def likelihood_layer (logp_ijk log1mp_ijk : XR → XR → XR → XR → XR) (param : XR) (n : ℕ)
    (prop_out prop_in : List (ℕ × XR)) (dyad : ℕ → ℕ → XR) (nbrs : ℕ → List ℕ) (selfloops : Bool) :
    XR :=
  Layer.value (Layer.precheck n prop_out prop_in nbrs >>= fun _ =>
    layerLoop A logp_ijk log1mp_ijk param prop_out prop_in dyad nbrs selfloops)

/-- The tensor branch of `log_likelihood`
(`/repo/src/graph_ensembles/sparse/models/ensembles.py:777-797`). -/
noncomputable def log_likelihood_tensor (logp_ijk log1mp_ijk : XR → XR → XR → XR → XR) (n L : ℕ) (param : ℕ → XR)
    (prop_out prop_in : ℕ → List (ℕ × XR)) (dyad : ℕ → ℕ → XR) (nbrs : ℕ → ℕ → List ℕ)
    (selfloops : Bool) : XR :=
  Layer.value ((List.range L).foldlM (fun like k =>
    let tmp := likelihood_layer A logp_ijk log1mp_ijk (param k) n (Layer.column n prop_out k)
      (Layer.column n prop_in k) dyad (nbrs k) selfloops
    if tmp.isInf then .error tmp else .ok (A.add like tmp)) 0)

/-- The tensor branch in spark (`/repo/src/graph_ensembles/spark/models.py:2333-2356`). -/
noncomputable def Spark.log_likelihood_tensor (logp_ijk log1mp_ijk : XR → XR → XR → XR → XR) (n L : ℕ)
    (param : ℕ → XR) (prop_out prop_in : ℕ → List (ℕ × XR)) (dyad : ℕ → ℕ → XR)
    (nbrs : ℕ → ℕ → List ℕ) (selfloops : Bool) : XR :=
  (List.range L).foldl (fun like k => A.add like
    (likelihood_layer A logp_ijk log1mp_ijk (param k) n (Layer.column n prop_out k)
      (Layer.column n prop_in k) dyad (nbrs k) selfloops)) 0

/-- `_likelihood_tensor` of the dense backend (`/repo/src/graph_ensembles/models.py:1788-1810`). -/
def Dense.likelihood_tensor (logp_ijk log1mp_ijk : XR → XR → XR → XR → XR) (n L : ℕ)
    (param : ℕ → XR) (prop_out prop_in : ℕ → ℕ → XR) (dyad : ℕ → ℕ → XR) (adj : ℕ → ℕ → ℕ → Bool)
    (selfloops : Bool) : XR :=
  Layer.value ((List.range L).foldlM (fun like k =>
    (List.range n).foldlM (fun like i =>
      (List.range n).foldlM (fun like j =>
        if admissible i j selfloops then
          let tmp := if adj k i j then logp_ijk (param k) (prop_out i k) (prop_in j k) (dyad i j)
            else log1mp_ijk (param k) (prop_out i k) (prop_in j k) (dyad i j)
          if tmp.isInf then .error tmp else .ok (A.add like tmp)
        else .ok like) like) like) 0)

end

theorem log_likelihood_tensor_exact :
    log_likelihood_tensor Arith.exact = Layer.log_likelihood := rfl

theorem spark_log_likelihood_tensor_exact :
    Spark.log_likelihood_tensor Arith.exact = Layer.Spark.log_likelihood := rfl

theorem dense_likelihood_tensor_exact :
    Dense.likelihood_tensor Arith.exact = Layer.Dense.likelihood_tensor := rfl

/-! ## Sums of logarithms in double precision and without rounding -/

/-- The loop that adds the terms `f`, with the early return. -/
def addTerms {γ : Type} (A : Arith) (f : γ → XR) (like : XR) (l : List γ) : Except XR XR :=
  l.foldlM (fun like v => if (f v).isInf then .error (f v) else .ok (A.add like (f v))) like

theorem addTerms_rel {γ : Type} {a : ℝ} (a0 : 0 ≤ a) (a1 : a ≤ 2 ^ 100) {f g : γ → XR} (l : List γ)
    (h : ∀ v ∈ l, LTerm a (f v) (g v)) {k : ℕ} {e e' : XR} (he : LAcc a k e e')
    (hk : k + l.length ≤ 2 ^ 50) :
    Rel (LAcc a (k + l.length)) (addTerms binary64 f e l) (addTerms Arith.exact g e' l) := by
  unfold addTerms
  induction l generalizing k e e' with
  | nil => simpa [Rel, pure, Except.pure] using he
  | cons v l ih =>
    rw [List.foldlM_cons, List.foldlM_cons]
    rw [List.length_cons] at hk ⊢
    rcases h v (by simp) with ⟨e1, e2⟩ | hQ
    · rw [e1, e2]
      exact ⟨rfl, rfl⟩
    · have i1 : (f v).isInf = false := by obtain ⟨r, _, R, e1, e2, _⟩ := hQ; rw [e1]; rfl
      have i2 : (g v).isInf = false := by obtain ⟨r, _, R, e1, e2, _⟩ := hQ; rw [e2]; rfl
      rw [i1, i2]
      have := ih (fun w hw => h w (by simp [hw])) (lacc_add a0 a1 (by omega) he hQ) (by omega)
      rwa [show k + 1 + l.length = k + (l.length + 1) by omega] at this

/-- The value of a loop with early return. -/
def LRes (a : ℝ) (k : ℕ) (c e : XR) : Prop := (c = ninf ∧ e = ninf) ∨ LAcc a k c e

theorem Rel.value {a : ℝ} {k : ℕ} {r r' : Except XR XR} (h : Rel (LAcc a k) r r') :
    LRes a k (Layer.value r) (Layer.value r') := by
  match r, r', h with
  | .error a, .error b, h => exact .inl h
  | .ok a, .ok b, h => exact .inr h

/-- Adding two sums. -/
theorem lacc_add_acc {a : ℝ} (a0 : 0 ≤ a) (a1 : a ≤ 2 ^ 100) {k m : ℕ} (hk : k + m < 2 ^ 50)
    {e e' v v' : XR} (h : LAcc a k e e') (hv : LAcc a m v v') :
    LAcc a (k + m + 1) (binary64.add e v) (Arith.exact.add e' v') := by
  obtain ⟨s, hs, S, rfl, rfl, s0, S0, Sk, hst⟩ := h
  obtain ⟨t, ht, T, rfl, rfl, t0, T0, Tk, htt⟩ := hv
  have hu := ulp2_pos
  have hk0 : (0 : ℝ) ≤ k := Nat.cast_nonneg k
  have hm0 : (0 : ℝ) ≤ m := Nat.cast_nonneg m
  have hk' : (k : ℝ) + m ≤ 2 ^ 50 := by exact_mod_cast hk.le
  have hul : ulp2 ≤ 1 / 2 ^ 53 := by unfold ulp2; norm_num
  have hku : 3 * ulp2 * (k + m) ≤ 3 / 8 := by
    have := mul_le_mul hul hk' (by positivity) (by norm_num)
    linarith
  set W := a + 1 - (S + T) with hW
  have W0 : 0 ≤ W := by linarith
  have h1 : |s - S| ≤ 3 * ulp2 * k * W :=
    hst.trans (mul_le_mul_of_nonneg_left (by linarith) (by positivity))
  have h2 : |t - T| ≤ 3 * ulp2 * m * W :=
    htt.trans (mul_le_mul_of_nonneg_left (by linarith) (by positivity))
  have h3 : 3 * ulp2 * k * W + 3 * ulp2 * m * W ≤ 3 / 8 * W := by
    have := mul_le_mul_of_nonneg_right hku W0
    linarith
  have hsum : -(s + t) ≤ -(S + T) + 3 / 8 * W := by
    have := (abs_le.1 h1).1
    have := (abs_le.1 h2).1
    linarith
  obtain ⟨r, hr, er, r0, hrr⟩ := toDouble_nonpos (x := s + t) (by linarith) (by
    have e : (2 : ℝ) ^ (200 : ℤ) = (2 : ℝ) ^ 200 := by norm_num
    rw [e]
    have hW1 : W ≤ 2 ^ 100 + 1 + 2 ^ 42 * 2 ^ 50 := by
      have : (2 : ℝ) ^ 42 * (k + m) ≤ 2 ^ 42 * 2 ^ 50 :=
        mul_le_mul_of_nonneg_left hk' (by norm_num)
      linarith
    have : -(s + t) ≤ 2 * W := by linarith
    have : 2 * W ≤ (2 : ℝ) ^ 200 := (mul_le_mul_of_nonneg_left hW1 (by norm_num)).trans (by norm_num)
    linarith)
  refine ⟨r, hr, S + T, er, rfl, r0, by linarith, by push_cast; linarith, ?_⟩
  have e : r - (S + T) = (r - (s + t)) + ((s - S) + (t - T)) := by ring
  have h4 : |r - (S + T)| ≤ |r - (s + t)| + (|s - S| + |t - T|) := by
    rw [e]; exact (abs_add_le _ _).trans (by linarith [abs_add_le (s - S) (t - T)])
  have h5 : ulp2 * (1 - (s + t)) ≤ ulp2 * (W - a + 3 / 8 * W) :=
    mul_le_mul_of_nonneg_left (by linarith) hu.le
  push_cast
  have h7 : 0 ≤ ulp2 * a := by positivity
  have h8 : 0 ≤ ulp2 * W := by positivity
  linarith

/-- The same if one of them may be infinite. -/
theorem lres_add {a : ℝ} (a0 : 0 ≤ a) (a1 : a ≤ 2 ^ 100) {k m : ℕ} (hk : k + m < 2 ^ 50)
    {e e' v v' : XR} (h : LRes a k e e') (hv : LRes a m v v') :
    LRes a (k + m + 1) (binary64.add e v) (Arith.exact.add e' v') := by
  rcases h with ⟨rfl, rfl⟩ | h
  · rcases hv with ⟨rfl, rfl⟩ | ⟨t, _, T, rfl, rfl, _⟩
    · exact .inl ⟨rfl, rfl⟩
    · exact .inl ⟨rfl, rfl⟩
  · rcases hv with ⟨rfl, rfl⟩ | hv
    · obtain ⟨s, _, S, rfl, rfl, _⟩ := h
      exact .inl ⟨rfl, rfl⟩
    · exact .inr (lacc_add_acc a0 a1 hk h hv)

/-! ## The loops -/

private theorem foldlM_single {γ : Type} (f : XR → γ → Except XR XR) (s : XR) (v : γ) :
    [v].foldlM f s = f s v := by simp

theorem layerLoop_eq (A : Arith) (p q : XR → XR → XR → XR → XR) (D : XR) (a b : List (ℕ × XR))
    (dyad : ℕ → ℕ → XR) (nbrs : ℕ → List ℕ) (sl : Bool) :
    layerLoop A p q D a b dyad nbrs sl = addTerms A (fun v : (ℕ × XR) × (ℕ × XR) =>
      if (nbrs v.1.1).contains v.2.1 then p D v.1.2 v.2.2 (dyad v.1.1 v.2.1)
      else q D v.1.2 v.2.2 (dyad v.1.1 v.2.1)) 0 (visits a b sl) := by
  unfold layerLoop addTerms visits
  rw [Cond.foldlM_flatMap]
  congr 1
  funext like x
  rw [Cond.foldlM_flatMap]
  congr 1
  funext like y
  by_cases h : admissible x.1 y.1 sl
  · rw [if_pos h, if_pos h, foldlM_single]
  · rw [if_neg h, if_neg h]; rfl

/-- One label. -/
theorem likelihood_layer_rel {a : ℝ} (a0 : 0 ≤ a) (a1 : a ≤ 2 ^ 100)
    {p p' q q' : XR → XR → XR → XR → XR} {D : XR} {n : ℕ} {x y : List (ℕ × XR)}
    {dyad : ℕ → ℕ → XR} {nbrs : ℕ → List ℕ} {sl : Bool} (hN : (visits x y sl).length ≤ 2 ^ 50)
    (h : ∀ v ∈ x, ∀ w ∈ y, LTerm a (p D v.2 w.2 (dyad v.1 w.1)) (p' D v.2 w.2 (dyad v.1 w.1)) ∧
      LTerm a (q D v.2 w.2 (dyad v.1 w.1)) (q' D v.2 w.2 (dyad v.1 w.1))) :
    LRes a (visits x y sl).length (likelihood_layer binary64 p q D n x y dyad nbrs sl)
      (Layer.likelihood_layer p' q' D n x y dyad nbrs sl) := by
  have key : Rel (LAcc a (visits x y sl).length) (layerLoop binary64 p q D x y dyad nbrs sl)
      (layerLoop Arith.exact p' q' D x y dyad nbrs sl) := by
    rw [layerLoop_eq, layerLoop_eq]
    have := addTerms_rel a0 a1 (f := fun v : (ℕ × XR) × (ℕ × XR) =>
        if (nbrs v.1.1).contains v.2.1 then p D v.1.2 v.2.2 (dyad v.1.1 v.2.1)
        else q D v.1.2 v.2.2 (dyad v.1.1 v.2.1))
      (g := fun v : (ℕ × XR) × (ℕ × XR) =>
        if (nbrs v.1.1).contains v.2.1 then p' D v.1.2 v.2.2 (dyad v.1.1 v.2.1)
        else q' D v.1.2 v.2.2 (dyad v.1.1 v.2.1)) (visits x y sl)
      (fun v hv => by
        obtain ⟨h1, h2, _⟩ := mem_visits.1 hv
        split
        · exact (h _ h1 _ h2).1
        · exact (h _ h1 _ h2).2) (lacc_zero a) (by omega)
    rwa [Nat.zero_add] at this
  have hpre : ∀ u, Layer.precheck n x y nbrs = .error u → u = ninf := by
    unfold Layer.precheck
    have inner : ∀ (l : List ℕ) (u : XR), l.foldlM (fun _ j =>
        if !(y.any (fun e => e.1 == j)) then .error ninf
        else if (y.filter (fun e => e.1 == j)).any (fun e => e.2.isZero) then .error ninf
        else .ok ()) () = (Except.error u : Except XR _root_.Unit) → u = ninf := by
      intro l u
      induction l with
      | nil => intro h; cases h
      | cons j l ih =>
        intro h
        rw [List.foldlM_cons] at h
        split at h
        · exact (Except.error.inj h).symm
        · split at h
          · exact (Except.error.inj h).symm
          · exact ih h
    intro u
    induction List.range n with
    | nil => intro h; cases h
    | cons i l ih =>
      intro h
      rw [List.foldlM_cons] at h
      split at h
      · split at h
        · exact (Except.error.inj h).symm
        · split at h
          · exact (Except.error.inj h).symm
          · revert h
            generalize hr : ((nbrs i).foldlM (fun _ j =>
              if !(y.any (fun e => e.1 == j)) then .error ninf
              else if (y.filter (fun e => e.1 == j)).any (fun e => e.2.isZero) then .error ninf
              else .ok ()) () : Except XR _root_.Unit) = r
            intro h
            cases r with
            | error w => rw [← inner _ w hr]; exact (Except.error.inj h).symm
            | ok w => exact ih h
      · exact ih h
  show LRes a _ (Layer.value (Layer.precheck n x y nbrs >>= fun _ =>
      layerLoop binary64 p q D x y dyad nbrs sl)) (Layer.value (Layer.precheck n x y nbrs >>= fun _ =>
      layerLoop Arith.exact p' q' D x y dyad nbrs sl))
  cases hc : Layer.precheck n x y nbrs with
  | error u => rw [hpre u hc]; exact .inl ⟨rfl, rfl⟩
  | ok u => exact key.value

/-- Sums over the labels, with and without early return. -/
theorem labels_rel {a : ℝ} (a0 : 0 ≤ a) (a1 : a ≤ 2 ^ 100) {L : ℕ} (m : ℕ → ℕ) {f g : ℕ → XR}
    (hN : ∑ k ∈ Finset.range L, m k + L ≤ 2 ^ 50) (h : ∀ k < L, LRes a (m k) (f k) (g k)) :
    LRes a (∑ k ∈ Finset.range L, m k + L) (Layer.value (addTerms binary64 f 0 (List.range L)))
        (Layer.value (addTerms Arith.exact g 0 (List.range L))) ∧
      LRes a (∑ k ∈ Finset.range L, m k + L)
        ((List.range L).foldl (fun s k => binary64.add s (f k)) 0)
        ((List.range L).foldl (fun s k => Arith.exact.add s (g k)) 0) := by
  suffices H : Rel (LAcc a (∑ k ∈ Finset.range L, m k + L)) (addTerms binary64 f 0 (List.range L))
        (addTerms Arith.exact g 0 (List.range L)) ∧
      LRes a (∑ k ∈ Finset.range L, m k + L)
        ((List.range L).foldl (fun s k => binary64.add s (f k)) 0)
        ((List.range L).foldl (fun s k => Arith.exact.add s (g k)) 0) from ⟨H.1.value, H.2⟩
  induction L with
  | zero =>
    exact ⟨by simpa [addTerms, Rel, pure, Except.pure] using lacc_zero a,
      .inr (by simpa using lacc_zero a)⟩
  | succ L ih =>
    rw [Finset.sum_range_succ] at hN ⊢
    obtain ⟨h1, h2⟩ := ih (by omega) (fun k hk => h k (by omega))
    have e : ∑ k ∈ Finset.range L, m k + m L + (L + 1) = (∑ k ∈ Finset.range L, m k + L) + m L + 1 := by
      omega
    rw [List.range_succ, List.foldl_append, List.foldl_append, e]
    refine ⟨?_, lres_add a0 a1 (by omega) h2 (h L (by omega))⟩
    unfold addTerms at h1 ⊢
    rw [List.foldlM_append, List.foldlM_append]
    refine h1.bind fun c c' hc => ?_
    rw [foldlM_single, foldlM_single]
    rcases h L (by omega) with ⟨e1, e2⟩ | hQ
    · rw [e1, e2]
      exact ⟨rfl, rfl⟩
    · have i1 : (f L).isInf = false := by obtain ⟨r, _, R, e1, e2, _⟩ := hQ; rw [e1]; rfl
      have i2 : (g L).isInf = false := by obtain ⟨r, _, R, e1, e2, _⟩ := hQ; rw [e2]; rfl
      rw [i1, i2]
      exact lacc_add_acc a0 a1 (by omega) hc hQ

/-- The labelled pairs in the order of the dense loop. -/
def triples (n L : ℕ) (sl : Bool) : List (ℕ × ℕ × ℕ) :=
  (List.range L).flatMap fun k => (List.range n).flatMap fun i => (List.range n).flatMap fun j =>
    if admissible i j sl then [(k, i, j)] else []

theorem mem_triples {n L : ℕ} {sl : Bool} {v : ℕ × ℕ × ℕ} (h : v ∈ triples n L sl) :
    v.1 < L ∧ v.2.1 < n ∧ v.2.2 < n := by
  simp only [triples, List.mem_flatMap, List.mem_range] at h
  obtain ⟨k, hk, i, hi, j, hj, hv⟩ := h
  split at hv
  · rw [List.mem_singleton] at hv; subst hv; exact ⟨hk, hi, hj⟩
  · simp at hv

theorem length_triples (n L : ℕ) (sl : Bool) :
    (triples n L sl).length = L * (n * (if sl then n else n - 1)) := by
  have h1 : ∀ k i : ℕ, ∀ l : List ℕ, (l.flatMap fun j =>
      if admissible i j sl then [(k, i, j)] else []).length
        = l.countP (fun j => admissible i j sl) := by
    intro k i l
    induction l with
    | nil => rfl
    | cons j l ih =>
      rw [List.flatMap_cons, List.length_append, ih]
      by_cases h : admissible i j sl
      · rw [if_pos h, List.countP_cons_of_pos (p := fun j => admissible i j sl) h,
          List.length_singleton]; omega
      · rw [if_neg h, List.countP_cons_of_neg (p := fun j => admissible i j sl) h,
          List.length_nil]; omega
  have h2 : ∀ (c : ℕ) (f : ℕ → List (ℕ × ℕ × ℕ)) (l : List ℕ), (∀ i ∈ l, (f i).length = c) →
      (l.flatMap f).length = l.length * c := by
    intro c f l
    induction l with
    | nil => intro _; simp
    | cons i l ih =>
      intro h
      rw [List.flatMap_cons, List.length_append, ih (fun i hi => h i (by simp [hi])), h i (by simp),
        List.length_cons, Nat.succ_mul]
      omega
  unfold triples
  rw [h2 (n * (if sl then n else n - 1)), List.length_range]
  intro k _
  rw [h2 (if sl then n else n - 1), List.length_range]
  intro i hi
  rw [h1, count_admissible (List.mem_range.1 hi)]

theorem dense_tensor_eq (A : Arith) (p q : XR → XR → XR → XR → XR) (n L : ℕ) (D : ℕ → XR)
    (x y : ℕ → ℕ → XR) (dyad : ℕ → ℕ → XR) (adj : ℕ → ℕ → ℕ → Bool) (sl : Bool) :
    Dense.likelihood_tensor A p q n L D x y dyad adj sl =
      Layer.value (addTerms A (fun v : ℕ × ℕ × ℕ =>
        if adj v.1 v.2.1 v.2.2 then p (D v.1) (x v.2.1 v.1) (y v.2.2 v.1) (dyad v.2.1 v.2.2)
        else q (D v.1) (x v.2.1 v.1) (y v.2.2 v.1) (dyad v.2.1 v.2.2)) 0 (triples n L sl)) := by
  unfold Dense.likelihood_tensor addTerms triples
  congr 1
  rw [Cond.foldlM_flatMap]
  congr 1
  funext like k
  rw [Cond.foldlM_flatMap]
  congr 1
  funext like i
  rw [Cond.foldlM_flatMap]
  congr 1
  funext like j
  by_cases h : admissible i j sl
  · rw [if_pos h, if_pos h, foldlM_single]
  · rw [if_neg h, if_neg h]; rfl

end Verif.Round
