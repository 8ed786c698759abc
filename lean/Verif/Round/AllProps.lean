import Verif.Round.AllSums

/-!
# C108: probability over all layers in double precision

Missing in the theorems (suffix `_partial`): factors whose partial products leave the range of
`Round.LayerRange`, and mathematical functions that are not correctly rounded; for the fitness model
the error is bounded in absolute and not in relative terms (see `C108_relative_violated`).
-/

namespace Verif

open XR Round

private theorem inv_term {L m : ℕ} (hm : m ≤ L) (hL : L ≤ 2 ^ 20) {s s' : XR} (hs : InvAcc m s s') :
    Term ((2 * L + 6) * ulp2) (-(binary64.expm1 (-s))) (-(Arith.exact.expm1 (-s'))) := by
  obtain ⟨p, hp, q, e1, e2, q0, q1, hw, _⟩ := inv_end (hm.trans hL) hs
  have hmL : (m : ℝ) ≤ L := by exact_mod_cast hm
  have hu : Unit doubles (-(binary64.expm1 (-s))) := by
    obtain ⟨v, hv, _, e, _, v0, _⟩ := hs
    exact expm1_neg Faithful.binary64 (.inr ⟨v, hv, e, v0⟩)
  obtain ⟨r, _, er, r0, r1⟩ := hu
  obtain rfl : p = r := by rw [e1] at er; exact XR.fin.inj er
  have hle := mul_le_mul_of_nonneg_right (show 2 * ((m : ℝ) + 3) ≤ 2 * L + 6 by linarith) ulp2_pos.le
  exact ⟨p, hp, q, e1, e2, r0, r1, q0, q1, (mul_le_mul_of_nonneg_left (by linarith) q0).trans hw.1,
    hw.2.trans (mul_le_mul_of_nonneg_left (by linarith) q0)⟩

private theorem inv_zero {L m : ℕ} (hm : m ≤ L) (hL : L ≤ 2 ^ 20) {s s' : XR} (hs : InvAcc m s s') :
    Term ((2 * L + 6) * ulp2) (if s.isZero then 0 else -(binary64.expm1 (-s)))
      (if s'.isZero then 0 else -(Arith.exact.expm1 (-s'))) := by
  obtain ⟨p, hp, q, e1, e2, q0, q1, hw, hz, hz', hzz⟩ := inv_end (hm.trans hL) hs
  by_cases h : s.isZero = true
  · rw [if_pos h, if_pos (hzz ▸ h)]
    exact ⟨0, Faithful.binary64.zero_mem, 0, rfl, rfl, le_rfl, zero_le_one, le_rfl, zero_le_one,
      by simp [Within]⟩
  · rw [if_neg h, if_neg (hzz ▸ h)]
    exact inv_term hm hL hs

private theorem fit_term {L m : ℕ} (hm : m ≤ L) {s s' : XR} (hs : FitAcc m s s') :
    AbsTerm ((5 * L + 1) * ulp2) (binary64.sub 1 s) (Arith.exact.sub 1 s') := by
  obtain ⟨p, hp, q, e1, e2, p0, p1, q0, q1, hw⟩ := fit_end hs
  refine ⟨p, hp, q, e1, e2, p0, p1, q0, q1, hw.trans ?_⟩
  have hmL : (m : ℝ) ≤ L := by exact_mod_cast hm
  have : (0 : ℝ) ≤ L := Nat.cast_nonneg L
  exact mul_le_mul_of_nonneg_right (by linarith) ulp2_pos.le

private theorem len_map {x : List (ℕ × ℝ)} : (x.map fun p => (p.1, fin p.2)).length = x.length :=
  List.length_map _

theorem Round.layer_mem {d : ℕ → ℝ} {x y : List (ℕ × ℝ)}
    (h : ∀ k a b, (k, a) ∈ x → (k, b) ∈ y → LayerRange (d k) a b) {k : ℕ} {a b : XR}
    (ha : (k, a) ∈ x.map fun p => (p.1, fin p.2)) (hb : (k, b) ∈ y.map fun p => (p.1, fin p.2)) :
    ∃ r s : ℝ, a = fin r ∧ b = fin s ∧ LayerRange (d k) r s := by
  obtain ⟨⟨k1, r⟩, h1, e1⟩ := List.mem_map.1 ha
  obtain ⟨⟨k2, s⟩, h2, e2⟩ := List.mem_map.1 hb
  simp only [Prod.mk.injEq] at e1 e2
  obtain ⟨rfl, rfl⟩ := e1
  obtain ⟨rfl, rfl⟩ := e2
  exact ⟨r, s, rfl, rfl, h _ _ _ h1 h2⟩

theorem Round.sparse_inv {L : ℕ} (hL : L ≤ 2 ^ 20) {d : ℕ → ℝ} {x y : List (ℕ × ℝ)}
    (hx : x.length ≤ L) (h : ∀ k a b, (k, a) ∈ x → (k, b) ∈ y → LayerRange (d k) a b) :
    Term ((2 * L + 6) * ulp2)
      (Round.Sparse.MultiInvariantModel.p_ij binary64 (fun k => fin (d k))
        (x.map fun p => (p.1, fin p.2)) (y.map fun p => (p.1, fin p.2)))
      (Verif.Sparse.MultiInvariantModel.p_ij (fun k => fin (d k))
        (x.map fun p => (p.1, fin p.2)) (y.map fun p => (p.1, fin p.2))) := by
  obtain ⟨t, t', e, e', ht⟩ := mergeLoop_rel (M := 2 ^ 20)
    (body := Round.invBody binary64 1 fun k => fin (d k)) (body' := Round.invBody Arith.exact 1 fun k => fin (d k))
    InvAcc.mono (x.map fun p => (p.1, fin p.2)) (y.map fun p => (p.1, fin p.2)) 0 0 0
    (by rw [len_map]; omega) (by
      intro k a b ha hb m hm s s' hs
      obtain ⟨r, w, rfl, rfl, hl⟩ := Round.layer_mem h ha hb
      exact inv_layer hl _ m hm s s' hs) InvAcc.zero
  rw [len_map, zero_add] at ht
  have := inv_term hx hL ht
  change Term _ (finish (mergeLoop (Round.invBody binary64 1 fun k => fin (d k)) _ _ 0) _)
    (finish (mergeLoop (Round.invBody Arith.exact 1 fun k => fin (d k)) _ _ 0)
      (fun val => -(Arith.exact.expm1 (-val))))
  rw [e, e']
  exact this

private theorem sparse_fit {L : ℕ} {d : ℕ → ℝ} {x y : List (ℕ × ℝ)}
    (hx : x.length ≤ L) (h : ∀ k a b, (k, a) ∈ x → (k, b) ∈ y → LayerRange (d k) a b) :
    AbsTerm ((5 * L + 1) * ulp2)
      (Round.Sparse.MultiFitnessModel.p_ij binary64 (fun k => fin (d k))
        (x.map fun p => (p.1, fin p.2)) (y.map fun p => (p.1, fin p.2)))
      (Verif.Sparse.MultiFitnessModel.p_ij (fun k => fin (d k))
        (x.map fun p => (p.1, fin p.2)) (y.map fun p => (p.1, fin p.2))) := by
  obtain ⟨t, t', e, e', ht⟩ := mergeLoop_rel (M := x.length)
    (body := Round.fitBody binary64 1 fun k => fin (d k)) (body' := Round.fitBody Arith.exact 1 fun k => fin (d k))
    FitAcc.mono (x.map fun p => (p.1, fin p.2)) (y.map fun p => (p.1, fin p.2)) 1 1 0
    (by rw [len_map]; omega) (by
      intro k a b ha hb m _ s s' hs
      obtain ⟨r, w, rfl, rfl, hl⟩ := Round.layer_mem h ha hb
      exact fit_layer hl _ m s s' hs) FitAcc.one
  rw [len_map, zero_add] at ht
  have := fit_term hx ht
  change AbsTerm _ (finish (mergeLoop (Round.fitBody binary64 1 fun k => fin (d k)) _ _ 1) _)
    (finish (mergeLoop (Round.fitBody Arith.exact 1 fun k => fin (d k)) _ _ 1)
      (fun val => Arith.exact.sub 1 val))
  rw [e, e']
  exact this

theorem Round.dense_inv {L : ℕ} (hL : L ≤ 2 ^ 20) {d : ℕ → ℝ} {x y : List ℝ} (hx : x.length ≤ L)
    (h : ∀ k (hk : k < x.length) (hk' : k < y.length), LayerRange (d k) x[k] y[k]) :
    Term ((2 * L + 6) * ulp2)
      (Round.Dense.MultiInvariantModel.p_ij binary64 (fun k => fin (d k)) (x.map fin) (y.map fin))
      (Verif.Dense.MultiInvariantModel.p_ij (fun k => fin (d k)) (x.map fin) (y.map fin)) := by
  obtain ⟨t, t', e, e', ht⟩ := zipLoop_rel (M := 2 ^ 20)
    (body := Round.invBody binary64 1 fun k => fin (d k)) (body' := Round.invBody Arith.exact 1 fun k => fin (d k))
    InvAcc.mono (x.map fin) (y.map fin) 0 0 0 0 (by rw [List.length_map]; omega) (by
      intro k hk hk' m hm s s' hs
      rw [List.length_map] at hk hk'
      rw [List.getElem_map, List.getElem_map, zero_add]
      exact inv_layer (h k hk hk') _ m hm s s' hs) InvAcc.zero
  rw [List.length_map, zero_add] at ht
  have := inv_zero hx hL ht
  change Term _ (finish (zipLoop (Round.invBody binary64 1 fun k => fin (d k)) 0 _ _ 0) _)
    (finish (zipLoop (Round.invBody Arith.exact 1 fun k => fin (d k)) 0 _ _ 0)
      (fun val => if val.isZero then 0 else -(Arith.exact.expm1 (-val))))
  rw [e, e']
  exact this

private theorem dense_fit {L : ℕ} {d : ℕ → ℝ} {x y : List ℝ} (hx : x.length ≤ L)
    (h : ∀ k (hk : k < x.length) (hk' : k < y.length), LayerRange (d k) x[k] y[k]) :
    AbsTerm ((5 * L + 1) * ulp2)
      (Round.Dense.MultiFitnessModel.p_ij binary64 (fun k => fin (d k)) (x.map fin) (y.map fin))
      (Verif.Dense.MultiFitnessModel.p_ij (fun k => fin (d k)) (x.map fin) (y.map fin)) := by
  obtain ⟨t, t', e, e', ht⟩ := zipLoop_rel (M := x.length)
    (body := Round.fitBody binary64 1 fun k => fin (d k)) (body' := Round.fitBody Arith.exact 1 fun k => fin (d k))
    FitAcc.mono (x.map fin) (y.map fin) 0 1 1 0 (by rw [List.length_map]; omega) (by
      intro k hk hk' m _ s s' hs
      rw [List.length_map] at hk hk'
      rw [List.getElem_map, List.getElem_map, zero_add]
      exact fit_layer (h k hk hk') _ m s s' hs) FitAcc.one
  rw [List.length_map, zero_add] at ht
  have := fit_term hx ht
  change AbsTerm _ (finish (zipLoop (Round.fitBody binary64 1 fun k => fin (d k)) 0 _ _ 1) _)
    (finish (zipLoop (Round.fitBody Arith.exact 1 fun k => fin (d k)) 0 _ _ 1)
      (fun val => Arith.exact.sub 1 val))
  rw [e, e']
  exact this

private theorem twice (L : ℕ) {v e : XR} (h : Term ((2 * L + 6) * ulp2) v e) :
    Term (2 * ((L : ℝ) + 3) * ulp2) v e := by
  rwa [show 2 * ((L : ℝ) + 3) = 2 * L + 6 by ring]

private theorem small {L : ℕ} (hL : L ≤ 2 ^ 20) : (2 * L + 6 : ℝ) ≤ 2 ^ 39 := by
  have : (L : ℝ) ≤ 2 ^ 20 := by exact_mod_cast hL
  linarith

/-- **C108**, scale-invariant model, sparse backend.  With up to `2 ^ 25` vertices and up to `2 ^ 20`
layers, whose factors are in the normal range or zero, the probability of a link in at least one
layer has a relative error of at most `(L + 3) * 2 ^ -52`; the expected number of edges and the
expected degrees have the relative errors stated. -/
theorem C108_invariant_sparse_partial (n L : ℕ) (hn : n ≤ 2 ^ 25) (hL : L ≤ 2 ^ 20) (d : ℕ → ℝ)
    (x y : ℕ → List (ℕ × ℝ)) (hx : ∀ i < n, (x i).length ≤ L)
    (h : ∀ i < n, ∀ j < n, ∀ k a b, (k, a) ∈ x i → (k, b) ∈ y j → Round.LayerRange (d k) a b)
    (sl : Bool) :
    let D : ℕ → XR := fun k => fin (d k)
    let X : ℕ → List (ℕ × XR) := fun i => (x i).map fun p => (p.1, fin p.2)
    let Y : ℕ → List (ℕ × XR) := fun i => (y i).map fun p => (p.1, fin p.2)
    let p := fun d a b (_ : PUnit) => Round.Sparse.MultiInvariantModel.p_ij binary64 d a b
    let q := fun d a b (_ : PUnit) => Verif.Sparse.MultiInvariantModel.p_ij d a b
    let Z : ℕ → ℕ → PUnit := fun _ _ => ⟨⟩
    let s := Round.exp_degrees binary64 p D n X Y Z sl
    let t := DiGraphEnsemble.exp_degrees q D n X Y Z sl
    (∀ i < n, ∀ j < n, Round.Close (fun V => (L + 3) * (2 : ℝ) ^ (-52 : ℤ) * V)
      (p D (X i) (Y j) ⟨⟩) (q D (X i) (Y j) ⟨⟩)) ∧
    Round.Close
      (fun V => ((n * (if sl then n else n - 1) : ℕ) + (2 * L + 6)) * (2 : ℝ) ^ (-52 : ℤ) * V)
      (Round.exp_edges binary64 p D n X Y Z sl) (DiGraphEnsemble.exp_edges q D n X Y Z sl) ∧
    ∀ k < n,
      Round.Close (fun V => (n + (2 * L + 6)) * (2 : ℝ) ^ (-52 : ℤ) * V) (s.exp_d_out k)
        (t.exp_d_out k) ∧
      Round.Close (fun V => (n + (2 * L + 6)) * (2 : ℝ) ^ (-52 : ℤ) * V) (s.exp_d_in k)
        (t.exp_d_in k) ∧
      Round.Close (fun V => (n + (2 * L + 6) + 6) * (2 : ℝ) ^ (-52 : ℤ) * V) (s.exp_d k)
        (t.exp_d k) := by
  intro D X Y p q Z s t
  have ht : ∀ i < n, ∀ j < n, Term ((2 * L + 6) * ulp2) (p D (X i) (Y j) (Z i j))
      (q D (X i) (Y j) (Z i j)) := fun i hi j hj => Round.sparse_inv hL (hx i hi) (h i hi j hj)
  have h6 := small hL
  exact ⟨fun i hi j hj => (twice L (ht i hi j hj)).close,
    edges_rel hn sl (by positivity) (h6.trans (by norm_num)) ht,
    fun k hk => degrees_rel hn sl (by positivity) h6 ht k hk⟩

/-- **C108**, scale-invariant model, dense backend. -/
theorem C108_invariant_dense_partial (n L : ℕ) (hn : n ≤ 2 ^ 25) (hL : L ≤ 2 ^ 20) (d : ℕ → ℝ)
    (x y : ℕ → List ℝ) (hx : ∀ i < n, (x i).length ≤ L)
    (h : ∀ i < n, ∀ j < n, ∀ k (hk : k < (x i).length) (hk' : k < (y j).length),
      Round.LayerRange (d k) (x i)[k] (y j)[k]) (sl : Bool) :
    let D : ℕ → XR := fun k => fin (d k)
    let X : ℕ → List XR := fun i => (x i).map fin
    let Y : ℕ → List XR := fun i => (y i).map fin
    let p := fun d a b (_ : PUnit) => Round.Dense.MultiInvariantModel.p_ij binary64 d a b
    let q := fun d a b (_ : PUnit) => Verif.Dense.MultiInvariantModel.p_ij d a b
    let Z : ℕ → ℕ → PUnit := fun _ _ => ⟨⟩
    let s := Round.exp_degrees binary64 p D n X Y Z sl
    let t := DiGraphEnsemble.exp_degrees q D n X Y Z sl
    (∀ i < n, ∀ j < n, Round.Close (fun V => (L + 3) * (2 : ℝ) ^ (-52 : ℤ) * V)
      (p D (X i) (Y j) ⟨⟩) (q D (X i) (Y j) ⟨⟩)) ∧
    Round.Close
      (fun V => ((n * (if sl then n else n - 1) : ℕ) + (2 * L + 6)) * (2 : ℝ) ^ (-52 : ℤ) * V)
      (Round.exp_edges binary64 p D n X Y Z sl) (DiGraphEnsemble.exp_edges q D n X Y Z sl) ∧
    ∀ k < n,
      Round.Close (fun V => (n + (2 * L + 6)) * (2 : ℝ) ^ (-52 : ℤ) * V) (s.exp_d_out k)
        (t.exp_d_out k) ∧
      Round.Close (fun V => (n + (2 * L + 6)) * (2 : ℝ) ^ (-52 : ℤ) * V) (s.exp_d_in k)
        (t.exp_d_in k) ∧
      Round.Close (fun V => (n + (2 * L + 6) + 6) * (2 : ℝ) ^ (-52 : ℤ) * V) (s.exp_d k)
        (t.exp_d k) := by
  intro D X Y p q Z s t
  have ht : ∀ i < n, ∀ j < n, Term ((2 * L + 6) * ulp2) (p D (X i) (Y j) (Z i j))
      (q D (X i) (Y j) (Z i j)) := fun i hi j hj => Round.dense_inv hL (hx i hi) (h i hi j hj)
  have h6 := small hL
  exact ⟨fun i hi j hj => (twice L (ht i hi j hj)).close,
    edges_rel hn sl (by positivity) (h6.trans (by norm_num)) ht,
    fun k hk => degrees_rel hn sl (by positivity) h6 ht k hk⟩

/-- **C108**, fitness model, sparse backend.  The probability of a link in at least one layer has an
absolute error of at most `(5 L + 1) * 2 ^ -53`, whatever the number of layers. -/
theorem C108_fitness_sparse_partial (n L : ℕ) (hn : n ≤ 2 ^ 25) (d : ℕ → ℝ)
    (x y : ℕ → List (ℕ × ℝ)) (hx : ∀ i < n, (x i).length ≤ L)
    (h : ∀ i < n, ∀ j < n, ∀ k a b, (k, a) ∈ x i → (k, b) ∈ y j → Round.LayerRange (d k) a b)
    (sl : Bool) :
    let D : ℕ → XR := fun k => fin (d k)
    let X : ℕ → List (ℕ × XR) := fun i => (x i).map fun p => (p.1, fin p.2)
    let Y : ℕ → List (ℕ × XR) := fun i => (y i).map fun p => (p.1, fin p.2)
    let p := fun d a b (_ : PUnit) => Round.Sparse.MultiFitnessModel.p_ij binary64 d a b
    let q := fun d a b (_ : PUnit) => Verif.Sparse.MultiFitnessModel.p_ij d a b
    let Z : ℕ → ℕ → PUnit := fun _ _ => ⟨⟩
    let s := Round.exp_degrees binary64 p D n X Y Z sl
    let t := DiGraphEnsemble.exp_degrees q D n X Y Z sl
    (∀ i < n, ∀ j < n, Round.Close (fun _ => (5 * L + 1) * (2 : ℝ) ^ (-53 : ℤ))
      (p D (X i) (Y j) ⟨⟩) (q D (X i) (Y j) ⟨⟩)) ∧
    Round.Close
      (fun V => (n * (if sl then n else n - 1) : ℕ) * (2 : ℝ) ^ (-52 : ℤ) * (V + (5 * L + 1)))
      (Round.exp_edges binary64 p D n X Y Z sl) (DiGraphEnsemble.exp_edges q D n X Y Z sl) ∧
    ∀ k < n,
      Round.Close (fun V => n * (2 : ℝ) ^ (-52 : ℤ) * (V + (5 * L + 1))) (s.exp_d_out k)
        (t.exp_d_out k) ∧
      Round.Close (fun V => n * (2 : ℝ) ^ (-52 : ℤ) * (V + (5 * L + 1))) (s.exp_d_in k)
        (t.exp_d_in k) ∧
      Round.Close (fun V => n * (2 : ℝ) ^ (-52 : ℤ) * (V + (2 * (5 * L + 1) + 6))) (s.exp_d k)
        (t.exp_d k) := by
  intro D X Y p q Z s t
  have ht : ∀ i < n, ∀ j < n, AbsTerm ((5 * L + 1) * ulp2) (p D (X i) (Y j) (Z i j))
      (q D (X i) (Y j) (Z i j)) := fun i hi j hj => sparse_fit (hx i hi) (h i hi j hj)
  exact ⟨fun i hi j hj => (ht i hi j hj).close, edges_abs hn sl (by positivity) ht,
    fun k hk => degrees_abs hn sl (by positivity) ht k hk⟩

/-- **C108**, fitness model, dense backend. -/
theorem C108_fitness_dense_partial (n L : ℕ) (hn : n ≤ 2 ^ 25) (d : ℕ → ℝ)
    (x y : ℕ → List ℝ) (hx : ∀ i < n, (x i).length ≤ L)
    (h : ∀ i < n, ∀ j < n, ∀ k (hk : k < (x i).length) (hk' : k < (y j).length),
      Round.LayerRange (d k) (x i)[k] (y j)[k]) (sl : Bool) :
    let D : ℕ → XR := fun k => fin (d k)
    let X : ℕ → List XR := fun i => (x i).map fin
    let Y : ℕ → List XR := fun i => (y i).map fin
    let p := fun d a b (_ : PUnit) => Round.Dense.MultiFitnessModel.p_ij binary64 d a b
    let q := fun d a b (_ : PUnit) => Verif.Dense.MultiFitnessModel.p_ij d a b
    let Z : ℕ → ℕ → PUnit := fun _ _ => ⟨⟩
    let s := Round.exp_degrees binary64 p D n X Y Z sl
    let t := DiGraphEnsemble.exp_degrees q D n X Y Z sl
    (∀ i < n, ∀ j < n, Round.Close (fun _ => (5 * L + 1) * (2 : ℝ) ^ (-53 : ℤ))
      (p D (X i) (Y j) ⟨⟩) (q D (X i) (Y j) ⟨⟩)) ∧
    Round.Close
      (fun V => (n * (if sl then n else n - 1) : ℕ) * (2 : ℝ) ^ (-52 : ℤ) * (V + (5 * L + 1)))
      (Round.exp_edges binary64 p D n X Y Z sl) (DiGraphEnsemble.exp_edges q D n X Y Z sl) ∧
    ∀ k < n,
      Round.Close (fun V => n * (2 : ℝ) ^ (-52 : ℤ) * (V + (5 * L + 1))) (s.exp_d_out k)
        (t.exp_d_out k) ∧
      Round.Close (fun V => n * (2 : ℝ) ^ (-52 : ℤ) * (V + (5 * L + 1))) (s.exp_d_in k)
        (t.exp_d_in k) ∧
      Round.Close (fun V => n * (2 : ℝ) ^ (-52 : ℤ) * (V + (2 * (5 * L + 1) + 6))) (s.exp_d k)
        (t.exp_d k) := by
  intro D X Y p q Z s t
  have ht : ∀ i < n, ∀ j < n, AbsTerm ((5 * L + 1) * ulp2) (p D (X i) (Y j) (Z i j))
      (q D (X i) (Y j) (Z i j)) := fun i hi j hj => dense_fit (hx i hi) (h i hi j hj)
  exact ⟨fun i hi j hj => (ht i hi j hj).close, edges_abs hn sl (by positivity) ht,
    fun k hk => degrees_abs hn sl (by positivity) ht k hk⟩

/-- The fitness model multiplies the factors `1 / (1 + d x y)` and subtracts the product from one.  A
pair whose factors are `1` and `2 ^ -30` for both properties, in the only layer, has the computed
probability zero and the computed logarithm minus infinity, although the probability is positive; the
same pair has a positive computed probability in the model with one layer. -/
theorem C108_relative_violated :
    let a : XR := fin ((2 : ℝ) ^ (-30 : ℤ))
    Round.Sparse.MultiFitnessModel.p_ij binary64 (fun _ => 1) [(0, a)] [(0, a)] = 0 ∧
    Round.Dense.MultiFitnessModel.p_ij binary64 (fun _ => 1) [a] [a] = 0 ∧
    Round.Sparse.MultiFitnessModel.logp binary64 (fun _ => 1) [(0, a)] [(0, a)] = ninf ∧
    Round.Dense.MultiFitnessModel.logp binary64 (fun _ => 1) [a] [a] = ninf ∧
    (∃ q : ℝ, Verif.Sparse.MultiFitnessModel.p_ij (fun _ => 1) [(0, a)] [(0, a)] = fin q ∧
      Verif.Dense.MultiFitnessModel.p_ij (fun _ => 1) [a] [a] = fin q ∧ 0 < q ∧
      Verif.Sparse.MultiFitnessModel.logp (fun _ => 1) [(0, a)] [(0, a)] = fin (Real.log q) ∧
      Verif.Dense.MultiFitnessModel.logp (fun _ => 1) [a] [a] = fin (Real.log q)) ∧
    ∃ p : ℝ, Round.Sparse.FitnessModel.p_ij binary64 1 a a 1 = fin p ∧ 0 < p := by
  intro a
  have ha : a.isZero = false := isZero_eq_false (pow_pos' _).ne'
  have h1 : (1 : XR).isZero = false := isZero_eq_false one_ne_zero
  have hone : (1 : ℝ) ∈ doubles := Faithful.binary64.one_mem
  have mem : (2 : ℝ) ^ (-60 : ℤ) ∈ doubles := pow_mem (by norm_num) (by norm_num)
  have m1 : binary64.mul 1 a = a := by
    show toDouble (1 * (2 : ℝ) ^ (-30 : ℤ)) = fin _
    rw [one_mul]; exact toDouble_self (pow_mem (by norm_num) (by norm_num))
  have m2 : binary64.mul a a = fin ((2 : ℝ) ^ (-60 : ℤ)) := by
    show toDouble ((2 : ℝ) ^ (-30 : ℤ) * (2 : ℝ) ^ (-30 : ℤ)) = _
    rw [← zpow_add₀ (by norm_num)]; exact toDouble_self mem
  have m3 : binary64.mul (fin ((2 : ℝ) ^ (-60 : ℤ))) 1 = fin ((2 : ℝ) ^ (-60 : ℤ)) := by
    show toDouble ((2 : ℝ) ^ (-60 : ℤ) * 1) = _
    rw [mul_one]; exact toDouble_self mem
  have ad : binary64.add 1 (fin ((2 : ℝ) ^ (-60 : ℤ))) = fin 1 := by
    show toDouble (1 + (2 : ℝ) ^ (-60 : ℤ)) = fin 1
    have hr : rnd (1 + (2 : ℝ) ^ (-60 : ℤ)) = 1 :=
      le_antisymm (rnd_le_one (by norm_num)) (le_rnd hone (by norm_num))
    have : toDouble 1 = fin 1 := toDouble_self hone
    have hr1 : rnd 1 = 1 := le_antisymm (rnd_le hone le_rfl) (le_rnd hone le_rfl)
    rw [← this]
    unfold toDouble
    rw [hr, hr1]
  have dv : binary64.div 1 (fin 1) = 1 := by
    show roundXR (fin 1 / fin 1) = fin 1
    rw [fin_div_fin _ _ one_ne_zero, div_one]; exact toDouble_self hone
  have dt : binary64.div (fin ((2 : ℝ) ^ (-60 : ℤ))) (fin 1) = fin ((2 : ℝ) ^ (-60 : ℤ)) := by
    show roundXR (fin _ / fin 1) = fin _
    rw [fin_div_fin _ _ one_ne_zero, div_one]; exact toDouble_self mem
  have sb : binary64.sub 1 1 = 0 := by
    show toDouble (1 - 1) = fin 0
    rw [sub_self]; exact toDouble_self Faithful.binary64.zero_mem
  have p3 : prod3 binary64 1 a a = fin ((2 : ℝ) ^ (-60 : ℤ)) := by rw [prod3, m1, m2]
  have body : ∀ ret, Round.fitBody binary64 ret (fun _ => 1) 1 0 a a = .ok 1 := by
    intro ret
    simp only [Round.fitBody, h1, ha, p3, ad, dv]
    rfl
  have i1 : (1 : XR).isOne = true := by simp [isOne]
  have bx : ∀ ret, Verif.fitBody ret (fun _ => 1) 1 0 a a =
      .ok (fin (1 / (1 + (2 : ℝ) ^ (-60 : ℤ)))) := by
    intro ret
    have e : (1 : XR) * a * a = fin ((2 : ℝ) ^ (-60 : ℤ)) := by
      show fin (1 * (2 : ℝ) ^ (-30 : ℤ) * (2 : ℝ) ^ (-30 : ℤ)) = _
      rw [one_mul, ← zpow_add₀ (by norm_num)]; rfl
    have e2 : (1 : XR) / (1 + fin ((2 : ℝ) ^ (-60 : ℤ))) = fin (1 / (1 + (2 : ℝ) ^ (-60 : ℤ))) := by
      show fin 1 / fin (1 + (2 : ℝ) ^ (-60 : ℤ)) = _
      rw [fin_div_fin _ _ (by norm_num)]
    simp only [Verif.fitBody, h1, ha, e, e2]
    rfl
  have le : Verif.fitLogpEnd (fin (1 / (1 + (2 : ℝ) ^ (-60 : ℤ)))) =
      fin (Real.log (1 - 1 / (1 + (2 : ℝ) ^ (-60 : ℤ)))) := by
    have i2 : ¬ (fin (1 / (1 + (2 : ℝ) ^ (-60 : ℤ)))).isOne = true := by simp [isOne]
    rw [Verif.fitLogpEnd, if_neg i2]
    show log1p (fin (-(1 / (1 + (2 : ℝ) ^ (-60 : ℤ))))) = _
    rw [log1p_fin_pos (by norm_num), ← sub_eq_add_neg]
  refine ⟨?_, ?_, ?_, ?_, ⟨1 - 1 / (1 + (2 : ℝ) ^ (-60 : ℤ)), ?_, ?_, ?_, ?_, ?_⟩,
    (2 : ℝ) ^ (-60 : ℤ), ?_, pow_pos' _⟩
  · simp [Round.Sparse.MultiFitnessModel.p_ij, mergeLoop, body, finish, sb]
  · simp [Round.Dense.MultiFitnessModel.p_ij, zipLoop, body, finish, sb]
  · simp [Round.Sparse.MultiFitnessModel.logp, mergeLoop, body, finish, Round.fitLogpEnd, i1]
  · simp [Round.Dense.MultiFitnessModel.logp, zipLoop, body, finish, Round.fitLogpEnd, i1]
  · simp only [Verif.Sparse.MultiFitnessModel.p_ij, mergeLoop, bx, finish]
    rfl
  · simp only [Verif.Dense.MultiFitnessModel.p_ij, zipLoop, bx, finish]
    rfl
  · norm_num
  · simp only [Verif.Sparse.MultiFitnessModel.logp, mergeLoop, bx, finish, if_true]
    exact le
  · simp only [Verif.Dense.MultiFitnessModel.logp, zipLoop, bx, finish, le]
  · have p4 : prod4 binary64 1 a a 1 = fin ((2 : ℝ) ^ (-60 : ℤ)) := by rw [prod4, m1, m2, m3]
    simp only [Round.Sparse.FitnessModel.p_ij, h1, ha, p4, ad, dt]
    rfl

private theorem moderate {r : ℝ} (h1 : 1 ≤ r) (h2 : r ≤ 32) :
    (2 : ℝ) ^ (-1000 : ℤ) ≤ r ∧ r ≤ (2 : ℝ) ^ (1000 : ℤ) :=
  ⟨(zpow_le_one_of_nonpos₀ (by norm_num) (by norm_num)).trans h1,
    h2.trans ((show (32 : ℝ) ≤ (2 : ℝ) ^ (5 : ℤ) by norm_num).trans
      (zpow_le_zpow_right₀ (by norm_num) (by norm_num)))⟩

/-- Two vertices with two layers each, one of them in common, meet the hypotheses (sparse). -/
example : ∀ k a b, (k, a) ∈ [(0, (3 : ℝ)), (2, 5)] → (k, b) ∈ [(1, (7 : ℝ)), (2, 3)] →
    Round.LayerRange 2 a b := by
  intro k a b ha hb
  simp only [List.mem_cons, Prod.mk.injEq, List.not_mem_nil, or_false] at ha hb
  rcases ha with ⟨rfl, rfl⟩ | ⟨rfl, rfl⟩ <;> rcases hb with ⟨h, rfl⟩ | ⟨h, rfl⟩
  · omega
  · omega
  · omega
  · exact .inr ⟨by norm_num, by norm_num, by norm_num, moderate (by norm_num) (by norm_num),
      moderate (by norm_num) (by norm_num)⟩

/-- Two layers, one of them with a zero property, meet the hypotheses (dense). -/
example : ∀ k (_ : k < [(3 : ℝ), 0].length) (_ : k < [(5 : ℝ), 1].length),
    Round.LayerRange 2 [(3 : ℝ), 0][k] [(5 : ℝ), 1][k] := by
  intro k hk _
  rcases k with _ | _ | k
  · exact .inr ⟨by norm_num, by norm_num, by norm_num, moderate (by norm_num) (by norm_num),
      moderate (by norm_num) (by norm_num)⟩
  · exact .inl (.inl rfl)
  · simp at hk

end Verif
