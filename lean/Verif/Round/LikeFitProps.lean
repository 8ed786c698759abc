import Verif.Round.NNFitLayerProps
import Verif.Round.LikeProps

/-!
# C109 for the fitness models with several layers

`C109_layers_fitness_violated` shows that the log-likelihood can be minus infinity if probabilities are close
to zero.  Here its error is bounded in terms of `K` if the probabilities that are not zero are between `1 / K`
and `1 - 1 / K`.
-/

namespace Verif

open XR Round

private theorem log1p_neg (v : ℝ) : XR.log1p (-fin v) = XR.log (fin (1 - v)) := by
  show XR.log1p (fin (-v)) = _
  simp only [XR.log1p, XR.log, sub_eq_add_neg]

private theorem log_lower {K q : ℝ} (hK : 0 < K) (hK' : K ≤ 2 ^ 40) (hq : 1 / K ≤ q) :
    -2 ^ 42 ≤ Real.log q := by
  have q0 : 0 < q := lt_of_lt_of_le (by positivity) hq
  have h1 := Real.one_sub_inv_le_log_of_pos q0
  have h2 : q⁻¹ ≤ K := by
    rw [div_le_iff₀ hK] at hq
    rw [inv_le_iff_one_le_mul₀ q0]
    linarith
  linarith

/-- A logarithm of a value with an absolute error. -/
private theorem log_abs {L m : ℕ} (hm : m ≤ L) {K : ℝ} (hK : 2 ≤ K) (hLK : (5 * L + 1) * K ≤ 2 ^ 40) {p q : ℝ}
    (p1 : p ≤ 1) (q1 : q ≤ 1) (hq : 1 / K ≤ q) (h : |p - q| ≤ 4.2 * m * ulp2) :
    0 < p ∧ LFin (6 * (L + 1) * K) (binary64.log (fin p)) (XR.log (fin q)) := by
  have hu := ulp2_pos
  have hul : ulp2 ≤ 1 / 2 ^ 53 := by unfold ulp2; norm_num
  have hK0 : 0 < K := by linarith
  have hmL : (m : ℝ) ≤ L := by exact_mod_cast hm
  have hL0 : (0 : ℝ) ≤ L := Nat.cast_nonneg L
  have hLK0 : 0 ≤ (L : ℝ) * K := mul_nonneg hL0 hK0.le
  have q0 : 0 < q := lt_of_lt_of_le (by positivity) hq
  have h1 : 1 ≤ K * q := by rw [div_le_iff₀ hK0] at hq; linarith
  have c0 : 0 ≤ (5 * (L : ℝ) + 1) * K := by positivity
  have hc : (5 * (L : ℝ) + 1) * K * ulp2 ≤ 1 / 100 :=
    (mul_le_mul hLK hul hu.le (by norm_num)).trans (by norm_num)
  have h2 : 4.2 * m * ulp2 ≤ (5 * L + 1) * K * ulp2 * q := by
    have a1 : 4.2 * m * ulp2 ≤ (5 * L + 1) * ulp2 := mul_le_mul_of_nonneg_right (by linarith) hu.le
    have a2 := mul_le_mul_of_nonneg_left h1 (show 0 ≤ (5 * L + 1) * ulp2 by positivity)
    linarith
  have h3 := abs_le.1 (h.trans h2)
  have hw : Within ((5 * (L : ℝ) + 1) * K * ulp2) q p := ⟨by linarith [h3.1], by linarith [h3.2]⟩
  refine ⟨lt_of_lt_of_le (mul_pos q0 (by linarith)) hw.1, ?_⟩
  have hK40 : K ≤ 2 ^ 40 := by linarith
  exact (log_term c0 hc q0 q1 (log_lower hK0 hK40 hq) p1 hw).mono (by linarith)

/-- The logarithms, from the probability of no link. -/
private theorem fit_logs {L m : ℕ} (hm : m ≤ L) {K : ℝ} (hK : 2 ≤ K) (hLK : (5 * L + 1) * K ≤ 2 ^ 40)
    {s s' : XR} (hs : FitSum m s s')
    (h : ∀ r, Arith.exact.sub 1 s' = fin r → r = 0 ∨ 1 / K ≤ r ∧ r ≤ 1 - 1 / K) :
    LTerm (6 * (L + 1) * K) (Round.fitLogpEnd binary64 s) (Round.fitLogpEnd Arith.exact s') ∧
      LTerm (6 * (L + 1) * K) (if s.isOne then 0 else binary64.log s)
        (if s'.isOne then 0 else Arith.exact.log s') ∧
      LTerm (6 * (L + 1) * K) (binary64.log s) (Arith.exact.log s') := by
  obtain ⟨⟨v, hv, V, rfl, rfl, v0, v1, V0, V1, hd⟩, hone⟩ := hs
  have a0 : 0 ≤ 6 * ((L : ℝ) + 1) * K := by positivity
  rcases h (1 - V) rfl with h0 | ⟨h1, h2⟩
  · obtain rfl : V = 1 := by linarith
    obtain rfl : v = 1 := XR.fin.inj (hone rfl)
    have i1 : (fin (1 : ℝ)).isOne = true := by simp [isOne]
    refine ⟨.inl ?_, .inr ?_, .inr ?_⟩
    · rw [Round.fitLogpEnd, Round.fitLogpEnd, i1]; exact ⟨rfl, rfl⟩
    · rw [i1]; exact lfin_zero a0
    · refine (log_abs hm hK hLK le_rfl le_rfl ?_ ?_).2
      · rw [div_le_iff₀ (by linarith)]; linarith
      · rw [sub_self, abs_zero]; exact (abs_nonneg _).trans hd
  · have hK0 : 0 < 1 / K := by positivity
    have hV : V ≠ 1 := by rintro rfl; linarith
    obtain ⟨g0, g⟩ := log_abs (p := 1 - v) (q := 1 - V) hm hK hLK (by linarith) (by linarith) h1 (by
      rw [show 1 - v - (1 - V) = -(v - V) by ring, abs_neg]; exact hd)
    obtain ⟨_, k⟩ := log_abs (p := v) (q := V) hm hK hLK v1 V1 (by linarith) hd
    have hv1 : v ≠ 1 := by rintro rfl; linarith
    have i1 : (fin v).isOne = false := by simp [isOne, hv1]
    have i2 : (fin V).isOne = false := by simp [isOne, hV]
    refine ⟨.inr ?_, .inr ?_, .inr k⟩
    · rw [Round.fitLogpEnd, Round.fitLogpEnd, i1, i2]
      show LFin _ (roundXR (XR.log1p (-fin v))) (XR.log1p (-fin V))
      rw [log1p_neg, log1p_neg]
      exact g
    · rw [i1, i2]; exact k

private theorem ret_step {d : ℕ → ℝ} {k : ℕ} {x y : ℝ} (ret ret' s s' : XR) (hs : s = s') :
    ∃ t t', Round.fitBody Arith.exact ret (fun k => fin (d k)) s k (fin x) (fin y) = .ok t ∧
      Round.fitBody Arith.exact ret' (fun k => fin (d k)) s' k (fin x) (fin y) = .ok t' ∧ t = t' := by
  subst hs
  unfold Round.fitBody
  by_cases g : (!(fin (d k)).isZero && !(fin x).isZero && !(fin y).isZero) = true
  · rw [if_pos g, if_pos g]; exact ⟨_, _, rfl, rfl, rfl⟩
  · rw [if_neg g, if_neg g]; exact ⟨_, _, rfl, rfl, rfl⟩

private theorem len_map {x : List (ℕ × ℝ)} : (x.map fun p => (p.1, fin p.2)).length = x.length :=
  List.length_map _

private theorem merge_logs {d : ℕ → ℝ} {x y : List (ℕ × ℝ)}
    (h : ∀ k a b, (k, a) ∈ x → (k, b) ∈ y → LayerRange (d k) a b) (ret : XR) :
    ∃ t t', mergeLoop (Round.fitBody binary64 ret fun k => fin (d k))
        (x.map fun p => (p.1, fin p.2)) (y.map fun p => (p.1, fin p.2)) 1 = .ok t ∧
      mergeLoop (Round.fitBody Arith.exact ret fun k => fin (d k))
        (x.map fun p => (p.1, fin p.2)) (y.map fun p => (p.1, fin p.2)) 1 = .ok t' ∧
      Verif.Sparse.MultiFitnessModel.p_ij (fun k => fin (d k))
        (x.map fun p => (p.1, fin p.2)) (y.map fun p => (p.1, fin p.2)) = Arith.exact.sub 1 t' ∧
      FitSum x.length t t' := by
  obtain ⟨t, t', e, e', ht⟩ := mergeLoop_rel (M := x.length)
    (body := Round.fitBody binary64 ret fun k => fin (d k))
    (body' := Round.fitBody Arith.exact ret fun k => fin (d k))
    FitSum.mono (x.map fun p => (p.1, fin p.2)) (y.map fun p => (p.1, fin p.2)) 1 1 0
    (by rw [len_map]; omega) (by
      intro k a b ha hb m _ s s' hs
      obtain ⟨r, w, rfl, rfl, hl⟩ := Round.layer_mem h ha hb
      exact Round.fit_sum_step hl _ m s s' hs) FitSum.one
  rw [len_map, zero_add] at ht
  obtain ⟨u, u', f, f', rfl⟩ := mergeLoop_rel (M := x.length) (P := fun _ s s' => s = s')
    (body := Round.fitBody Arith.exact ret fun k => fin (d k))
    (body' := Round.fitBody Arith.exact 1 fun k => fin (d k))
    (fun _ _ _ h => h) (x.map fun p => (p.1, fin p.2)) (y.map fun p => (p.1, fin p.2)) 1 1 0
    (by rw [len_map]; omega) (by
      intro k a b ha hb m _ s s' hs
      obtain ⟨r, w, rfl, rfl, hl⟩ := Round.layer_mem h ha hb
      exact ret_step _ _ s s' hs) rfl
  obtain rfl : t' = u := by rw [e'] at f; injection f
  refine ⟨t, t', e, e', ?_, ht⟩
  change finish (mergeLoop (Round.fitBody Arith.exact 1 fun k => fin (d k)) _ _ 1)
    (fun val => Arith.exact.sub 1 val) = _
  rw [f']; rfl

private theorem zip_logs {d : ℕ → ℝ} {x y : List ℝ}
    (h : ∀ k (hk : k < x.length) (hk' : k < y.length), LayerRange (d k) x[k] y[k]) (ret : XR) :
    ∃ t t', zipLoop (Round.fitBody binary64 ret fun k => fin (d k)) 0 (x.map fin) (y.map fin) 1 = .ok t ∧
      zipLoop (Round.fitBody Arith.exact ret fun k => fin (d k)) 0 (x.map fin) (y.map fin) 1 = .ok t' ∧
      Verif.Dense.MultiFitnessModel.p_ij (fun k => fin (d k)) (x.map fin) (y.map fin)
        = Arith.exact.sub 1 t' ∧
      FitSum x.length t t' := by
  obtain ⟨t, t', e, e', ht⟩ := zipLoop_rel (M := x.length)
    (body := Round.fitBody binary64 ret fun k => fin (d k))
    (body' := Round.fitBody Arith.exact ret fun k => fin (d k))
    FitSum.mono (x.map fin) (y.map fin) 0 1 1 0 (by rw [List.length_map]; omega) (by
      intro k hk hk' m _ s s' hs
      rw [List.length_map] at hk hk'
      rw [List.getElem_map, List.getElem_map, zero_add]
      exact Round.fit_sum_step (h k hk hk') _ m s s' hs) FitSum.one
  rw [List.length_map, zero_add] at ht
  obtain ⟨u, u', f, f', rfl⟩ := zipLoop_rel (M := x.length) (P := fun _ s s' => s = s')
    (body := Round.fitBody Arith.exact ret fun k => fin (d k))
    (body' := Round.fitBody Arith.exact 1 fun k => fin (d k))
    (fun _ _ _ h => h) (x.map fin) (y.map fin) 0 1 1 0 (by rw [List.length_map]; omega) (by
      intro k hk hk' m _ s s' hs
      rw [List.length_map] at hk hk'
      rw [List.getElem_map, List.getElem_map, zero_add]
      exact ret_step _ _ s s' hs) rfl
  obtain rfl : t' = u := by rw [e'] at f; injection f
  refine ⟨t, t', e, e', ?_, ht⟩
  change finish (zipLoop (Round.fitBody Arith.exact 1 fun k => fin (d k)) 0 _ _ 1)
    (fun val => Arith.exact.sub 1 val) = _
  rw [f']; rfl

private theorem a_le {L : ℕ} {K : ℝ} (hK : 2 ≤ K) (hLK : (5 * L + 1) * K ≤ 2 ^ 40) :
    0 ≤ 6 * ((L : ℝ) + 1) * K ∧ 6 * ((L : ℝ) + 1) * K ≤ 2 ^ 100 := by
  have hL0 : (0 : ℝ) ≤ L := Nat.cast_nonneg L
  have : 0 ≤ (L : ℝ) * K := mul_nonneg hL0 (by linarith)
  exact ⟨by positivity, by linarith⟩

/-- **C109**, fitness model over all layers, sparse backend: up to `L` layers, and the probabilities of a link
in at least one layer are zero or between `1 / K` and `1 - 1 / K`. -/
theorem C109_layers_fitness_sparse_partial (n L : ℕ) (hn : n ≤ 2 ^ 25) (d : ℕ → ℝ)
    (x y : ℕ → List (ℕ × ℝ)) (hx : ∀ i < n, (x i).length ≤ L)
    (h : ∀ i < n, ∀ j < n, ∀ k a b, (k, a) ∈ x i → (k, b) ∈ y j → Round.LayerRange (d k) a b)
    (K : ℝ) (hK : 2 ≤ K) (hLK : (5 * L + 1) * K ≤ 2 ^ 40)
    (hp : ∀ i < n, ∀ j < n, ∀ r, Verif.Sparse.MultiFitnessModel.p_ij (fun k => fin (d k))
      ((x i).map fun p => (p.1, fin p.2)) ((y j).map fun p => (p.1, fin p.2)) = fin r →
        r = 0 ∨ 1 / K ≤ r ∧ r ≤ 1 - 1 / K) (link : ℕ → ℕ → Bool) (sl : Bool) :
    let N := n * (if sl then n else n - 1)
    let D : ℕ → XR := fun k => fin (d k)
    let X : ℕ → List (ℕ × XR) := fun i => (x i).map fun p => (p.1, fin p.2)
    let Y : ℕ → List (ℕ × XR) := fun i => (y i).map fun p => (p.1, fin p.2)
    let computed := Round.likelihood binary64
      (fun d a b (_ : PUnit) => Round.Sparse.MultiFitnessModel.logp binary64 d a b)
      (fun d a b _ => Round.Sparse.MultiFitnessModel.log1mp binary64 d a b) D n X Y
      (fun _ _ => ⟨⟩) link sl
    let exact := DiGraphEnsemble.likelihood
      (fun d a b (_ : PUnit) => Verif.Sparse.MultiFitnessModel.logp d a b)
      (fun d a b _ => Verif.Sparse.MultiFitnessModel.log1mp d a b) D n X Y
      (fun _ _ => ⟨⟩) link sl
    (computed = ninf ∧ exact = ninf) ∨
    ∃ l r : ℝ, computed = fin l ∧ exact = fin r ∧ l ≤ 0 ∧ r ≤ 0 ∧
      |l - r| ≤ N * (3 * (2 : ℝ) ^ (-53 : ℤ)) * (|r| + 6 * (L + 1) * K + 1) := by
  intro N D X Y computed exact
  obtain ⟨a0, a1⟩ := a_le hK hLK
  refine Round.like_of hn a0 a1
    (fun d a b (_ : PUnit) => Round.Sparse.MultiFitnessModel.logp binary64 d a b)
    (fun d a b (_ : PUnit) => Verif.Sparse.MultiFitnessModel.logp d a b)
    (fun d a b _ => Round.Sparse.MultiFitnessModel.log1mp binary64 d a b)
    (fun d a b _ => Verif.Sparse.MultiFitnessModel.log1mp d a b) D X Y (fun _ _ => ⟨⟩) link sl ?_ ?_
  · intro i hi j hj
    obtain ⟨t, t', e, e', ep, ht⟩ := merge_logs (h i hi j hj) 0
    change LTerm _ (finish (mergeLoop (Round.fitBody binary64 0 fun k => fin (d k)) _ _ 1) _)
      (finish (mergeLoop (Round.fitBody Arith.exact 0 fun k => fin (d k)) _ _ 1)
        (Round.fitLogpEnd Arith.exact))
    rw [e, e']
    exact (fit_logs (hx i hi) hK hLK ht fun r hr => hp i hi j hj r (ep.trans hr)).1
  · intro i hi j hj
    obtain ⟨t, t', e, e', ep, ht⟩ := merge_logs (h i hi j hj) ninf
    change LTerm _ (finish (mergeLoop (Round.fitBody binary64 ninf fun k => fin (d k)) _ _ 1) _)
      (finish (mergeLoop (Round.fitBody Arith.exact ninf fun k => fin (d k)) _ _ 1)
        (fun val => if val.isOne then 0 else Arith.exact.log val))
    rw [e, e']
    exact (fit_logs (hx i hi) hK hLK ht fun r hr => hp i hi j hj r (ep.trans hr)).2.1

/-- **C109**, fitness model over all layers, dense backend. -/
theorem C109_layers_fitness_dense_partial (n L : ℕ) (hn : n ≤ 2 ^ 25) (d : ℕ → ℝ)
    (x y : ℕ → List ℝ) (hx : ∀ i < n, (x i).length ≤ L)
    (h : ∀ i < n, ∀ j < n, ∀ k (hk : k < (x i).length) (hk' : k < (y j).length),
      Round.LayerRange (d k) (x i)[k] (y j)[k])
    (K : ℝ) (hK : 2 ≤ K) (hLK : (5 * L + 1) * K ≤ 2 ^ 40)
    (hp : ∀ i < n, ∀ j < n, ∀ r, Verif.Dense.MultiFitnessModel.p_ij (fun k => fin (d k))
      ((x i).map fin) ((y j).map fin) = fin r → r = 0 ∨ 1 / K ≤ r ∧ r ≤ 1 - 1 / K)
    (link : ℕ → ℕ → Bool) (sl : Bool) :
    let N := n * (if sl then n else n - 1)
    let D : ℕ → XR := fun k => fin (d k)
    let X : ℕ → List XR := fun i => (x i).map fin
    let Y : ℕ → List XR := fun i => (y i).map fin
    let computed := Round.likelihood binary64
      (fun d a b (_ : PUnit) => Round.Dense.MultiFitnessModel.logp binary64 d a b)
      (fun d a b _ => Round.Dense.MultiFitnessModel.log1mp binary64 d a b) D n X Y
      (fun _ _ => ⟨⟩) link sl
    let exact := DiGraphEnsemble.likelihood
      (fun d a b (_ : PUnit) => Verif.Dense.MultiFitnessModel.logp d a b)
      (fun d a b _ => Verif.Dense.MultiFitnessModel.log1mp d a b) D n X Y
      (fun _ _ => ⟨⟩) link sl
    (computed = ninf ∧ exact = ninf) ∨
    ∃ l r : ℝ, computed = fin l ∧ exact = fin r ∧ l ≤ 0 ∧ r ≤ 0 ∧
      |l - r| ≤ N * (3 * (2 : ℝ) ^ (-53 : ℤ)) * (|r| + 6 * (L + 1) * K + 1) := by
  intro N D X Y computed exact
  obtain ⟨a0, a1⟩ := a_le hK hLK
  refine Round.like_of hn a0 a1
    (fun d a b (_ : PUnit) => Round.Dense.MultiFitnessModel.logp binary64 d a b)
    (fun d a b (_ : PUnit) => Verif.Dense.MultiFitnessModel.logp d a b)
    (fun d a b _ => Round.Dense.MultiFitnessModel.log1mp binary64 d a b)
    (fun d a b _ => Verif.Dense.MultiFitnessModel.log1mp d a b) D X Y (fun _ _ => ⟨⟩) link sl ?_ ?_
  · intro i hi j hj
    obtain ⟨t, t', e, e', ep, ht⟩ := zip_logs (h i hi j hj) 0
    change LTerm _ (finish (zipLoop (Round.fitBody binary64 0 fun k => fin (d k)) 0 _ _ 1) _)
      (finish (zipLoop (Round.fitBody Arith.exact 0 fun k => fin (d k)) 0 _ _ 1)
        (Round.fitLogpEnd Arith.exact))
    rw [e, e']
    exact (fit_logs (hx i hi) hK hLK ht fun r hr => hp i hi j hj r (ep.trans hr)).1
  · intro i hi j hj
    obtain ⟨t, t', e, e', ep, ht⟩ := zip_logs (h i hi j hj) ninf
    change LTerm _ (finish (zipLoop (Round.fitBody binary64 ninf fun k => fin (d k)) 0 _ _ 1) _)
      (finish (zipLoop (Round.fitBody Arith.exact ninf fun k => fin (d k)) 0 _ _ 1) Arith.exact.log)
    rw [e, e']
    exact (fit_logs (hx i hi) hK hLK ht fun r hr => hp i hi j hj r (ep.trans hr)).2.2

/-! ## The hypotheses can be met -/

/-- Two vertices and two layers, the parameter `2` and `K = 31`; with vertex `1` there is no link. -/
example :
    let x : ℕ → List ℝ := fun _ => [3, 0]
    let y : ℕ → List ℝ := fun j => if j = 1 then [0, 1] else [5, 1]
    (5 * (2 : ℕ) + 1) * (31 : ℝ) ≤ 2 ^ 40 ∧
    (∀ i < 2, ∀ j < 2, ∀ k (hk : k < (x i).length) (hk' : k < (y j).length),
      Round.LayerRange 2 (x i)[k] (y j)[k]) ∧
    ∀ i < 2, ∀ j < 2, ∀ r, Verif.Dense.MultiFitnessModel.p_ij (fun _ => fin 2)
      ((x i).map fin) ((y j).map fin) = fin r → r = 0 ∨ 1 / (31 : ℝ) ≤ r ∧ r ≤ 1 - 1 / 31 := by
  intro x y
  have big : ∀ {r : ℝ}, 1 ≤ r → r ≤ 32 → (2 : ℝ) ^ (-1000 : ℤ) ≤ r ∧ r ≤ (2 : ℝ) ^ (1000 : ℤ) :=
    fun h1 h2 => ⟨(zpow_le_one_of_nonpos₀ (by norm_num) (by norm_num)).trans h1,
      h2.trans ((show (32 : ℝ) ≤ (2 : ℝ) ^ (5 : ℤ) by norm_num).trans
        (zpow_le_zpow_right₀ (by norm_num) (by norm_num)))⟩
  refine ⟨by norm_num, fun i _ j _ k hk hk' => ?_, fun i _ j _ r hr => ?_⟩
  · by_cases h : j = 1
    · have e : y j = [0, 1] := if_pos h
      simp only [e]
      have : k < 2 := hk
      obtain rfl | rfl : k = 0 ∨ k = 1 := by omega
      · exact .inl (.inr (.inl rfl))
      · exact .inl (.inl rfl)
    · have e : y j = [5, 1] := if_neg h
      simp only [e]
      have : k < 2 := hk
      obtain rfl | rfl : k = 0 ∨ k = 1 := by omega
      · refine .inr ⟨by norm_num, by simp [x], by simp, ?_, ?_⟩
        · simpa [x] using big (r := 2 * 3) (by norm_num) (by norm_num)
        · simpa [x] using big (r := 2 * 3 * 5) (by norm_num) (by norm_num)
      · exact .inl (.inl rfl)
  by_cases h : j = 1
  · rw [show y j = [0, 1] from if_pos h] at hr
    have h0 : Verif.Dense.MultiFitnessModel.p_ij (fun _ => fin 2) [fin 3, fin 0] [fin 0, fin 1]
        = fin 0 := by
      simp [Verif.Dense.MultiFitnessModel.p_ij, zipLoop, finish, fitBody, one_def]
    exact .inl (XR.fin.inj (hr.symm.trans h0))
  · rw [show y j = [5, 1] from if_neg h] at hr
    have h0 : Verif.Dense.MultiFitnessModel.p_ij (fun _ => fin 2) [fin 3, fin 0] [fin 5, fin 1]
        = fin (1 - 1 / (1 + 30)) := by
      simp [Verif.Dense.MultiFitnessModel.p_ij, zipLoop, finish, fitBody, one_def]
      rw [fin_div_fin _ _ (by norm_num)]
      norm_num
    rw [XR.fin.inj (hr.symm.trans h0)]
    right
    norm_num

end Verif
