import Verif.Round.NNUnionProps

/-!
# C108 and C110 for the fitness models with several layers

`C108_relative_violated` and `C110_layers_violated` show that probabilities and averages are not accurate
in relative terms for small probabilities.  Here it is shown that the error is bounded in terms of `K` if the
probabilities that are not zero are at least `1 / K`.
-/

namespace Verif

open XR Round
open DiGraphEnsemble (Dir)

/-- The probability of no link in the layers so far, which is computed as one if it is one. -/
def Round.FitSum (m : ℕ) (s s' : XR) : Prop := Round.FitAcc m s s' ∧ (s' = fin 1 → s = fin 1)

theorem Round.FitSum.mono (m : ℕ) (s t : XR) (h : FitSum m s t) : FitSum (m + 1) s t :=
  ⟨h.1.mono, h.2⟩

theorem Round.FitSum.one : FitSum 0 1 1 := ⟨Round.FitAcc.one, fun _ => rfl⟩

theorem Round.fit_sum_step {d : ℕ → ℝ} {k : ℕ} {x y : ℝ} (h : LayerRange (d k) x y) (ret : XR) (m : ℕ)
    (s s' : XR) (hs : FitSum m s s') :
    ∃ t t', Round.fitBody binary64 ret (fun k => fin (d k)) s k (fin x) (fin y) = .ok t ∧
      Round.fitBody Arith.exact ret (fun k => fin (d k)) s' k (fin x) (fin y) = .ok t' ∧
      FitSum (m + 1) t t' := by
  obtain ⟨t, t', e, e', ht⟩ := fit_layer h ret m s s' hs.1
  refine ⟨t, t', e, e', ht, fun h1 => ?_⟩
  rcases h with h | ⟨hd, hx, hy, _, _⟩
  · have hg : ¬ (!(fin (d k)).isZero && !(fin x).isZero && !(fin y).isZero) = true := by
      rcases h with h | h | h <;> simp [isZero, h]
    rw [Round.fitBody, if_neg hg] at e e'
    obtain rfl : s = t := by injection e
    obtain rfl : s' = t' := by injection e'
    exact hs.2 h1
  · exfalso
    obtain ⟨v, _, V, rfl, rfl, _, _, V0, V1, _⟩ := hs.1
    have hT : 0 < d k * x * y := by positivity
    have hg : (!(fin (d k)).isZero && !(fin x).isZero && !(fin y).isZero) = true := by
      simp [isZero, hd.ne', hx.ne', hy.ne']
    rw [Round.fitBody, if_pos hg] at e'
    have e2 : (Except.ok (fin V / fin (1 + d k * x * y)) : Except XR XR) = .ok t' := e'
    rw [fin_div_fin _ _ (by positivity)] at e2
    obtain rfl : fin (V / (1 + d k * x * y)) = t' := by injection e2
    have h2 := XR.fin.inj h1
    rw [div_eq_one_iff_eq (by positivity)] at h2
    linarith

private theorem fit_term {L m : ℕ} (hm : m ≤ L) {K : ℝ} (hK : 0 < K) {s s' : XR} (hs : FitSum m s s')
    (h : ∀ r, Arith.exact.sub 1 s' = fin r → r = 0 ∨ 1 / K ≤ r) :
    Term ((5 * L + 1) * K * ulp2) (binary64.sub 1 s) (Arith.exact.sub 1 s') := by
  have hu := ulp2_pos
  obtain ⟨p, hp, q, e1, e2, p0, p1, q0, q1, hw⟩ := fit_end hs.1
  rcases h q e2 with rfl | hq
  · have h1 : s' = fin 1 := by
      obtain ⟨_, _, V, _, rfl, _⟩ := hs.1
      have : (1 : ℝ) + -V = 0 := XR.fin.inj e2
      rw [show V = 1 by linarith]
    have h0 : binary64.sub 1 s = fin 0 := by
      rw [hs.2 h1]
      show toDouble (1 + -1) = _
      rw [add_neg_cancel]; exact toDouble_self Faithful.binary64.zero_mem
    exact ⟨0, Faithful.binary64.zero_mem, 0, h0, e2, le_rfl, zero_le_one, le_rfl, zero_le_one,
      by simp [Within]⟩
  · have hmL : (m : ℝ) ≤ L := by exact_mod_cast hm
    have hL0 : (0 : ℝ) ≤ L := Nat.cast_nonneg L
    have h1 : 1 ≤ K * q := by rw [div_le_iff₀ hK] at hq; linarith
    have h2 : (4.2 * m + 1) * ulp2 ≤ (5 * L + 1) * K * ulp2 * q := by
      have a1 : (4.2 * m + 1) * ulp2 ≤ (5 * L + 1) * ulp2 :=
        mul_le_mul_of_nonneg_right (by linarith) hu.le
      have a2 := mul_le_mul_of_nonneg_left h1 (show 0 ≤ (5 * L + 1) * ulp2 by positivity)
      linarith
    have := abs_le.1 (hw.trans h2)
    exact ⟨p, hp, q, e1, e2, p0, p1, q0, q1, by linarith [this.1], by linarith [this.2]⟩

private theorem len_map {x : List (ℕ × ℝ)} : (x.map fun p => (p.1, fin p.2)).length = x.length :=
  List.length_map _

private theorem sparse_term {L : ℕ} {K : ℝ} (hK : 0 < K) {d : ℕ → ℝ} {x y : List (ℕ × ℝ)}
    (hx : x.length ≤ L) (h : ∀ k a b, (k, a) ∈ x → (k, b) ∈ y → LayerRange (d k) a b)
    (hp : ∀ r, Verif.Sparse.MultiFitnessModel.p_ij (fun k => fin (d k))
        (x.map fun p => (p.1, fin p.2)) (y.map fun p => (p.1, fin p.2)) = fin r → r = 0 ∨ 1 / K ≤ r) :
    Term ((5 * L + 1) * K * ulp2)
      (Round.Sparse.MultiFitnessModel.p_ij binary64 (fun k => fin (d k))
        (x.map fun p => (p.1, fin p.2)) (y.map fun p => (p.1, fin p.2)))
      (Verif.Sparse.MultiFitnessModel.p_ij (fun k => fin (d k))
        (x.map fun p => (p.1, fin p.2)) (y.map fun p => (p.1, fin p.2))) := by
  obtain ⟨t, t', e, e', ht⟩ := mergeLoop_rel (M := x.length)
    (body := Round.fitBody binary64 1 fun k => fin (d k)) (body' := Round.fitBody Arith.exact 1 fun k => fin (d k))
    FitSum.mono (x.map fun p => (p.1, fin p.2)) (y.map fun p => (p.1, fin p.2)) 1 1 0
    (by rw [len_map]; omega) (by
      intro k a b ha hb m _ s s' hs
      obtain ⟨r, w, rfl, rfl, hl⟩ := Round.layer_mem h ha hb
      exact Round.fit_sum_step hl _ m s s' hs) FitSum.one
  rw [len_map, zero_add] at ht
  have e2 : Verif.Sparse.MultiFitnessModel.p_ij (fun k => fin (d k))
      (x.map fun p => (p.1, fin p.2)) (y.map fun p => (p.1, fin p.2)) = Arith.exact.sub 1 t' := by
    change finish (mergeLoop (Round.fitBody Arith.exact 1 fun k => fin (d k)) _ _ 1)
      (fun val => Arith.exact.sub 1 val) = _
    rw [e']; rfl
  rw [e2] at hp ⊢
  have := fit_term hx hK ht hp
  change Term _ (finish (mergeLoop (Round.fitBody binary64 1 fun k => fin (d k)) _ _ 1) _) _
  rw [e]
  exact this

private theorem dense_term {L : ℕ} {K : ℝ} (hK : 0 < K) {d : ℕ → ℝ} {x y : List ℝ} (hx : x.length ≤ L)
    (h : ∀ k (hk : k < x.length) (hk' : k < y.length), LayerRange (d k) x[k] y[k])
    (hp : ∀ r, Verif.Dense.MultiFitnessModel.p_ij (fun k => fin (d k)) (x.map fin) (y.map fin) = fin r →
      r = 0 ∨ 1 / K ≤ r) :
    Term ((5 * L + 1) * K * ulp2)
      (Round.Dense.MultiFitnessModel.p_ij binary64 (fun k => fin (d k)) (x.map fin) (y.map fin))
      (Verif.Dense.MultiFitnessModel.p_ij (fun k => fin (d k)) (x.map fin) (y.map fin)) := by
  obtain ⟨t, t', e, e', ht⟩ := zipLoop_rel (M := x.length)
    (body := Round.fitBody binary64 1 fun k => fin (d k)) (body' := Round.fitBody Arith.exact 1 fun k => fin (d k))
    FitSum.mono (x.map fin) (y.map fin) 0 1 1 0 (by rw [List.length_map]; omega) (by
      intro k hk hk' m _ s s' hs
      rw [List.length_map] at hk hk'
      rw [List.getElem_map, List.getElem_map, zero_add]
      exact Round.fit_sum_step (h k hk hk') _ m s s' hs) FitSum.one
  rw [List.length_map, zero_add] at ht
  have e2 : Verif.Dense.MultiFitnessModel.p_ij (fun k => fin (d k)) (x.map fin) (y.map fin)
      = Arith.exact.sub 1 t' := by
    change finish (zipLoop (Round.fitBody Arith.exact 1 fun k => fin (d k)) 0 _ _ 1)
      (fun val => Arith.exact.sub 1 val) = _
    rw [e']; rfl
  rw [e2] at hp ⊢
  have := fit_term hx hK ht hp
  change Term _ (finish (zipLoop (Round.fitBody binary64 1 fun k => fin (d k)) 0 _ _ 1) _) _
  rw [e]
  exact this

private theorem term_close {c : ℝ} {v e : XR} (h : Term (c * ulp2) v e) :
    Round.Close (fun V => c * (2 : ℝ) ^ (-53 : ℤ) * V) v e := by
  obtain ⟨s, _, t, e1, e2, _, _, t0, _, hw⟩ := h
  refine ⟨s, t, e1, e2, t0, ?_⟩
  change |s - t| ≤ c * ulp2 * t
  rw [abs_le]
  constructor
  · linarith [hw.1]
  · linarith [hw.2]

/-- **C108**, fitness model, sparse backend, relative errors.  If the probabilities that are not zero are at
least `1 / K`, the error of the probability of a link in at least one layer is at most
`(5 * L + 1) * K * 2 ^ -53` in relative terms too, and the expected number of edges and the expected degrees
have the relative errors stated. -/
theorem C108_fitness_relative_sparse_partial (n L : ℕ) (hn : n ≤ 2 ^ 25) (d : ℕ → ℝ)
    (x y : ℕ → List (ℕ × ℝ)) (hx : ∀ i < n, (x i).length ≤ L)
    (h : ∀ i < n, ∀ j < n, ∀ k a b, (k, a) ∈ x i → (k, b) ∈ y j → Round.LayerRange (d k) a b)
    (K : ℝ) (hK : 1 ≤ K) (hLK : (5 * L + 1) * K ≤ 2 ^ 39)
    (hp : ∀ i < n, ∀ j < n, ∀ r, Verif.Sparse.MultiFitnessModel.p_ij (fun k => fin (d k))
      ((x i).map fun p => (p.1, fin p.2)) ((y j).map fun p => (p.1, fin p.2)) = fin r →
        r = 0 ∨ 1 / K ≤ r)
    (sl : Bool) :
    let D : ℕ → XR := fun k => fin (d k)
    let X : ℕ → List (ℕ × XR) := fun i => (x i).map fun p => (p.1, fin p.2)
    let Y : ℕ → List (ℕ × XR) := fun i => (y i).map fun p => (p.1, fin p.2)
    let p := fun d a b (_ : PUnit) => Round.Sparse.MultiFitnessModel.p_ij binary64 d a b
    let q := fun d a b (_ : PUnit) => Verif.Sparse.MultiFitnessModel.p_ij d a b
    let Z : ℕ → ℕ → PUnit := fun _ _ => ⟨⟩
    let s := Round.exp_degrees binary64 p D n X Y Z sl
    let t := DiGraphEnsemble.exp_degrees q D n X Y Z sl
    (∀ i < n, ∀ j < n, Round.Close (fun V => (5 * L + 1) * K * (2 : ℝ) ^ (-53 : ℤ) * V)
      (p D (X i) (Y j) ⟨⟩) (q D (X i) (Y j) ⟨⟩)) ∧
    Round.Close
      (fun V => ((n * (if sl then n else n - 1) : ℕ) + (5 * L + 1) * K) * (2 : ℝ) ^ (-52 : ℤ) * V)
      (Round.exp_edges binary64 p D n X Y Z sl) (DiGraphEnsemble.exp_edges q D n X Y Z sl) ∧
    ∀ k < n,
      Round.Close (fun V => (n + (5 * L + 1) * K) * (2 : ℝ) ^ (-52 : ℤ) * V) (s.exp_d_out k)
        (t.exp_d_out k) ∧
      Round.Close (fun V => (n + (5 * L + 1) * K) * (2 : ℝ) ^ (-52 : ℤ) * V) (s.exp_d_in k)
        (t.exp_d_in k) ∧
      Round.Close (fun V => (n + (5 * L + 1) * K + 6) * (2 : ℝ) ^ (-52 : ℤ) * V) (s.exp_d k)
        (t.exp_d k) := by
  intro D X Y p q Z s t
  have ht : ∀ i < n, ∀ j < n, Term ((5 * L + 1) * K * ulp2) (p D (X i) (Y j) (Z i j))
      (q D (X i) (Y j) (Z i j)) := fun i hi j hj =>
    sparse_term (by linarith) (hx i hi) (h i hi j hj) (hp i hi j hj)
  have c0 : 0 ≤ (5 * (L : ℝ) + 1) * K := mul_nonneg (by positivity) (by linarith)
  exact ⟨fun i hi j hj => term_close (ht i hi j hj),
    edges_rel hn sl c0 (hLK.trans (by norm_num)) ht,
    fun k hk => degrees_rel hn sl c0 hLK ht k hk⟩

/-- **C108**, fitness model, dense backend, relative errors.  If the probabilities that are not zero are at
least `1 / K`, the error of the probability of a link in at least one layer is at most
`(5 * L + 1) * K * 2 ^ -53` in relative terms too, and the expected number of edges and the expected degrees
have the relative errors stated. -/
theorem C108_fitness_relative_dense_partial (n L : ℕ) (hn : n ≤ 2 ^ 25) (d : ℕ → ℝ)
    (x y : ℕ → List ℝ) (hx : ∀ i < n, (x i).length ≤ L)
    (h : ∀ i < n, ∀ j < n, ∀ k (hk : k < (x i).length) (hk' : k < (y j).length),
      Round.LayerRange (d k) (x i)[k] (y j)[k])
    (K : ℝ) (hK : 1 ≤ K) (hLK : (5 * L + 1) * K ≤ 2 ^ 39)
    (hp : ∀ i < n, ∀ j < n, ∀ r, Verif.Dense.MultiFitnessModel.p_ij (fun k => fin (d k))
      ((x i).map fin) ((y j).map fin) = fin r → r = 0 ∨ 1 / K ≤ r)
    (sl : Bool) :
    let D : ℕ → XR := fun k => fin (d k)
    let X : ℕ → List XR := fun i => (x i).map fin
    let Y : ℕ → List XR := fun i => (y i).map fin
    let p := fun d a b (_ : PUnit) => Round.Dense.MultiFitnessModel.p_ij binary64 d a b
    let q := fun d a b (_ : PUnit) => Verif.Dense.MultiFitnessModel.p_ij d a b
    let Z : ℕ → ℕ → PUnit := fun _ _ => ⟨⟩
    let s := Round.exp_degrees binary64 p D n X Y Z sl
    let t := DiGraphEnsemble.exp_degrees q D n X Y Z sl
    (∀ i < n, ∀ j < n, Round.Close (fun V => (5 * L + 1) * K * (2 : ℝ) ^ (-53 : ℤ) * V)
      (p D (X i) (Y j) ⟨⟩) (q D (X i) (Y j) ⟨⟩)) ∧
    Round.Close
      (fun V => ((n * (if sl then n else n - 1) : ℕ) + (5 * L + 1) * K) * (2 : ℝ) ^ (-52 : ℤ) * V)
      (Round.exp_edges binary64 p D n X Y Z sl) (DiGraphEnsemble.exp_edges q D n X Y Z sl) ∧
    ∀ k < n,
      Round.Close (fun V => (n + (5 * L + 1) * K) * (2 : ℝ) ^ (-52 : ℤ) * V) (s.exp_d_out k)
        (t.exp_d_out k) ∧
      Round.Close (fun V => (n + (5 * L + 1) * K) * (2 : ℝ) ^ (-52 : ℤ) * V) (s.exp_d_in k)
        (t.exp_d_in k) ∧
      Round.Close (fun V => (n + (5 * L + 1) * K + 6) * (2 : ℝ) ^ (-52 : ℤ) * V) (s.exp_d k)
        (t.exp_d k) := by
  intro D X Y p q Z s t
  have ht : ∀ i < n, ∀ j < n, Term ((5 * L + 1) * K * ulp2) (p D (X i) (Y j) (Z i j))
      (q D (X i) (Y j) (Z i j)) := fun i hi j hj =>
    dense_term (by linarith) (hx i hi) (h i hi j hj) (hp i hi j hj)
  have c0 : 0 ≤ (5 * (L : ℝ) + 1) * K := mul_nonneg (by positivity) (by linarith)
  exact ⟨fun i hi j hj => term_close (ht i hi j hj),
    edges_rel hn sl c0 (hLK.trans (by norm_num)) ht,
    fun k hk => degrees_rel hn sl c0 hLK ht k hk⟩

/-- From the probabilities of the pairs to the averages in all directions. -/
private theorem all_directions {α β δ ζ : Type} (pr ex : δ → α → β → ζ → XR) (n : ℕ) (hn : n ≤ 2 ^ 25)
    (d : δ) (x : ℕ → α) (y : ℕ → β) (z : ζ) (e : ℝ) (he0 : 0 ≤ e) (he : e ≤ 2 ^ 20)
    (h : ∀ i < n, ∀ j < n, Term (e * ulp2) (pr d (x i) (y j) z) (ex d (x i) (y j) z))
    (K : ℝ) (hK : 2 ≤ K) (hK' : K ≤ 2 ^ 19)
    (hp : ∀ i < n, ∀ j < n, ∀ q, ex d (x i) (y j) z = fin q → q = 0 ∨ 1 / K ≤ q)
    (ndir : Dir) (hdir : ndir.Known) (sl : Bool) (jUndef : ℕ) :
    (∀ g : ℕ → ℝ, (∀ i < n, Round.ZeroOrMid (g i)) → ∃ a A : ℕ → XR,
      Round.av_nn binary64 jUndef pr d n x y (fun _ _ => z) (fun i => fin (g i)) ndir sl = .ok a ∧
      Round.av_nn Arith.exact jUndef ex d n x y (fun _ _ => z) (fun i => fin (g i)) ndir sl = .ok A ∧
      ∀ k < n, Round.Close (fun V => (5 * n + 9 * e + 17 * K + 8) * ulp2 * V) (a k) (A k)) ∧
    ∀ ddir : Dir, ddir.Known → ∃ a A : ℕ → XR,
      Round.av_nn binary64 jUndef pr d n x y (fun _ _ => z)
        (Query.pick ddir (Round.exp_degrees binary64 pr d n x y (fun _ _ => z) sl)) ndir sl = .ok a ∧
      Round.av_nn Arith.exact jUndef ex d n x y (fun _ _ => z)
        (Query.pick ddir (DiGraphEnsemble.exp_degrees ex d n x y (fun _ _ => z) sl)) ndir sl = .ok A ∧
      ∀ k < n, Round.Close (fun V => (13 * n + 17 * e + 17 * K + 57) * ulp2 * V) (a k) (A k) := by
  by_cases hio : ndir = .out ∨ ndir = .inn
  swap
  · obtain rfl : ndir = .outIn := by
      cases ndir with
      | out => exact absurd (.inl rfl) hio
      | inn => exact absurd (.inr rfl) hio
      | outIn => rfl
      | underscored | other => exact False.elim hdir
    exact Round.nn_outin_both pr ex n hn d x y z e he0 he h K hK hK' hp sl jUndef
  have hn0 : (0 : ℝ) ≤ n := Nat.cast_nonneg n
  have hn' : (n : ℝ) ≤ 2 ^ 25 := by exact_mod_cast hn
  have hmid : ∀ i < n, ∀ j < n, ∀ q, ex d (x i) (y j) z = fin q → Round.ZeroOrMid q := by
    intro i hi j hj q eq
    refine Round.nn_mid_of hK hK' ?_ (hp i hi j hj q eq)
    obtain ⟨_, _, q', _, e2, _, _, _, q1, _⟩ := h i hi j hj
    rw [eq] at e2
    exact (XR.fin.inj e2).trans_le q1
  constructor
  · intro g hg
    obtain ⟨a, A, ea, eA, hA⟩ := Round.av_nn_core pr ex n hn d x y z e he0 (by linarith) h hmid 0
      le_rfl (by norm_num) (fun i => fin (g i)) (fun i => fin (g i))
      (fun i hi => ⟨g i, g i, rfl, rfl, hg i hi, by simp [Within]⟩) ndir hio sl jUndef
    refine ⟨a, A, ea, eA, fun k hk => ?_⟩
    obtain ⟨r, R, er, eR, R0, hr⟩ := hA k hk
    refine ⟨r, R, er, eR, R0, hr.trans (mul_le_mul_of_nonneg_right ?_ R0)⟩
    exact mul_le_mul_of_nonneg_right (by linarith) ulp2_pos.le
  · intro ddir hddir
    obtain ⟨a, A, ea, eA, hA⟩ := Round.av_nn_degree_core pr ex n sl hn d x y z e he0 (by linarith) h hmid
      (2 * (n + e + 6)) (by linarith) (by linarith) ddir hddir (by
        intro i hi
        have key := degrees_rel (z := fun _ _ => z) hn sl (c := e) he0 (by linarith)
          (fun i hi j hj => h i hi j hj) i hi
        have e52 : (2 : ℝ) ^ (-52 : ℤ) = 2 * ulp2 := by unfold ulp2; norm_num
        have hu := ulp2_pos
        have wide : ∀ {b : ℝ} {v e' : XR}, b ≤ n + e + 6 →
            Close (fun V => b * (2 : ℝ) ^ (-52 : ℤ) * V) v e' →
            Close (fun V => 2 * (n + e + 6) * ulp2 * V) v e' := by
          rintro b v e' hb ⟨s, t, h1, h2, h3, h4⟩
          refine ⟨s, t, h1, h2, h3, h4.trans (mul_le_mul_of_nonneg_right ?_ h3)⟩
          rw [e52]
          have := mul_le_mul_of_nonneg_right hb (show 0 ≤ 2 * ulp2 by linarith)
          linarith
        cases ddir with
        | out => exact wide (by linarith) key.1
        | inn => exact wide (by linarith) key.2.1
        | outIn => exact wide le_rfl key.2.2
        | underscored | other => exact False.elim hddir) ndir hio jUndef
    refine ⟨a, A, ea, eA, fun k hk => ?_⟩
    obtain ⟨r, R, er, eR, R0, hr⟩ := hA k hk
    refine ⟨r, R, er, eR, R0, hr.trans (mul_le_mul_of_nonneg_right ?_ R0)⟩
    exact mul_le_mul_of_nonneg_right (by linarith) ulp2_pos.le

/-- **C110**, fitness model with several layers, sparse backend, all directions.  The probabilities that are
not zero are at least `1 / K`, and `(5 * L + 1) * K` is at most `2 ^ 19`. -/
theorem C110_layers_fitness_sparse_partial (n L : ℕ) (hn : n ≤ 2 ^ 25) (d : ℕ → ℝ)
    (x y : ℕ → List (ℕ × ℝ)) (hx : ∀ i < n, (x i).length ≤ L)
    (h : ∀ i < n, ∀ j < n, ∀ k a b, (k, a) ∈ x i → (k, b) ∈ y j → Round.LayerRange (d k) a b)
    (K : ℝ) (hK : 2 ≤ K) (hLK : (5 * L + 1) * K ≤ 2 ^ 19)
    (hp : ∀ i < n, ∀ j < n, ∀ r, Verif.Sparse.MultiFitnessModel.p_ij (fun k => fin (d k))
      ((x i).map fun p => (p.1, fin p.2)) ((y j).map fun p => (p.1, fin p.2)) = fin r →
        r = 0 ∨ 1 / K ≤ r)
    (ndir : Dir) (hdir : ndir.Known) (sl : Bool) (jUndef : ℕ) :
    let D : ℕ → XR := fun k => fin (d k)
    let X : ℕ → List (ℕ × XR) := fun i => (x i).map fun p => (p.1, fin p.2)
    let Y : ℕ → List (ℕ × XR) := fun i => (y i).map fun p => (p.1, fin p.2)
    let p := fun d a b (_ : PUnit) => Round.Sparse.MultiFitnessModel.p_ij binary64 d a b
    let q := fun d a b (_ : PUnit) => Verif.Sparse.MultiFitnessModel.p_ij d a b
    let Z : ℕ → ℕ → PUnit := fun _ _ => ⟨⟩
    (∀ g : ℕ → ℝ, (∀ i < n, Round.ZeroOrMid (g i)) → ∃ a A : ℕ → XR,
      Round.av_nn binary64 jUndef p D n X Y Z (fun i => fin (g i)) ndir sl = .ok a ∧
      Round.av_nn Arith.exact jUndef q D n X Y Z (fun i => fin (g i)) ndir sl = .ok A ∧
      ∀ k < n, Round.Close (fun V => (5 * n + (45 * L + 26) * K + 8) * (2 : ℝ) ^ (-53 : ℤ) * V)
        (a k) (A k)) ∧
    ∀ ddir : Dir, ddir.Known → ∃ a A : ℕ → XR,
      Round.av_nn binary64 jUndef p D n X Y Z
        (Query.pick ddir (Round.exp_degrees binary64 p D n X Y Z sl)) ndir sl = .ok a ∧
      Round.av_nn Arith.exact jUndef q D n X Y Z
        (Query.pick ddir (DiGraphEnsemble.exp_degrees q D n X Y Z sl)) ndir sl = .ok A ∧
      ∀ k < n, Round.Close (fun V => (13 * n + (85 * L + 34) * K + 57) * (2 : ℝ) ^ (-53 : ℤ) * V)
        (a k) (A k) := by
  intro D X Y p q Z
  have hL0 : (0 : ℝ) ≤ L := Nat.cast_nonneg L
  have hLK0 : 0 ≤ (L : ℝ) * K := mul_nonneg hL0 (by linarith)
  have key := all_directions p q n hn D X Y ⟨⟩ ((5 * L + 1) * K) (by linarith) (by linarith)
    (fun i hi j hj => sparse_term (by linarith) (hx i hi) (h i hi j hj) (hp i hi j hj)) K hK (by linarith) hp ndir
    hdir sl jUndef
  rw [show 5 * (n : ℝ) + (45 * L + 26) * K + 8 = 5 * n + 9 * ((5 * L + 1) * K) + 17 * K + 8 by ring,
    show 13 * (n : ℝ) + (85 * L + 34) * K + 57
      = 13 * n + 17 * ((5 * L + 1) * K) + 17 * K + 57 by ring]
  exact key

/-- **C110**, fitness model with several layers, dense backend, all directions.  The probabilities that are
not zero are at least `1 / K`, and `(5 * L + 1) * K` is at most `2 ^ 19`. -/
theorem C110_layers_fitness_dense_partial (n L : ℕ) (hn : n ≤ 2 ^ 25) (d : ℕ → ℝ)
    (x y : ℕ → List ℝ) (hx : ∀ i < n, (x i).length ≤ L)
    (h : ∀ i < n, ∀ j < n, ∀ k (hk : k < (x i).length) (hk' : k < (y j).length),
      Round.LayerRange (d k) (x i)[k] (y j)[k])
    (K : ℝ) (hK : 2 ≤ K) (hLK : (5 * L + 1) * K ≤ 2 ^ 19)
    (hp : ∀ i < n, ∀ j < n, ∀ r, Verif.Dense.MultiFitnessModel.p_ij (fun k => fin (d k))
      ((x i).map fin) ((y j).map fin) = fin r → r = 0 ∨ 1 / K ≤ r)
    (ndir : Dir) (hdir : ndir.Known) (sl : Bool) (jUndef : ℕ) :
    let D : ℕ → XR := fun k => fin (d k)
    let X : ℕ → List XR := fun i => (x i).map fin
    let Y : ℕ → List XR := fun i => (y i).map fin
    let p := fun d a b (_ : PUnit) => Round.Dense.MultiFitnessModel.p_ij binary64 d a b
    let q := fun d a b (_ : PUnit) => Verif.Dense.MultiFitnessModel.p_ij d a b
    let Z : ℕ → ℕ → PUnit := fun _ _ => ⟨⟩
    (∀ g : ℕ → ℝ, (∀ i < n, Round.ZeroOrMid (g i)) → ∃ a A : ℕ → XR,
      Round.av_nn binary64 jUndef p D n X Y Z (fun i => fin (g i)) ndir sl = .ok a ∧
      Round.av_nn Arith.exact jUndef q D n X Y Z (fun i => fin (g i)) ndir sl = .ok A ∧
      ∀ k < n, Round.Close (fun V => (5 * n + (45 * L + 26) * K + 8) * (2 : ℝ) ^ (-53 : ℤ) * V)
        (a k) (A k)) ∧
    ∀ ddir : Dir, ddir.Known → ∃ a A : ℕ → XR,
      Round.av_nn binary64 jUndef p D n X Y Z
        (Query.pick ddir (Round.exp_degrees binary64 p D n X Y Z sl)) ndir sl = .ok a ∧
      Round.av_nn Arith.exact jUndef q D n X Y Z
        (Query.pick ddir (DiGraphEnsemble.exp_degrees q D n X Y Z sl)) ndir sl = .ok A ∧
      ∀ k < n, Round.Close (fun V => (13 * n + (85 * L + 34) * K + 57) * (2 : ℝ) ^ (-53 : ℤ) * V)
        (a k) (A k) := by
  intro D X Y p q Z
  have hL0 : (0 : ℝ) ≤ L := Nat.cast_nonneg L
  have hLK0 : 0 ≤ (L : ℝ) * K := mul_nonneg hL0 (by linarith)
  have key := all_directions p q n hn D X Y ⟨⟩ ((5 * L + 1) * K) (by linarith) (by linarith)
    (fun i hi j hj => dense_term (by linarith) (hx i hi) (h i hi j hj) (hp i hi j hj)) K hK (by linarith) hp ndir
    hdir sl jUndef
  rw [show 5 * (n : ℝ) + (45 * L + 26) * K + 8 = 5 * n + 9 * ((5 * L + 1) * K) + 17 * K + 8 by ring,
    show 13 * (n : ℝ) + (85 * L + 34) * K + 57
      = 13 * n + 17 * ((5 * L + 1) * K) + 17 * K + 57 by ring]
  exact key

/-! ## The hypotheses can be met -/

/-- Two vertices and two layers, the parameter `2` and `K = 2`; with vertex `1` there is no link.
The bound on `(5 * L + 1) * K` is the one of C110, which is stricter than that of C108. -/
example :
    let x : ℕ → List ℝ := fun _ => [3, 0]
    let y : ℕ → List ℝ := fun j => if j = 1 then [0, 1] else [5, 1]
    (5 * (2 : ℕ) + 1) * (2 : ℝ) ≤ 2 ^ 19 ∧
    ∀ i < 2, ∀ j < 2, ∀ r, Verif.Dense.MultiFitnessModel.p_ij (fun _ => fin 2)
      ((x i).map fin) ((y j).map fin) = fin r → r = 0 ∨ 1 / (2 : ℝ) ≤ r := by
  intro x y
  refine ⟨by norm_num, fun i _ j _ r hr => ?_⟩
  by_cases h : j = 1
  · rw [show y j = [0, 1] from if_pos h] at hr
    have h0 : Verif.Dense.MultiFitnessModel.p_ij (fun _ => fin 2) [fin 3, fin 0] [fin 0, fin 1]
        = fin 0 := by
      simp [Verif.Dense.MultiFitnessModel.p_ij, zipLoop, finish, fitBody, one_def]
    exact .inl (XR.fin.inj (hr.symm.trans h0))
  · rw [show y j = [5, 1] from if_neg h] at hr
    have h0 : Verif.Dense.MultiFitnessModel.p_ij (fun _ => fin 2) [fin 3, fin 0] [fin 5, fin 1]
        = fin (1 - 1 / (1 + 30)) := by
      simp [Verif.Dense.MultiFitnessModel.p_ij, zipLoop, finish, fitBody, one_def]
      rw [fin_div_fin _ _ (by norm_num)]
      norm_num
    rw [XR.fin.inj (hr.symm.trans h0)]
    right
    norm_num

end Verif
