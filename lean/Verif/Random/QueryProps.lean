import Verif.Random.Query
import Verif.Random.Props

/-!
# C82: queries of the random ensembles after any history of calls

A history is a list of fits, assignments to `selfloops` and queries; calls that raise are part of it.
Statements about a call in an arbitrary state hold after every history.
-/

namespace Verif

noncomputable section

open XR DiGraphEnsemble Finset

namespace Rand

/-- Mean degree in the given direction. -/
def meanDeg (n : ℕ) (s : Bool) (p : ℝ) : Dir → ℕ → ℝ
  | .out, i => mean n s p fun G => (Law.outDegree G i : ℝ)
  | .inn, i => mean n s p fun G => (Law.inDegree G i : ℝ)
  | .outIn, i => mean n s p fun G => (Law.degree n G i : ℝ)
  | .underscored, _ => 0
  | .other, _ => 0

/-- What a query should return for link probability `p` and self-loop setting `b`. -/
def Answer (n : ℕ) (p : ℝ) (b : Bool) : Op → Val → Prop
  | .numEdges, v => v = .num (fin (mean n b p fun G => (G.card : ℝ)))
  | .degree, v => ∃ d, v = .arr d ∧ ∀ i < n, d i = fin (meanDeg n b p .outIn i)
  | .outDegree, v => ∃ d, v = .arr d ∧ ∀ i < n, d i = fin (meanDeg n b p .out i)
  | .inDegree, v => ∃ d, v = .arr d ∧ ∀ i < n, d i = fin (meanDeg n b p .inn i)
  | .avNnProp _ prop ndir sl, v => ∃ d, v = .arr d ∧ ∀ x : ℕ → ℝ, prop = (fun i => fin (x i)) →
      ∀ i < n, d i = fin (nnRatio n (sl.getD b) p x ndir i)
  | .avNnDegree ddir ndir sl _ _, v => ∃ d, v = .arr d ∧ ∀ i < n,
      d i = fin (nnRatio n (sl.getD b) p (meanDeg n (sl.getD b) p ddir) ndir i)
  | .fit, v => v = .none
  | .setLoops _, v => v = .none
  | .totalWeight, _ => False

/-- Directions for which averages over neighbours are right (`C55_violated` for the other one). -/
def GoodDir (s : Bool) (ndir : Dir) : Prop :=
  ndir = .out ∨ ndir = .inn ∨ (ndir = .outIn ∧ s = false)

theorem GoodDir.known {s : Bool} {ndir : Dir} (h : GoodDir s ndir) : ndir.Known := by
  rcases h with rfl | rfl | ⟨rfl, -⟩ <;> trivial

/-- Queries with documented arguments on an ensemble with `n` vertices, where the self-loop setting
is `b` and all averages of degrees are asked for setting `l`. -/
def Op.Valid (n : ℕ) (b l : Bool) : Op → Prop
  | .avNnProp len prop ndir sl =>
    len = n ∧ (∃ x : ℕ → ℝ, prop = fun i => fin (x i)) ∧ GoodDir (sl.getD b) ndir
  | .avNnDegree ddir ndir sl _ _ => ddir.Known ∧ GoodDir (sl.getD b) ndir ∧ sl.getD b = l
  | .setLoops _ => False
  | .totalWeight => False
  | _ => True

theorem degreeOf_mean (o : Obj) (p : ℝ) (q : XR) (h : o.param = some (fin p, q)) (d : Dir)
    (hd : d.Known) :
    ∃ c : ℝ, degreeOf o d = .ok (fun _ => fin c) ∧
      ∀ i < o.num_vertices, c = meanDeg o.num_vertices o.selfloops p d i := by
  obtain ⟨-, d1, d2, d3, h1, h2, h3, h4⟩ := C36_expectations o p q h
  have key : ∀ (D : Except Err (ℕ → XR)) (v : ℕ → XR) (c : ℝ) (m : ℕ → ℝ), D = .ok v →
      D = .ok (fun _ => fin c) → (∀ i < o.num_vertices, v i = fin (m i)) →
      ∃ c : ℝ, D = .ok (fun _ => fin c) ∧ ∀ i < o.num_vertices, c = m i := by
    intro D v c m e1 e2 e3
    refine ⟨c, e2, fun i hi => ?_⟩
    rw [e1] at e2
    have := congrFun (Except.ok.inj e2) i
    rw [e3 i hi] at this
    exact (fin_inj.1 this).symm
  have ho : ∃ c : ℝ, expected_out_degree o = .ok (fun _ => fin c) := by
    unfold expected_out_degree
    rw [h]
    dsimp only
    cases o.selfloops
    · exact ⟨_, by simp only [Bool.false_eq_true, if_false, fin_mul_fin]; rfl⟩
    · exact ⟨_, by simp only [if_true, fin_mul_fin]; rfl⟩
  have hu : ∃ c : ℝ, expected_degree o = .ok (fun _ => fin c) := by
    unfold expected_degree
    rw [h]
    dsimp only
    cases o.selfloops
    · exact ⟨_, by simp only [Bool.false_eq_true, if_false, fin_mul_fin, fin_sub_fin]; rfl⟩
    · exact ⟨_, by simp only [if_true, fin_mul_fin, fin_sub_fin, fin_add_fin]; rfl⟩
  obtain ⟨co, ho⟩ := ho
  obtain ⟨cu, hu⟩ := hu
  cases d with
  | out => exact key _ d2 co _ h2 ho fun i hi => (h4 i hi).2.1
  | inn => exact key _ d3 co _ h3 ho fun i hi => (h4 i hi).2.2
  | outIn => exact key _ d1 cu _ h1 hu fun i hi => (h4 i hi).1
  | underscored | other => exact False.elim hd

theorem nnRatio_congr {n : ℕ} {s : Bool} {p : ℝ} {x y : ℕ → ℝ} {ndir : Dir} {i : ℕ}
    (h : ∀ j < n, x j = y j) : nnRatio n s p x ndir i = nnRatio n s p y ndir i := by
  unfold nnRatio
  rw [Finset.sum_congr rfl (fun j hj => by rw [h j (Finset.mem_range.1 hj)])]

/-- `expected_av_nn_degree` when it computes. -/
theorem avNnDegree_computes (s : St) (p : ℝ) (q : XR) (h : s.obj.param = some (fin p, q))
    (ddir ndir : Dir) (sl : Option Bool) (dr r : Bool) (hdd : ddir.Known)
    (hnd : GoodDir (sl.getD s.obj.selfloops) ndir)
    (hc : ((s.exp_av ndir ddir).isNone || r || dr) = true) :
    ∃ v, expected_av_nn_degree ddir ndir sl dr r s = (.ok v, setAv ndir ddir v s) ∧
      ∀ i < s.obj.num_vertices, v i = fin (nnRatio s.obj.num_vertices (sl.getD s.obj.selfloops) p
        (meanDeg s.obj.num_vertices (sl.getD s.obj.selfloops) p ddir) ndir i) := by
  set b := sl.getD s.obj.selfloops with hb
  let o : Obj := { s.obj with selfloops := b }
  have hkn : ndir.key = ndir := hnd.known.key
  obtain ⟨c, h1, h2⟩ := degreeOf_mean o p q h ddir hdd
  obtain ⟨v, h3, h4⟩ := C55_partial o p q h (fun _ => c) ndir (some b) hnd
  refine ⟨v, ?_, fun i hi => ?_⟩
  · unfold expected_av_nn_degree
    rw [h, hkn, hdd.key]
    dsimp only
    rw [if_pos hc, ← hb]
    have e1 : degreeOf { s.obj with selfloops := b } ddir = .ok fun _ => fin c := h1
    rw [e1]
    dsimp only
    have e2 : expected_av_nn_property { s.obj with selfloops := b }
        s.obj.num_vertices (fun _ => fin c) ndir (some b) = (o, .ok v) := h3
    rw [e2]
    dsimp only
    have e3 : ({ s with obj := { o with selfloops := s.obj.selfloops } } : St) = s := rfl
    rw [e3]
    unfold getAv setAv
    simp
  · rw [h4 i hi]
    have : (some b).getD o.selfloops = b := rfl
    rw [this]
    exact congrArg fin (nnRatio_congr (fun j hj => h2 j hj))

theorem fit_fit {o o' : Obj} (h : fit o = .ok o') : fit o' = .ok o' := by
  have key : ∃ pq, o' = { o with param := some pq } := by
    unfold fit at h
    split at h
    · cases h
    · dsimp only at h
      split at h
      · cases h
      · split at h
        · cases h
        · exact ⟨_, (Except.ok.inj h).symm⟩
  obtain ⟨pq, rfl⟩ := key
  have h2 : ∀ par, fit { o with param := par } = fit o := by
    intro par; rfl
  rw [h2, h]

/-- One call of a history: right answer, same object, caches right for setting `l`. -/
theorem call_step (o : Obj) (p : ℝ) (q : XR) (h : o.param = some (fin p, q)) (l : Bool) (s : St)
    (hs : s.obj = o)
    (hc : ∀ ndir ddir v, s.exp_av ndir ddir = some v → ∀ i < o.num_vertices,
      v i = fin (nnRatio o.num_vertices l p (meanDeg o.num_vertices l p ddir) ndir i))
    (op : Op) (hv : op.Valid o.num_vertices o.selfloops l) (hf : op = .fit → fit o = .ok o) :
    (∃ v, (call s op).1 = .ok v ∧ Answer o.num_vertices p o.selfloops op v) ∧
    (call s op).2.obj = o ∧
    ∀ ndir ddir v, (call s op).2.exp_av ndir ddir = some v → ∀ i < o.num_vertices,
      v i = fin (nnRatio o.num_vertices l p (meanDeg o.num_vertices l p ddir) ndir i) := by
  obtain ⟨h0, d1, d2, d3, h1, h2, h3, h4⟩ := C36_expectations o p q h
  cases op with
  | fit =>
    have := hf rfl
    have e : call s .fit = (.ok .none, s) := by
      unfold call
      rw [hs, this]
      rw [← hs]
    rw [e]
    exact ⟨⟨_, rfl, rfl⟩, hs, hc⟩
  | setLoops b => exact hv.elim
  | totalWeight => exact hv.elim
  | numEdges =>
    refine ⟨⟨_, ?_, rfl⟩, hs, hc⟩
    show (expected_num_edges s.obj).map Val.num = _
    rw [hs, h0]; rfl
  | degree =>
    refine ⟨⟨.arr d1, ?_, d1, rfl, fun i hi => (h4 i hi).1⟩, hs, hc⟩
    show (expected_degree s.obj).map Val.arr = _
    rw [hs, h1]; rfl
  | outDegree =>
    refine ⟨⟨.arr d2, ?_, d2, rfl, fun i hi => (h4 i hi).2.1⟩, hs, hc⟩
    show (expected_out_degree s.obj).map Val.arr = _
    rw [hs, h2]; rfl
  | inDegree =>
    refine ⟨⟨.arr d3, ?_, d3, rfl, fun i hi => (h4 i hi).2.2⟩, hs, hc⟩
    show (expected_in_degree s.obj).map Val.arr = _
    rw [hs, h3]; rfl
  | avNnProp len prop ndir sl =>
    obtain ⟨rfl, ⟨x, rfl⟩, hg⟩ := hv
    obtain ⟨v, e1, e2⟩ := C55_partial o p q h x ndir sl hg
    have e : call s (.avNnProp o.num_vertices (fun i => fin (x i)) ndir sl)
        = (.ok (.arr v), { s with obj := o }) := by
      show ((expected_av_nn_property s.obj _ _ _ _).2.map Val.arr,
        ({ s with obj := (expected_av_nn_property s.obj _ _ _ _).1 } : St)) = _
      rw [hs, e1]; rfl
    rw [e]
    refine ⟨⟨_, rfl, v, rfl, fun y hy i hi => ?_⟩, rfl, hc⟩
    have : x = y := funext fun j => fin_inj.1 (congrFun hy j)
    rw [← this, e2 i hi]
  | avNnDegree ddir ndir sl dr r =>
    obtain ⟨hdd, hg, rfl⟩ := hv
    have hs' : s.obj.param = some (fin p, q) := by rw [hs, h]
    cases hcc : ((s.exp_av ndir ddir).isNone || r || dr) with
    | true =>
      obtain ⟨v, e1, e2⟩ := avNnDegree_computes s p q hs' ddir ndir sl dr r hdd
        (by rw [hs]; exact hg) hcc
      rw [hs] at e2
      have e : call s (.avNnDegree ddir ndir sl dr r) = (.ok (.arr v), setAv ndir ddir v s) := by
        show ((expected_av_nn_degree ddir ndir sl dr r s).1.map Val.arr,
          (expected_av_nn_degree ddir ndir sl dr r s).2) = _
        rw [e1]; rfl
      rw [e]
      refine ⟨⟨_, rfl, v, rfl, e2⟩, hs, fun a b w hw => ?_⟩
      unfold setAv at hw
      dsimp only at hw
      split at hw
      · rename_i hab
        obtain ⟨rfl, rfl⟩ := hab
        obtain rfl := Option.some.inj hw
        exact e2
      · exact hc a b w hw
    | false =>
      obtain ⟨v, hv⟩ : ∃ v, s.exp_av ndir ddir = some v := by
        cases hx : s.exp_av ndir ddir with
        | none => rw [hx] at hcc; cases hcc
        | some v => exact ⟨v, rfl⟩
      have e : call s (.avNnDegree ddir ndir sl dr r) = (.ok (.arr v), s) := by
        show ((expected_av_nn_degree ddir ndir sl dr r s).1.map Val.arr,
          (expected_av_nn_degree ddir ndir sl dr r s).2) = _
        have : expected_av_nn_degree ddir ndir sl dr r s = (.ok v, s) := by
          unfold expected_av_nn_degree
          rw [hs', hg.known.key, hdd.key]
          dsimp only
          rw [if_neg (by rw [hcc]; decide)]
          unfold getAv
          rw [hv]
        rw [this]; rfl
      rw [e]
      exact ⟨⟨_, rfl, v, rfl, hc _ _ _ hv⟩, hs, hc⟩

/-- **C82**: in any history of calls with documented arguments every call returns the right value
for the link probability of the object and the self-loop setting of the call; the object does not
change.  The object is fitted, and fitted again it stays the same (this only matters when the
history contains `fit`; `C82_fitted`). -/
theorem C82_queries_partial (o : Obj) (p : ℝ) (q : XR) (h : o.param = some (fin p, q)) (l : Bool)
    (ops : List Op) (hv : ∀ op ∈ ops, op.Valid o.num_vertices o.selfloops l)
    (hf : .fit ∈ ops → fit o = .ok o) :
    List.Forall₂ (fun op r => ∃ v, r = .ok v ∧ Answer o.num_vertices p o.selfloops op v) ops
      (run ops (new o)).1 ∧ (run ops (new o)).2.obj = o := by
  suffices H : ∀ (ops : List Op) (s : St), s.obj = o →
      (∀ ndir ddir v, s.exp_av ndir ddir = some v → ∀ i < o.num_vertices,
        v i = fin (nnRatio o.num_vertices l p (meanDeg o.num_vertices l p ddir) ndir i)) →
      (∀ op ∈ ops, op.Valid o.num_vertices o.selfloops l) → (.fit ∈ ops → fit o = .ok o) →
      List.Forall₂ (fun op r => ∃ v, r = .ok v ∧ Answer o.num_vertices p o.selfloops op v) ops
        (run ops s).1 ∧ (run ops s).2.obj = o from
    H ops (new o) rfl (fun _ _ _ h => by cases h) hv hf
  intro ops
  induction ops with
  | nil => exact fun s hs _ _ _ => ⟨.nil, hs⟩
  | cons op ops ih =>
    intro s hs hc hv hf
    obtain ⟨h1, h2, h3⟩ := call_step o p q h l s hs hc op (hv op (by simp))
      (fun e => hf (by rw [← e]; simp))
    obtain ⟨h4, h5⟩ := ih (call s op).2 h2 h3 (fun x hx => hv x (by simp [hx]))
      (fun hx => hf (by simp [hx]))
    exact ⟨.cons h1 h4, h5⟩

/-- **C82**: the same for an object that is fitted first, and again at any later point: the link
probability is the number of edges divided by the number of pairs of vertices that can be linked. -/
theorem C82_fitted_partial (o : Obj) (m : Number) (hm : o.num_edges = some m)
    (hA : Law.pairs o.num_vertices o.selfloops ≠ ∅)
    (hw : ∀ w, o.total_weight = some w → w.val ≠ 0 ∧ o.discrete_weights ≠ none) (l : Bool)
    (ops : List Op) (hv : ∀ op ∈ ops, op.Valid o.num_vertices o.selfloops l) :
    List.Forall₂ (fun op r => ∃ v, r = .ok v ∧ Answer o.num_vertices
      (m.val / (Law.pairs o.num_vertices o.selfloops).card) o.selfloops op v) (.fit :: ops)
      (run (.fit :: ops) (new o)).1 := by
  obtain ⟨o', p, q, h1, h2, -, h4, -, h6, h7, -⟩ := C36_fit_partial o m hm hA hw
  subst h4
  have e : call (new o) .fit = (.ok .none, new o') := by
    show (match fit o with | .error e => _ | .ok o => _) = _
    rw [h1]; rfl
  have := (C82_queries_partial o' _ q h2 l ops (by rw [h6, h7]; exact hv)
    (fun _ => fit_fit h1)).1
  rw [h6, h7] at this
  show List.Forall₂ _ _ ((call (new o) .fit).1 :: (run ops (call (new o) .fit).2).1)
  rw [e]
  exact .cons ⟨_, rfl, rfl⟩ this

/-- **C82**: whatever happened before, an average of degrees that is not cached or is asked to be
recomputed is right for the current link probability and the setting of the call. -/
theorem C82_recompute_partial (s : St) (p : ℝ) (q : XR) (h : s.obj.param = some (fin p, q))
    (ddir ndir : Dir) (sl : Option Bool) (dr r : Bool) (hdd : ddir.Known)
    (hnd : GoodDir (sl.getD s.obj.selfloops) ndir)
    (hc : s.exp_av ndir ddir = none ∨ r = true ∨ dr = true) :
    ∃ v, (call s (.avNnDegree ddir ndir sl dr r)).1 = .ok v ∧
      Answer s.obj.num_vertices p s.obj.selfloops (.avNnDegree ddir ndir sl dr r) v ∧
      (call s (.avNnDegree ddir ndir sl dr r)).2.obj = s.obj := by
  obtain ⟨v, e1, e2⟩ := avNnDegree_computes s p q h ddir ndir sl dr r hdd hnd
    (by rcases hc with hc | hc | hc <;> simp [hc])
  refine ⟨.arr v, ?_, ⟨v, rfl, e2⟩, ?_⟩
  · show (expected_av_nn_degree ddir ndir sl dr r s).1.map Val.arr = _
    rw [e1]; rfl
  · show (expected_av_nn_degree ddir ndir sl dr r s).2.obj = _
    rw [e1]; rfl

/-- **C82**: the other queries are right in every state with a finite link probability. -/
theorem C82_fresh_partial (s : St) (p : ℝ) (q : XR) (h : s.obj.param = some (fin p, q)) (op : Op)
    (l : Bool) (hv : op.Valid s.obj.num_vertices s.obj.selfloops l)
    (ha : ∀ ddir ndir sl dr r, op ≠ .avNnDegree ddir ndir sl dr r) (hf : op ≠ .fit) :
    ∃ v, (call s op).1 = .ok v ∧ Answer s.obj.num_vertices p s.obj.selfloops op v := by
  have := (call_step s.obj p q h l (new s.obj) rfl (fun _ _ _ h => by cases h) op hv
    (fun e => absurd e hf)).1
  cases op with
  | avNnDegree a b c d e => exact absurd rfl (ha a b c d e)
  | fit => exact absurd rfl hf
  | _ => exact this

/-- The self-loop argument of a query. -/
def Op.loops : Op → Option Bool
  | .avNnProp _ _ _ sl => sl
  | .avNnDegree _ _ sl _ _ => sl
  | _ => none

theorem avNnProp_obj (o : Obj) (len : ℕ) (prop : ℕ → XR) (ndir : Dir) (sl : Option Bool) :
    (∀ v, (expected_av_nn_property o len prop ndir sl).2 = .ok v →
      (expected_av_nn_property o len prop ndir sl).1 = o) ∧
    ((expected_av_nn_property o len prop ndir sl).1 = o ∨
      (expected_av_nn_property o len prop ndir sl).1 = withLoops o sl) := by
  unfold expected_av_nn_property
  split
  · exact ⟨fun _ _ => rfl, .inl rfl⟩
  · split
    · exact ⟨fun _ _ => rfl, .inl rfl⟩
    · dsimp only
      split
      · exact ⟨fun _ h => (nomatch h), .inr rfl⟩
      · exact ⟨fun _ h => (nomatch h), .inr rfl⟩
      · split
        · exact ⟨fun _ _ => rfl, .inl rfl⟩
        · exact ⟨fun _ h => (nomatch h), .inr rfl⟩

/-- **C82**: no query that returns changes the object; one that raises may leave the self-loop
setting at the value of its argument. -/
theorem C82_setting_partial (s : St) (op : Op) (hf : op ≠ .fit) (hs : ∀ b, op ≠ .setLoops b) :
    (∀ v, (call s op).1 = .ok v → (call s op).2.obj = s.obj) ∧
    ((call s op).2.obj = s.obj ∨
      ∃ b, op.loops = some b ∧ (call s op).2.obj = { s.obj with selfloops := b }) := by
  have hw : ∀ (o : Obj) (sl : Option Bool), withLoops o sl = o ∨
      ∃ b, sl = some b ∧ withLoops o sl = { o with selfloops := b } := by
    intro o sl
    cases sl with
    | none => exact .inl rfl
    | some b => exact .inr ⟨b, rfl, rfl⟩
  cases op with
  | fit => exact absurd rfl hf
  | setLoops b => exact absurd rfl (hs b)
  | avNnProp len prop ndir sl =>
    obtain ⟨h1, h2⟩ := avNnProp_obj s.obj len prop ndir sl
    refine ⟨fun v hv => ?_, ?_⟩
    · change (expected_av_nn_property s.obj len prop ndir sl).2.map Val.arr = .ok v at hv
      show (expected_av_nn_property s.obj len prop ndir sl).1 = s.obj
      cases hx : (expected_av_nn_property s.obj len prop ndir sl).2 with
      | error e => rw [hx] at hv; cases hv
      | ok w => exact h1 w hx
    · show (expected_av_nn_property s.obj len prop ndir sl).1 = s.obj ∨ ∃ b, sl = some b ∧
        (expected_av_nn_property s.obj len prop ndir sl).1 = _
      rcases h2 with h2 | h2
      · exact .inl h2
      · rw [h2]; exact hw s.obj sl
  | avNnDegree ddir ndir sl dr r =>
    have hg : ∀ t : St, (getAv ndir.key ddir.key t).2 = t := by
      intro t; unfold getAv; split <;> rfl
    have key : (∀ v, (expected_av_nn_degree ddir ndir sl dr r s).1 = .ok v →
        (expected_av_nn_degree ddir ndir sl dr r s).2.obj = s.obj) ∧
        ((expected_av_nn_degree ddir ndir sl dr r s).2.obj = s.obj ∨
        ∃ b, sl = some b ∧
          (expected_av_nn_degree ddir ndir sl dr r s).2.obj = { s.obj with selfloops := b }) := by
      have hl : ({ s.obj with selfloops := sl.getD s.obj.selfloops } : Obj) = withLoops s.obj sl := by
        cases sl <;> rfl
      unfold expected_av_nn_degree
      split
      · exact ⟨fun _ _ => rfl, .inl rfl⟩
      · split
        · dsimp only
          rw [hl]
          split
          · exact ⟨fun _ h => (nomatch h), hw s.obj sl⟩
          · rename_i deg hdeg
            obtain ⟨h1, h2⟩ := avNnProp_obj (withLoops s.obj sl) s.obj.num_vertices deg ndir
              (some (sl.getD s.obj.selfloops))
            have hww : withLoops (withLoops s.obj sl) (some (sl.getD s.obj.selfloops))
                = withLoops s.obj sl := by cases sl <;> rfl
            rw [hww, or_self] at h2
            have hn : (withLoops s.obj sl).num_vertices = s.obj.num_vertices := by cases sl <;> rfl
            split
            · rename_i o' e he
              rw [he] at h2
              dsimp only at h2
              refine ⟨fun _ h => (nomatch h), ?_⟩
              show o' = s.obj ∨ ∃ b, sl = some b ∧ o' = _
              rw [h2]
              exact hw s.obj sl
            · rename_i o' res he
              rw [he] at h2
              dsimp only at h2
              rw [hg]
              have : ({ o' with selfloops := s.obj.selfloops } : Obj) = s.obj := by
                rw [h2]; cases sl <;> rfl
              exact ⟨fun _ _ => this, .inl this⟩
        · rw [hg]; exact ⟨fun _ _ => rfl, .inl rfl⟩
    obtain ⟨h1, h2⟩ := key
    refine ⟨fun v hv => ?_, h2⟩
    change (expected_av_nn_degree ddir ndir sl dr r s).1.map Val.arr = .ok v at hv
    show (expected_av_nn_degree ddir ndir sl dr r s).2.obj = s.obj
    cases hx : (expected_av_nn_degree ddir ndir sl dr r s).1 with
    | error e => rw [hx] at hv; cases hv
    | ok w => exact h1 w hx
  | _ => exact ⟨fun _ _ => rfl, .inl rfl⟩

/-- **C82**: rejected calls.  The expected total weight is never available. -/
theorem C82_errors (s : St) :
    (∀ op, s.obj.param = none → op ≠ .fit → (∀ b, op ≠ .setLoops b) →
      call s op = (.error .notFitted, s)) ∧
    (s.obj.param ≠ none → call s .totalWeight = (.error .attribute, s)) ∧
    (∀ len prop ndir sl, s.obj.param ≠ none → len ≠ s.obj.num_vertices →
      call s (.avNnProp len prop ndir sl) = (.error .badShape, s)) ∧
    (∀ prop ndir sl, s.obj.param ≠ none → ¬ ndir.Known →
      (call s (.avNnProp s.obj.num_vertices prop ndir sl)).1 = .error .badDirection) ∧
    (∀ ddir ndir sl dr r, s.obj.param ≠ none → ¬ ddir.Known →
      s.exp_av ndir.key ddir.key = none ∨ dr = true ∨ r = true →
      (call s (.avNnDegree ddir ndir sl dr r)).1 = .error .badDegree) ∧
    (∀ ddir ndir sl dr r, s.obj.param ≠ none → ddir.Known → ¬ ndir.Known →
      s.exp_av ndir.key ddir.key = none ∨ dr = true ∨ r = true →
      (call s (.avNnDegree ddir ndir sl dr r)).1 = .error .badDirection) := by
  refine ⟨fun op h hf hl => ?_, fun h => ?_, fun len prop ndir sl h hl => ?_, 
    fun prop ndir sl h hd => ?_, fun ddir ndir sl dr r h hd hc => ?_,
    fun ddir ndir sl dr r h hd hnd hc => ?_⟩
  · cases op with
    | fit => exact absurd rfl hf
    | setLoops b => exact absurd rfl (hl b)
    | avNnDegree ddir ndir sl dr r =>
      have : expected_av_nn_degree ddir ndir sl dr r s = (.error .notFitted, s) := by
        unfold expected_av_nn_degree; rw [h]
      show (Except.map Val.arr (expected_av_nn_degree ddir ndir sl dr r s).1,
        (expected_av_nn_degree ddir ndir sl dr r s).2) = _
      rw [this]; rfl
    | avNnProp len prop ndir sl =>
      have := (C55_errors s.obj len prop ndir sl).1 h
      show (Except.map Val.arr (expected_av_nn_property s.obj len prop ndir sl).2,
        ({ s with obj := (expected_av_nn_property s.obj len prop ndir sl).1 } : St)) = _
      rw [this]; rfl
    | numEdges => simp only [call, expected_num_edges, h]; rfl
    | totalWeight => simp only [call, expected_total_weight, h]; rfl
    | degree => simp only [call, expected_degree, h]; rfl
    | outDegree => simp only [call, expected_out_degree, h]; rfl
    | inDegree => simp only [call, expected_in_degree, expected_out_degree, h]; rfl
  · obtain ⟨pq, hpq⟩ := Option.ne_none_iff_exists'.mp h
    have : expected_total_weight s.obj = .error .attribute := by
      unfold expected_total_weight
      rw [hpq]
      dsimp only
      split <;> rfl
    simp only [call, this]; rfl
  · have := (C55_errors s.obj len prop ndir sl).2 h hl
    show (Except.map Val.arr (expected_av_nn_property s.obj len prop ndir sl).2,
      ({ s with obj := (expected_av_nn_property s.obj len prop ndir sl).1 } : St)) = _
    rw [this]; rfl
  · have := C55_direction s.obj h prop ndir hd sl
    show Except.map Val.arr (expected_av_nn_property s.obj s.obj.num_vertices prop ndir sl).2 = _
    rw [this]; rfl
  · obtain ⟨pq, hpq⟩ := Option.ne_none_iff_exists'.mp h
    show Except.map Val.arr (expected_av_nn_degree ddir ndir sl dr r s).1 = _
    have hD : ∀ o : Obj, degreeOf o ddir = .error .badDegree := by
      intro o
      cases ddir with
      | out | inn | outIn => exact absurd trivial hd
      | underscored | other => rfl
    unfold expected_av_nn_degree
    rw [hpq]
    dsimp only
    rw [if_pos (by rcases hc with h | h | h <;> simp [h]), hD]
    rfl
  · obtain ⟨pq, hpq⟩ := Option.ne_none_iff_exists'.mp h
    show Except.map Val.arr (expected_av_nn_degree ddir ndir sl dr r s).1 = _
    have hD : ∀ o : Obj, o.param = some pq → ∃ v, degreeOf o ddir = .ok v := by
      intro o ho
      cases ddir with
      | out => simp only [degreeOf, expected_out_degree, ho]; split <;> exact ⟨_, rfl⟩
      | inn =>
        simp only [degreeOf, expected_in_degree, expected_out_degree, ho]; split <;> exact ⟨_, rfl⟩
      | outIn => simp only [degreeOf, expected_degree, ho]; split <;> exact ⟨_, rfl⟩
      | underscored | other => exact False.elim hd
    obtain ⟨v, hv⟩ := hD { s.obj with selfloops := sl.getD s.obj.selfloops } hpq
    have hdir := C55_direction { s.obj with selfloops := sl.getD s.obj.selfloops } h v ndir hnd
      (some (sl.getD s.obj.selfloops))
    unfold expected_av_nn_degree
    split
    · rename_i hx; exact absurd hx h
    · dsimp only
      rw [if_pos (by rcases hc with h | h | h <;> simp [h]), hv]
      dsimp only
      rw [hdir]
      rfl

/-- Once computed, an average of degrees is returned unchanged by all later calls that do not ask
for a recomputation, whatever happens in between. -/
theorem cached (ddir ndir : Dir) (v : ℕ → XR) (ops : List Op)
    (hops : ∀ d n sl dr r, d.key = ddir.key → n.key = ndir.key →
      .avNnDegree d n sl dr r ∈ ops → dr = false ∧ r = false) (s : St)
    (h : s.exp_av ndir.key ddir.key = some v) :
    (run ops s).2.exp_av ndir.key ddir.key = some v := by
  induction ops generalizing s with
  | nil => exact h
  | cons op ops ih =>
    refine ih (fun d n sl dr r h1 h2 hm => hops d n sl dr r h1 h2 (by simp [hm])) (call s op).2 ?_
    cases op with
    | fit =>
      show (match fit s.obj with
        | .error e => ((.error e : Except Err Val), s)
        | .ok o => (.ok .none, { s with obj := o })).2.exp_av ndir.key ddir.key = some v
      split <;> exact h
    | avNnDegree d' n' sl dr r =>
      show (expected_av_nn_degree d' n' sl dr r s).2.exp_av ndir.key ddir.key = some v
      have hg : ∀ t : St, (getAv n'.key d'.key t).2 = t := by
        intro t; unfold getAv; split <;> rfl
      unfold expected_av_nn_degree
      split
      · exact h
      · split
        · rename_i hc
          dsimp only
          split
          · exact h
          · split
            · exact h
            · rw [hg]
              unfold setAv
              dsimp only
              split
              · rename_i hab
                obtain ⟨rfl, rfl⟩ := hops d' n' sl dr r hab.2.symm hab.1.symm (by simp)
                rw [← hab.1, ← hab.2, h] at hc
                cases hc
              · exact h
        · rw [hg]; exact h
    | _ => exact h

/-- **C82**: once computed, an average of degrees is returned by all later calls that do not ask for
a recomputation, whatever happens in between and whatever their self-loop setting. -/
theorem C82_cached (s : St) (ddir ndir : Dir) (v : ℕ → XR)
    (h : s.exp_av ndir.key ddir.key = some v) (ops : List Op)
    (hops : ∀ d n sl dr r, d.key = ddir.key → n.key = ndir.key →
      .avNnDegree d n sl dr r ∈ ops → dr = false ∧ r = false)
    (hp : (run ops s).2.obj.param ≠ none) (sl : Option Bool) :
    (call (run ops s).2 (.avNnDegree ddir ndir sl false false)).1 = .ok (.arr v) := by
  have hc := cached ddir ndir v ops hops s h
  obtain ⟨pq, hpq⟩ := Option.ne_none_iff_exists'.mp hp
  show Except.map Val.arr (expected_av_nn_degree ddir ndir sl false false (run ops s).2).1 = _
  unfold expected_av_nn_degree
  rw [hpq]
  dsimp only
  rw [hc]
  rw [if_neg (by simp)]
  unfold getAv
  rw [hc]
  rfl

/-- **C82** fails for the undocumented direction `"out_in"` once the value for `"out-in"` is
cached: it is then taken for `"out-in"` instead of being rejected. -/
theorem C82_key_violated (p : ℝ) :
    let o : Obj := ⟨2, none, none, none, false, some (fin p, 0)⟩
    (run [.avNnDegree .out .underscored none false false] (new o)).1 = [.error .badDirection] ∧
    ∃ v, (run [.avNnDegree .out .outIn none false false,
      .avNnDegree .out .underscored none false false] (new o)).1 = [.ok (.arr v), .ok (.arr v)] := by
  dsimp only
  constructor
  · have := (C82_errors (new ⟨2, none, none, none, false, some (fin p, 0)⟩)).2.2.2.2.2 .out
      .underscored none false false (by simp [new]) (by simp) (by simp) (.inl rfl)
    simp only [run]
    rw [this]
  · obtain ⟨v, e1, -⟩ := avNnDegree_computes (new ⟨2, none, none, none, false, some (fin p, 0)⟩) p 0
      rfl .out .outIn none false false (by simp) (.inr (.inr ⟨rfl, rfl⟩)) rfl
    have e2 : call (new ⟨2, none, none, none, false, some (fin p, 0)⟩)
        (.avNnDegree .out .outIn none false false)
        = (.ok (.arr v), setAv .outIn .out v
            (new ⟨2, none, none, none, false, some (fin p, 0)⟩)) := by
      show (Except.map Val.arr (expected_av_nn_degree .out .outIn none false false _).1,
        (expected_av_nn_degree .out .outIn none false false _).2) = _
      rw [e1]; rfl
    have e3 := C82_cached (setAv .outIn .out v
      (new ⟨2, none, none, none, false, some (fin p, 0)⟩)) .out .underscored v
      (by simp [setAv, Dir.key]) [] (by simp) (by simp [run, setAv, new]) none
    refine ⟨v, ?_⟩
    simp only [run, e2] at e3 ⊢
    rw [e3]

theorem nnRatio_two (b : Bool) (p : ℝ) (hp : p ≠ 0) :
    nnRatio 2 b p (meanDeg 2 b p .out) .out 0 = if b then 2 * p else p := by
  have hd : ∀ i < 2, meanDeg 2 b p .out i = if b then 2 * p else p := by
    intro i hi
    obtain ⟨-, d1, d2, d3, -, h2, -, h4⟩ :=
      C36_expectations ⟨2, none, none, none, b, some (fin p, 0)⟩ p 0 rfl
    have := (h4 i hi).2.1
    unfold expected_out_degree at h2
    cases b
    · have h2 := congrFun (Except.ok.inj h2) i
      rw [this] at h2
      simp only [fin_mul_fin] at h2
      have := fin_inj.1 h2
      show mean 2 false p _ = _
      rw [← this]; norm_num
    · have h2 := congrFun (Except.ok.inj h2) i
      rw [this] at h2
      simp only [fin_mul_fin] at h2
      have := fin_inj.1 h2
      show mean 2 true p _ = _
      rw [← this]; norm_num; ring
  rw [nnRatio_congr (y := fun _ => if b then 2 * p else p) hd]
  unfold nnRatio
  simp only [Finset.sum_range_succ, Finset.sum_range_zero]
  rw [nbrProb_out 2 b p (by norm_num) (by norm_num), nbrProb_out 2 b p (by norm_num) (by norm_num)]
  cases b
  · simp [hp]
  · simp; field_simp

/-- The average out-degree of the out-neighbours, asked for a setting. -/
def ask (sl : Option Bool) : Op := .avNnDegree .out .out sl false false

/-- **C82** fails for stale averages of degrees: the second answer is the first one, although the
self-loop setting of the call, the setting of the object or the link probability is another. -/
theorem C82_violated (p : ℝ) (h0 : 0 < p) (h1 : p < 1) :
    (∃ v w, (run [ask (some true), ask (some false)]
        (new ⟨2, none, none, none, false, some (fin p, 0)⟩)).1 = [.ok (.arr v), .ok (.arr w)] ∧
      Answer 2 p false (ask (some true)) (.arr v) ∧
      ¬ Answer 2 p false (ask (some false)) (.arr w)) ∧
    (∃ v w, (run [ask none, .setLoops false, ask none]
        (new ⟨2, none, none, none, true, some (fin p, 0)⟩)).1
          = [.ok (.arr v), .ok .none, .ok (.arr w)] ∧
      Answer 2 p true (ask none) (.arr v) ∧ ¬ Answer 2 p false (ask none) (.arr w)) ∧
    (∃ v w t, run [ask none, .fit, ask none]
        (new ⟨2, some ⟨2, false⟩, none, none, false, some (fin p, 0)⟩)
          = ([.ok (.arr v), .ok .none, .ok (.arr w)], t) ∧ t.obj.param = some (fin 1, 0) ∧
      Answer 2 p false (ask none) (.arr v) ∧ ¬ Answer 2 1 false (ask none) (.arr w)) := by
  have hne := h0.ne'
  have first : ∀ (o : Obj) (sl : Option Bool), o.num_vertices = 2 → o.param = some (fin p, 0) →
      ∃ v, call (new o) (ask sl) = (.ok (.arr v), setAv .out .out v (new o)) ∧
        Answer 2 p o.selfloops (ask sl) (.arr v) ∧
        v 0 = fin (if sl.getD o.selfloops then 2 * p else p) := by
    intro o sl hn hp
    obtain ⟨v, e1, e2⟩ := avNnDegree_computes (new o) p 0 hp .out .out sl false false (by simp)
      (.inl rfl) rfl
    have hn' : (new o).obj.num_vertices = 2 := hn
    rw [hn'] at e2
    refine ⟨v, ?_, ⟨v, rfl, e2⟩, ?_⟩
    · show (Except.map Val.arr (expected_av_nn_degree .out .out sl false false (new o)).1,
        (expected_av_nn_degree .out .out sl false false (new o)).2) = _
      rw [e1]; rfl
    · rw [e2 0 (by norm_num)]
      exact congrArg fin (nnRatio_two _ p hne)
  have later : ∀ (s : St) (v : ℕ → XR) (sl : Option Bool), s.exp_av .out .out = some v →
      s.obj.param ≠ none → call s (ask sl) = (.ok (.arr v), s) := by
    intro s v sl hv hp
    obtain ⟨pq, hpq⟩ := Option.ne_none_iff_exists'.mp hp
    have : expected_av_nn_degree .out .out sl false false s = (.ok v, s) := by
      unfold expected_av_nn_degree
      rw [hpq, (show Dir.key .out = .out from rfl)]
      dsimp only
      rw [hv, if_neg (by simp)]
      unfold getAv
      rw [hv]
    show (Except.map Val.arr (expected_av_nn_degree .out .out sl false false s).1,
      (expected_av_nn_degree .out .out sl false false s).2) = _
    rw [this]; rfl
  have hset : ∀ v s, (setAv .out .out v s).exp_av .out .out = some v := by
    intro v s; unfold setAv; simp
  refine ⟨?_, ?_, ?_⟩
  · obtain ⟨v, e1, e2, e3⟩ := first ⟨2, none, none, none, false, some (fin p, 0)⟩ (some true) rfl rfl
    refine ⟨v, v, ?_, e2, ?_⟩
    · simp only [run, e1]
      rw [later _ v _ (hset v _) (by simp [setAv, new])]
    · rintro ⟨d, hd, hd'⟩
      obtain rfl := Val.arr.inj hd
      have := hd' 0 (by norm_num)
      rw [e3] at this
      have := fin_inj.1 (this.trans (congrArg fin (nnRatio_two false p hne)))
      simp at this
      linarith
  · obtain ⟨v, e1, e2, e3⟩ := first ⟨2, none, none, none, true, some (fin p, 0)⟩ none rfl rfl
    refine ⟨v, v, ?_, e2, ?_⟩
    · have : call (setAv .out .out v (new ⟨2, none, none, none, true, some (fin p, 0)⟩))
          (.setLoops false) = (.ok .none,
            setAv .out .out v (new ⟨2, none, none, none, false, some (fin p, 0)⟩)) := rfl
      simp only [run, e1, this]
      rw [later _ v _ (hset v _) (by simp [setAv, new])]
    · rintro ⟨d, hd, hd'⟩
      obtain rfl := Val.arr.inj hd
      have := hd' 0 (by norm_num)
      rw [e3] at this
      have := fin_inj.1 (this.trans (congrArg fin (nnRatio_two false p hne)))
      simp at this
      linarith
  · obtain ⟨v, e1, e2, e3⟩ :=
      first ⟨2, some ⟨2, false⟩, none, none, false, some (fin p, 0)⟩ none rfl rfl
    have hf : call (setAv .out .out v (new ⟨2, some ⟨2, false⟩, none, none, false, some (fin p, 0)⟩))
        .fit = (.ok .none,
          setAv .out .out v (new ⟨2, some ⟨2, false⟩, none, none, false, some (fin 1, 0)⟩)) := by
      have : fit ⟨2, some ⟨2, false⟩, none, none, false, some (fin p, 0)⟩
          = .ok ⟨2, some ⟨2, false⟩, none, none, false, some (fin 1, 0)⟩ := by
        unfold fit fitWeight pyDiv
        norm_num
      show (match fit ⟨2, some ⟨2, false⟩, none, none, false, some (fin p, 0)⟩ with
        | .error e => _ | .ok o => _) = _
      rw [this]
      rfl
    refine ⟨v, v, setAv .out .out v (new ⟨2, some ⟨2, false⟩, none, none, false, some (fin 1, 0)⟩),
      ?_, rfl, e2, ?_⟩
    · simp only [run, e1, hf]
      rw [later _ v _ (hset v _) (by simp [setAv, new])]
    · rintro ⟨d, hd, hd'⟩
      obtain rfl := Val.arr.inj hd
      have := hd' 0 (by norm_num)
      rw [e3] at this
      have := fin_inj.1 (this.trans (congrArg fin (nnRatio_two false 1 one_ne_zero)))
      simp at this
      exact h1.ne this

/-- A history with refits, averages for the same setting and every kind of query. -/
example : let o : Obj := ⟨3, some ⟨4, false⟩, some ⟨10, false⟩, some true, false, none⟩
    let ops : List Op := [.numEdges, .degree, .avNnDegree .out .inn none false false, .fit,
      .avNnProp 3 (fun i => fin i) .outIn (some false), .avNnDegree .out .inn (some false) true false,
      .inDegree]
    List.Forall₂ (fun op r => ∃ v, r = .ok v ∧ Answer 3 (4 / 6) false op v) (.fit :: ops)
      (run (.fit :: ops) (new o)).1 := by
  intro o ops
  have hc : (Law.pairs 3 false).card = 6 := by decide
  have := C82_fitted_partial o ⟨4, false⟩ rfl
    (show Law.pairs 3 false ≠ ∅ by decide)
    (fun w hw => by
      obtain rfl := Option.some.inj hw
      exact ⟨by norm_num, by simp [o]⟩) false ops (by
      intro op hop
      simp only [ops, List.mem_cons, List.not_mem_nil, or_false] at hop
      rcases hop with rfl | rfl | rfl | rfl | rfl | rfl | rfl
      · trivial
      · trivial
      · exact ⟨(by simp), .inr (.inl rfl), rfl⟩
      · trivial
      · exact ⟨rfl, ⟨fun i => i, rfl⟩, .inr (.inr ⟨rfl, rfl⟩)⟩
      · exact ⟨(by simp), .inr (.inl rfl), rfl⟩
      · trivial)
  rw [show o.num_vertices = 3 from rfl, show o.selfloops = false from rfl, hc] at this
  exact_mod_cast this

end Rand

end

end Verif
