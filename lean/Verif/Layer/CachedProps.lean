import Verif.Layer.CachedLemmas

/-! # C76: label-resolved queries after any history of calls -/

namespace Verif

noncomputable section

open XR Spec
open scoped ENNReal

namespace Layer.Cached

/-! ## Sparse and dense backends -/

/-- **C76**, `recompute=True`: whatever was called before, the query returns what the loops compute
for the current parameters and the current self-loop setting. -/
theorem C76_recompute_partial (C : Comp) (ops : List Op) (s : St) {θ : ℕ → XR}
    (hθ : paramAfter s.param ops = some θ) (q : Op) (hq : q.fam ≠ none) (hr : q.again = true) :
    after .plain C ops q s = fresh C θ (loopsAfter s.selfloops ops) q := by
  obtain ⟨f, hf⟩ := Option.ne_none_iff_exists'.1 hq
  have hs := run_settings .plain C ops s
  unfold after
  rw [(call_compute C hf (hs.1.trans hθ) (Or.inl hr)).1, hs.2]

/-- **C76**, no change of the settings after fitting: every query, in any order and with any
`recompute` arguments, returns what the loops compute. -/
theorem C76_queries_partial (C : Comp) (θ : ℕ → XR) (b : Bool) (ops : List Op)
    (hops : ∀ q ∈ ops, q.fam ≠ none) :
    (run .plain C ops (fitted θ b)).1 = ops.map (fresh C θ b) := by
  have key : ∀ (ops : List Op) (s : St), (∀ q ∈ ops, q.fam ≠ none) → s.param = some θ →
      s.selfloops = b → (∀ f, Empty f s ∨ Holds C θ b f s) →
      (run .plain C ops s).1 = ops.map (fresh C θ b) := by
    intro ops
    induction ops with
    | nil => intros; rfl
    | cons op ops ih =>
      intro s hops hp hb hI
      have hop := hops op (by simp)
      obtain ⟨f, hf⟩ := Option.ne_none_iff_exists'.1 hop
      have hset := settings_query (B := .plain) (C := C) (s := s) hop
      have h1 : (call .plain C op s).1 = fresh C θ b op ∧
          (Empty f (call .plain C op s).2 ∨ Holds C θ b f (call .plain C op s).2) := by
        by_cases hc : op.again = true ∨ Empty f s
        · obtain ⟨h1, h2⟩ := call_compute C hf hp hc
          rw [hb] at h1 h2
          refine ⟨h1, ?_⟩
          rcases h2 with h2 | h2
          · rw [h2]; exact hI f
          · exact Or.inr h2
        · push Not at hc
          have hh := (hI f).resolve_left hc.2
          obtain ⟨h1, h2⟩ := call_hit C hf (by rw [hp]; simp) (by simpa using hc.1) hh
          exact ⟨h1, by rw [h2]; exact Or.inr hh⟩
      show _ :: (run .plain C ops (call .plain C op s).2).1 = _ :: _
      rw [h1.1, ih _ (fun q hq => hops q (by simp [hq])) (hset.1.trans hp) (hset.2.trans hb)]
      intro f'
      by_cases hff : f' = f
      · rw [hff]; exact h1.2
      · have hsame := call_other .plain C f' op s (by rw [hf]; simpa using Ne.symm hff)
        exact (hI f').imp hsame.empty hsame.holds
  exact key ops _ hops rfl rfl (fun f => Or.inl (empty_fitted θ b f))

/-- **C76** fails without `recompute` when the settings change after the first query of a group:
the values of the settings at the time of the query `q` that computed them, the first of the group
or the last with `recompute`, are returned whatever `fit` and `selfloops` assignments follow. -/
theorem C76_stale (C : Comp) (b : Bool) (h1 h2 : List Op) (q q' : Op) {f : Fam} {θ : ℕ → XR}
    (hq : q.fam = some f) (hq' : q'.fam = some f)
    (hfirst : q.again = true ∨ ∀ o ∈ h1, o.fam ≠ some f)
    (hlast : ∀ o ∈ h2, o.fam = some f → o.again = false) (hr : q'.again = false)
    (hθ : paramAfter none h1 = some θ) {v : Ret} (hv : fresh C θ (loopsAfter b h1) q = .ok v) :
    after .plain C (h1 ++ q :: h2) q' (init b) = fresh C θ (loopsAfter b h1) q' := by
  have hs := run_settings .plain C h1 (init b)
  have hs1 : (run .plain C h1 (init b)).2.param = some θ := hs.1.trans hθ
  have hs2 : (run .plain C h1 (init b)).2.selfloops = loopsAfter b h1 := hs.2
  have hc : q.again = true ∨ Empty f (run .plain C h1 (init b)).2 :=
    hfirst.imp id (fun h => empty_run .plain C h1 _ h (empty_init b f))
  have hh := compute_holds C hq hs1 hc (hs2 ▸ hv)
  rw [hs2] at hh
  have hp : (call .plain C q (run .plain C h1 (init b)).2).2.param ≠ none := by
    rw [(settings_query (by rw [hq]; simp)).1, hs1]; simp
  have hr2 := holds_run C h2 _ hp hlast hh
  unfold after
  rw [(run_append .plain C h1 (q :: h2) (init b)).2]
  exact (call_hit C hq' hr2.2 hr hr2.1).1

/-- **C76**: nothing is ever returned that was not computed by the loops for settings that were in
force at some earlier moment of the history. -/
theorem C76_some_moment (C : Comp) (b : Bool) (ops : List Op) (q : Op) (hq : q.fam ≠ none)
    {v : Ret} (hv : after .plain C ops q (init b) = .ok v) :
    ∃ h1 h2 θ, ops = h1 ++ h2 ∧ paramAfter none h1 = some θ ∧
      .ok v = fresh C θ (loopsAfter b h1) q := by
  have key : ∀ ops : List Op, ∀ f, Empty f (run .plain C ops (init b)).2 ∨
      ∃ h1 h2 θ, ops = h1 ++ h2 ∧ paramAfter none h1 = some θ ∧
        Holds C θ (loopsAfter b h1) f (run .plain C ops (init b)).2 := by
    intro ops
    induction ops using List.reverseRecOn with
    | nil => exact fun f => Or.inl (empty_init b f)
    | append_singleton ops op ih =>
      intro f
      rw [(run_append .plain C ops [op] (init b)).2]
      show Empty f (call .plain C op (run .plain C ops (init b)).2).2 ∨ ∃ h1 h2 θ, _ ∧ _ ∧
        Holds C θ (loopsAfter b h1) f (call .plain C op (run .plain C ops (init b)).2).2
      have hs := run_settings .plain C ops (init b)
      have old : ∀ s', (Same f (run .plain C ops (init b)).2 s') →
          (Empty f s' ∨ ∃ h1 h2 θ, ops ++ [op] = h1 ++ h2 ∧ paramAfter none h1 = some θ ∧
            Holds C θ (loopsAfter b h1) f s') := by
        intro s' hsame
        rcases ih f with h | ⟨h1, h2, θ, e, hp, hh⟩
        · exact Or.inl (hsame.empty h)
        · exact Or.inr ⟨h1, h2 ++ [op], θ, by rw [e, List.append_assoc], hp, hsame.holds hh⟩
      by_cases hf : op.fam = some f
      · cases hp : paramAfter none ops with
        | none =>
          have hp' : (run .plain C ops (init b)).2.param = none := hs.1.trans hp
          rcases ih f with h | ⟨h1, h2, θ, e, hp1, hh⟩
          · left
            cases op with
            | fit θ => cases hf
            | setSelfloops b => cases hf
            | numEdges r =>
              unfold call; rw [map_snd]; dsimp only; unfold expected_num_edges; rw [hp']; exact h
            | numEdgesLabel r =>
              unfold call; rw [map_snd]; unfold expected_num_edges_label; rw [hp']; exact h
            | degree r =>
              unfold call; rw [map_snd]; unfold expected_degree_by_label; rw [hp']; exact h
            | outDegree r =>
              unfold call; rw [map_snd]; dsimp only; unfold degree_part
              split
              · rw [bind_get_snd]; unfold expected_degree_by_label; rw [hp']; exact h
              · rw [get_snd]; exact h
            | inDegree r =>
              unfold call; rw [map_snd]; dsimp only; unfold degree_part
              split
              · rw [bind_get_snd]; unfold expected_degree_by_label; rw [hp']; exact h
              · rw [get_snd]; exact h
          · exfalso
            have : ∀ (l : List Op) (t : ℕ → XR), paramAfter (some t) l ≠ none := by
              intro l
              induction l with
              | nil => intro t; exact Option.some_ne_none _
              | cons o l ihl =>
                intro t
                cases o <;> exact ihl _
            rw [e] at hp
            unfold paramAfter at hp hp1
            rw [List.foldl_append, hp1] at hp
            exact this h2 θ hp
        | some θ =>
          have hp' : (run .plain C ops (init b)).2.param = some θ := hs.1.trans hp
          have hb' : (run .plain C ops (init b)).2.selfloops = loopsAfter b ops := hs.2
          by_cases hc : op.again = true ∨ Empty f (run .plain C ops (init b)).2
          · rcases (call_compute C hf hp' hc).2 with h | h
            · rw [h]; exact old _ (Same.refl _ _)
            · rw [hb'] at h
              exact Or.inr ⟨ops, [op], θ, rfl, hp, h⟩
          · push Not at hc
            rcases ih f with h | ⟨h1, h2, θ1, e, hp1, hh⟩
            · exact absurd h hc.2
            · rw [(call_hit C hf (by rw [hp']; simp) (by simpa using hc.1) hh).2]
              exact old _ (Same.refl _ _)
      · exact old _ (call_other .plain C f op _ hf)
  obtain ⟨f, hf⟩ := Option.ne_none_iff_exists'.1 hq
  have hs := run_settings .plain C ops (init b)
  unfold after at hv
  rcases key ops f with h | ⟨h1, h2, θ, e, hp, hh⟩
  · cases hp : paramAfter none ops with
    | none =>
      exfalso
      have hp' : (run .plain C ops (init b)).2.param = none := hs.1.trans hp
      cases q with
      | fit θ => cases hf
      | setSelfloops b => cases hf
      | numEdges r =>
        unfold call at hv; rw [map_fst] at hv; dsimp only at hv
        unfold expected_num_edges at hv; rw [hp'] at hv; cases hv
      | numEdgesLabel r =>
        unfold call at hv; rw [map_fst] at hv
        unfold expected_num_edges_label at hv; rw [hp'] at hv; cases hv
      | degree r =>
        unfold call at hv; rw [map_fst] at hv
        unfold expected_degree_by_label at hv; rw [hp'] at hv; cases hv
      | outDegree r =>
        cases hf
        unfold call at hv; rw [map_fst] at hv; dsimp only at hv
        unfold degree_part at hv
        rw [if_pos (by rw [h.2.1]; rfl)] at hv
        unfold M.bind expected_degree_by_label at hv; rw [hp'] at hv; cases hv
      | inDegree r =>
        cases hf
        unfold call at hv; rw [map_fst] at hv; dsimp only at hv
        unfold degree_part at hv
        rw [if_pos (by rw [h.2.2]; rfl)] at hv
        unfold M.bind expected_degree_by_label at hv; rw [hp'] at hv; cases hv
    | some θ =>
      refine ⟨ops, [], θ, by simp, hp, ?_⟩
      rw [← hv, (call_compute C hf (hs.1.trans hp) (Or.inr h)).1]
      rw [hs.2]; rfl
  · by_cases hr : q.again = true
    · have hp2 : ∃ θ', paramAfter none ops = some θ' := by
        have : ∀ (l : List Op) (t : ℕ → XR), ∃ θ', paramAfter (some t) l = some θ' := by
          intro l
          induction l with
          | nil => exact fun t => ⟨t, rfl⟩
          | cons o l ihl => intro t; cases o <;> exact ihl _
        rw [e]
        unfold paramAfter at hp ⊢
        rw [List.foldl_append, hp]
        exact this h2 θ
      obtain ⟨θ', hθ'⟩ := hp2
      refine ⟨ops, [], θ', by simp, hθ', ?_⟩
      rw [← hv, (call_compute C hf (hs.1.trans hθ') (Or.inl hr)).1]
      rw [hs.2]; rfl
    · refine ⟨h1, h2, θ, e, hp, ?_⟩
      rw [← hv]
      by_cases hpn : (run .plain C ops (init b)).2.param = none
      · exfalso
        have hpn' : paramAfter none ops = none := hs.1.symm.trans hpn
        have : ∀ (l : List Op) (t : ℕ → XR), paramAfter (some t) l ≠ none := by
          intro l
          induction l with
          | nil => intro t; exact Option.some_ne_none _
          | cons o l ihl => intro t; cases o <;> exact ihl _
        rw [e] at hpn'
        unfold paramAfter at hpn' hp
        rw [List.foldl_append, hp] at hpn'
        exact this h2 θ hpn'
      · exact (call_hit C hf hpn (by simpa using hr) hh).1

/-- **C76**, before the first `fit`: every query raises. -/
theorem C76_unfitted (B : Backend) (C : Comp) (b : Bool) (ops : List Op)
    (hops : ∀ o ∈ ops, ∀ θ, o ≠ .fit θ) (q : Op) (hq : q.fam ≠ none) :
    after B C ops q (init b) = .error .notFitted := by
  have key : ∀ ops : List Op, (∀ o ∈ ops, ∀ θ, o ≠ .fit θ) → ∀ s : St, s.param = none →
      (∀ f, Empty f s) → (run B C ops s).2.param = none ∧ ∀ f, Empty f (run B C ops s).2 := by
    intro ops
    induction ops with
    | nil => intro _ s h1 h2; exact ⟨h1, h2⟩
    | cons op ops ih =>
      intro hops s hp he
      have h0 : (call B C op s).2.param = none := by
        rw [(call_settings B C op s).1]
        cases op with
        | fit θ => exact absurd rfl (hops (.fit θ) (by simp) θ)
        | _ => exact hp
      refine ih (fun o ho => hops o (by simp [ho])) _ h0 ?_
      intro f
      by_cases hf : op.fam = some f
      · have hE := he f
        have hdeg : ∀ r, (expected_degree_by_label C r s).2 = s := by
          intro r; unfold expected_degree_by_label; rw [hp]
        cases op with
        | fit θ => cases hf
        | setSelfloops b => cases hf
        | numEdges r =>
          unfold call; rw [map_snd]
          cases B <;> dsimp only
          · unfold expected_num_edges; rw [hp]; exact hE
          · unfold Spark.expected_num_edges; rw [hp]; exact hE
        | numEdgesLabel r =>
          unfold call; rw [map_snd]; unfold expected_num_edges_label; rw [hp]; exact hE
        | degree r => unfold call; rw [map_snd, hdeg]; exact hE
        | outDegree r =>
          unfold call; rw [map_snd]
          cases B <;> dsimp only
          · unfold degree_part; split
            · rw [bind_get_snd, hdeg]; exact hE
            · rw [get_snd]; exact hE
          · unfold Spark.degree_part; split
            · rw [bind_get_snd, hdeg]; exact hE
            · rw [get_snd]; exact hE
        | inDegree r =>
          unfold call; rw [map_snd]
          cases B <;> dsimp only
          · unfold degree_part; split
            · rw [bind_get_snd, hdeg]; exact hE
            · rw [get_snd]; exact hE
          · unfold Spark.degree_part; split
            · rw [bind_get_snd, hdeg]; exact hE
            · rw [get_snd]; exact hE
      · exact (call_other B C f op s hf).empty (he f)
  obtain ⟨hp, he⟩ := key ops hops (init b) rfl (empty_init b)
  unfold after
  generalize (run B C ops (init b)).2 = s at hp he
  have hd := he .degrees
  cases q with
  | fit θ => exact absurd rfl hq
  | setSelfloops b => exact absurd rfl hq
  | numEdges r =>
    unfold call; rw [map_fst]
    cases B <;> dsimp only
    · unfold expected_num_edges; rw [hp]; rfl
    · unfold Spark.expected_num_edges; rw [hp]; rfl
  | numEdgesLabel r =>
    unfold call; rw [map_fst]; unfold expected_num_edges_label; rw [hp]; rfl
  | degree r =>
    unfold call; rw [map_fst]; unfold expected_degree_by_label; rw [hp]; rfl
  | outDegree r =>
    unfold call; rw [map_fst]
    cases B <;> dsimp only
    · unfold degree_part; rw [if_pos (by rw [hd.2.1]; rfl)]
      unfold M.bind expected_degree_by_label; rw [hp]; rfl
    · unfold Spark.degree_part; rw [if_pos (by rw [hd.2.1]; rfl)]
      unfold M.bind expected_degree_by_label; rw [hp]; rfl
  | inDegree r =>
    unfold call; rw [map_fst]
    cases B <;> dsimp only
    · unfold degree_part; rw [if_pos (by rw [hd.2.2]; rfl)]
      unfold M.bind expected_degree_by_label; rw [hp]; rfl
    · unfold Spark.degree_part; rw [if_pos (by rw [hd.2.2]; rfl)]
      unfold M.bind expected_degree_by_label; rw [hp]; rfl

/-! ## Spark backend -/

/-- A degree query that computes, nothing being cached. -/
theorem spark_compute (C : Comp) {op : Op} {s : St} {θ : ℕ → XR} (hop : op.fam = some .degrees)
    (hθ : s.param = some θ) (h : Empty .degrees s) :
    (call .spark C op s).1 = fresh C θ s.selfloops op ∧
    ((call .spark C op s).2 = s ∨ Holds C θ s.selfloops .degrees (call .spark C op s).2) ∧
    (∀ v, fresh C θ s.selfloops op = .ok v →
      Holds C θ s.selfloops .degrees (call .spark C op s).2) := by
  have part : ∀ (o : St → Option (ℕ → ℕ → XR)) (r : Bool), o s = none →
      Spark.degree_part C o r s = degree_part C o false s := by
    intro o r ho
    unfold Spark.degree_part degree_part
    rw [if_pos (by rw [ho]; rfl), if_pos (by rw [ho]; rfl)]
  have main : ∀ op', op'.fam = some .degrees → call .spark C op s = call .plain C op' s →
      fresh C θ s.selfloops op = fresh C θ s.selfloops op' →
      (call .spark C op s).1 = fresh C θ s.selfloops op ∧
      ((call .spark C op s).2 = s ∨ Holds C θ s.selfloops .degrees (call .spark C op s).2) ∧
      (∀ v, fresh C θ s.selfloops op = .ok v →
        Holds C θ s.selfloops .degrees (call .spark C op s).2) := by
    intro op' hf e ef
    rw [e, ef]
    have := call_compute C hf hθ (Or.inr h)
    exact ⟨this.1, this.2, fun v hv => compute_holds C hf hθ (Or.inr h) hv⟩
  cases op with
  | fit θ => cases hop
  | setSelfloops b => cases hop
  | numEdges r => cases hop
  | numEdgesLabel r => cases hop
  | degree r => exact main (.degree r) rfl rfl rfl
  | outDegree r =>
    refine main (.outDegree false) rfl ?_ rfl
    show M.map Ret.mat (Spark.degree_part C St.exp_out_degree_label r) s
      = M.map Ret.mat (degree_part C St.exp_out_degree_label false) s
    unfold M.map M.bind
    rw [part _ r h.2.1]
  | inDegree r =>
    refine main (.inDegree false) rfl ?_ rfl
    show M.map Ret.mat (Spark.degree_part C St.exp_in_degree_label r) s
      = M.map Ret.mat (degree_part C St.exp_in_degree_label false) s
    unfold M.map M.bind
    rw [part _ r h.2.2]

/-- A degree query that finds its value: `recompute` only matters for `expected_degree_by_label`. -/
theorem spark_hit (C : Comp) {op : Op} {s : St} {θ : ℕ → XR} {b : Bool}
    (hop : op.fam = some .degrees) (hp : s.param ≠ none) (h : op ≠ .degree true)
    (hh : Holds C θ b .degrees s) :
    (call .spark C op s).1 = fresh C θ b op ∧ (call .spark C op s).2 = s := by
  obtain ⟨θ', hθ⟩ := Option.ne_none_iff_exists'.1 hp
  have hdeg : expected_degree_by_label C false s = get St.exp_degree_label s := by
    obtain ⟨v, hv, hs, -, -⟩ := hh
    unfold expected_degree_by_label
    rw [hθ]
    dsimp only
    rw [if_neg (by simp [hs])]
  have part : ∀ (o : St → Option (ℕ → ℕ → XR)) (r : Bool) (v : ℕ → ℕ → XR), o s = some v →
      Spark.degree_part C o r s = (.ok v, s) := by
    intro o r v ho
    have hg : get o s = (.ok v, s) := by unfold get; rw [ho]
    unfold Spark.degree_part
    split
    · unfold M.bind
      rw [hdeg]
      obtain ⟨w, hw, hs, -, -⟩ := hh
      unfold get
      rw [hs]
      exact hg
    · exact hg
  cases op with
  | fit θ => cases hop
  | setSelfloops b => cases hop
  | numEdges r => cases hop
  | numEdgesLabel r => cases hop
  | degree r =>
    cases r with
    | true => exact absurd rfl h
    | false => exact call_hit C (op := .degree false) hop hp rfl hh
  | outDegree r =>
    obtain ⟨v, hv, -, hs, -⟩ := hh
    unfold call
    rw [map_fst, map_snd]
    dsimp only
    rw [part _ r _ hs]
    exact ⟨by simp [fresh, hv, Except.map], rfl⟩
  | inDegree r =>
    obtain ⟨v, hv, -, -, hs⟩ := hh
    unfold call
    rw [map_fst, map_snd]
    dsimp only
    rw [part _ r _ hs]
    exact ⟨by simp [fresh, hv, Except.map], rfl⟩

/-- **C76**, spark with `recompute=True`: three of the five queries return what the jobs compute for
the current settings after any history; `C76_spark_stale` treats the other two. -/
theorem C76_spark_recompute_partial (C : Comp) (ops : List Op) (s : St) {θ : ℕ → XR}
    (hθ : paramAfter s.param ops = some θ) (q : Op)
    (hq : q = .numEdges true ∨ q = .numEdgesLabel true ∨ q = .degree true) :
    after .spark C ops q s = fresh C θ (loopsAfter s.selfloops ops) q := by
  have hs := run_settings .spark C ops s
  have hp := hs.1.trans hθ
  unfold after
  rw [← hs.2]
  rcases hq with rfl | rfl | rfl
  · show (M.map Ret.num (Spark.expected_num_edges C true) _).1 = _
    rw [map_fst]
    unfold Spark.expected_num_edges
    rw [hp]
    dsimp only
    rw [if_pos (by simp)]
    rfl
  · exact (call_compute C (op := .numEdgesLabel true) rfl hp (Or.inl rfl)).1
  · exact (call_compute C (op := .degree true) rfl hp (Or.inl rfl)).1

/-- **C76**, spark, no change of the settings after fitting: every query returns what the jobs
compute, provided that no `expected_num_edges` without `recompute` follows the label-resolved query
before the number of edges has been computed. -/
theorem C76_spark_queries_partial (C : Comp) (θ : ℕ → XR) (b : Bool) (ops : List Op)
    (hops : ∀ q ∈ ops, q.fam ≠ none)
    (hord : ∀ h1 h2, ops = h1 ++ .numEdges false :: h2 →
      (∀ o ∈ h1, o.fam ≠ some .label) ∨ ∃ o ∈ h1, o.fam = some .edges) :
    (run .spark C ops (fitted θ b)).1 = ops.map (fresh C θ b) := by
  have key : ∀ ops : List Op, (∀ q ∈ ops, q.fam ≠ none) →
      (∀ h1 h2, ops = h1 ++ .numEdges false :: h2 →
        (∀ o ∈ h1, o.fam ≠ some .label) ∨ ∃ o ∈ h1, o.fam = some .edges) →
      (run .spark C ops (fitted θ b)).1 = ops.map (fresh C θ b) ∧
      (∀ f, Empty f (run .spark C ops (fitted θ b)).2 ∨
        Holds C θ b f (run .spark C ops (fitted θ b)).2) ∧
      ((∃ o ∈ ops, o.fam = some .edges) →
        Holds C θ b .edges (run .spark C ops (fitted θ b)).2) ∧
      ((∀ o ∈ ops, o.fam ≠ some .label) → Empty .label (run .spark C ops (fitted θ b)).2) := by
    intro ops
    induction ops using List.reverseRecOn with
    | nil =>
      exact fun _ _ => ⟨rfl, fun f => Or.inl (empty_fitted θ b f), by simp,
        fun _ => empty_fitted θ b .label⟩
    | append_singleton ops op ih =>
      intro hops hord
      obtain ⟨i1, i2, i3, i4⟩ := ih (fun q hq => hops q (by simp [hq])) (fun h1 h2 e =>
        hord h1 (h2 ++ [op]) (by rw [e]; simp))
      have hset := run_settings .spark C ops (fitted θ b)
      have hpq : ∀ (l : List Op), (∀ q ∈ l, q.fam ≠ none) → ∀ p c, paramAfter p l = p ∧
          loopsAfter c l = c := by
        intro l
        induction l with
        | nil => exact fun _ p c => ⟨rfl, rfl⟩
        | cons o l ihl =>
          intro h p c
          have ho := h o (by simp)
          have := ihl (fun q hq => h q (by simp [hq])) p c
          cases o <;> first | exact absurd rfl ho | exact this
      have hq := hpq ops (fun q hq => hops q (by simp [hq]))
      have hp : (run .spark C ops (fitted θ b)).2.param = some θ := by
        rw [hset.1, (hq _ true).1]; rfl
      have hb : (run .spark C ops (fitted θ b)).2.selfloops = b := by
        rw [hset.2, (hq none _).2]; rfl
      have hop := hops op (by simp)
      obtain ⟨f, hf⟩ := Option.ne_none_iff_exists'.1 hop
      rw [(run_append .spark C ops [op] (fitted θ b)).2, run_snoc, i1, List.map_append]
      unfold after
      show _ ∧ (∀ f, Empty f (call .spark C op (run .spark C ops (fitted θ b)).2).2 ∨
          Holds C θ b f (call .spark C op (run .spark C ops (fitted θ b)).2).2) ∧
        (_ → Holds C θ b .edges (call .spark C op (run .spark C ops (fitted θ b)).2).2) ∧
        (_ → Empty .label (call .spark C op (run .spark C ops (fitted θ b)).2).2)
      have hother := fun f' => call_other .spark C f' op (run .spark C ops (fitted θ b)).2
      have hmain : (call .spark C op (run .spark C ops (fitted θ b)).2).1 = fresh C θ b op ∧
          (Empty f (call .spark C op (run .spark C ops (fitted θ b)).2).2 ∨
            Holds C θ b f (call .spark C op (run .spark C ops (fitted θ b)).2).2) ∧
          (f = .edges →
            Holds C θ b .edges (call .spark C op (run .spark C ops (fitted θ b)).2).2) := by
        have hl := i4
        have hI := i2
        have hE := i3
        generalize (run .spark C ops (fitted θ b)).2 = s at hp hb hl hI hE
        cases hfc : f with
        | label =>
          rw [hfc] at hf
          have e : call .spark C op s = call .plain C op s := by
            cases op <;> first | rfl | cases hf
          rw [e]
          by_cases hc : op.again = true ∨ Empty .label s
          · obtain ⟨h1, h2⟩ := call_compute C hf hp hc
            rw [hb] at h1 h2
            refine ⟨h1, ?_, nofun⟩
            rcases h2 with h2 | h2
            · rw [h2]; exact hI .label
            · exact Or.inr h2
          · push Not at hc
            have hh := (hI .label).resolve_left hc.2
            obtain ⟨h1, h2⟩ := call_hit C hf (by rw [hp]; simp) (by simpa using hc.1) hh
            exact ⟨h1, by rw [h2]; exact Or.inr hh, nofun⟩
        | degrees =>
          rw [hfc] at hf
          rcases hI .degrees with he | hh
          · obtain ⟨h1, h2, -⟩ := spark_compute C hf hp he
            rw [hb] at h1 h2
            refine ⟨h1, ?_, nofun⟩
            rcases h2 with h2 | h2
            · rw [h2]; exact hI .degrees
            · exact Or.inr h2
          · by_cases hd : op = .degree true
            · rw [hd]
              obtain ⟨h1, h2⟩ := call_compute C (op := .degree true) (s := s) rfl hp (Or.inl rfl)
              rw [hb] at h1 h2
              refine ⟨h1, ?_, nofun⟩
              rcases h2 with h2 | h2
              · exact (congrArg (fun t => Empty .degrees t ∨ Holds C θ b .degrees t) h2).mpr
                  (hI .degrees)
              · exact Or.inr h2
            · obtain ⟨h1, h2⟩ := spark_hit C hf (by rw [hp]; simp) hd hh
              exact ⟨h1, by rw [h2]; exact Or.inr hh, nofun⟩
        | edges =>
          rw [hfc] at hf
          cases op with
          | fit θ => cases hf
          | setSelfloops b => cases hf
          | numEdgesLabel r => cases hf
          | degree r => cases hf
          | outDegree r => cases hf
          | inDegree r => cases hf
          | numEdges r =>
            by_cases hc : (s.exp_num_edges_label.isNone || r) = true
            · have e : Spark.expected_num_edges C r s = (.ok (C.edges θ b),
                  { s with exp_num_edges := some (C.edges θ b) }) := by
                unfold Spark.expected_num_edges
                rw [hp]
                dsimp only
                rw [if_pos hc, hb]; rfl
              unfold call
              rw [map_fst, map_snd]
              dsimp only
              rw [e]
              exact ⟨rfl, Or.inr rfl, fun _ => rfl⟩
            · obtain rfl : r = false := by cases r <;> simp_all
              have hsome : Holds C θ b .edges s := by
                rcases hord ops [] rfl with h | h
                · exact absurd (by rw [show s.exp_num_edges_label = none from hl h]; rfl) hc
                · exact hE h
              have hv : s.exp_num_edges = some (C.edges θ b) := hsome
              have e : Spark.expected_num_edges C false s = (.ok (C.edges θ b), s) := by
                unfold Spark.expected_num_edges
                rw [hp]
                dsimp only
                rw [if_neg hc]
                unfold get
                rw [hv]
              unfold call
              rw [map_fst, map_snd]
              dsimp only
              rw [e]
              exact ⟨rfl, Or.inr hv, fun _ => hv⟩
      refine ⟨by rw [hmain.1]; rfl, fun f' => ?_, fun h => ?_, fun h => ?_⟩
      · by_cases hff : f' = f
        · rw [hff]; exact hmain.2.1
        · have hsame := hother f' (by rw [hf]; simpa using Ne.symm hff)
          exact (i2 f').imp hsame.empty hsame.holds
      · by_cases hfe : f = .edges
        · exact hmain.2.2 hfe
        · obtain ⟨o, ho, ho'⟩ := h
          rcases List.mem_append.1 ho with ho | ho
          · exact (hother .edges (by rw [hf]; simpa using hfe)).holds (i3 ⟨o, ho, ho'⟩)
          · rw [List.mem_singleton.1 ho, hf] at ho'
            exact absurd (Option.some.inj ho') hfe
      · exact (hother .label (h op (by simp))).empty
          (i4 (fun o ho => h o (List.mem_append_left _ ho)))
  exact (key ops hops hord).1

/-- **C76** fails in the spark backend: after the label-resolved query, `expected_num_edges` raises
an `AttributeError` instead of computing. -/
theorem C76_spark_attribute_violated (C : Comp) (θ : ℕ → XR) (b r : Bool) {v : List XR}
    (hv : C.edgesLabel θ b = .ok v) :
    (run .spark C [.fit θ, .numEdgesLabel r, .numEdges false] (init b)).1
      = [.ok .none, .ok (.list v), .error .attribute] ∧
    (run .plain C [.fit θ, .numEdgesLabel r, .numEdges false] (init b)).1
      = [.ok .none, .ok (.list v), .ok (.num (C.edges θ b))] := by
  constructor <;>
  simp [run, call, M.map, M.bind, expected_num_edges_label, Spark.expected_num_edges,
    expected_num_edges, init, get, hv]

theorem holds_run_spark (C : Comp) {θ : ℕ → XR} {b : Bool} (ops : List Op) (s : St)
    (hp : s.param ≠ none) (hops : ∀ q ∈ ops, q ≠ .degree true)
    (hh : Holds C θ b .degrees s) :
    Holds C θ b .degrees (run .spark C ops s).2 ∧ (run .spark C ops s).2.param ≠ none := by
  induction ops generalizing s with
  | nil => exact ⟨hh, hp⟩
  | cons op ops ih =>
    refine ih (call .spark C op s).2 ?_ (fun q hq => hops q (by simp [hq])) ?_
    · rw [(call_settings .spark C op s).1]
      cases op <;> first | exact hp | exact Option.some_ne_none _
    · by_cases hf : op.fam = some .degrees
      · rw [(spark_hit C hf hp (hops op (by simp)) hh).2]; exact hh
      · exact (call_other .spark C .degrees op s hf).holds hh

/-- **C76** fails in the spark backend even with `recompute=True`: once a degree query has computed,
the out and in degrees stay those of the settings of that moment until `expected_degree_by_label`
itself is called with `recompute`. -/
theorem C76_spark_stale (C : Comp) (b : Bool) (h1 h2 : List Op) (q q' : Op) {θ : ℕ → XR}
    (hq : q.fam = some .degrees) (hq' : q'.fam = some .degrees)
    (hfirst : q = .degree true ∨ ∀ o ∈ h1, o.fam ≠ some .degrees)
    (hlast : ∀ o ∈ h2, o ≠ .degree true) (hr : q' ≠ .degree true)
    (hθ : paramAfter none h1 = some θ) {v : Ret} (hv : fresh C θ (loopsAfter b h1) q = .ok v) :
    after .spark C (h1 ++ q :: h2) q' (init b) = fresh C θ (loopsAfter b h1) q' := by
  have hs := run_settings .spark C h1 (init b)
  have hs1 : (run .spark C h1 (init b)).2.param = some θ := hs.1.trans hθ
  have hs2 : (run .spark C h1 (init b)).2.selfloops = loopsAfter b h1 := hs.2
  have hh : Holds C θ (loopsAfter b h1) .degrees
      (call .spark C q (run .spark C h1 (init b)).2).2 := by
    rw [← hs2] at hv ⊢
    rcases hfirst with rfl | h
    · exact compute_holds C (op := .degree true) rfl hs1 (Or.inl rfl) hv
    · exact (spark_compute C hq hs1 (empty_run .spark C h1 _ h (empty_init b .degrees))).2.2 v hv
  have hp : (call .spark C q (run .spark C h1 (init b)).2).2.param ≠ none := by
    rw [(settings_query (by rw [hq]; simp)).1, hs1]; simp
  have hr2 := holds_run_spark C h2 _ hp hlast hh
  unfold after
  rw [(run_append .spark C h1 (q :: h2) (init b)).2]
  exact (spark_hit C hq' hr2.2 hr hr2.1).1

/-! ## What the loops compute -/

/-- Link probabilities of the projection of a sparse multi-layer model. -/
def projProb (K : Kind) (L : ℕ) (d : ℕ → ℝ≥0∞) (x y : ℕ → List (ℕ × ℝ≥0∞)) (e : ℕ × ℕ) : ℝ :=
  1 - ∏ k ∈ Finset.range L, (1 - layerProb K d x y k e)

/-- **C76**, sparse: the values of the queries above are the mean numbers of links of the projection
and of the layers; the degrees by label are the mean degrees of the layer when in no layer two
vertices both have both properties (see `C49_degrees_violated` for the others). -/
theorem C76_sparse_values_partial (K : Kind) (n L : ℕ) (d : ℕ → ℝ≥0∞)
    (x y : ℕ → List (ℕ × ℝ≥0∞))
    (hx : ∀ i, RowSorted (x i)) (hy : ∀ i, RowSorted (y i)) (hxL : ∀ i, ∀ e ∈ x i, e.1 < L)
    (hyL : ∀ i, ∀ e ∈ y i, e.1 < L) (dyad : ℕ → ℕ → XR) (b : Bool) :
    let C := sparseComp K n L (fun i => rowX (x i)) (fun i => rowX (y i)) dyad
    let M := fun k => Law.mean (Law.pairs n b) (layerProb K d x y k)
    C.edges (fun k => ofENN (d k)) b
      = fin (Law.mean (Law.pairs n b) (projProb K L d x y) (fun G => (G.card : ℝ))) ∧
    C.edgesLabel (fun k => ofENN (d k)) b
      = .ok ((List.range L).map (fun k => fin (M k (fun G => (G.card : ℝ))))) ∧
    ∃ D, C.degrees (fun k => ofENN (d k)) b = .ok D ∧
      ∀ k < L, (∀ i < n, ∀ j < n, ¬ Mutual x y k i j) → ∀ i < n,
        D.d i k = fin (M k (fun G => (Law.degree n G i : ℝ))) ∧
        D.dOut i k = fin (M k (fun G => (Law.outDegree G i : ℝ))) ∧
        D.dIn i k = fin (M k (fun G => (Law.inDegree G i : ℝ))) := by
  intro C M
  refine ⟨?_, ?_, _, rfl, ?_⟩
  · refine Eq.trans ?_ (C09_formula (Sampled.sparseEns_is K hx hy hxL hyL) n b)
    cases K <;> rfl
  · exact congrArg Except.ok (C49_edges K n L d x y hx hy dyad b)
  · intro k hk hno i hi
    exact ((C49_degrees_partial K n L d x y hx hy dyad b k hk hno).1 i hi).1

/-- **C76**, dense: the same for property arrays, without a restriction on the degrees; the numbers
of links by label need as many labels as vertices (see `C49_dense_edges_violated`). -/
theorem C76_dense_values_partial (K : Kind) (n L : ℕ) (d : ℕ → ℝ≥0∞) (x y : ℕ → ℕ → ℝ≥0∞)
    (dyad : ℕ → ℕ → XR) (b : Bool) :
    let C := denseComp K n L (fun i k => ofENN (x i k)) (fun i k => ofENN (y i k)) dyad
    let M := fun k => Law.mean (Law.pairs n b) (denseProb K d x y k)
    C.edges (fun k => ofENN (d k)) b
      = fin (Law.mean (Law.pairs n b)
          (fun e => 1 - ∏ k ∈ Finset.range L, (1 - denseProb K d x y k e))
          (fun G => (G.card : ℝ))) ∧
    (L = n → C.edgesLabel (fun k => ofENN (d k)) b
      = .ok ((List.range L).map (fun k => fin (M k (fun G => (G.card : ℝ)))))) ∧
    (L < n → C.edgesLabel (fun k => ofENN (d k)) b = .error .index) ∧
    ∃ D, C.degrees (fun k => ofENN (d k)) b = .ok D ∧ ∀ k < L, ∀ i < n,
        D.d i k = fin (M k (fun G => (Law.degree n G i : ℝ))) ∧
        D.dOut i k = fin (M k (fun G => (Law.outDegree G i : ℝ))) ∧
        D.dIn i k = fin (M k (fun G => (Law.inDegree G i : ℝ))) := by
  intro C M
  refine ⟨?_, ?_, ?_, _, rfl, ?_⟩
  · refine Eq.trans ?_ (C09_formula (Sampled.denseEns_is K L d x y) n b)
    cases K <;> rfl
  · rintro rfl
    show (match Dense.exp_edges_label K.link.p_ijk L L _ _ _ dyad b with
      | some r => Except.ok r
      | none => Except.error Err.index) = _
    rw [C49_dense_edges_partial K L d x y dyad b]
  · intro h
    show (match Dense.exp_edges_label K.link.p_ijk n L _ _ _ dyad b with
      | some r => Except.ok r
      | none => Except.error Err.index) = _
    rw [C49_dense_edges_violated.1 K n L _ _ _ dyad b h]
  · intro k hk i hi
    exact (C49_dense_degrees K n L d x y dyad b k hk).1 i hi

/-- **C76**, spark: the same values for every number of blocks and every order in which the results
of the tasks are combined, except that the degrees by label raise an `IndexError` exactly when no
layer has an admissible pair of vertices with both properties stored. -/
theorem C76_spark_values_partial (K : Kind) (n L p : ℕ) (hp : 0 < p) (d : ℕ → ℝ≥0∞)
    (x y : ℕ → List (ℕ × ℝ≥0∞))
    (hx : ∀ i, RowSorted (x i)) (hy : ∀ i, RowSorted (y i)) (hxL : ∀ i, ∀ e ∈ x i, e.1 < L)
    (hyL : ∀ i, ∀ e ∈ y i, e.1 < L) (dyad : ℕ → ℕ → XR) (b : Bool)
    (edges : (ℕ → XR) → Bool → XR)
    (hedges : Verif.Spark.Folds (· + ·) 0 (Verif.Spark.edgesTasks (K.sparseEns d x y) n p b)
      (edges (fun k => ofENN (d k)) b)) :
    let C := sparkComp K n L (fun i => rowX (x i)) (fun i => rowX (y i)) dyad edges
    let M := fun k => Law.mean (Law.pairs n b) (layerProb K d x y k)
    C.edges (fun k => ofENN (d k)) b
      = fin (Law.mean (Law.pairs n b) (projProb K L d x y) (fun G => (G.card : ℝ))) ∧
    C.edgesLabel (fun k => ofENN (d k)) b
      = .ok ((List.range L).map (fun k => fin (M k (fun G => (G.card : ℝ))))) ∧
    (C.degrees (fun k => ofENN (d k)) b = .error .index ↔
      ∀ k < L, ∀ e ∈ Law.pairs n b, ((x e.1).lookup k).isSome → ((y e.2).lookup k).isSome →
        False) ∧
    ∀ D, C.degrees (fun k => ofENN (d k)) b = .ok D →
      ∀ k < L, (∀ i < n, ∀ j < n, ¬ Mutual x y k i j) → ∀ i < n,
        D.d i k = fin (M k (fun G => (Law.degree n G i : ℝ))) ∧
        D.dOut i k = fin (M k (fun G => (Law.outDegree G i : ℝ))) ∧
        D.dIn i k = fin (M k (fun G => (Law.inDegree G i : ℝ))) := by
  intro C M
  have hd : Verif.Spark.DyadFree (K.sparseEns d x y) := by
    cases K
    · exact (Verif.Spark.IsSpark.multiFit d x y hx hy).dyadFree
    · exact (Verif.Spark.IsSpark.multiInv d x y hx hy).dyadFree
  refine ⟨?_, ?_, ?_, ?_⟩
  · exact (Verif.Spark.C43_expected_num_edges hd hp b hedges).trans
      (C09_formula (Sampled.sparseEns_is K hx hy hxL hyL) n b)
  · exact congrArg Except.ok (C49_edges K n L d x y hx hy dyad b)
  · have hmem : ∀ (r : List (ℕ × ℝ≥0∞)) (k : ℕ), k ∉ (rowX r).map Prod.fst ↔
        ¬ (r.lookup k).isSome = true := by
      intro r k
      rw [Option.not_isSome_iff_eq_none, List.lookup_eq_none_iff]
      simp only [rowX, List.map_map, List.mem_map, not_exists, not_and, Function.comp]
      constructor
      · intro h e he
        exact bne_iff_ne.2 (fun h2 => h e he h2.symm)
      · intro h e he h2
        exact bne_iff_ne.1 (h e he) h2.symm
    have := noEntries_iff K.link.p_ijk n L (fun k => ofENN (d k)) (fun i => rowX (x i))
      (fun i => rowX (y i)) dyad b
    show (if noEntries _ _ _ _ _ _ _ _ = true then Except.error Err.index else Except.ok _) = _ ↔ _
    constructor
    · intro h
      have h0 : noEntries K.link.p_ijk n L (fun k => ofENN (d k)) (fun i => rowX (x i))
          (fun i => rowX (y i)) dyad b = true := by
        by_contra h0
        rw [if_neg h0] at h
        cases h
      intro k hk e he h1 h2
      rcases this.1 h0 k hk e he with h3 | h3
      · exact (hmem _ _).1 h3 h1
      · exact (hmem _ _).1 h3 h2
    · intro h
      rw [if_pos (this.2 (fun k hk e he => ?_))]
      rw [hmem, hmem]
      by_contra hc
      push Not at hc
      exact h k hk e he hc.1 hc.2
  · intro D hD k hk hno i hi
    have hval := ((C49_degrees_partial K n L d x y hx hy dyad b k hk hno).1 i hi).2
    change (if noEntries _ _ _ _ _ _ _ _ = true then Except.error Err.index else Except.ok _) = _
      at hD
    split at hD
    · cases hD
    · cases hD
      exact hval

/-- Two vertices, one label, a link from 0 to 1. -/
def wOut : ℕ → List (ℕ × ℝ≥0∞) := fun i => if i = 0 then [(0, 1)] else []

/-- In properties of the two vertices. -/
def wIn : ℕ → List (ℕ × ℝ≥0∞) := fun i => if i = 1 then [(0, 1)] else []

theorem wOut_sorted (i : ℕ) : RowSorted (wOut i) := by unfold wOut; split <;> simp [RowSorted]

theorem wIn_sorted (i : ℕ) : RowSorted (wIn i) := by unfold wIn; split <;> simp [RowSorted]

theorem w_values (K : Kind) (t : ℝ≥0∞) (b : Bool) (edges : (ℕ → XR) → Bool → XR) :
    (∃ D, (sparseComp K 2 1 (fun i => rowX (wOut i)) (fun i => rowX (wIn i))
      (fun _ _ => 0)).degrees (fun _ => ofENN t) b = .ok D ∧ D.dOut 0 0 = fin (K.q t)) ∧
    (∃ D, (sparkComp K 2 1 (fun i => rowX (wOut i)) (fun i => rowX (wIn i))
      (fun _ _ => 0) edges).degrees (fun _ => ofENN t) b = .ok D ∧ D.dOut 0 0 = fin (K.q t)) := by
  have h := C49_degrees_computed K 2 1 (fun _ => t) wOut wIn wOut_sorted wIn_sorted (fun _ _ => 0)
    b 0 0 (by norm_num) (by norm_num)
  dsimp only at h
  have hm : Law.mean (Law.pairs 2 b) (layerProb K (fun _ => t) wOut wIn 0)
      (fun G => (Law.outDegree G 0 : ℝ)) = K.q t := by
    rw [mean_outDegree 2 b _ 0 (by norm_num)]
    simp [Finset.sum_range_succ, DiGraphEnsemble.masked, admissible, layerProb, wOut, wIn, entry,
      K.q_zero]
  have he : (∑ j ∈ Finset.range 2, if Mutual wOut wIn 0 0 j then
      layerProb K (fun _ => t) wOut wIn 0 (0, j) else 0) = 0 := by
    simp [Mutual, wOut, wIn]
  rw [hm, he, add_zero] at h
  have hne : ¬ noEntries K.link.p_ijk 2 1 (fun _ => ofENN t) (fun i => rowX (wOut i))
      (fun i => rowX (wIn i)) (fun _ _ => 0) b = true := by
    rw [noEntries_iff]
    intro hc
    have := hc 0 (by norm_num) (0, 1)
      (Law.mem_pairs.2 ⟨by norm_num, by norm_num, Or.inl (by simp)⟩)
    simp [wOut, wIn, rowX] at this
  refine ⟨⟨_, rfl, h.1.2.1⟩, ?_⟩
  unfold sparkComp
  dsimp only
  rw [if_neg hne]
  exact ⟨_, rfl, h.2.2.1⟩

theorem fresh_out {C : Comp} {θ : ℕ → XR} {b : Bool} {D : Degs} (h : C.degrees θ b = .ok D)
    (r : Bool) : fresh C θ b (.outDegree r) = .ok (.mat D.dOut) := by
  simp [fresh, h, Except.map]

/-- **C76** fails: refitting with another parameter leaves the out degrees by label unchanged, in
the sparse backend without and in the spark backend even with `recompute=True`. -/
theorem C76_violated (K : Kind) (edges : (ℕ → XR) → Bool → XR) :
    let old : ℕ → XR := fun _ => ofENN 1
    let new : ℕ → XR := fun _ => ofENN 0
    let Csparse := sparseComp K 2 1 (fun i => rowX (wOut i)) (fun i => rowX (wIn i)) (fun _ _ => 0)
    let Cspark := sparkComp K 2 1 (fun i => rowX (wOut i)) (fun i => rowX (wIn i)) (fun _ _ => 0)
      edges
    (∃ m m', after .plain Csparse [.fit old, .outDegree false, .fit new] (.outDegree false)
        (init false) = .ok (.mat m) ∧
      fresh Csparse new false (.outDegree false) = .ok (.mat m') ∧
      0 < K.q 1 ∧ m 0 0 = fin (K.q 1) ∧ m' 0 0 = 0) ∧
    (∃ m m', after .spark Cspark [.fit old, .outDegree false, .fit new] (.outDegree true)
        (init false) = .ok (.mat m) ∧
      fresh Cspark new false (.outDegree true) = .ok (.mat m') ∧
      0 < K.q 1 ∧ m 0 0 = fin (K.q 1) ∧ m' 0 0 = 0) := by
  intro old new Csparse Cspark
  obtain ⟨⟨D1, h1, v1⟩, D2, h2, v2⟩ := w_values K 1 false edges
  obtain ⟨⟨E1, k1, u1⟩, E2, k2, u2⟩ := w_values K 0 false edges
  rw [K.q_zero] at u1 u2
  constructor
  · refine ⟨D1.dOut, E1.dOut, ?_, fresh_out k1 false, K.q_pos one_ne_zero, v1, u1⟩
    exact (C76_stale Csparse false [.fit old] [.fit new] (.outDegree false) (.outDegree false)
        (f := .degrees) (θ := old) rfl rfl (Or.inr (by simp [Op.fam])) (by simp [Op.fam]) rfl rfl
        (fresh_out h1 false)).trans (fresh_out h1 false)
  · refine ⟨D2.dOut, E2.dOut, ?_, fresh_out k2 true, K.q_pos one_ne_zero, v2, u2⟩
    exact (C76_spark_stale Cspark false [.fit old] [.fit new] (.outDegree false) (.outDegree true)
        (θ := old) rfl rfl (Or.inr (by simp [Op.fam])) (by simp) (by simp) rfl
        (fresh_out h2 false)).trans (fresh_out h2 true)

/-! ## Concrete cases -/

/-- Refit and a changed self-loop setting in the history. -/
example (θ θ' : ℕ → XR) (s : St) :
    paramAfter s.param [.fit θ, .degree false, .setSelfloops true, .fit θ'] = some θ' ∧
    loopsAfter s.selfloops [.fit θ, .degree false, .setSelfloops true, .fit θ'] = true ∧
    (Op.inDegree true).fam ≠ none ∧ (Op.inDegree true).again = true :=
  ⟨rfl, rfl, by simp [Op.fam], rfl⟩

/-- A history of queries only. -/
example : ∀ q ∈ [Op.outDegree false, .numEdges true, .numEdgesLabel false, .degree true],
    q.fam ≠ none := by simp [Op.fam]

/-- A history before the first `fit`. -/
example : (∀ o ∈ [Op.setSelfloops true, .numEdges false], ∀ θ, o ≠ .fit θ) := by simp

/-- A spark history in the allowed order. -/
example : ∀ h1 h2, [Op.numEdges false, .numEdgesLabel false, .numEdges false]
      = h1 ++ Op.numEdges false :: h2 →
    (∀ o ∈ h1, o.fam ≠ some .label) ∨ ∃ o ∈ h1, o.fam = some .edges := by
  intro h1 h2 h
  cases h1 with
  | nil => left; simp
  | cons o h1 =>
    right
    rw [List.cons_append, List.cons.injEq] at h
    exact ⟨o, by simp, by rw [← h.1]; rfl⟩

/-- The tasks have an outcome and the labels are in range. -/
example (K : Kind) : ∃ v, Verif.Spark.Folds (· + ·) 0
    (Verif.Spark.edgesTasks (K.sparseEns (fun _ => 1) wOut wIn) 2 2 false) v :=
  ⟨_, Verif.Spark.folds_fold _ _ _⟩

example : (∀ i, ∀ e ∈ wOut i, e.1 < 1) ∧ (∀ i, ∀ e ∈ wIn i, e.1 < 1) ∧
    (∀ i < 2, ∀ j < 2, ¬ Mutual wOut wIn 0 i j) := by
  refine ⟨fun i e he => ?_, fun i e he => ?_, fun i hi j hj h => ?_⟩
  · unfold wOut at he; split at he <;> simp_all
  · unfold wIn at he; split at he <;> simp_all
  · obtain ⟨-, h1, h2, -, -⟩ := h
    unfold wOut at h1; unfold wIn at h2
    split at h1 <;> split at h2 <;> simp_all

end Layer.Cached

end

end Verif
