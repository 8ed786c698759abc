import Verif.Alias.Lemmas

/-!
# Calls on shared arrays: agreement with values, and writes into arrays that are not attributes
-/

namespace Verif

open XR DiGraphEnsemble

namespace Alias

/-! ## The same calls on values -/

/-- A call with the contents of its arrays. -/
inductive VCall where
  | fit (x0 : Fit.X0) (method : Fit.Method) (o : Fit.Opts)
  | query (op : Query.Op XR)
  | logLikelihood (link : ℕ → ℕ → Bool)

/-- The call with its arrays replaced by their contents. -/
noncomputable def Call.val (m : Mem) : Call → VCall
  | .fit x0 method o => .fit (x0.read m) method o
  | .numEdges r => .query (.numEdges r)
  | .degree r => .query (.degree r)
  | .outDegree r => .query (.outDegree r)
  | .inDegree r => .query (.inDegree r)
  | .avNnProp len prop ndir sl dr => .query (.avNnProp len (m.cell prop) ndir sl dr)
  | .avNnDegree ddir ndir sl dr r => .query (.avNnDegree ddir ndir sl dr r)
  | .logLikelihood link => .logLikelihood link

/-- Results with arrays replaced by something else. -/
def Out.map {A B : Type} (f : A → B) : Out A → Out B
  | .none => .none
  | .num v => .num v
  | .arr a => .arr (f a)
  | .raisedQuery e => .raisedQuery e
  | .raisedFit e => .raisedFit e

/-- Result of a query on values. -/
def Out.ofRet : Except Query.Err Query.Ret → Out (ℕ → XR)
  | .ok .none => .none
  | .ok (.num v) => .num v
  | .ok (.arr v) => .arr v
  | .error e => .raisedQuery e

/-- One call on an ensemble with property values `x`, `y`: `Query.call` for the queries and
`Fit.fitSingle` for the fit. -/
noncomputable def vcall (jUndef : ℕ) (c : Cls) (x y : ℕ → XR) :
    VCall → Query.St XR → Out (ℕ → XR) × Query.St XR
  | .fit x0 method o, t =>
    match Fit.fitSingle (Fit.exp_edges_f_jac (fun d i j => c.p_jac_ij d (x i) (y j)
      (c.prop_dyad i j)) c.n t.selfloops) c.num_edges x0 method o with
    | .error e => (.raisedFit e, t)
    | .ok sol => Prod.map Out.ofRet id (Query.call jUndef (c.ens x y 0) c.n (.fit sol.x) t)
  | .query op, t => Prod.map Out.ofRet id (Query.call jUndef (c.ens x y 0) c.n op t)
  | .logLikelihood link, t =>
    match t.param with
    | none => (.raisedQuery .notFitted, t)
    | some θ => (.num ((c.ens x y θ).likelihood c.n link t.selfloops), t)

/-- A sequence of calls. -/
noncomputable def vrun (jUndef : ℕ) (c : Cls) (x y : ℕ → XR) :
    List VCall → Query.St XR → List (Out (ℕ → XR)) × Query.St XR
  | [], t => ([], t)
  | k :: ks, t =>
    let r := vcall jUndef c x y k t
    let rest := vrun jUndef c x y ks r.2
    (r.1 :: rest.1, rest.2)

/-- The arrays given to a call. -/
def Call.Uses (a : Addr) : Call → Prop
  | .fit (.array b _ _ _) _ _ => a = b
  | .avNnProp _ prop _ _ _ => a = prop
  | _ => False

/-- Agreement of one call with the call on values. -/
structure CallPost (s : S) (r : Out Addr × S) (q : Out (ℕ → XR) × Query.St XR) : Prop where
  keeps : Keeps s r.2
  eq : q = (r.1.map r.2.mem.cell, r.2.view)
  good : ∀ a, r.1 = .arr a → a < r.2.mem.next

theorem PostA.call {s : S} {r : Except Query.Err Addr × S} {m : Query.M XR (ℕ → XR)}
    (h : PostA s r (m s.view)) :
    CallPost s (Prod.map (Out.of .arr) id r)
      (Prod.map Out.ofRet id (Query.M.map .arr m s.view)) := by
  obtain ⟨hk, he, hg⟩ := h
  obtain ⟨e | a, s'⟩ := r
  · refine ⟨hk, ?_, fun a ha => by cases ha⟩
    simp only [Query.M.map, Query.M.bind]
    rw [he]
    rfl
  · refine ⟨hk, ?_, fun b hb => by cases hb; exact hg a rfl⟩
    simp only [Query.M.map, Query.M.bind]
    rw [he]
    rfl

theorem PostN.call {s : S} {r : Except Query.Err XR × S} {m : Query.M XR XR}
    (h : PostN s r (m s.view)) :
    CallPost s (Prod.map (Out.of .num) id r)
      (Prod.map Out.ofRet id (Query.M.map .num m s.view)) := by
  obtain ⟨hk, he, hg⟩ := h
  obtain ⟨e | a, s'⟩ := r
  · refine ⟨hk, ?_, fun a ha => by cases ha⟩
    simp only [Query.M.map, Query.M.bind]
    rw [he]
    rfl
  · refine ⟨hk, ?_, fun b hb => by cases hb⟩
    simp only [Query.M.map, Query.M.bind]
    rw [he]
    rfl

/-! ## Fits -/

theorem solve_zero {cfg : Solver.Cfg} {x0 : XR} {sol : Solver.Solution}
    (h : Solver.solve cfg x0 = .ok sol) (hn : sol.n_iter = 0) : sol.x = x0 := by
  unfold Solver.solve at h
  dsimp only at h
  split_ifs at h with h1 h2
  · cases h; rfl
  · cases hb : Solver.bracketInit (Solver.init cfg x0) with
    | error e => rw [hb] at h; cases h
    | ok t =>
      rw [hb] at h
      simp only [Except.bind] at h
      cases hl : Solver.loop cfg cfg.max_iter t with
      | error e => rw [hl] at h; cases h
      | ok u =>
        rw [hl] at h
        cases h
        have := Solver.loop_inv cfg (P := fun s => s.n_iter = 0 → s.x = x0)
          (fun s s' _ _ hst hz => by rw [Solver.step_n_iter hst] at hz; omega) _ _ _
          (fun _ => (Solver.bracketInit_keeps hb).1) hl
        exact this hn

theorem fitSingle_zero {func : XR → XR × XR} {ne : Option ℝ} {x0 : Fit.X0} {method : Fit.Method}
    {o : Fit.Opts} {sol : Solver.Solution} (h : Fit.fitSingle func ne x0 method o = .ok sol)
    (hn : sol.n_iter = 0) : x0.single.vals = [sol.x] := by
  unfold Fit.fitSingle at h
  dsimp only at h
  split at h
  · next v hv =>
    split_ifs at h
    cases method with
    | mle => cases h
    | other => cases h
    | density =>
      cases ne with
      | none => cases h
      | some e =>
        dsimp only at h
        cases hs : Solver.solve (Fit.cfg func e o) v with
        | error err => rw [hs] at h; cases h
        | ok s' =>
          rw [hs] at h
          cases h
          rw [hv, solve_zero hs hn]
  · cases h

section

variable (c : Cls) {x y : ℕ → XR}

theorem func_eq {s : S} (hr : s.Reads x y) :
    s.func c = Fit.exp_edges_f_jac (fun d i j => c.p_jac_ij d (x i) (y j) (c.prop_dyad i j)) c.n
      s.obj.selfloops := by
  unfold S.func
  rw [hr.1, hr.2]

theorem valid_param {s : S} (hs : s.Valid) {a : Addr} (ha : a < s.mem.next) :
    ({ s with obj.param := some a } : S).Valid :=
  S.Valid.mk hs.out hs.inn (fun b hb => by cases hb; exact ha) (fun a ha => hs.deg ha)
    (fun a ha => hs.dout ha) (fun a ha => hs.din ha) (fun i j a ha => hs.av ha)

theorem post_fit (jUndef : ℕ) (s : S) (hs : s.Valid) (hr : s.Reads x y) (x0 : Start)
    (method : Fit.Method) (o : Fit.Opts) (hu : ∀ a, (Call.fit x0 method o).Uses a → a < s.mem.next) :
    CallPost s (call jUndef c (.fit x0 method o) s)
      (vcall jUndef c x y (.fit (x0.read s.mem) method o) s.view) := by
  unfold call vcall fit
  dsimp only
  rw [func_eq c hr]
  have hsl : s.view.selfloops = s.obj.selfloops := rfl
  rw [hsl]
  cases hf : Fit.fitSingle (Fit.exp_edges_f_jac (fun d i j => c.p_jac_ij d (x i) (y j)
      (c.prop_dyad i j)) c.n s.obj.selfloops) c.num_edges (x0.read s.mem) method o with
  | error e => exact ⟨.refl hs, rfl, fun a ha => by cases ha⟩
  | ok sol =>
    dsimp only
    cases hk : x0.kept sol with
    | none =>
      dsimp only
      have ha := keeps_alloc s hs (fun _ => sol.x)
      have hv := valid_param ha.valid (a := s.mem.next) (Nat.lt_succ_self _)
      refine ⟨⟨hv, ha.ext, rfl, rfl⟩, ?_, fun a ha => by cases ha⟩
      have h1 := view_ext s hs _ ha.ext
      have : ({ mem := s.mem.alloc (fun _ => sol.x)
                obj := { s.obj with param := some s.mem.next } } : S).view
          = { s.view with param := some sol.x } := by
        rw [← h1]
        simp only [S.view, Option.map_some, Mem.alloc_self]
      rw [this]
      rfl
    | some a =>
      dsimp only
      cases x0 with
      | none => cases hk
      | scalar v b => cases hk
      | array b len i num =>
        have hk' : sol.n_iter = 0 ∧ b = a := by
          unfold Start.kept at hk
          dsimp only at hk
          split_ifs at hk with h0
          exact ⟨h0, Option.some.inj hk⟩
        obtain ⟨h0, rfl⟩ := hk'
        have hval := fitSingle_zero hf h0
        have hcell : s.mem.cell b 0 = sol.x := by
          unfold Start.read Fit.X0.single at hval
          dsimp only at hval
          cases len with
          | zero => cases hval
          | succ k =>
            rw [List.range_succ_eq_map, List.map_cons] at hval
            exact (List.cons.inj hval).1
        refine ⟨⟨valid_param hs (hu b rfl), .refl _, rfl, rfl⟩, ?_, fun a ha => by cases ha⟩
        have : ({ s with obj.param := some b } : S).view = { s.view with param := some sol.x } := by
          simp only [S.view, Option.map_some, hcell]
        rw [this]
        rfl

/-- Every call agrees with the call on values. -/
theorem post_call (jUndef : ℕ) (s : S) (hs : s.Valid) (hr : s.Reads x y) (k : Call)
    (hu : ∀ a, k.Uses a → a < s.mem.next) :
    CallPost s (call jUndef c k s) (vcall jUndef c x y (k.val s.mem) s.view) := by
  cases k with
  | fit x0 method o => exact post_fit c jUndef s hs hr x0 method o hu
  | numEdges r =>
    exact PostN.call (m := Query.expected_num_edges (c.ens x y 0) c.n r)
      (post_num_edges c s hs hr r)
  | degree r =>
    exact PostA.call (m := Query.expected_degree (c.ens x y 0) c.n r)
      (post_degree c s hs hr r)
  | outDegree r =>
    exact PostA.call (m := Query.expected_out_degree (c.ens x y 0) c.n r)
      (post_out_degree c s hs hr r)
  | inDegree r =>
    exact PostA.call (m := Query.expected_in_degree (c.ens x y 0) c.n r)
      (post_in_degree c s hs hr r)
  | avNnProp len prop ndir sl dr =>
    exact PostA.call (m := Query.expected_av_nn_property jUndef (c.ens x y 0) c.n len
      (s.mem.cell prop) ndir sl dr) (post_av_property c jUndef s hs hr len prop (hu prop rfl) ndir sl dr)
  | avNnDegree ddir ndir sl dr r =>
    exact PostA.call (m := Query.expected_av_nn_degree jUndef (c.ens x y 0) c.n ddir ndir sl dr r)
      (post_av_degree c jUndef s hs hr ddir ndir sl dr r)
  | logLikelihood link =>
    obtain ⟨rfl, rfl⟩ := hr
    unfold call vcall log_likelihood Call.val
    dsimp only
    cases hp : s.obj.param with
    | none =>
      have : s.view.param = none := by simp [S.view, hp]
      rw [this]
      exact ⟨.refl hs, rfl, fun a ha => by cases ha⟩
    | some a =>
      have : s.view.param = some (s.mem.cell a 0) := by simp [S.view, hp]
      rw [this]
      exact ⟨.refl hs, rfl, fun a ha => by cases ha⟩

end

end Alias

end Verif
