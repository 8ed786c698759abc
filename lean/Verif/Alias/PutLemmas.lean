import Verif.Alias.CallLemmas

/-!
# Writes into an array that is not an attribute of the ensemble
-/

namespace Verif

open XR DiGraphEnsemble

namespace Alias

/-- `a` exists and is not an attribute. -/
def S.Free (s : S) (a : Addr) : Prop := a < s.mem.next ∧ ¬ s.obj.Owns a

/-- The method neither reads, nor writes, nor stores, nor returns the array `a`. -/
structure Comm {α : Type} (a : Addr) (w : ℕ → XR) (ne : α → Prop) (s : S) (m : M α) : Prop where
  eq : m (s.put a w) = ((m s).1, (m s).2.put a w)
  free : (m s).2.Free a
  ne : ∀ v, (m s).1 = .ok v → ne v

theorem Comm.bind {α β : Type} {a : Addr} {w : ℕ → XR} {ne : α → Prop} {ne' : β → Prop} {s : S}
    {m : M α} {f : α → M β} (h1 : Comm a w ne s m)
    (h2 : ∀ v s', s'.Free a → ne v → Comm a w ne' s' (f v)) : Comm a w ne' s (m.bind f) := by
  have he : (m.bind f) (s.put a w) = (match m s with
      | (.ok v, s') => f v (s'.put a w)
      | (.error e, s') => (.error e, s'.put a w)) := by
    unfold M.bind
    rw [h1.eq]
    obtain ⟨e | v, s'⟩ := m s <;> rfl
  have hf := h1.free
  have hn := h1.ne
  have hm : (m.bind f) s = (match m s with
      | (.ok v, s') => f v s'
      | (.error e, s') => (.error e, s')) := rfl
  refine ⟨?_, ?_, ?_⟩
  · rw [he, hm]
    generalize m s = r at hf hn
    obtain ⟨e | v, s'⟩ := r
    · rfl
    · exact (h2 v s' hf (hn v rfl)).eq
  · rw [hm]
    generalize m s = r at hf hn
    obtain ⟨e | v, s'⟩ := r
    · exact hf
    · exact (h2 v s' hf (hn v rfl)).free
  · rw [hm]
    generalize m s = r at hf hn
    obtain ⟨e | v, s'⟩ := r
    · intro v hv; cases hv
    · exact (h2 v s' hf (hn v rfl)).ne

theorem alloc_put {m : Mem} {a : Addr} (ha : a < m.next) (w v : ℕ → XR) :
    (m.put a w).alloc v = (m.alloc v).put a w := by
  unfold Mem.alloc Mem.put
  simp only
  rw [Function.update_comm (Nat.ne_of_gt ha)]

theorem put_cell {m : Mem} {a b : Addr} (h : b ≠ a) (w : ℕ → XR) : (m.put a w).cell b = m.cell b :=
  Function.update_of_ne h _ _

theorem put_self (m : Mem) (a : Addr) (w : ℕ → XR) : (m.put a w).cell a = w :=
  Function.update_self _ _ _

section

variable (c : Cls) {s : S} {a : Addr} {w : ℕ → XR}

theorem free_out (h : s.Free a) : s.obj.prop_out ≠ a := fun e => h.2 (.inl e.symm)
theorem free_in (h : s.Free a) : s.obj.prop_in ≠ a := fun e => h.2 (.inr (.inl e.symm))
theorem free_param (h : s.Free a) {b : Addr} (e : s.obj.param = some b) : b ≠ a :=
  fun e' => h.2 (.inr (.inr (.inl (e' ▸ e))))
theorem free_deg (h : s.Free a) {b : Addr} (e : s.obj.exp_degree = some b) : b ≠ a :=
  fun e' => h.2 (.inr (.inr (.inr (.inl (e' ▸ e)))))
theorem free_dout (h : s.Free a) {b : Addr} (e : s.obj.exp_out_degree = some b) : b ≠ a :=
  fun e' => h.2 (.inr (.inr (.inr (.inr (.inl (e' ▸ e))))))
theorem free_din (h : s.Free a) {b : Addr} (e : s.obj.exp_in_degree = some b) : b ≠ a :=
  fun e' => h.2 (.inr (.inr (.inr (.inr (.inr (.inl (e' ▸ e)))))))
theorem free_av (h : s.Free a) {b : Addr} {i j : Dir} (e : s.obj.exp_av i j = some b) : b ≠ a :=
  fun e' => h.2 (.inr (.inr (.inr (.inr (.inr (.inr ⟨i, j, e' ▸ e⟩))))))

theorem free_mk (h0 : a < s.mem.next) (h1 : s.obj.prop_out ≠ a) (h2 : s.obj.prop_in ≠ a)
    (h3 : s.obj.param ≠ some a) (h4 : s.obj.exp_degree ≠ some a)
    (h5 : s.obj.exp_out_degree ≠ some a) (h6 : s.obj.exp_in_degree ≠ some a)
    (h7 : ∀ i j, s.obj.exp_av i j ≠ some a) : s.Free a := by
  refine ⟨h0, ?_⟩
  rintro (h | h | h | h | h | h | ⟨i, j, h⟩)
  · exact h1 h.symm
  · exact h2 h.symm
  · exact h3 h
  · exact h4 h
  · exact h5 h
  · exact h6 h
  · exact h7 i j h

theorem ens_put (h : s.Free a) {b : Addr} (hb : s.obj.param = some b) :
    (s.put a w).ens c b = s.ens c b := by
  unfold S.ens S.put
  simp only
  rw [put_cell (free_out h), put_cell (free_in h), put_cell (free_param h hb)]

theorem comm_num_edges (h : s.Free a) (r : Bool) :
    Comm a w (fun _ => True) s (expected_num_edges c r) := by
  have hobj : (s.put a w).obj = s.obj := rfl
  cases hp : s.obj.param with
  | none =>
    have e1 : expected_num_edges c r s = (.error .notFitted, s) := by
      unfold expected_num_edges; rw [hp]
    have e2 : expected_num_edges c r (s.put a w) = (.error .notFitted, s.put a w) := by
      unfold expected_num_edges; rw [hobj, hp]
    exact ⟨by rw [e1, e2], by rw [e1]; exact h, fun _ _ => trivial⟩
  | some b =>
    cases hb : (s.obj.exp_num_edges.isNone || r) with
    | true =>
      have e1 : expected_num_edges c r s = (.ok ((s.ens c b).exp_edges c.n s.obj.selfloops),
          { s with obj.exp_num_edges := some ((s.ens c b).exp_edges c.n s.obj.selfloops) }) := by
        unfold expected_num_edges; rw [hp]; simp only [hb, if_true]
      have e2 : expected_num_edges c r (s.put a w) =
          (.ok ((s.ens c b).exp_edges c.n s.obj.selfloops),
          ({ s with obj.exp_num_edges := some ((s.ens c b).exp_edges c.n s.obj.selfloops) } :
            S).put a w) := by
        unfold expected_num_edges; rw [hobj, hp]; simp only [hb, if_true]
        rw [ens_put c h hp]
        rfl
      exact ⟨by rw [e1, e2], by rw [e1]; exact h, fun _ _ => trivial⟩
    | false =>
      cases hv : s.obj.exp_num_edges with
      | none => rw [hv] at hb; simp at hb
      | some v =>
        have e1 : expected_num_edges c r s = (.ok v, s) := by
          unfold expected_num_edges; rw [hp]; simp only [hb, Bool.false_eq_true, if_false]; rw [hv]
        have e2 : expected_num_edges c r (s.put a w) = (.ok v, s.put a w) := by
          unfold expected_num_edges; rw [hobj, hp]
          simp only [hb, Bool.false_eq_true, if_false, hobj]; rw [hv]
        exact ⟨by rw [e1, e2], by rw [e1]; exact h, fun _ _ => trivial⟩

theorem comm_degree (h : s.Free a) (r : Bool) :
    Comm a w (fun v => v ≠ a) s (expected_degree c r) := by
  have hobj : (s.put a w).obj = s.obj := rfl
  cases hp : s.obj.param with
  | none =>
    have e1 : expected_degree c r s = (.error .notFitted, s) := by
      unfold expected_degree; rw [hp]
    have e2 : expected_degree c r (s.put a w) = (.error .notFitted, s.put a w) := by
      unfold expected_degree; rw [hobj, hp]
    exact ⟨by rw [e1, e2], by rw [e1]; exact h, by rw [e1]; intro v hv; cases hv⟩
  | some b =>
    cases hb : (s.obj.exp_degree.isNone || r) with
    | true =>
      have e1 : expected_degree c r s = (.ok s.mem.next,
          { mem := ((s.mem.alloc ((s.ens c b).exp_degrees c.n s.obj.selfloops).exp_d).alloc
              ((s.ens c b).exp_degrees c.n s.obj.selfloops).exp_d_out).alloc
              ((s.ens c b).exp_degrees c.n s.obj.selfloops).exp_d_in
            obj := { s.obj with exp_degree := some s.mem.next,
                                exp_out_degree := some (s.mem.next + 1),
                                exp_in_degree := some (s.mem.next + 2) } }) := by
        unfold expected_degree; rw [hp]; simp only [hb, if_true]
      have e2 : expected_degree c r (s.put a w) = (.ok s.mem.next,
          ({ mem := ((s.mem.alloc ((s.ens c b).exp_degrees c.n s.obj.selfloops).exp_d).alloc
              ((s.ens c b).exp_degrees c.n s.obj.selfloops).exp_d_out).alloc
              ((s.ens c b).exp_degrees c.n s.obj.selfloops).exp_d_in
             obj := { s.obj with exp_degree := some s.mem.next,
                                 exp_out_degree := some (s.mem.next + 1),
                                 exp_in_degree := some (s.mem.next + 2) } } : S).put a w) := by
        unfold expected_degree; rw [hobj, hp]; simp only [hb, if_true]
        rw [ens_put c h hp]
        unfold S.put
        simp only
        rw [alloc_put h.1, alloc_put (Nat.lt_succ_of_lt h.1),
          alloc_put (Nat.lt_succ_of_lt (Nat.lt_succ_of_lt h.1))]
        rfl
      have hlt : a < s.mem.next := h.1
      refine ⟨by rw [e1, e2], ?_, ?_⟩
      · rw [e1]
        refine free_mk (Nat.lt_succ_of_lt (Nat.lt_succ_of_lt (Nat.lt_succ_of_lt h.1)))
          (free_out (s := s) h) (free_in (s := s) h) (fun e => free_param h e rfl) ?_ ?_ ?_
          (fun i j e => free_av h e rfl)
        · exact fun e => (Nat.ne_of_gt hlt) (Option.some.inj e)
        · exact fun e => (Nat.ne_of_gt (Nat.lt_succ_of_lt hlt)) (Option.some.inj e)
        · exact fun e => (Nat.ne_of_gt (Nat.lt_succ_of_lt (Nat.lt_succ_of_lt hlt)))
            (Option.some.inj e)
      · rw [e1]
        intro v hv
        cases hv
        exact Nat.ne_of_gt hlt
    | false =>
      cases hv : s.obj.exp_degree with
      | none => rw [hv] at hb; simp at hb
      | some v =>
        have e1 : expected_degree c r s = (.ok v, s) := by
          unfold expected_degree; rw [hp]; simp only [hb, Bool.false_eq_true, if_false]; rw [hv]
        have e2 : expected_degree c r (s.put a w) = (.ok v, s.put a w) := by
          unfold expected_degree; rw [hobj, hp]
          simp only [hb, Bool.false_eq_true, if_false, hobj]; rw [hv]
        exact ⟨by rw [e1, e2], by rw [e1]; exact h,
          by rw [e1]; intro v' hv'; cases hv'; exact free_deg h hv⟩

theorem comm_getOut (h : s.Free a) : Comm a w (fun v => v ≠ a) s getOut := by
  have hobj : (s.put a w).obj = s.obj := rfl
  cases hv : s.obj.exp_out_degree with
  | none =>
    have e1 : getOut s = (.error .attribute, s) := by unfold getOut; rw [hv]
    have e2 : getOut (s.put a w) = (.error .attribute, s.put a w) := by
      unfold getOut; rw [hobj, hv]
    exact ⟨by rw [e1, e2], by rw [e1]; exact h, by rw [e1]; intro v hv; cases hv⟩
  | some b =>
    have e1 : getOut s = (.ok b, s) := by unfold getOut; rw [hv]
    have e2 : getOut (s.put a w) = (.ok b, s.put a w) := by unfold getOut; rw [hobj, hv]
    exact ⟨by rw [e1, e2], by rw [e1]; exact h,
      by rw [e1]; intro v' hv'; cases hv'; exact free_dout h hv⟩

theorem comm_getIn (h : s.Free a) : Comm a w (fun v => v ≠ a) s getIn := by
  have hobj : (s.put a w).obj = s.obj := rfl
  cases hv : s.obj.exp_in_degree with
  | none =>
    have e1 : getIn s = (.error .attribute, s) := by unfold getIn; rw [hv]
    have e2 : getIn (s.put a w) = (.error .attribute, s.put a w) := by
      unfold getIn; rw [hobj, hv]
    exact ⟨by rw [e1, e2], by rw [e1]; exact h, by rw [e1]; intro v hv; cases hv⟩
  | some b =>
    have e1 : getIn s = (.ok b, s) := by unfold getIn; rw [hv]
    have e2 : getIn (s.put a w) = (.ok b, s.put a w) := by unfold getIn; rw [hobj, hv]
    exact ⟨by rw [e1, e2], by rw [e1]; exact h,
      by rw [e1]; intro v' hv'; cases hv'; exact free_din h hv⟩

theorem comm_getAv (h : s.Free a) (i j : Dir) : Comm a w (fun v => v ≠ a) s (getAv i j) := by
  have hobj : (s.put a w).obj = s.obj := rfl
  cases hv : s.obj.exp_av i j with
  | none =>
    have e1 : getAv i j s = (.error .attribute, s) := by unfold getAv; rw [hv]
    have e2 : getAv i j (s.put a w) = (.error .attribute, s.put a w) := by
      unfold getAv; rw [hobj, hv]
    exact ⟨by rw [e1, e2], by rw [e1]; exact h, by rw [e1]; intro v hv; cases hv⟩
  | some b =>
    have e1 : getAv i j s = (.ok b, s) := by unfold getAv; rw [hv]
    have e2 : getAv i j (s.put a w) = (.ok b, s.put a w) := by unfold getAv; rw [hobj, hv]
    exact ⟨by rw [e1, e2], by rw [e1]; exact h,
      by rw [e1]; intro v' hv'; cases hv'; exact free_av h hv⟩

/-- A method that does one of two things depending on the attributes. -/
theorem Comm.ite {α : Type} {ne : α → Prop} {m m1 m2 : M α} (b : Obj → Bool)
    (hm : ∀ s, m s = if b s.obj then m1 s else m2 s) (h1 : Comm a w ne s m1)
    (h2 : Comm a w ne s m2) : Comm a w ne s m := by
  have hobj : (s.put a w).obj = s.obj := rfl
  cases hb : b s.obj with
  | true =>
    have e1 : m s = m1 s := by rw [hm, hb]; rfl
    have e2 : m (s.put a w) = m1 (s.put a w) := by rw [hm, hobj, hb]; rfl
    exact ⟨by rw [e1, e2, h1.eq], by rw [e1]; exact h1.free, by rw [e1]; exact h1.ne⟩
  | false =>
    have e1 : m s = m2 s := by rw [hm, hb]; rfl
    have e2 : m (s.put a w) = m2 (s.put a w) := by rw [hm, hobj, hb]; rfl
    exact ⟨by rw [e1, e2, h2.eq], by rw [e1]; exact h2.free, by rw [e1]; exact h2.ne⟩

theorem comm_out_degree (h : s.Free a) (r : Bool) :
    Comm a w (fun v => v ≠ a) s (expected_out_degree c r) :=
  .ite (fun o => o.exp_out_degree.isNone || r) (fun _ => rfl)
    ((comm_degree c h r).bind fun _ _ h' _ => comm_getOut h') (comm_getOut h)

theorem comm_in_degree (h : s.Free a) (r : Bool) :
    Comm a w (fun v => v ≠ a) s (expected_in_degree c r) :=
  .ite (fun o => o.exp_in_degree.isNone || r) (fun _ => rfl)
    ((comm_degree c h r).bind fun _ _ h' _ => comm_getIn h') (comm_getIn h)

theorem comm_raise {α : Type} {ne : α → Prop} (h : s.Free a) (e : Query.Err) :
    Comm a w ne s (fun s => (.error e, s)) :=
  ⟨rfl, h, fun v hv => by cases hv⟩

theorem comm_byDir (h : s.Free a) (bad : Query.Err) (dir : Dir) (r : Bool) :
    Comm a w (fun v => v ≠ a) s (degreeByDir c bad dir r) := by
  cases dir with
  | out => exact comm_out_degree c h r
  | inn => exact comm_in_degree c h r
  | outIn => exact comm_degree c h r
  | underscored => exact comm_raise h bad
  | other => exact comm_raise h bad

theorem free_restore (h : s.Free a) (t : Bool) : (restore t s).Free a := by
  unfold restore
  split
  · exact free_mk h.1 (free_out (s := s) h) (free_in (s := s) h) (fun e => free_param h e rfl) (fun e => by cases e)
      (fun e => by cases e) (fun e => by cases e) (fun i j e => free_av h e rfl)
  · exact h

theorem put_restore (t : Bool) : restore t (s.put a w) = (restore t s).put a w := by
  unfold restore
  have hobj : (s.put a w).obj = s.obj := rfl
  rw [hobj]
  split <;> rfl

theorem free_setSelfloops (h : s.Free a) (b : Bool) : (setSelfloops b s).Free a := h

theorem free_alloc (h : s.Free a) (v : ℕ → XR) : ({ s with mem := s.mem.alloc v } : S).Free a :=
  ⟨Nat.lt_succ_of_lt h.1, h.2⟩

/-- A method after a change of attributes. -/
theorem Comm.after {α : Type} {ne : α → Prop} {m : M α} (g : S → S)
    (hg : g (s.put a w) = (g s).put a w) (h : Comm a w ne (g s) m) :
    Comm a w ne s (fun s => m (g s)) :=
  ⟨by simp only [hg]; exact h.eq, h.free, h.ne⟩

/-- The second half of `expected_av_nn_property`. -/
theorem comm_average (jUndef : ℕ) (h : s.Free a) {b prop deg : Addr} (hb : b ≠ a) (hp : prop ≠ a)
    (hd : deg ≠ a) (ndir : Dir) (t : Bool) :
    Comm a w (fun v => v ≠ a) s (fun s =>
        match DiGraphEnsemble.exp_av_nn_prop jUndef c.p_ij (s.mem.cell b 0) c.n
            (s.mem.cell s.obj.prop_out) (s.mem.cell s.obj.prop_in) c.prop_dyad (s.mem.cell prop) ndir
            s.obj.selfloops with
        | .error _ => (.error .badNdir, s)
        | .ok av_nn =>
          if (List.range c.n).all (fun i => !(s.mem.cell deg i).isZero || (av_nn i).isZero) then
            (.ok s.mem.next,
              restore t { s with mem := s.mem.alloc (Query.average av_nn (s.mem.cell deg)) })
          else (.error .emptyNeighbourhood, s)) := by
  have hobj : (s.put a w).obj = s.obj := rfl
  have hcell : ∀ b, b ≠ a → (s.put a w).mem.cell b = s.mem.cell b := fun b hb => put_cell hb w
  cases hr : DiGraphEnsemble.exp_av_nn_prop jUndef c.p_ij (s.mem.cell b 0) c.n
            (s.mem.cell s.obj.prop_out) (s.mem.cell s.obj.prop_in) c.prop_dyad (s.mem.cell prop) ndir
            s.obj.selfloops with
  | error e =>
    refine ⟨?_, ?_, ?_⟩
    · simp only [hobj, hcell _ hb, hcell _ hp, hcell _ (free_out h), hcell _ (free_in h), hr]
    · simp only [hr]; exact h
    · simp only [hr]; intro v hv; cases hv
  | ok av =>
    cases hc : (List.range c.n).all (fun i => !(s.mem.cell deg i).isZero || (av i).isZero) with
    | true =>
      refine ⟨?_, ?_, ?_⟩
      · simp only [hobj, hcell _ hb, hcell _ hp, hcell _ hd, hcell _ (free_out h),
          hcell _ (free_in h), hr, hc, if_true]
        rw [← put_restore]
        unfold S.put
        simp only
        rw [alloc_put h.1]
        rfl
      · simp only [hr, hc, if_true]
        exact free_restore (free_alloc h _) _
      · simp only [hr, hc, if_true]
        intro v hv
        cases hv
        exact Nat.ne_of_gt h.1
    | false =>
      refine ⟨?_, ?_, ?_⟩
      · simp only [hobj, hcell _ hb, hcell _ hp, hcell _ hd, hcell _ (free_out h),
          hcell _ (free_in h), hr, hc, Bool.false_eq_true, if_false]
      · simp only [hr, hc, Bool.false_eq_true, if_false]; exact h
      · simp only [hr, hc, Bool.false_eq_true, if_false]; intro v hv; cases hv

theorem Comm.congr {α : Type} {ne : α → Prop} {m m' : M α} (h : Comm a w ne s m') (e1 : m s = m' s)
    (e2 : m (s.put a w) = m' (s.put a w)) : Comm a w ne s m :=
  ⟨by rw [e1, e2, h.eq], by rw [e1]; exact h.free, by rw [e1]; exact h.ne⟩

theorem comm_av_property (jUndef : ℕ) (h : s.Free a) (len : ℕ) {prop : Addr} (hprop : prop ≠ a)
    (ndir : Dir) (sl : Option Bool) (dr : Bool) :
    Comm a w (fun v => v ≠ a) s (expected_av_nn_property jUndef c len prop ndir sl dr) := by
  have hobj : (s.put a w).obj = s.obj := rfl
  cases hp : s.obj.param with
  | none =>
    refine (comm_raise h .notFitted).congr ?_ ?_
    · unfold expected_av_nn_property; rw [hp]
    · unfold expected_av_nn_property; rw [hobj, hp]
  | some b =>
    by_cases hl : len = c.n
    · refine Comm.congr (Comm.after (setSelfloops (sl.getD s.obj.selfloops)) rfl
        ((comm_byDir c (free_setSelfloops h _) .badNdir ndir
          (dr || (sl.getD s.obj.selfloops != s.obj.selfloops))).bind fun deg s' h' hd =>
            comm_average c jUndef h' (free_param h hp) hprop hd ndir s.obj.selfloops)) ?_ ?_
      · unfold expected_av_nn_property
        rw [hp]
        simp only [hl, ne_eq, not_true, if_false]
        rfl
      · unfold expected_av_nn_property
        rw [hobj, hp]
        simp only [hl, ne_eq, not_true, if_false]
        rfl
    · refine (comm_raise h .badShape).congr ?_ ?_
      · unfold expected_av_nn_property; rw [hp]; simp only [ne_eq, hl, not_false_eq_true, if_true]
      · unfold expected_av_nn_property; rw [hobj, hp]
        simp only [ne_eq, hl, not_false_eq_true, if_true]

theorem free_setAv (h : s.Free a) (i j : Dir) {r : Addr} (hr : r ≠ a) : (setAv i j r s).Free a := by
  refine free_mk h.1 (free_out (s := s) h) (free_in (s := s) h) (fun e => free_param h e rfl)
    (fun e => free_deg h e rfl) (fun e => free_dout h e rfl) (fun e => free_din h e rfl)
    (fun i' j' e => ?_)
  unfold setAv at e
  dsimp only at e
  split_ifs at e
  · exact hr (Option.some.inj e)
  · exact free_av h e rfl

theorem comm_av_degree (jUndef : ℕ) (h : s.Free a) (ddir ndir : Dir) (sl : Option Bool)
    (dr r : Bool) :
    Comm a w (fun v => v ≠ a) s (expected_av_nn_degree jUndef c ddir ndir sl dr r) := by
  have hobj : (s.put a w).obj = s.obj := rfl
  cases hp : s.obj.param with
  | none =>
    refine (comm_raise h .notFitted).congr ?_ ?_
    · unfold expected_av_nn_degree; rw [hp]
    · unfold expected_av_nn_degree; rw [hobj, hp]
  | some b =>
    cases hc : ((s.obj.exp_av ndir.key ddir.key).isNone || r || dr) with
    | true =>
      refine Comm.congr (Comm.after (setSelfloops (sl.getD s.obj.selfloops)) rfl
        ((comm_byDir c (free_setSelfloops h _) .badDdir ddir
          (dr || (sl.getD s.obj.selfloops != s.obj.selfloops))).bind fun deg s' h' hd =>
            (comm_av_property c jUndef h' c.n hd ndir (some (sl.getD s.obj.selfloops)) false).bind
              fun res s'' h'' hres =>
                Comm.after (fun s' => restore s.obj.selfloops (setAv ndir.key ddir.key res s'))
                  (put_restore (s := setAv ndir.key ddir.key res s'') _)
                  (comm_getAv (free_restore (free_setAv h'' _ _ hres) _) ndir.key ddir.key))) ?_ ?_
      · unfold expected_av_nn_degree
        rw [hp]
        simp only [hc, if_true]
      · unfold expected_av_nn_degree
        rw [hobj, hp]
        simp only [hc, if_true]
    | false =>
      refine (comm_getAv h ndir.key ddir.key).congr ?_ ?_
      · unfold expected_av_nn_degree; rw [hp]; simp only [hc, Bool.false_eq_true, if_false]
      · unfold expected_av_nn_degree; rw [hobj, hp]; simp only [hc, Bool.false_eq_true, if_false]

theorem comm_log_likelihood (h : s.Free a) (link : ℕ → ℕ → Bool) :
    Comm a w (fun _ => True) s (log_likelihood c link) := by
  have hobj : (s.put a w).obj = s.obj := rfl
  cases hp : s.obj.param with
  | none =>
    refine (comm_raise h .notFitted).congr ?_ ?_
    · unfold log_likelihood; rw [hp]
    · unfold log_likelihood; rw [hobj, hp]
  | some b =>
    have e1 : log_likelihood c link s = (.ok ((s.ens c b).likelihood c.n link s.obj.selfloops), s) := by
      unfold log_likelihood; rw [hp]
    have e2 : log_likelihood c link (s.put a w) =
        (.ok ((s.ens c b).likelihood c.n link s.obj.selfloops), s.put a w) := by
      unfold log_likelihood; rw [hobj, hp]; simp only; rw [ens_put c h hp]
    exact ⟨by rw [e1, e2], by rw [e1]; exact h, fun _ _ => trivial⟩

/-! ### Calls -/

/-- The same for calls. -/
structure CallComm (a : Addr) (w : ℕ → XR) (s : S) (f : S → Out Addr × S) : Prop where
  eq : f (s.put a w) = ((f s).1, (f s).2.put a w)
  free : (f s).2.Free a
  ne : (f s).1 ≠ .arr a

theorem Comm.callA {m : M Addr} (h : Comm a w (fun v => v ≠ a) s m) :
    CallComm a w s (fun s => Prod.map (Out.of .arr) id (m s)) := by
  refine ⟨by simp only [h.eq, Prod.map, id], h.free, ?_⟩
  have hn := h.ne
  generalize m s = r at hn
  obtain ⟨e | v, s'⟩ := r
  · intro e; cases e
  · intro e
    cases e
    exact hn a rfl rfl

theorem Comm.callN {ne : XR → Prop} {m : M XR} (h : Comm a w ne s m) :
    CallComm a w s (fun s => Prod.map (Out.of .num) id (m s)) := by
  refine ⟨by simp only [h.eq, Prod.map, id], h.free, ?_⟩
  generalize m s = r
  obtain ⟨e | v, s'⟩ := r <;> · intro e; cases e

theorem read_put (x0 : Start) {m : Mem} (hx : ∀ b len i num, x0 = .array b len i num → b ≠ a) :
    x0.read (m.put a w) = x0.read m := by
  cases x0 with
  | none => rfl
  | scalar v b => rfl
  | array b len i num =>
    unfold Start.read
    simp only
    rw [put_cell (hx b len i num rfl)]

theorem func_put (h : s.Free a) : (s.put a w).func c = s.func c := by
  unfold S.func S.put
  simp only
  rw [put_cell (free_out h), put_cell (free_in h)]

theorem kept_array {x0 : Start} {sol : Solver.Solution} {b : Addr} (h : x0.kept sol = some b) :
    ∃ len i num, x0 = .array b len i num ∧ sol.n_iter = 0 := by
  cases x0 with
  | none => cases h
  | scalar v b => cases h
  | array b' len i num =>
    unfold Start.kept at h
    dsimp only at h
    split_ifs at h with h0
    cases h
    exact ⟨len, i, num, rfl, h0⟩

theorem free_setParam (h : s.Free a) {b : Addr} (hb : b ≠ a) :
    ({ s with obj.param := some b } : S).Free a :=
  free_mk h.1 (free_out (s := s) h) (free_in (s := s) h) (fun e => hb (Option.some.inj e))
    (fun e => free_deg h e rfl) (fun e => free_dout h e rfl) (fun e => free_din h e rfl)
    (fun _ _ e => free_av h e rfl)

theorem comm_fit (jUndef : ℕ) (h : s.Free a) (x0 : Start) (method : Fit.Method) (o : Fit.Opts)
    (hx : ∀ b len i num, x0 = .array b len i num → b ≠ a) :
    CallComm a w s (call jUndef c (.fit x0 method o)) := by
  cases hf : Fit.fitSingle (s.func c) c.num_edges (x0.read s.mem) method o with
  | error e =>
    have e1 : call jUndef c (.fit x0 method o) s = (.raisedFit e, s) := by
      unfold call fit; simp only [hf]
    have e2 : call jUndef c (.fit x0 method o) (s.put a w) = (.raisedFit e, s.put a w) := by
      unfold call fit
      dsimp only
      rw [func_put c h]
      have : (s.put a w).mem = s.mem.put a w := rfl
      rw [this, read_put x0 hx]
      simp only [hf]
    exact ⟨by rw [e1, e2], by rw [e1]; exact h, by rw [e1]; intro e; cases e⟩
  | ok sol =>
    cases hk : x0.kept sol with
    | some b =>
      obtain ⟨len, i, num, hx0, -⟩ := kept_array hk
      have hb := hx b len i num hx0
      have e1 : call jUndef c (.fit x0 method o) s = (.none, { s with obj.param := some b }) := by
        unfold call fit; simp only [hf, hk]
      have e2 : call jUndef c (.fit x0 method o) (s.put a w) =
          (.none, ({ s with obj.param := some b } : S).put a w) := by
        unfold call fit
        dsimp only
        rw [func_put c h]
        have : (s.put a w).mem = s.mem.put a w := rfl
        rw [this, read_put x0 hx]
        simp only [hf, hk]
        rfl
      exact ⟨by rw [e1, e2], by rw [e1]; exact free_setParam h hb, by rw [e1]; intro e; cases e⟩
    | none =>
      have e1 : call jUndef c (.fit x0 method o) s =
          (.none, { mem := s.mem.alloc (fun _ => sol.x)
                    obj := { s.obj with param := some s.mem.next } }) := by
        unfold call fit; simp only [hf, hk]
      have e2 : call jUndef c (.fit x0 method o) (s.put a w) =
          (.none, ({ mem := s.mem.alloc (fun _ => sol.x)
                     obj := { s.obj with param := some s.mem.next } } : S).put a w) := by
        unfold call fit
        dsimp only
        rw [func_put c h]
        have : (s.put a w).mem = s.mem.put a w := rfl
        rw [this, read_put x0 hx]
        simp only [hf, hk]
        rw [alloc_put h.1]
        rfl
      exact ⟨by rw [e1, e2], by
        rw [e1]; exact free_setParam (free_alloc h _) (Nat.ne_of_gt h.1), by
        rw [e1]; intro e; cases e⟩

theorem comm_call (jUndef : ℕ) (h : s.Free a) (k : Call) (hk : ¬ k.Uses a) :
    CallComm a w s (call jUndef c k) := by
  cases k with
  | fit x0 method o =>
    refine comm_fit c jUndef h x0 method o ?_
    rintro b len i num rfl rfl
    exact hk rfl
  | numEdges r => exact (comm_num_edges c h r).callN
  | degree r => exact (comm_degree c h r).callA
  | outDegree r => exact (comm_out_degree c h r).callA
  | inDegree r => exact (comm_in_degree c h r).callA
  | avNnProp len prop ndir sl dr =>
    exact (comm_av_property c jUndef h len (fun e => hk e.symm) ndir sl dr).callA
  | avNnDegree ddir ndir sl dr r => exact (comm_av_degree c jUndef h ddir ndir sl dr r).callA
  | logLikelihood link => exact (comm_log_likelihood c h link).callN

end

end Alias

end Verif
