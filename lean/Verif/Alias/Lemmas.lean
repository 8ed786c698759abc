import Verif.Alias.Model
import Verif.Solver.Lemmas

/-!
# Methods on shared arrays and methods on values
-/

namespace Verif

open XR DiGraphEnsemble

namespace Alias

/-- The state of the ensemble with the arrays replaced by their present contents. -/
noncomputable def S.view (s : S) : Query.St XR where
  param := s.obj.param.map (fun a => s.mem.cell a 0)
  selfloops := s.obj.selfloops
  exp_num_edges := s.obj.exp_num_edges
  exp_degree := s.obj.exp_degree.map s.mem.cell
  exp_out_degree := s.obj.exp_out_degree.map s.mem.cell
  exp_in_degree := s.obj.exp_in_degree.map s.mem.cell
  exp_av := fun i j => (s.obj.exp_av i j).map s.mem.cell

/-- The arrays that are attributes of the ensemble. -/
def Obj.Owns (o : Obj) (a : Addr) : Prop :=
  a = o.prop_out ∨ a = o.prop_in ∨ o.param = some a ∨ o.exp_degree = some a ∨
    o.exp_out_degree = some a ∨ o.exp_in_degree = some a ∨ ∃ i j, o.exp_av i j = some a

/-- The attributes are existing arrays. -/
def S.Valid (s : S) : Prop := ∀ a, s.obj.Owns a → a < s.mem.next

/-- No array that existed has changed. -/
def Mem.Ext (m m' : Mem) : Prop := m.next ≤ m'.next ∧ ∀ a < m.next, m'.cell a = m.cell a

theorem Mem.Ext.refl (m : Mem) : m.Ext m := ⟨le_rfl, fun _ _ => rfl⟩

theorem Mem.Ext.trans {m m' m'' : Mem} (h : m.Ext m') (h' : m'.Ext m'') : m.Ext m'' :=
  ⟨h.1.trans h'.1, fun a ha => (h'.2 a (ha.trans_le h.1)).trans (h.2 a ha)⟩

theorem Mem.alloc_ext (m : Mem) (w : ℕ → XR) : m.Ext (m.alloc w) :=
  ⟨Nat.le_succ _, fun _ ha => Function.update_of_ne ha.ne _ _⟩

@[simp] theorem Mem.alloc_next (m : Mem) (w : ℕ → XR) : (m.alloc w).next = m.next + 1 := rfl

theorem Mem.alloc_self (m : Mem) (w : ℕ → XR) : (m.alloc w).cell m.next = w :=
  Function.update_self _ _ _

/-- What every method preserves. -/
structure Keeps (s s' : S) : Prop where
  valid : s'.Valid
  ext : s.mem.Ext s'.mem
  out : s'.obj.prop_out = s.obj.prop_out
  inn : s'.obj.prop_in = s.obj.prop_in

theorem Keeps.refl {s : S} (h : s.Valid) : Keeps s s := ⟨h, .refl _, rfl, rfl⟩

theorem Keeps.trans {s s' s'' : S} (h : Keeps s s') (h' : Keeps s' s'') : Keeps s s'' :=
  ⟨h'.valid, h.ext.trans h'.ext, h'.out.trans h.out, h'.inn.trans h.inn⟩

theorem S.Valid.out {s : S} (h : s.Valid) : s.obj.prop_out < s.mem.next := h _ (.inl rfl)
theorem S.Valid.inn {s : S} (h : s.Valid) : s.obj.prop_in < s.mem.next := h _ (.inr (.inl rfl))
theorem S.Valid.param {s : S} (h : s.Valid) {a : Addr} (e : s.obj.param = some a) :
    a < s.mem.next := h _ (.inr (.inr (.inl e)))

/-- The property arrays keep their contents. -/
theorem Keeps.cells {s s' : S} (hs : s.Valid) (h : Keeps s s') :
    s'.mem.cell s'.obj.prop_out = s.mem.cell s.obj.prop_out ∧
      s'.mem.cell s'.obj.prop_in = s.mem.cell s.obj.prop_in := by
  rw [h.out, h.inn]
  exact ⟨h.ext.2 _ hs.out, h.ext.2 _ hs.inn⟩

/-- The property arrays have the contents `x`, `y`. -/
def S.Reads (s : S) (x y : ℕ → XR) : Prop :=
  s.mem.cell s.obj.prop_out = x ∧ s.mem.cell s.obj.prop_in = y

theorem Keeps.reads {s s' : S} (hs : s.Valid) (h : Keeps s s') {x y : ℕ → XR} (hr : s.Reads x y) :
    s'.Reads x y :=
  ⟨(h.cells hs).1.trans hr.1, (h.cells hs).2.trans hr.2⟩

/-- Agreement of a method on shared arrays with a method on values, from state `s`. -/
structure Post {α β : Type} (dec : Mem → α → β) (good : Mem → α → Prop) (s : S)
    (r : Except Query.Err α × S) (q : Except Query.Err β × Query.St XR) : Prop where
  keeps : Keeps s r.2
  eq : q = (r.1.map (dec r.2.mem), r.2.view)
  good : ∀ a, r.1 = .ok a → good r.2.mem a

/-- Results that are arrays. -/
abbrev PostA := Post Mem.cell (fun m a => a < m.next)
/-- Results that are numbers. -/
abbrev PostN := Post (fun _ (v : XR) => v) (fun _ _ => True)

theorem Post.bind {α β γ ε : Type} {dec : Mem → α → β} {good : Mem → α → Prop}
    {dec' : Mem → γ → ε} {good' : Mem → γ → Prop} {s : S} {h : M α} {v : Query.M XR β}
    {f : α → M γ} {g : β → Query.M XR ε} (h1 : Post dec good s (h s) (v s.view))
    (h2 : ∀ a s', Keeps s s' → good s'.mem a →
      Post dec' good' s' (f a s') (g (dec s'.mem a) s'.view)) :
    Post dec' good' s (h.bind f s) (v.bind g s.view) := by
  unfold M.bind Query.M.bind
  rw [h1.eq]
  have hk := h1.keeps
  have hg := h1.good
  generalize h s = r at hk hg ⊢
  obtain ⟨e | a, s'⟩ := r
  · exact ⟨hk, rfl, fun a ha => by cases ha⟩
  · have := h2 a s' hk (hg a rfl)
    exact ⟨hk.trans this.keeps, this.eq, this.good⟩

/-! ### The methods on values when there is a parameter -/

section

variable {E : Ens} {n : ℕ} {t : Query.St E.δ} {θ : E.δ}

theorem q_num_none (h : t.param = none) (r : Bool) :
    Query.expected_num_edges E n r t = (.error .notFitted, t) := by
  unfold Query.expected_num_edges
  rw [h]

theorem q_degree_none (h : t.param = none) (r : Bool) :
    Query.expected_degree E n r t = (.error .notFitted, t) := by
  unfold Query.expected_degree
  rw [h]

variable (h : t.param = some θ)
include h

theorem q_num (r : Bool) : Query.expected_num_edges E n r t =
    bif (t.exp_num_edges.isNone || r) then
      (.ok ((Query.at_ E θ).exp_edges n t.selfloops),
        { t with exp_num_edges := some ((Query.at_ E θ).exp_edges n t.selfloops) })
    else match t.exp_num_edges with
      | some v => (.ok v, t)
      | none => (.error .attribute, t) := by
  unfold Query.expected_num_edges
  rw [h]
  dsimp only
  cases (t.exp_num_edges.isNone || r) <;> rfl

theorem q_degree (r : Bool) : Query.expected_degree E n r t =
    bif (t.exp_degree.isNone || r) then
      (.ok ((Query.at_ E θ).exp_degrees n t.selfloops).exp_d,
        { t with exp_degree := some ((Query.at_ E θ).exp_degrees n t.selfloops).exp_d
                 exp_out_degree := some ((Query.at_ E θ).exp_degrees n t.selfloops).exp_d_out
                 exp_in_degree := some ((Query.at_ E θ).exp_degrees n t.selfloops).exp_d_in })
    else match t.exp_degree with
      | some v => (.ok v, t)
      | none => (.error .attribute, t) := by
  unfold Query.expected_degree
  rw [h]
  dsimp only
  cases (t.exp_degree.isNone || r) <;> rfl

end

section

variable (c : Cls) {x y : ℕ → XR}

theorem post_num_edges (s : S) (hs : s.Valid) (hr : s.Reads x y) (r : Bool) :
    PostN s (expected_num_edges c r s) (Query.expected_num_edges (c.ens x y 0) c.n r s.view) := by
  obtain ⟨rfl, rfl⟩ := hr
  unfold expected_num_edges
  cases hp : s.obj.param with
  | none =>
    have : s.view.param = none := by simp [S.view, hp]
    rw [q_num_none (E := c.ens _ _ 0) (n := c.n) this r]
    exact ⟨.refl hs, rfl, fun a ha => by cases ha⟩
  | some a =>
    have : s.view.param = some (s.mem.cell a 0) := by simp [S.view, hp]
    rw [q_num (E := c.ens _ _ 0) (n := c.n) (θ := s.mem.cell a 0) this r]
    have hc : s.view.exp_num_edges = s.obj.exp_num_edges := rfl
    rw [hc]
    generalize hb : (s.obj.exp_num_edges.isNone || r) = b
    dsimp only
    cases b with
    | true =>
      exact ⟨⟨hs, .refl _, rfl, rfl⟩, rfl, fun _ _ => trivial⟩
    | false =>
      simp only [Bool.false_eq_true, if_false, cond_false]
      cases he : s.obj.exp_num_edges with
      | none => rw [he] at hb; simp at hb
      | some v =>
        exact ⟨.refl hs, rfl, fun _ _ => trivial⟩

theorem S.Valid.deg {s : S} (h : s.Valid) {a : Addr} (e : s.obj.exp_degree = some a) :
    a < s.mem.next := h _ (.inr (.inr (.inr (.inl e))))
theorem S.Valid.dout {s : S} (h : s.Valid) {a : Addr} (e : s.obj.exp_out_degree = some a) :
    a < s.mem.next := h _ (.inr (.inr (.inr (.inr (.inl e)))))
theorem S.Valid.din {s : S} (h : s.Valid) {a : Addr} (e : s.obj.exp_in_degree = some a) :
    a < s.mem.next := h _ (.inr (.inr (.inr (.inr (.inr (.inl e))))))
theorem S.Valid.av {s : S} (h : s.Valid) {a : Addr} {i j : Dir} (e : s.obj.exp_av i j = some a) :
    a < s.mem.next := h _ (.inr (.inr (.inr (.inr (.inr (.inr ⟨i, j, e⟩))))))

theorem S.Valid.mk {s : S} (h1 : s.obj.prop_out < s.mem.next) (h2 : s.obj.prop_in < s.mem.next)
    (h3 : ∀ a, s.obj.param = some a → a < s.mem.next)
    (h4 : ∀ a, s.obj.exp_degree = some a → a < s.mem.next)
    (h5 : ∀ a, s.obj.exp_out_degree = some a → a < s.mem.next)
    (h6 : ∀ a, s.obj.exp_in_degree = some a → a < s.mem.next)
    (h7 : ∀ i j a, s.obj.exp_av i j = some a → a < s.mem.next) : s.Valid := by
  rintro a (rfl | rfl | h | h | h | h | ⟨i, j, h⟩)
  · exact h1
  · exact h2
  · exact h3 a h
  · exact h4 a h
  · exact h5 a h
  · exact h6 a h
  · exact h7 i j a h

/-- Attributes that have not been assigned keep their contents. -/
theorem map_ext {m m' : Mem} (h : m.Ext m') {o : Option Addr} (ho : ∀ a, o = some a → a < m.next) :
    o.map m'.cell = o.map m.cell := by
  cases o with
  | none => rfl
  | some a => simp [h.2 a (ho a rfl)]

theorem map_ext0 {m m' : Mem} (h : m.Ext m') {o : Option Addr} (ho : ∀ a, o = some a → a < m.next) :
    o.map (fun a => m'.cell a 0) = o.map (fun a => m.cell a 0) := by
  cases o with
  | none => rfl
  | some a => simp [h.2 a (ho a rfl)]

theorem three (m : Mem) (u v w : ℕ → XR) :
    (((m.alloc u).alloc v).alloc w).cell m.next = u ∧
      (((m.alloc u).alloc v).alloc w).cell (m.next + 1) = v ∧
      (((m.alloc u).alloc v).alloc w).cell (m.next + 2) = w ∧
      m.Ext (((m.alloc u).alloc v).alloc w) := by
  refine ⟨?_, ?_, ?_, ((m.alloc_ext u).trans (Mem.alloc_ext _ v)).trans (Mem.alloc_ext _ w)⟩
  · rw [(Mem.alloc_ext _ w).2 m.next (by simp), (Mem.alloc_ext _ v).2 m.next (by simp),
      Mem.alloc_self]
  · rw [(Mem.alloc_ext _ w).2 (m.next + 1) (by simp)]
    exact Mem.alloc_self (m.alloc u) v
  · exact Mem.alloc_self ((m.alloc u).alloc v) w

theorem three_lt (m : Mem) (u v w : ℕ → XR) {a : ℕ} (h : a ∈ [m.next, m.next + 1, m.next + 2]) :
    a < (((m.alloc u).alloc v).alloc w).next := by
  have e : (((m.alloc u).alloc v).alloc w).next = m.next + 1 + 1 + 1 := rfl
  simp only [List.mem_cons, List.not_mem_nil, or_false] at h
  rw [e]
  generalize m.next = k at h
  change ℕ at k
  omega

theorem post_degree (s : S) (hs : s.Valid) (hr : s.Reads x y) (r : Bool) :
    PostA s (expected_degree c r s) (Query.expected_degree (c.ens x y 0) c.n r s.view) := by
  obtain ⟨rfl, rfl⟩ := hr
  unfold expected_degree
  cases hp : s.obj.param with
  | none =>
    have : s.view.param = none := by simp [S.view, hp]
    rw [q_degree_none (E := c.ens _ _ 0) (n := c.n) this r]
    exact ⟨.refl hs, rfl, fun a ha => by cases ha⟩
  | some a =>
    have : s.view.param = some (s.mem.cell a 0) := by simp [S.view, hp]
    rw [q_degree (E := c.ens _ _ 0) (n := c.n) (θ := s.mem.cell a 0) this r]
    have hc : s.view.exp_degree.isNone = s.obj.exp_degree.isNone := by simp [S.view]
    rw [hc]
    generalize hb : (s.obj.exp_degree.isNone || r) = b
    dsimp only
    cases b with
    | true =>
      simp only [if_true, cond_true]
      obtain ⟨e1, e2, e3, hx⟩ := three s.mem ((s.ens c a).exp_degrees c.n s.obj.selfloops).exp_d
        ((s.ens c a).exp_degrees c.n s.obj.selfloops).exp_d_out
        ((s.ens c a).exp_degrees c.n s.obj.selfloops).exp_d_in
      refine ⟨⟨?_, hx, rfl, rfl⟩, ?_, ?_⟩
      · refine S.Valid.mk (hs.out.trans_le hx.1) (hs.inn.trans_le hx.1)
          (fun a ha => (hs.param ha).trans_le hx.1) ?_ ?_ ?_
          (fun i j a ha => (hs.av ha).trans_le hx.1)
        · intro b hb; cases hb; exact three_lt s.mem _ _ _ (by simp)
        · intro b hb; cases hb; exact three_lt s.mem _ _ _ (by simp)
        · intro b hb; cases hb; exact three_lt s.mem _ _ _ (by simp)
      · have h0 := map_ext0 hx (fun a ha => hs.param ha)
        have h7 : ∀ i j, (s.obj.exp_av i j).map _ = (s.obj.exp_av i j).map s.mem.cell :=
          fun i j => map_ext hx (fun a ha => hs.av ha)
        simp only [Except.map, S.view, Option.map_some, e1, e2, e3, h0, h7]
        rfl
      · intro b hb; cases hb; exact three_lt s.mem _ _ _ (by simp)
    | false =>
      simp only [Bool.false_eq_true, if_false, cond_false]
      cases he : s.obj.exp_degree with
      | none => rw [he] at hb; simp at hb
      | some v =>
        have : s.view.exp_degree = some (s.mem.cell v) := by simp [S.view, he]
        rw [this]
        exact ⟨.refl hs, rfl, fun b hb => by cases hb; exact hs.deg he⟩

theorem post_getOut (s : S) (hs : s.Valid) : PostA s (getOut s) (Query.getOut s.view) := by
  unfold getOut Query.getOut
  cases he : s.obj.exp_out_degree with
  | none =>
    have : s.view.exp_out_degree = none := by simp [S.view, he]
    rw [this]
    exact ⟨.refl hs, rfl, fun a ha => by cases ha⟩
  | some v =>
    have : s.view.exp_out_degree = some (s.mem.cell v) := by simp [S.view, he]
    rw [this]
    exact ⟨.refl hs, rfl, fun b hb => by cases hb; exact hs.dout he⟩

theorem post_getIn (s : S) (hs : s.Valid) : PostA s (getIn s) (Query.getIn s.view) := by
  unfold getIn Query.getIn
  cases he : s.obj.exp_in_degree with
  | none =>
    have : s.view.exp_in_degree = none := by simp [S.view, he]
    rw [this]
    exact ⟨.refl hs, rfl, fun a ha => by cases ha⟩
  | some v =>
    have : s.view.exp_in_degree = some (s.mem.cell v) := by simp [S.view, he]
    rw [this]
    exact ⟨.refl hs, rfl, fun b hb => by cases hb; exact hs.din he⟩

theorem post_getAv (s : S) (hs : s.Valid) (i j : Dir) :
    PostA s (getAv i j s) (Query.getAv i j s.view) := by
  unfold getAv Query.getAv
  cases he : s.obj.exp_av i j with
  | none =>
    have : s.view.exp_av i j = none := by simp [S.view, he]
    rw [this]
    exact ⟨.refl hs, rfl, fun a ha => by cases ha⟩
  | some v =>
    have : s.view.exp_av i j = some (s.mem.cell v) := by simp [S.view, he]
    rw [this]
    exact ⟨.refl hs, rfl, fun b hb => by cases hb; exact hs.av he⟩

theorem post_out_degree (s : S) (hs : s.Valid) (hr : s.Reads x y) (r : Bool) :
    PostA s (expected_out_degree c r s) (Query.expected_out_degree (c.ens x y 0) c.n r s.view) := by
  unfold expected_out_degree Query.expected_out_degree
  have hc : s.view.exp_out_degree.isNone = s.obj.exp_out_degree.isNone := by simp [S.view]
  rw [hc]
  generalize (s.obj.exp_out_degree.isNone || r) = b
  cases b with
  | true =>
    simp only [if_true]
    exact (post_degree c s hs hr r).bind fun a s' hk _ => post_getOut s' hk.valid
  | false => exact post_getOut s hs

theorem post_in_degree (s : S) (hs : s.Valid) (hr : s.Reads x y) (r : Bool) :
    PostA s (expected_in_degree c r s) (Query.expected_in_degree (c.ens x y 0) c.n r s.view) := by
  unfold expected_in_degree Query.expected_in_degree
  have hc : s.view.exp_in_degree.isNone = s.obj.exp_in_degree.isNone := by simp [S.view]
  rw [hc]
  generalize (s.obj.exp_in_degree.isNone || r) = b
  cases b with
  | true =>
    simp only [if_true]
    exact (post_degree c s hs hr r).bind fun a s' hk _ => post_getIn s' hk.valid
  | false => exact post_getIn s hs

theorem post_byDir (s : S) (hs : s.Valid) (hr : s.Reads x y) (bad : Query.Err) (d : Dir) (r : Bool) :
    PostA s (degreeByDir c bad d r s) (Query.degreeByDir (c.ens x y 0) c.n bad d r s.view) := by
  cases d with
  | out => exact post_out_degree c s hs hr r
  | inn => exact post_in_degree c s hs hr r
  | outIn => exact post_degree c s hs hr r
  | underscored => exact ⟨.refl hs, rfl, fun a ha => by cases ha⟩
  | other => exact ⟨.refl hs, rfl, fun a ha => by cases ha⟩

theorem keeps_restore (s : S) (hs : s.Valid) (b : Bool) : Keeps s (restore b s) := by
  unfold restore
  split
  · refine ⟨S.Valid.mk hs.out hs.inn (fun a ha => hs.param ha) ?_ ?_ ?_ (fun i j a ha => hs.av ha),
      .refl _, rfl, rfl⟩ <;> intro a ha <;> cases ha
  · exact .refl hs

theorem view_restore (s : S) (b : Bool) : (restore b s).view = Query.restore b s.view := by
  unfold restore Query.restore
  have : s.view.selfloops = s.obj.selfloops := rfl
  rw [this]
  split <;> rfl

theorem mem_restore (s : S) (b : Bool) : (restore b s).mem = s.mem := by
  unfold restore; split <;> rfl

theorem keeps_setSelfloops (s : S) (hs : s.Valid) (b : Bool) : Keeps s (setSelfloops b s) :=
  ⟨hs, .refl _, rfl, rfl⟩

theorem keeps_alloc (s : S) (hs : s.Valid) (w : ℕ → XR) : Keeps s { s with mem := s.mem.alloc w } :=
  ⟨fun a ha => (hs a ha).trans_le (s.mem.alloc_ext w).1, s.mem.alloc_ext w, rfl, rfl⟩

theorem view_ext (s : S) (hs : s.Valid) (m : Mem) (h : s.mem.Ext m) :
    ({ s with mem := m } : S).view = s.view := by
  have h0 := map_ext0 h (fun a ha => hs.param ha)
  have h4 := map_ext h (fun a ha => hs.deg ha)
  have h5 := map_ext h (fun a ha => hs.dout ha)
  have h6 := map_ext h (fun a ha => hs.din ha)
  have h7 : ∀ i j, (s.obj.exp_av i j).map m.cell = (s.obj.exp_av i j).map s.mem.cell :=
    fun i j => map_ext h (fun a ha => hs.av ha)
  simp only [S.view, h0, h4, h5, h6, h7]

/-- The average over neighbours, the property being the contents of an existing array. -/
theorem post_av_property (jUndef : ℕ) (s : S) (hs : s.Valid) (hr : s.Reads x y) (len : ℕ) (prop : Addr)
    (hprop : prop < s.mem.next) (ndir : Dir) (sl : Option Bool) (dr : Bool) :
    PostA s (expected_av_nn_property jUndef c len prop ndir sl dr s)
      (Query.expected_av_nn_property jUndef (c.ens x y 0) c.n len (s.mem.cell prop) ndir sl dr
        s.view) := by
  unfold expected_av_nn_property Query.expected_av_nn_property
  cases hp : s.obj.param with
  | none =>
    have : s.view.param = none := by simp [S.view, hp]
    rw [this]
    exact ⟨.refl hs, rfl, fun a ha => by cases ha⟩
  | some a =>
    have : s.view.param = some (s.mem.cell a 0) := by simp [S.view, hp]
    rw [this]
    dsimp only
    by_cases hl : len ≠ c.n
    · rw [if_pos hl, if_pos hl]
      exact ⟨.refl hs, rfl, fun a ha => by cases ha⟩
    · rw [if_neg hl, if_neg hl]
      have hsl : s.view.selfloops = s.obj.selfloops := rfl
      rw [hsl]
      generalize sl.getD s.obj.selfloops = b
      generalize (dr || (b != s.obj.selfloops)) = dr'
      have hk0 := keeps_setSelfloops s hs b
      set t := setSelfloops b s with ht
      have main : PostA t _ _ := (post_byDir c t hk0.valid (hk0.reads hs hr) .badNdir ndir dr').bind
        (f := fun deg s' =>
          match DiGraphEnsemble.exp_av_nn_prop jUndef c.p_ij (s'.mem.cell a 0) c.n
              (s'.mem.cell s'.obj.prop_out) (s'.mem.cell s'.obj.prop_in) c.prop_dyad
              (s'.mem.cell prop) ndir s'.obj.selfloops with
          | .error _ => (.error .badNdir, s')
          | .ok av_nn =>
            if (List.range c.n).all (fun i => !(s'.mem.cell deg i).isZero || (av_nn i).isZero) then
              (.ok s'.mem.next, restore s.obj.selfloops
                { s' with mem := s'.mem.alloc (Query.average av_nn (s'.mem.cell deg)) })
            else (.error .emptyNeighbourhood, s'))
        (g := fun deg s' =>
          match DiGraphEnsemble.exp_av_nn_prop jUndef (c.ens x y 0).p_ij (s.mem.cell a 0) c.n
              (c.ens x y 0).prop_out (c.ens x y 0).prop_in (c.ens x y 0).prop_dyad (s.mem.cell prop) ndir
              s'.selfloops with
          | .error _ => (.error .badNdir, s')
          | .ok av_nn =>
            if (List.range c.n).all (fun i => !(deg i).isZero || (av_nn i).isZero) then
              (.ok (Query.average av_nn deg), Query.restore s.obj.selfloops s')
            else (.error .emptyNeighbourhood, s')) (by
        intro deg s' hk hdeg
        obtain ⟨ho, hi⟩ := hk.reads hk0.valid (hk0.reads hs hr)
        have ha : s'.mem.cell a = s.mem.cell a := hk.ext.2 a (hs.param hp)
        have hpr : s'.mem.cell prop = s.mem.cell prop := hk.ext.2 prop hprop
        have e5 : s'.view.selfloops = s'.obj.selfloops := rfl
        rw [ho, hi, ha, hpr, e5]
        cases DiGraphEnsemble.exp_av_nn_prop jUndef c.p_ij (s.mem.cell a 0) c.n x y c.prop_dyad
              (s.mem.cell prop) ndir s'.obj.selfloops with
        | error e => exact ⟨.refl hk.valid, rfl, fun a ha => by cases ha⟩
        | ok av =>
          dsimp only
          generalize (List.range c.n).all (fun i => !(s'.mem.cell deg i).isZero || (av i).isZero)
            = bb
          cases bb with
          | false => exact ⟨.refl hk.valid, rfl, fun a ha => by cases ha⟩
          | true =>
            simp only [if_true]
            have hk1 := keeps_alloc s' hk.valid (Query.average av (s'.mem.cell deg))
            have hk2 := keeps_restore _ hk1.valid s.obj.selfloops
            refine ⟨hk1.trans hk2, ?_, ?_⟩
            · rw [view_restore, view_ext s' hk.valid _ hk1.ext]
              simp only [Except.map, mem_restore]
              rw [Mem.alloc_self]
            · intro b hb
              cases hb
              rw [mem_restore]
              exact Nat.lt_succ_self _)
      exact ⟨hk0.trans main.keeps, main.eq, main.good⟩

theorem view_setAv (s : S) (i j : Dir) (a : Addr) :
    (setAv i j a s).view = Query.setAv i j (s.mem.cell a) s.view := by
  unfold setAv Query.setAv S.view
  simp only [Query.St.mk.injEq, true_and]
  funext u v
  by_cases h : u = i ∧ v = j
  · simp [h]
  · simp [h]

theorem keeps_setAv (s : S) (hs : s.Valid) (i j : Dir) (a : Addr) (ha : a < s.mem.next) :
    Keeps s (setAv i j a s) := by
  refine ⟨S.Valid.mk hs.out hs.inn (fun a ha => hs.param ha) (fun a ha => hs.deg ha)
    (fun a ha => hs.dout ha) (fun a ha => hs.din ha) ?_, .refl _, rfl, rfl⟩
  intro u v b hb
  unfold setAv at hb
  dsimp only at hb
  split at hb
  · cases hb; exact ha
  · exact hs.av hb

theorem post_av_degree (jUndef : ℕ) (s : S) (hs : s.Valid) (hr : s.Reads x y) (ddir ndir : Dir) (sl : Option Bool)
    (dr r : Bool) :
    PostA s (expected_av_nn_degree jUndef c ddir ndir sl dr r s)
      (Query.expected_av_nn_degree jUndef (c.ens x y 0) c.n ddir ndir sl dr r s.view) := by
  unfold expected_av_nn_degree Query.expected_av_nn_degree
  cases hp : s.obj.param with
  | none =>
    have : s.view.param = none := by simp [S.view, hp]
    rw [this]
    exact ⟨.refl hs, rfl, fun a ha => by cases ha⟩
  | some a =>
    have : s.view.param = some (s.mem.cell a 0) := by simp [S.view, hp]
    rw [this]
    dsimp only
    have hc : (s.view.exp_av ndir.key ddir.key).isNone
        = (s.obj.exp_av ndir.key ddir.key).isNone := by simp [S.view]
    rw [hc]
    generalize ((s.obj.exp_av ndir.key ddir.key).isNone || r || dr) = bb
    cases bb with
    | false => exact post_getAv s hs _ _
    | true =>
      simp only [if_true]
      have hsl : s.view.selfloops = s.obj.selfloops := rfl
      rw [hsl]
      generalize sl.getD s.obj.selfloops = b
      generalize (dr || (b != s.obj.selfloops)) = dr'
      have hk0 := keeps_setSelfloops s hs b
      set t := setSelfloops b s with ht
      have main : PostA t _ _ := (post_byDir c t hk0.valid (hk0.reads hs hr) .badDdir ddir dr').bind
        (f := fun deg => (expected_av_nn_property jUndef c c.n deg ndir (some b) false).bind
          (fun res s' => getAv ndir.key ddir.key
            (restore s.obj.selfloops (setAv ndir.key ddir.key res s'))))
        (g := fun deg => (Query.expected_av_nn_property jUndef (c.ens x y 0) c.n c.n deg ndir (some b)
            false).bind (fun res s' => Query.getAv ndir.key ddir.key
              (Query.restore s.obj.selfloops (Query.setAv ndir.key ddir.key res s')))) (by
        intro deg s' hk hdeg
        refine (post_av_property c jUndef s' hk.valid (hk.reads hk0.valid (hk0.reads hs hr)) c.n deg hdeg ndir (some b) false).bind ?_
        intro res s'' hk' hres
        have hk1 := keeps_setAv s'' hk'.valid ndir.key ddir.key res hres
        have hk2 := keeps_restore _ hk1.valid s.obj.selfloops
        have h3 := post_getAv _ hk2.valid ndir.key ddir.key
        rw [view_restore, view_setAv] at h3
        exact ⟨(hk1.trans hk2).trans h3.keeps, h3.eq, h3.good⟩)
      exact ⟨hk0.trans main.keeps, main.eq, main.good⟩

end

end Alias

end Verif
