import Verif.Cond.Query
import Verif.Cond.MeanLemmas
import Verif.Ensemble.QueryLemmas

/-! # Lemmas on the queries of the conditional model -/

namespace Verif.Cond.Calls

noncomputable section

open XR Verif.Query DiGraphEnsemble

/-- The state with the degree caches set to `D`. -/
def fill (D : Degrees) (s : State) : State :=
  { s with exp_degree := some D.exp_d, exp_out_degree := some D.exp_d_out,
           exp_in_degree := some D.exp_d_in }

/-- The degree caches are empty, or hold the values for the parameter `θ` and the setting `b`. -/
def DegFresh (o : Obj) (θ : XR) (b : Bool) (s : State) : Prop :=
  (s.exp_degree = none ∧ s.exp_out_degree = none ∧ s.exp_in_degree = none) ∨
    ∃ D, exp_degrees (at_ o θ b) θ = .ok D ∧ s = fill D s

theorem degFresh_fill {o : Obj} {θ : XR} {b : Bool} {D : Degrees}
    (h : exp_degrees (at_ o θ b) θ = .ok D) (s : State) : DegFresh o θ b (fill D s) :=
  Or.inr ⟨D, h, rfl⟩

theorem expected_degree_spec (o : Obj) (θ : XR) (s : State) (rec : Bool)
    (hθ : s.param = some θ) (h : DegFresh o θ s.selfloops s ∨ rec = true) :
    expected_degree o rec s = match exp_degrees (at_ o θ s.selfloops) θ with
      | .error e => (.error (.loop e), s)
      | .ok D => (.ok D.exp_d, fill D s) := by
  obtain ⟨par, slf, ne, d, do_, di, av⟩ := s
  obtain rfl : par = some θ := hθ
  unfold expected_degree
  dsimp only
  by_cases hc : (d.isNone || rec) = true
  · rw [if_pos hc]; rfl
  · rw [if_neg hc]
    simp only [Bool.or_eq_true, not_or] at hc
    rcases h with (h | ⟨D, hD, h⟩) | h
    · obtain rfl : d = none := h.1
      simp at hc
    · dsimp only at hD
      rw [hD]
      have h1 : d = some D.exp_d := congrArg St.exp_degree h
      have h2 : do_ = some D.exp_d_out := congrArg St.exp_out_degree h
      have h3 : di = some D.exp_d_in := congrArg St.exp_in_degree h
      subst h1; subst h2; subst h3
      rfl
    · exact absurd h hc.2

theorem degreeByDir_spec (o : Obj) (θ : XR) (s : State) (bad : Verif.Query.Err) (dir : Dir)
    (hdir : dir.Known) (rec : Bool) (hθ : s.param = some θ)
    (h : DegFresh o θ s.selfloops s ∨ rec = true) :
    degreeByDir o bad dir rec s = match exp_degrees (at_ o θ s.selfloops) θ with
      | .error e => (.error (.loop e), s)
      | .ok D => (.ok (pick dir D), fill D s) := by
  cases dir with
  | underscored | other => exact False.elim hdir
  | outIn => exact expected_degree_spec o θ s rec hθ h
  | out =>
    unfold degreeByDir expected_out_degree
    dsimp only
    by_cases hc : (s.exp_out_degree.isNone || rec) = true
    · rw [if_pos hc]
      unfold M.bind
      rw [expected_degree_spec o θ s rec hθ h]
      cases exp_degrees (at_ o θ s.selfloops) θ <;> rfl
    · rw [if_neg hc]
      simp only [Bool.or_eq_true, not_or] at hc
      rcases h with (h | ⟨D, hD, h⟩) | h
      · simp [h.2.1] at hc
      · rw [hD]
        dsimp only
        rw [← h]
        unfold getOut
        have h2 : s.exp_out_degree = some D.exp_d_out := congrArg St.exp_out_degree h
        rw [h2]; rfl
      · exact absurd h hc.2
  | inn =>
    unfold degreeByDir expected_in_degree
    dsimp only
    by_cases hc : (s.exp_in_degree.isNone || rec) = true
    · rw [if_pos hc]
      unfold M.bind
      rw [expected_degree_spec o θ s rec hθ h]
      cases exp_degrees (at_ o θ s.selfloops) θ <;> rfl
    · rw [if_neg hc]
      simp only [Bool.or_eq_true, not_or] at hc
      rcases h with (h | ⟨D, hD, h⟩) | h
      · simp [h.2.2] at hc
      · rw [hD]
        dsimp only
        rw [← h]
        unfold getIn
        have h2 : s.exp_in_degree = some D.exp_d_in := congrArg St.exp_in_degree h
        rw [h2]; rfl
      · exact absurd h hc.2

/-- `expected_av_nn_property` without caches: result and state. -/
def freshProp (jUndef : ℕ) (o : Obj) (θ : XR) (b : Bool) (len : ℕ) (prop : ℕ → XR) (ndir : Dir)
    (s : State) : Except Err (ℕ → XR) × State :=
  if len ≠ o.n then (.error (.query .badShape), s)
  else match ndir with
  | .underscored | .other => (.error (.query .badNdir), setSelfloops b s)
  | ndir =>
    match exp_degrees (at_ o θ b) θ with
    | .error e => (.error (.loop e), setSelfloops b s)
    | .ok D =>
      match neighbourSum jUndef o θ prop ndir b with
      | .error _ => (.error (.query .badNdir), fill D (setSelfloops b s))
      | .ok av =>
        if (List.range o.n).all (fun i => !(pick ndir D i).isZero || (av i).isZero) then
          (.ok (average av (pick ndir D)), restore s.selfloops (fill D (setSelfloops b s)))
        else (.error (.query .emptyNeighbourhood), fill D (setSelfloops b s))

theorem expected_av_nn_property_spec (jUndef : ℕ) (o : Obj) (θ : XR) (len : ℕ) (prop : ℕ → XR)
    (ndir : Dir) (sl : Option Bool) (dr : Bool) (s : State) (hθ : s.param = some θ)
    (h : DegFresh o θ s.selfloops s ∨ dr = true ∨ sl.getD s.selfloops ≠ s.selfloops) :
    expected_av_nn_property jUndef o len prop ndir sl dr s
      = freshProp jUndef o θ (sl.getD s.selfloops) len prop ndir s := by
  unfold expected_av_nn_property freshProp
  simp only [hθ]
  by_cases hl : len ≠ o.n
  · rw [if_pos hl, if_pos hl]
  rw [if_neg hl, if_neg hl]
  generalize hb : sl.getD s.selfloops = b
  rw [hb] at h
  by_cases hdir : ndir.Known
  · unfold M.bind
    have hspec := degreeByDir_spec o θ (setSelfloops b s) .badNdir ndir hdir
      (dr || (b != s.selfloops)) hθ (by
        rcases h with h | h | h
        · by_cases hbs : b = s.selfloops
          · left; rw [hbs]; exact h
          · right; simp [hbs]
        · right; simp [h]
        · right; simp [h])
    have eself : (setSelfloops b s).selfloops = b := rfl
    rw [hspec, eself]
    cases hD : exp_degrees (at_ o θ b) θ with
    | error e => cases ndir <;> first | rfl | exact False.elim hdir
    | ok D =>
      have e2 : (fill D (setSelfloops b s)).selfloops = b := rfl
      cases ndir <;> first | rfl | exact False.elim hdir
  · cases ndir <;> first | rfl | exact absurd trivial hdir

/-- `expected_av_nn_degree` without caches: result and state. -/
def freshDeg (jUndef : ℕ) (o : Obj) (θ : XR) (b : Bool) (ddir ndir : Dir) (s : State) :
    Except Err (ℕ → XR) × State :=
  match ddir with
  | .underscored | .other => (.error (.query .badDdir), setSelfloops b s)
  | ddir =>
    match exp_degrees (at_ o θ b) θ with
    | .error e => (.error (.loop e), setSelfloops b s)
    | .ok D =>
      match freshProp jUndef o θ b o.n (pick ddir D) ndir (fill D (setSelfloops b s)) with
      | (.error e, s') => (.error e, s')
      | (.ok res, s') => (.ok res, restore s.selfloops (setAv ndir.key ddir.key res s'))

theorem getAv_setAv (nd dd : Dir) (res : ℕ → XR) (t : Bool) (s : State) :
    getAv nd dd (restore t (setAv nd dd res s)) = (.ok res, restore t (setAv nd dd res s)) := by
  have : (restore t (setAv nd dd res s)).exp_av nd dd = some res := by
    unfold restore
    split <;> simp [setAv]
  unfold getAv
  rw [this]

theorem expected_av_nn_degree_spec (jUndef : ℕ) (o : Obj) (θ : XR) (ddir ndir : Dir)
    (sl : Option Bool) (dr rec : Bool) (s : State) (hθ : s.param = some θ)
    (hrec : (s.exp_av ndir.key ddir.key).isNone = true ∨ rec = true ∨ dr = true)
    (h : DegFresh o θ s.selfloops s ∨ dr = true ∨ sl.getD s.selfloops ≠ s.selfloops) :
    expected_av_nn_degree jUndef o ddir ndir sl dr rec s
      = freshDeg jUndef o θ (sl.getD s.selfloops) ddir ndir s := by
  unfold expected_av_nn_degree freshDeg
  simp only [hθ]
  rw [if_pos (by simpa [or_assoc] using hrec)]
  generalize hb : sl.getD s.selfloops = b
  rw [hb] at h
  by_cases hdir : ddir.Known
  · have hspec := degreeByDir_spec o θ (setSelfloops b s) .badDdir ddir hdir
      (dr || (b != s.selfloops)) hθ (by
        rcases h with h | h | h
        · by_cases hbs : b = s.selfloops
          · left; rw [hbs]; exact h
          · right; simp [hbs]
        · right; simp [h]
        · right; simp [h])
    have eself : (setSelfloops b s).selfloops = b := rfl
    rw [eself] at hspec
    unfold M.bind
    rw [hspec]
    cases hD : exp_degrees (at_ o θ b) θ with
    | error e => cases ddir <;> first | rfl | exact False.elim hdir
    | ok D =>
      dsimp only
      have hp := expected_av_nn_property_spec jUndef o θ o.n (pick ddir D) ndir (some b) false
        (fill D (setSelfloops b s)) hθ (Or.inl (degFresh_fill hD _))
      rw [hp]
      have e3 : (some b).getD (fill D (setSelfloops b s)).selfloops = b := rfl
      rw [e3]
      cases ddir <;> first
        | exact False.elim hdir
        | (dsimp only
           rcases freshProp jUndef o θ b o.n _ ndir (fill D (setSelfloops b s)) with
             ⟨_ | res, s'⟩
           · rfl
           · exact getAv_setAv _ _ _ _ _)
  · cases ddir <;> first | rfl | exact absurd trivial hdir

/-- The caches of the number of edges and of the degrees are empty or hold the values for the
parameter `θ` and the setting `b`, which are the current ones. -/
structure Inv (o : Obj) (θ : XR) (b : Bool) (s : State) : Prop where
  param : s.param = some θ
  loops : s.selfloops = b
  edges : ∀ v, s.exp_num_edges = some v → exp_edges (at_ o θ b) θ = .ok v
  deg : DegFresh o θ b s

theorem inv_newly (o : Obj) (θ : XR) (b : Bool) : Inv o θ b (newly θ b) :=
  ⟨rfl, rfl, fun v h => by simp [newly, Verif.Query.init] at h, Or.inl ⟨rfl, rfl, rfl⟩⟩

theorem Inv.fill {o : Obj} {θ : XR} {b : Bool} {s : State} (h : Inv o θ b s) {D : Degrees}
    (hD : exp_degrees (at_ o θ b) θ = .ok D) : Inv o θ b (fill D s) :=
  ⟨h.param, h.loops, h.edges, degFresh_fill hD s⟩

theorem setSelfloops_same {s : State} {b : Bool} (h : s.selfloops = b) : setSelfloops b s = s := by
  subst h; rfl

theorem restore_ne {s : State} {t : Bool} (h : t ≠ s.selfloops) :
    restore t s = { s with selfloops := t, exp_degree := none, exp_out_degree := none,
                           exp_in_degree := none } := if_pos h

theorem restore_same {s : State} {t : Bool} (h : t = s.selfloops) : restore t s = s :=
  if_neg (by simpa using h)

/-- Restoring leads back to the setting `t`. -/
theorem restore_inv {o : Obj} {θ : XR} {t : Bool} {s : State} (hp : s.param = some θ)
    (he : ∀ v, s.exp_num_edges = some v → exp_edges (at_ o θ t) θ = .ok v)
    (hd : DegFresh o θ s.selfloops s) : Inv o θ t (restore t s) := by
  by_cases h : t = s.selfloops
  · rw [restore_same h]
    exact ⟨hp, h.symm, he, h ▸ hd⟩
  · rw [restore_ne h]
    exact ⟨hp, rfl, he, Or.inl ⟨rfl, rfl, rfl⟩⟩

/-- Whatever the setting asked for: param, edge cache and degree caches after a property query. -/
theorem freshProp_state (jUndef : ℕ) (o : Obj) (θ : XR) (b : Bool) (len : ℕ) (prop : ℕ → XR)
    (ndir : Dir) (s : State) (t : Bool) (hI : Inv o θ t s)
    (hok : (freshProp jUndef o θ b len prop ndir s).1.isOk = true ∨ b = t) :
    Inv o θ t (freshProp jUndef o θ b len prop ndir s).2 := by
  have hsame : b = t → setSelfloops b s = s := fun h => setSelfloops_same (hI.loops.trans h.symm)
  have main : ∀ nd : Dir, nd.Known →
      (freshProp jUndef o θ b len prop nd s).1.isOk = true ∨ b = t →
      Inv o θ t (freshProp jUndef o θ b len prop nd s).2 := by
    intro nd hnd hok
    have e : freshProp jUndef o θ b len prop nd s =
        if len ≠ o.n then (.error (.query .badShape), s)
        else match exp_degrees (at_ o θ b) θ with
        | .error e => (.error (.loop e), setSelfloops b s)
        | .ok D =>
          match neighbourSum jUndef o θ prop nd b with
          | .error _ => (.error (.query .badNdir), fill D (setSelfloops b s))
          | .ok av =>
            if (List.range o.n).all (fun i => !(pick nd D i).isZero || (av i).isZero) then
              (.ok (average av (pick nd D)), restore s.selfloops (fill D (setSelfloops b s)))
            else (.error (.query .emptyNeighbourhood), fill D (setSelfloops b s)) := by
      cases nd <;> first | rfl | exact False.elim hnd
    rw [e] at hok ⊢
    by_cases hl : len ≠ o.n
    · rw [if_pos hl]; exact hI
    rw [if_neg hl] at hok ⊢
    cases hD : exp_degrees (at_ o θ b) θ with
    | error er =>
      rw [hD] at hok
      have hbt : b = t := by simpa [Except.isOk, Except.toBool] using hok
      dsimp only
      rw [hsame hbt]; exact hI
    | ok D =>
      rw [hD] at hok
      dsimp only at hok ⊢
      cases hav : neighbourSum jUndef o θ prop nd b with
      | error er =>
        rw [hav] at hok
        have hbt : b = t := by simpa [Except.isOk, Except.toBool] using hok
        dsimp only
        rw [hsame hbt]; exact hI.fill (hbt ▸ hD)
      | ok av =>
        rw [hav] at hok
        dsimp only at hok ⊢
        by_cases ha : (List.range o.n).all (fun i => !(pick nd D i).isZero || (av i).isZero) = true
        · rw [if_pos ha]
          dsimp only
          rw [hI.loops]
          exact restore_inv hI.param hI.edges (degFresh_fill hD _)
        · rw [if_neg ha] at hok ⊢
          have hbt : b = t := by simpa [Except.isOk, Except.toBool] using hok
          dsimp only
          rw [hsame hbt]; exact hI.fill (hbt ▸ hD)
  cases ndir with
  | out => exact main _ trivial hok
  | inn => exact main _ trivial hok
  | outIn => exact main _ trivial hok
  | underscored | other =>
    unfold freshProp at hok ⊢
    by_cases hl : len ≠ o.n
    · rw [if_pos hl]; exact hI
    rw [if_neg hl] at hok ⊢
    have hbt : b = t := by simpa [Except.isOk, Except.toBool] using hok
    dsimp only
    rw [hsame hbt]; exact hI

/-- With the caches filled for the setting asked for, a property query changes nothing. -/
theorem freshProp_stay (jUndef : ℕ) (o : Obj) (θ : XR) (b : Bool) (len : ℕ) (prop : ℕ → XR)
    (ndir : Dir) (s : State) {D : Degrees} (hb : s.selfloops = b)
    (hD : exp_degrees (at_ o θ b) θ = .ok D) (hs : fill D s = s) :
    (freshProp jUndef o θ b len prop ndir s).2 = s := by
  have h1 : setSelfloops b s = s := setSelfloops_same hb
  unfold freshProp
  by_cases hl : len ≠ o.n
  · rw [if_pos hl]
  rw [if_neg hl, hD, h1]
  cases ndir <;> dsimp only
  all_goals
    rw [hs, restore_same rfl]
    cases neighbourSum jUndef o θ prop _ b with
    | error e => rfl
    | ok av => dsimp only; split <;> rfl

theorem freshDeg_state (jUndef : ℕ) (o : Obj) (θ : XR) (b : Bool) (ddir ndir : Dir) (s : State)
    (t : Bool) (hI : Inv o θ t s)
    (hok : (freshDeg jUndef o θ b ddir ndir s).1.isOk = true ∨ b = t) :
    Inv o θ t (freshDeg jUndef o θ b ddir ndir s).2 := by
  have hsame : b = t → setSelfloops b s = s := fun h => setSelfloops_same (hI.loops.trans h.symm)
  have main : ∀ dd : Dir, dd.Known →
      (freshDeg jUndef o θ b dd ndir s).1.isOk = true ∨ b = t →
      Inv o θ t (freshDeg jUndef o θ b dd ndir s).2 := by
    intro dd hdd hok
    have e : freshDeg jUndef o θ b dd ndir s =
        match exp_degrees (at_ o θ b) θ with
        | .error e => (.error (.loop e), setSelfloops b s)
        | .ok D =>
          match freshProp jUndef o θ b o.n (pick dd D) ndir (fill D (setSelfloops b s)) with
          | (.error e, s') => (.error e, s')
          | (.ok res, s') => (.ok res, restore s.selfloops (setAv ndir.key dd.key res s')) := by
      cases dd <;> first | rfl | exact False.elim hdd
    rw [e] at hok ⊢
    cases hD : exp_degrees (at_ o θ b) θ with
    | error er =>
      rw [hD] at hok
      have hbt : b = t := by simpa [Except.isOk, Except.toBool] using hok
      dsimp only
      rw [hsame hbt]; exact hI
    | ok D =>
      rw [hD] at hok
      dsimp only at hok ⊢
      have hst := freshProp_stay jUndef o θ b o.n (pick dd D) ndir (fill D (setSelfloops b s))
        rfl hD rfl
      rcases hr : freshProp jUndef o θ b o.n (pick dd D) ndir (fill D (setSelfloops b s)) with
        ⟨er | res, s'⟩
      · rw [hr] at hok hst
        have hbt : b = t := by simpa [Except.isOk, Except.toBool] using hok
        dsimp only at hst ⊢
        rw [hst, hsame hbt]; exact hI.fill (hbt ▸ hD)
      · rw [hr] at hst
        dsimp only at hst ⊢
        rw [hst, hI.loops]
        refine restore_inv hI.param hI.edges ?_
        exact Or.inr ⟨D, hD, rfl⟩
  cases ddir with
  | out => exact main _ trivial hok
  | inn => exact main _ trivial hok
  | outIn => exact main _ trivial hok
  | underscored | other =>
    unfold freshDeg at hok ⊢
    have hbt : b = t := by simpa [Except.isOk, Except.toBool] using hok
    dsimp only
    rw [hsame hbt]; exact hI

/-- `expected_num_edges` when the cache is right or not used. -/
theorem expected_num_edges_spec (o : Obj) (θ : XR) (s : State) (rec : Bool)
    (hθ : s.param = some θ)
    (h : (∀ v, s.exp_num_edges = some v → exp_edges (at_ o θ s.selfloops) θ = .ok v) ∨ rec = true) :
    expected_num_edges o rec s = match exp_edges (at_ o θ s.selfloops) θ with
      | .error e => (.error (.loop e), s)
      | .ok v => (.ok v, { s with exp_num_edges := some v }) := by
  obtain ⟨par, slf, ne, d, do_, di, av⟩ := s
  obtain rfl : par = some θ := hθ
  unfold expected_num_edges
  dsimp only
  by_cases hc : (ne.isNone || rec) = true
  · rw [if_pos hc]; rfl
  · rw [if_neg hc]
    simp only [Bool.or_eq_true, not_or] at hc
    cases ne with
    | none => simp at hc
    | some v =>
      rcases h with h | h
      · have := h v rfl
        dsimp only at this
        rw [this]
      · exact absurd h hc.2

/-- The calls that do not fit. -/
def IsQuery : Op XR → Prop
  | .fit _ => False
  | _ => True

/-- The setting asked for by a call is `b` or the current one. -/
def Keeps (b : Bool) : Op XR → Prop
  | .avNnProp _ _ _ sl _ => sl.getD b = b
  | .avNnDegree _ _ sl _ _ => sl.getD b = b
  | _ => True

theorem map_snd {α β : Type} (f : α → β) (m : M α) (s : State) : (M.map f m s).2 = (m s).2 := by
  unfold M.map M.bind
  rcases m s with ⟨_ | _, _⟩ <;> rfl

theorem map_isOk {α β : Type} (f : α → β) (m : M α) (s : State) :
    (M.map f m s).1.isOk = (m s).1.isOk := by
  unfold M.map M.bind
  rcases m s with ⟨_ | _, _⟩ <;> rfl

theorem map_fst {α β : Type} (f : α → β) (m : M α) (s : State) :
    (M.map f m s).1 = (m s).1.map f := by
  unfold M.map M.bind
  rcases m s with ⟨_ | _, _⟩ <;> rfl

theorem getAv_snd (nd dd : Dir) (s : State) : (getAv nd dd s).2 = s := by
  unfold getAv
  cases s.exp_av nd dd <;> rfl

theorem degreeByDir_inv {o : Obj} {θ : XR} {b : Bool} {s : State} (hI : Inv o θ b s)
    (bad : Verif.Query.Err) (dir : Dir) (hd : dir.Known) (r : Bool) :
    Inv o θ b (degreeByDir o bad dir r s).2 := by
  rw [degreeByDir_spec o θ s bad dir hd r hI.param (Or.inl (by rw [hI.loops]; exact hI.deg)),
    hI.loops]
  cases hD : exp_degrees (at_ o θ b) θ with
  | error e => exact hI
  | ok D => exact hI.fill hD

/-- The invariant is kept by every query that returns or asks for the current setting. -/
theorem call_inv (jUndef : ℕ) (o : Obj) {θ : XR} {b : Bool} {s : State} (hI : Inv o θ b s)
    (op : Op XR) (hq : IsQuery op)
    (hk : (call jUndef o op s).1.isOk = true ∨ Keeps b op) :
    Inv o θ b (call jUndef o op s).2 := by
  cases op with
  | fit θ' => exact False.elim hq
  | numEdges r =>
    unfold call
    have hb := hI.loops
    subst hb
    rw [map_snd, expected_num_edges_spec o θ s r hI.param (Or.inl hI.edges)]
    cases he : exp_edges (at_ o θ s.selfloops) θ with
    | error e => exact hI
    | ok v =>
      refine ⟨hI.param, rfl, fun w hw => ?_, ?_⟩
      · rw [← Option.some.inj hw]; exact he
      · rcases hI.deg with h | ⟨D, hD, h⟩
        · exact Or.inl h
        · exact Or.inr ⟨D, hD, congrArg (fun t : State => { t with exp_num_edges := some v }) h⟩
  | degree r => unfold call; rw [map_snd]; exact degreeByDir_inv hI .badDdir .outIn trivial r
  | outDegree r => unfold call; rw [map_snd]; exact degreeByDir_inv hI .badDdir .out trivial r
  | inDegree r => unfold call; rw [map_snd]; exact degreeByDir_inv hI .badDdir .inn trivial r
  | avNnProp len prop ndir sl dr =>
    unfold call at hk ⊢
    rw [map_isOk] at hk
    rw [map_snd]
    have e := expected_av_nn_property_spec jUndef o θ len prop ndir sl dr s hI.param
      (Or.inl (by rw [hI.loops]; exact hI.deg))
    rw [e] at hk ⊢
    refine freshProp_state jUndef o θ _ len prop ndir s b hI (hk.imp_right (fun h => ?_))
    rw [hI.loops]; exact h
  | avNnDegree ddir ndir sl dr r =>
    unfold call at hk ⊢
    rw [map_isOk] at hk
    rw [map_snd]
    by_cases hrec : (s.exp_av ndir.key ddir.key).isNone = true ∨ r = true ∨ dr = true
    · have e := expected_av_nn_degree_spec jUndef o θ ddir ndir sl dr r s hI.param hrec
        (Or.inl (by rw [hI.loops]; exact hI.deg))
      rw [e] at hk ⊢
      refine freshDeg_state jUndef o θ _ ddir ndir s b hI (hk.imp_right (fun h => ?_))
      rw [hI.loops]; exact h
    · unfold expected_av_nn_degree
      simp only [hI.param]
      rw [if_neg (by simpa [or_assoc] using hrec), getAv_snd]
      exact hI

theorem run_inv (jUndef : ℕ) (o : Obj) {θ : XR} {b : Bool} :
    ∀ (ops : List (Op XR)) (s : State), Inv o θ b s → (∀ op ∈ ops, IsQuery op) →
      (∀ p ∈ ops.zip (run jUndef o ops s).1, p.2.isOk = true ∨ Keeps b p.1) →
      Inv o θ b (run jUndef o ops s).2
  | [], _, hI, _, _ => hI
  | op :: ops, s, hI, hq, hk => by
    have h1 : Inv o θ b (call jUndef o op s).2 :=
      call_inv jUndef o hI op (hq op (by simp)) (hk (op, (call jUndef o op s).1) (by simp [run]))
    exact run_inv jUndef o ops _ h1 (fun p hp => hq p (by simp [hp]))
      (fun p hp => hk p (by simp only [run, List.zip_cons_cons, List.mem_cons]; exact Or.inr hp))

/-- The queries whose result does not come from a cached nearest-neighbour degree. -/
def Direct : Op XR → Prop
  | .fit _ => False
  | .avNnDegree _ _ _ dr r => dr = true ∨ r = true
  | _ => True

theorem match_fst (h : (ℕ → XR) → State → State) (r : Except Err (ℕ → XR) × State) :
    (match r with
      | (.error e, s') => ((.error e, s') : Except Err (ℕ → XR) × State)
      | (.ok res, s') => (.ok res, h res s')).1 = r.1 := by
  rcases r with ⟨_ | _, _⟩ <;> rfl

/-- Under the invariant the result of a query depends on parameter and setting only. -/
theorem call_fst (jUndef : ℕ) (o : Obj) {θ : XR} {b : Bool} {s s' : State} (hI : Inv o θ b s)
    (hI' : Inv o θ b s') (op : Op XR) (hd : Direct op) :
    (call jUndef o op s).1 = (call jUndef o op s').1 := by
  have hdeg : ∀ (dir : Dir), dir.Known → ∀ r,
      (degreeByDir o .badDdir dir r s).1 = (degreeByDir o .badDdir dir r s').1 := by
    intro dir hdir r
    rw [degreeByDir_spec o θ s _ dir hdir r hI.param (Or.inl (by rw [hI.loops]; exact hI.deg)),
      degreeByDir_spec o θ s' _ dir hdir r hI'.param (Or.inl (by rw [hI'.loops]; exact hI'.deg)),
      hI.loops, hI'.loops]
    cases exp_degrees (at_ o θ b) θ <;> rfl
  have hprop : ∀ (c : Bool) (len : ℕ) (prop : ℕ → XR) (ndir : Dir) (s s' : State),
      (freshProp jUndef o θ c len prop ndir s).1 = (freshProp jUndef o θ c len prop ndir s').1 := by
    intro c len prop ndir s s'
    unfold freshProp
    by_cases hl : len ≠ o.n
    · rw [if_pos hl, if_pos hl]
    rw [if_neg hl, if_neg hl]
    cases ndir <;> dsimp only
    all_goals
      cases exp_degrees (at_ o θ c) θ with
      | error e => rfl
      | ok D =>
        dsimp only
        cases neighbourSum jUndef o θ prop _ c with
        | error e => rfl
        | ok av => dsimp only; split <;> rfl
  cases op with
  | fit θ' => exact False.elim hd
  | numEdges r =>
    unfold call
    rw [map_fst, map_fst, expected_num_edges_spec o θ s r hI.param
      (Or.inl (by rw [hI.loops]; exact hI.edges)), expected_num_edges_spec o θ s' r hI'.param
      (Or.inl (by rw [hI'.loops]; exact hI'.edges)), hI.loops, hI'.loops]
    cases exp_edges (at_ o θ b) θ <;> rfl
  | degree r => unfold call; rw [map_fst, map_fst]; exact congrArg _ (hdeg .outIn trivial r)
  | outDegree r => unfold call; rw [map_fst, map_fst]; exact congrArg _ (hdeg .out trivial r)
  | inDegree r => unfold call; rw [map_fst, map_fst]; exact congrArg _ (hdeg .inn trivial r)
  | avNnProp len prop ndir sl dr =>
    unfold call
    rw [map_fst, map_fst, expected_av_nn_property_spec jUndef o θ len prop ndir sl dr s hI.param
      (Or.inl (by rw [hI.loops]; exact hI.deg)),
      expected_av_nn_property_spec jUndef o θ len prop ndir sl dr s' hI'.param
      (Or.inl (by rw [hI'.loops]; exact hI'.deg)), hI.loops, hI'.loops]
    exact congrArg _ (hprop _ _ _ _ _ _)
  | avNnDegree ddir ndir sl dr r =>
    unfold call
    rw [map_fst, map_fst, expected_av_nn_degree_spec jUndef o θ ddir ndir sl dr r s hI.param
      (Or.inr hd.symm) (Or.inl (by rw [hI.loops]; exact hI.deg)),
      expected_av_nn_degree_spec jUndef o θ ddir ndir sl dr r s' hI'.param
      (Or.inr hd.symm) (Or.inl (by rw [hI'.loops]; exact hI'.deg)), hI.loops, hI'.loops]
    refine congrArg _ ?_
    unfold freshDeg
    cases ddir <;> dsimp only
    all_goals
      cases exp_degrees (at_ o θ (sl.getD b)) θ with
      | error e => rfl
      | ok D =>
        dsimp only
        exact (match_fst (fun res s1 => restore _ (setAv _ _ res s1)) _).trans
          ((hprop _ _ _ _ _ _).trans
            (match_fst (fun res s1 => restore _ (setAv _ _ res s1)) _).symm)

end

end Verif.Cond.Calls
