import Verif.Validate.Model
import Mathlib.Tactic.Linarith
import Mathlib.Tactic.FieldSimp
import Mathlib.Data.List.GetD

/-! # Valid arguments, and what the checks accept

The predicates below say which arguments are valid, independently of the checks of the model; the
lemmas relate each check to its predicate. -/

namespace Verif.Validate

open XR

noncomputable section

/-- `v` is the integer `n`: a number, `True`, or an array with one entry. -/
def IsCount (v : Val) (n : ℤ) : Prop :=
  v = .num (fin n) ∨ (v = .bool true ∧ n = 1) ∨
    ∃ dt shape f, v = .arr dt shape f ∧ dt ≠ .object ∧ shape.prod = 1 ∧ f 0 = fin n

/-- `v` is an array of `n` numbers, none negative or undefined. -/
def IsVector (n : ℤ) (v : Val) (p : ℕ → XR) : Prop :=
  ∃ dt m, v = .arr dt [m] p ∧ dt ≠ .object ∧ (m : ℤ) = n ∧ ∀ i < m, Nonneg (p i)

/-- `v` is the single number `x`: a number, a truth value, a list with one entry or an array with
one entry. -/
def IsNumber (v : Val) (x : XR) : Prop :=
  v = .num x ∨ (∃ b : Bool, v = .bool b ∧ x = if b then 1 else 0) ∨ v = .list [x] ∨
    ∃ dt shape f, v = .arr dt shape f ∧ dt ≠ .object ∧ shape.prod = 1 ∧ f 0 = x

/-- Value of the option `k`: the explicit one if there is one, otherwise that of the graph. -/
def given (g : Key → Option Val) (kw : List (Key × Val)) (k : Key) : Option Val :=
  match kw.reverse.find? (fun e => e.1 = k) with
  | some e => some e.2
  | none => g k

theorem nonneg_iff (x : XR) : Nonneg x ↔ leb 0 x = true := by
  cases x <;> simp [Nonneg, leb]

theorem not_neg_iff {x : XR} (h : x ≠ nan) : ltb x 0 = false ↔ Nonneg x := by
  cases x <;> simp_all [Nonneg, ltb]

theorem get_set (f : Fields) (v : Val) {k j : Key} (hk : ∀ s, k ≠ .unknown s) :
    (f.set v k).get j = if j = k then some v else f.get j := by
  cases k <;> cases j <;> simp [Fields.set, Fields.get] at *

theorem setOptions_cons {allowed : List Key} {f : Fields} {k : Key} {v : Val}
    {kw : List (Key × Val)} (h : k ∈ allowed) :
    setOptions allowed f ((k, v) :: kw) = setOptions allowed (f.set v k) kw := by
  simp only [setOptions, List.foldlM_cons, if_pos h]; rfl

theorem setOptions_nil {allowed : List Key} {f : Fields} : setOptions allowed f [] = .ok f := rfl

/-- What the loop over the options does: unknown ones are rejected, the others override. -/
theorem setOptions_spec (allowed : List Key) (ha : ∀ s, Key.unknown s ∉ allowed)
    (kw : List (Key × Val)) : ∀ f : Fields,
    ((∃ e ∈ kw, e.1 ∉ allowed) ∧ setOptions allowed f kw = .error .illegal) ∨
    ((∀ e ∈ kw, e.1 ∈ allowed) ∧ ∃ f', setOptions allowed f kw = .ok f' ∧
      ∀ k, f'.get k = given f.get kw k) := by
  induction kw with
  | nil => intro f; exact .inr ⟨by simp, f, rfl, fun k => rfl⟩
  | cons e kw ih =>
    intro f
    by_cases he : e.1 ∈ allowed
    · have hs : setOptions allowed f (e :: kw) = setOptions allowed (f.set e.2 e.1) kw := by
        simp only [setOptions, List.foldlM_cons, if_pos he]; rfl
      have hu : ∀ s, e.1 ≠ .unknown s := fun s h => ha s (h ▸ he)
      rcases ih (f.set e.2 e.1) with ⟨⟨e', h1, h2⟩, h3⟩ | ⟨h1, f', h2, h3⟩
      · exact .inl ⟨⟨e', List.mem_cons_of_mem _ h1, h2⟩, by rw [hs, h3]⟩
      · refine .inr ⟨?_, f', by rw [hs, h2], ?_⟩
        · intro e' h; rcases List.mem_cons.1 h with rfl | h
          · exact he
          · exact h1 _ h
        · intro k
          rw [h3]
          unfold given
          rw [List.reverse_cons, List.find?_append]
          cases hf : kw.reverse.find? (fun e => e.1 = k) with
          | some e' => rfl
          | none =>
            simp only [Option.none_or, List.find?_cons, List.find?_nil]
            rw [get_set _ _ hu]
            by_cases hk : e.1 = k
            · simp [hk]
            · simp [hk, Ne.symm hk]
    · refine .inl ⟨⟨e, by simp, he⟩, ?_⟩
      simp only [setOptions, List.foldlM_cons, if_neg he]; rfl

theorem trunc_int (z : ℤ) : trunc (z : ℝ) = z := by
  unfold trunc; split <;> simp

theorem intOf_iff (x : XR) (n : ℤ) : intOf x = .ok n ↔ x = fin n ∧ n ≠ 0 := by
  constructor
  · intro h
    cases x with
    | fin r =>
      simp only [intOf] at h
      split at h
      · cases h
      · rename_i h0
        split at h
        · rename_i h1
          injection h with h
          have hr : (trunc r : ℝ) ≠ 0 := by exact_mod_cast h0
          rw [div_eq_one_iff_eq hr] at h1
          exact ⟨by rw [← h, ← h1], h ▸ h0⟩
        · cases h
    | _ => cases h
  · rintro ⟨rfl, h⟩
    have hr : (n : ℝ) ≠ 0 := by exact_mod_cast h
    simp only [intOf, trunc_int, if_neg h, div_self hr, if_true]

theorem entries_one {shape : List ℕ} (h : shape.prod = 1) (f : ℕ → XR) :
    entries shape f = [f 0] := by simp [entries, h]

theorem entries_singleton {shape : List ℕ} {f : ℕ → XR} {x : XR} (h : entries shape f = [x]) :
    shape.prod = 1 ∧ f 0 = x := by
  have h1 : shape.prod = 1 := by simpa [entries] using congrArg List.length h
  rw [entries_one h1] at h
  exact ⟨h1, by simpa using h⟩

theorem mem_entries {shape : List ℕ} {f : ℕ → XR} {x : XR} :
    x ∈ entries shape f ↔ ∃ i < shape.prod, f i = x := by
  simp [entries]

/-- The check of a count accepts the positive integers. -/
theorem count_iff (v : Val) (n : ℤ) : count v = .ok n ↔ IsCount v n ∧ 0 < n := by
  have key : ∀ x : XR, ((intOf x >>= fun k => if k ≤ 0 then Except.error Err.notPositive
      else Except.ok k) = .ok n) ↔ x = fin n ∧ 0 < n := by
    intro x
    constructor
    · intro h
      cases hx : intOf x with
      | error e => rw [hx] at h; cases h
      | ok k =>
        rw [hx] at h
        change (if k ≤ 0 then Except.error Err.notPositive else Except.ok k) = _ at h
        split at h
        · cases h
        · injection h with h
          subst h
          exact ⟨((intOf_iff x k).1 hx).1, by omega⟩
    · rintro ⟨rfl, h⟩
      rw [(intOf_iff _ n).2 ⟨rfl, by omega⟩]
      change (if n ≤ 0 then Except.error Err.notPositive else Except.ok n) = _
      rw [if_neg (by omega)]
  have bad : ¬ ((Except.error Err.notInteger >>= fun k : ℤ => if k ≤ 0 then
      Except.error Err.notPositive else Except.ok k) = Except.ok n) := by
    intro h; cases h
  cases v with
  | num x => exact (key x).trans (by simp [IsCount])
  | bool b =>
    refine (key (if b then 1 else 0)).trans ?_
    cases b
    · simp only [IsCount, Bool.false_eq_true, if_false, zero_def, fin_inj]
      constructor
      · rintro ⟨h, h'⟩
        have : n = 0 := by exact_mod_cast h.symm
        omega
      · rintro ⟨h | h | ⟨_, _, _, h, _⟩, _⟩ <;> simp at h
    · simp only [IsCount, if_true, one_def, fin_inj]
      constructor
      · rintro ⟨h, h'⟩
        exact ⟨.inr (.inl ⟨trivial, by exact_mod_cast h.symm⟩), h'⟩
      · rintro ⟨h | ⟨_, h⟩ | ⟨_, _, _, h, _⟩, h'⟩
        · cases h
        · exact ⟨by simp [h], h'⟩
        · cases h
  | arr dt shape f =>
    by_cases hd : dt = .object
    · subst hd
      refine ⟨fun h => absurd h bad, ?_⟩
      rintro ⟨h | ⟨h, _⟩ | ⟨_, _, _, h, h', _⟩, _⟩ <;> cases h
      exact absurd rfl h'
    · cases he : entries shape f with
      | nil =>
        refine ⟨fun h => ?_, ?_⟩
        · exfalso; cases dt <;> simp only [count, he] at h <;> exact bad h
        · rintro ⟨h | ⟨h, _⟩ | ⟨_, _, _, h, _, h', _⟩, _⟩ <;> cases h
          rw [entries_one h'] at he; cases he
      | cons x t =>
        cases t with
        | nil =>
          obtain ⟨h1, h2⟩ := entries_singleton he
          have : count (.arr dt shape f) = (intOf x >>= fun k => if k ≤ 0 then
              Except.error Err.notPositive else Except.ok k) := by
            cases dt <;> simp only [count, he]
            exact absurd rfl hd
          rw [this, key]
          constructor
          · rintro ⟨h, h'⟩
            exact ⟨.inr (.inr ⟨dt, shape, f, rfl, hd, h1, by rw [h2, h]⟩), h'⟩
          · rintro ⟨h | ⟨h, _⟩ | ⟨_, _, _, h, _, _, h''⟩, h'⟩ <;> cases h
            exact ⟨by rw [← h2, h''], h'⟩
        | cons y t =>
          refine ⟨fun h => ?_, ?_⟩
          · exfalso; cases dt <;> simp only [count, he] at h <;> exact bad h
          · rintro ⟨h | ⟨h, _⟩ | ⟨_, _, _, h, _, h', _⟩, _⟩ <;> cases h
            rw [entries_one h'] at he; cases he
  | _ =>
    refine ⟨fun h => absurd h bad, ?_⟩
    rintro ⟨h | ⟨h, _⟩ | ⟨_, _, _, h, _⟩, _⟩ <;> cases h

/-- The check of a property accepts the arrays of `n` non-negative numbers. -/
theorem vector_iff (n : ℤ) (v : Val) (p : ℕ → XR) : vector n v = .ok p ↔ IsVector n v p := by
  cases v with
  | arr dt shape f =>
    simp only [vector]
    constructor
    · intro h
      split at h
      · rename_i hs
        split at h
        · cases h
        · rename_i hd
          split at h
          · rename_i ha
            injection h with h; subst h
            match shape, hs with
            | [m], hs =>
              refine ⟨dt, m, rfl, hd, by simpa using hs, fun i hi => ?_⟩
              rw [nonneg_iff]
              exact List.all_eq_true.1 ha _ (mem_entries.2 ⟨i, by simpa using hi, rfl⟩)
          · cases h
      · cases h
    · rintro ⟨dt', m, h, hd, hm, hp⟩
      cases h
      rw [if_pos (by simp [← hm]), if_neg hd, if_pos]
      refine List.all_eq_true.2 fun x hx => ?_
      obtain ⟨i, hi, rfl⟩ := mem_entries.1 hx
      rw [← nonneg_iff]
      exact hp i (by simpa using hi)
  | _ => exact ⟨fun h => (by cases h), (by rintro ⟨_, _, h, _⟩; cases h)⟩

/-- Arguments for a single number that the check decides correctly: no `nan`, arrays without empty
dimensions, no sparse matrices. -/
def CleanNumber : Val → Prop
  | .num x => x ≠ nan
  | .list l => nan ∉ l
  | .arr _ shape f => 0 ∉ shape ∧ nan ∉ entries shape f
  | .sparse _ _ => False
  | _ => True

theorem prod_pos {shape : List ℕ} (h : 0 ∉ shape) : 0 < shape.prod := by
  rw [Nat.pos_iff_ne_zero]
  intro h'
  exact h (List.prod_eq_zero_iff.1 h')

/-- The truth value of the comparison of an array of one entry. -/
theorem isNegative_arr {dt : Dt} {shape : List ℕ} {f : ℕ → XR} (h0 : 0 ∉ shape) (b : Bool) :
    isNegative (.arr dt shape f) = .ok b ↔ shape.prod = 1 ∧ ltb (f 0) 0 = b := by
  cases he : entries shape f with
  | nil =>
    exfalso
    have := congrArg List.length he
    simp only [entries, List.length_map, List.length_range, List.length_nil] at this
    exact absurd this (prod_pos h0).ne'
  | cons x t =>
    cases t with
    | nil =>
      obtain ⟨h1, h2⟩ := entries_singleton he
      simp only [isNegative, he, h1, h2, true_and, Except.ok.injEq]
    | cons y t =>
      refine ⟨fun h => (by simp only [isNegative, he] at h; cases h), ?_⟩
      rintro ⟨h, _⟩
      rw [entries_one h] at he; cases he

theorem unwrap_arr {dt : Dt} {k : ℕ} {rest : List ℕ} {f : ℕ → XR} (hk : k ≠ 1) :
    unwrap (.arr dt (k :: rest) f) = .error .notNumber := by
  unfold unwrap; split <;> simp_all
  rename_i h
  exact h _ _ _ _ rfl rfl rfl rfl

/-- The check of a number of edges accepts the single non-negative numbers. -/
theorem number_sound {v w : Val} (hc : CleanNumber v) (h : number v = .ok w) :
    ∃ x, IsNumber v x ∧ Nonneg x ∧ IsNumber w x := by
  have fin_ : ∀ x : XR, x ≠ nan → ∀ w,
      (isNegative (.num x) >>= fun b => if b then Except.error Err.negative
        else .ok (Val.num x)) = .ok w → Nonneg x ∧ w = .num x := by
    intro x hx w h
    change (if ltb x 0 = true then Except.error Err.negative else Except.ok (Val.num x)) = _ at h
    split at h
    · cases h
    · rename_i hn
      injection h with h
      exact ⟨(not_neg_iff hx).1 (by simpa using hn), h.symm⟩
  cases v with
  | num x =>
    obtain ⟨h1, rfl⟩ := fin_ x hc w h
    exact ⟨x, .inl rfl, h1, .inl rfl⟩
  | bool b =>
    obtain ⟨h1, rfl⟩ := fin_ (if b then 1 else 0) (by cases b <;> simp [one_def, zero_def]) w h
    exact ⟨_, .inr (.inl ⟨b, rfl, rfl⟩), h1, .inl rfl⟩
  | list l =>
    match l, hc, h with
    | [x], hc, h =>
      obtain ⟨h1, rfl⟩ := fin_ x (by simpa [CleanNumber, eq_comm] using hc) w h
      exact ⟨x, .inr (.inr (.inl rfl)), h1, .inl rfl⟩
    | [], _, h => cases h
    | _ :: _ :: _, _, h => cases h
  | arr dt shape f =>
    obtain ⟨h0, hn⟩ := hc
    have hx : f 0 ≠ nan := fun e => hn (mem_entries.2 ⟨0, prod_pos h0, e⟩)
    -- an array that is not unwrapped to a number
    have arr_ : ∀ sh : List ℕ, 0 ∉ sh → sh.prod = shape.prod →
        (timesOne (.arr dt sh f) >>= fun v => isNegative v >>= fun b =>
          if b then Except.error Err.negative else .ok v) = .ok w →
        ∃ x, IsNumber (.arr dt shape f) x ∧ Nonneg x ∧ IsNumber w x := by
      intro sh h0' hp h
      simp only [timesOne] at h
      split at h
      · cases h
      · rename_i hd
        change (isNegative (.arr .float sh f) >>= _) = _ at h
        cases hb : isNegative (.arr .float sh f) with
        | error e => rw [hb] at h; cases h
        | ok b =>
          rw [hb] at h
          obtain ⟨h1, h2⟩ := (isNegative_arr h0' b).1 hb
          change (if b = true then _ else _) = _ at h
          split at h
          · cases h
          · rename_i hb'
            injection h with h; subst h
            exact ⟨f 0, .inr (.inr (.inr ⟨dt, shape, f, rfl, hd, hp ▸ h1, rfl⟩)),
              (not_neg_iff hx).1 (by rw [h2]; simpa using hb'),
              .inr (.inr (.inr ⟨.float, sh, f, rfl, by simp, h1, rfl⟩))⟩
    match shape, h0, hn, h, arr_ with
    | [], h0, hn, h, arr_ => exact arr_ [] (by simp) rfl h
    | k :: rest, h0, hn, h, arr_ =>
      by_cases hk : k = 1
      · subst hk
        by_cases hr : rest = []
        · subst hr
          by_cases hd : dt = .object
          · subst hd; cases h
          · have : number (.arr dt [1] f) = number (.num (f 0)) := by
              simp [number, unwrap, hd]
            rw [this] at h
            obtain ⟨h1, rfl⟩ := fin_ _ hx w h
            exact ⟨f 0, .inr (.inr (.inr ⟨dt, [1], f, rfl, hd, by simp, rfl⟩)), h1, .inl rfl⟩
        · refine arr_ rest (fun h => h0 (List.mem_cons_of_mem _ h)) (by simp) ?_
          rw [number, show unwrap (.arr dt (1 :: rest) f) = .ok (.arr dt rest f) by
            simp [unwrap, hr]] at h
          exact h
      · rw [number, unwrap_arr hk] at h; cases h
  | sparse => exact absurd hc (by simp [CleanNumber])
  | graph => cases h
  | empty => cases h
  | other => cases h

theorem number_complete {v : Val} {x : XR} (h : IsNumber v x) (hx : Nonneg x) :
    ∃ w, number v = .ok w := by
  have hn : ltb x 0 = false := by
    cases x <;> simp_all [Nonneg, ltb]
  have fin_ : (isNegative (.num x) >>= fun b => if b then Except.error Err.negative
        else .ok (Val.num x)) = .ok (.num x) := by
    change (if ltb x 0 = true then Except.error Err.negative else Except.ok (Val.num x)) = _
    rw [hn]; rfl
  rcases h with rfl | ⟨b, rfl, rfl⟩ | rfl | ⟨dt, shape, f, rfl, hd, hp, rfl⟩
  · exact ⟨_, fin_⟩
  · exact ⟨_, fin_⟩
  · exact ⟨_, fin_⟩
  · have arr_ : ∀ sh : List ℕ, sh.prod = 1 →
        (timesOne (.arr dt sh f) >>= fun v => isNegative v >>= fun b =>
          if b then Except.error Err.negative else .ok v) = .ok (.arr .float sh f) := by
      intro sh h1
      have h0 : 0 ∉ sh := fun h => by rw [List.prod_eq_zero h] at h1; cases h1
      simp only [timesOne, if_neg hd]
      change (isNegative (.arr .float sh f) >>= _) = _
      rw [(isNegative_arr h0 false).2 ⟨h1, hn⟩]; rfl
    match shape, hp with
    | [], hp => exact ⟨_, arr_ [] rfl⟩
    | k :: rest, hp =>
      have hk : k = 1 := Nat.eq_one_of_mul_eq_one_right (by simpa using hp)
      subst hk
      by_cases hr : rest = []
      · subst hr
        refine ⟨.num (f 0), ?_⟩
        have : number (.arr dt [1] f) = number (.num (f 0)) := by
          simp [number, unwrap, hd]
        rw [this]; exact fin_
      · refine ⟨.arr .float rest f, ?_⟩
        rw [number, show unwrap (.arr dt (1 :: rest) f) = .ok (.arr dt rest f) by
            simp [unwrap, hr]]
        exact arr_ rest (by simpa using hp)

/-- `v` is the parameter `x`: a number, a list with one entry or an array with one entry. -/
def IsParam (v : Val) (x : XR) : Prop :=
  v = .num x ∨ v = .list [x] ∨
    ∃ dt shape f, v = .arr dt shape f ∧ dt.isNumber = true ∧ shape ≠ [] ∧ shape.prod = 1 ∧ f 0 = x

/-- `v` is the pair of parameters `x`, `y`: a number or truth value (then `y = 0`) or an array with
two entries. -/
def IsParams (v : Val) (x y : XR) : Prop :=
  (v = .num x ∧ y = 0) ∨ (∃ b : Bool, v = .bool b ∧ (x = if b then 1 else 0) ∧ y = 0) ∨
    ∃ dt f, v = .arr dt [2] f ∧ dt.isNumber = true ∧ f 0 = x ∧ f 1 = y

/-- Parameters that the check decides correctly: no `nan`, lists with one entry, arrays with at most
one dimension. -/
def CleanParam : Val → Prop
  | .num x => x ≠ nan
  | .list l => ∃ x, l = [x] ∧ x ≠ nan
  | .arr _ shape f => shape.length ≤ 1 ∧ nan ∉ entries shape f
  | _ => True

theorem paramArray_iff {dt : Dt} {shape : List ℕ} {f : ℕ → XR} (hn : nan ∉ entries shape f)
    (p : Param) : paramArray dt shape f = .ok p ↔
      p = ⟨shape, f⟩ ∧ dt.isNumber = true ∧ ∀ i < shape.prod, Nonneg (f i) := by
  have hk : (entries shape f).any (fun x => ltb x 0) = false ↔ ∀ i < shape.prod, Nonneg (f i) := by
    rw [List.any_eq_false]
    constructor
    · intro h i hi
      have hm : f i ∈ entries shape f := mem_entries.2 ⟨i, hi, rfl⟩
      exact (not_neg_iff (fun e => hn (e ▸ hm))).1 (by simpa using h _ hm)
    · intro h x hx
      obtain ⟨i, hi, rfl⟩ := mem_entries.1 hx
      simpa using (not_neg_iff (fun e => hn (e ▸ hx))).2 (h i hi)
  unfold paramArray
  rw [← hk]
  by_cases hd : dt.isNumber = true
  · cases ha : (entries shape f).any (fun x => ltb x 0)
    · simp [hd, eq_comm]
    · simp [hd]
  · simp [hd]

theorem paramArray_object {dt : Dt} (h : dt.isNumber = false) (shape : List ℕ) (f : ℕ → XR)
    (p : Param) : paramArray dt shape f ≠ .ok p := by
  unfold paramArray; rw [if_pos h]; simp

/-- The check of a parameter accepts the single non-negative numbers. -/
theorem oneParam_sound {v : Val} {p : Param} (hc : CleanParam v) (h : oneParam v = .ok p) :
    ∃ x, IsParam v x ∧ Nonneg x ∧ p.shape.prod = 1 ∧ p.f 0 = x := by
  cases v with
  | num x =>
    change x ≠ nan at hc
    obtain ⟨rfl, -, h⟩ := (paramArray_iff (by simpa [entries, eq_comm] using hc) p).1 h
    exact ⟨x, .inl rfl, h 0 (by simp), by simp, rfl⟩
  | list l =>
    obtain ⟨x, rfl, hx⟩ := hc
    obtain ⟨rfl, -, h⟩ := (paramArray_iff (by simpa [entries, eq_comm] using hx) p).1 h
    exact ⟨x, .inr (.inl rfl), h 0 (by simp), by simp, rfl⟩
  | arr dt shape f =>
    obtain ⟨hl, hn⟩ := hc
    match shape, hl, hn, h with
    | [], _, _, h => cases h
    | [k], _, hn, h =>
      simp only [oneParam] at h
      split at h
      · rename_i hk
        subst hk
        obtain ⟨rfl, hd, h⟩ := (paramArray_iff hn p).1 h
        exact ⟨f 0, .inr (.inr ⟨dt, [1], f, rfl, hd, by simp, by simp, rfl⟩), h 0 (by simp),
          by simp, rfl⟩
      · cases h
    | _ :: _ :: _, hl, _, _ => simp at hl
  | _ => exact absurd h (paramArray_object rfl _ _ _)

theorem oneParam_complete {v : Val} {x : XR} (h : IsParam v x) (hx : Nonneg x) :
    ∃ p, oneParam v = .ok p := by
  have hn : x ≠ nan := by rintro rfl; exact hx
  rcases h with rfl | rfl | ⟨dt, shape, f, rfl, hd, hs, hp, rfl⟩
  · exact ⟨_, (paramArray_iff (by simpa [entries, eq_comm] using hn) _).2
      ⟨rfl, rfl, fun i _ => hx⟩⟩
  · refine ⟨_, (paramArray_iff (by simpa [entries, eq_comm] using hn) _).2
      ⟨rfl, rfl, fun i hi => ?_⟩⟩
    have : i = 0 := by simpa using hi
    subst this; exact hx
  · match shape, hs, hp with
    | k :: rest, _, hp =>
      have hk : k = 1 := Nat.eq_one_of_mul_eq_one_right (by simpa using hp)
      subst hk
      refine ⟨_, (paramArray_iff (by rw [entries_one hp]; simpa [eq_comm] using hn) _).2
        ⟨rfl, hd, fun i hi => ?_⟩⟩
      have : i = 0 := by omega
      subst this; exact hx

/-- The check of the two parameters accepts non-negative ones. -/
theorem twoParam_sound {v : Val} {p : Param} (hc : CleanParam v) (h : twoParam v = .ok p) :
    ∃ x y, IsParams v x y ∧ Nonneg x ∧ Nonneg y ∧ p.shape = [2] ∧ p.f 0 = x ∧ p.f 1 = y := by
  cases v with
  | num x =>
    change x ≠ nan at hc
    obtain ⟨rfl, -, h⟩ := (paramArray_iff (by
      simp only [entries, List.prod_cons, List.prod_nil, mul_one, List.range_succ, List.range_zero,
        List.nil_append, List.map_append, List.map_cons, List.map_nil]
      simpa [eq_comm, zero_def] using hc) p).1 h
    exact ⟨x, 0, .inl ⟨rfl, rfl⟩, h 0 (by simp), h 1 (by simp), rfl, rfl, rfl⟩
  | bool b =>
    obtain ⟨rfl, -, h⟩ := (paramArray_iff (by
      simp only [entries, List.prod_cons, List.prod_nil, mul_one, List.range_succ, List.range_zero,
        List.nil_append, List.map_append, List.map_cons, List.map_nil]
      cases b <;> simp [zero_def, one_def]) p).1 h
    exact ⟨_, 0, .inr (.inl ⟨b, rfl, rfl, rfl⟩), h 0 (by simp), h 1 (by simp), rfl, rfl, rfl⟩
  | list l => cases h
  | arr dt shape f =>
    obtain ⟨hl, hn⟩ := hc
    match shape, hl, hn, h with
    | [], _, _, h => cases h
    | [k], _, hn, h =>
      simp only [twoParam] at h
      split at h
      · rename_i hk
        subst hk
        obtain ⟨rfl, hd, h⟩ := (paramArray_iff hn p).1 h
        exact ⟨f 0, f 1, .inr (.inr ⟨dt, f, rfl, hd, rfl, rfl⟩), h 0 (by simp), h 1 (by simp),
          rfl, rfl, rfl⟩
      · cases h
    | _ :: _ :: _, hl, _, _ => simp at hl
  | _ => exact absurd h (paramArray_object rfl _ _ _)

theorem twoParam_complete {v : Val} {x y : XR} (h : IsParams v x y) (hx : Nonneg x)
    (hy : Nonneg y) : ∃ p, twoParam v = .ok p := by
  have key : ∀ (dt : Dt) (f : ℕ → XR), dt.isNumber = true → f 0 = x → f 1 = y →
      ∃ p, paramArray dt [2] f = .ok p := by
    rintro dt f hd rfl rfl
    have h : ∀ i < [2].prod, Nonneg (f i) := by
      intro i hi
      have : i = 0 ∨ i = 1 := by simp at hi; omega
      rcases this with rfl | rfl
      · exact hx
      · exact hy
    refine ⟨_, (paramArray_iff ?_ _).2 ⟨rfl, hd, h⟩⟩
    intro hm
    obtain ⟨i, hi, e⟩ := mem_entries.1 hm
    have := h i hi
    rw [e] at this; exact this
  rcases h with ⟨rfl, rfl⟩ | ⟨b, rfl, rfl, rfl⟩ | ⟨dt, f, rfl, hd, h0, h1⟩
  · exact key _ _ rfl rfl rfl
  · exact key _ _ rfl rfl rfl
  · exact key dt f hd h0 h1

theorem ok_bind {α β : Type} (a : α) (f : α → Except Err β) : (Except.ok a >>= f) = f a := rfl

theorem bind_ok {α β : Type} (a : Except Err α) (f : α → Except Err β) (b : β) :
    (a >>= f) = .ok b ↔ ∃ x, a = .ok x ∧ f x = .ok b := by
  cases a with
  | error e => exact ⟨fun h => (by cases h), fun ⟨_, h, _⟩ => (by cases h)⟩
  | ok x => exact ⟨fun h => ⟨x, rfl, h⟩, fun ⟨_, h, h'⟩ => (by cases h; exact h')⟩

theorem required_iff (o : Option Val) (v : Val) : required o = .ok v ↔ o = some v ∧ v ≠ .empty := by
  cases o with
  | none => simp [required]
  | some w => cases w <;> simp only [required] <;> constructor <;> intro h <;> simp_all <;> aesop

end

end Verif.Validate
