import Verif.Round.Model
import Verif.Random.Props

/-!
# The random ensemble in rounded arithmetic

`/repo/src/graph_ensembles/sparse/models/random.py`, `/repo/src/graph_ensembles/models.py:552-1034`
and `/repo/src/graph_ensembles/spark/models.py:837-1396` with an arithmetic as argument.
`rand_exact` and the theorems after it relate the functions to those of `Verif.Rand`.
-/

namespace Verif

open XR

namespace Round

open DiGraphEnsemble (Dir)

variable (A : Arith)

noncomputable section

/-- An integer as operand of a float operation: python and numpy convert it to a float first. -/
def ofInt (k : ℤ) : XR := A.add 0 (fin (k : ℝ))

/-- A number of edges divided by an integer; division by zero as in `Rand.pyDiv`. -/
def randDiv (np : Bool) (a : ℝ) (k : ℤ) : Except Rand.Err XR :=
  if k = 0 then (if np then .ok (signedInf a) else .error .zeroDivision)
  else .ok (A.div (fin a) (ofInt A k))

/-- The quotient of two floats; division by zero as in `Rand.pyDiv`. -/
def randDivF (np : Bool) (a b : ℝ) : Except Rand.Err XR :=
  if b = 0 then (if np then .ok (signedInf a) else .error .zeroDivision)
  else .ok (A.div (fin a) (fin b))

/-- Second element of the parameter set by `fit` (`sparse/models/random.py:154-160`). -/
def rand_fitWeight (o : Rand.Obj) (m : Rand.Number) : Except Rand.Err XR :=
  match o.total_weight with
  | none => .ok 0
  | some w =>
    match o.discrete_weights with
    | none => .error .attribute
    | some true => (randDivF A (m.np || w.np) m.val w.val).map (fun x => A.sub 1 x)
    | some false => randDivF A (m.np || w.np) m.val w.val

/-- `fit` (`sparse/models/random.py:147-162`, `models.py:687-702`, `spark/models.py:1047-1062`). -/
def rand_fit (o : Rand.Obj) : Except Rand.Err Rand.Obj :=
  match o.num_edges with
  | none => .error .attribute
  | some m =>
    let p := if o.selfloops then randDiv A m.np m.val ((o.num_vertices : ℤ) ^ 2)
      else randDiv A m.np m.val ((o.num_vertices : ℤ) * ((o.num_vertices : ℤ) - 1))
    match p with
    | .error e => .error e
    | .ok p =>
      match rand_fitWeight A o m with
      | .error e => .error e
      | .ok q => .ok { o with param := some (p, q) }

/-- `expected_num_edges` (`sparse/models/random.py:164-175`, `models.py:704-715`,
`spark/models.py:1064-1075`). -/
def rand_num_edges (o : Rand.Obj) : Except Rand.Err XR :=
  match o.param with
  | none => .error .notFitted
  | some (p, _) =>
    if o.selfloops then .ok (A.mul p (ofInt A ((o.num_vertices : ℤ) ^ 2)))
    else .ok (A.mul (A.mul p (ofInt A o.num_vertices)) (ofInt A ((o.num_vertices : ℤ) - 1)))

/-- `2 * self.param[0] - self.param[0] ** 2` (`sparse/models/random.py:195,260,262`).  The square is
taken to be rounded like a product. -/
def either (p : XR) : XR := A.sub (A.mul (fin 2) p) (A.mul p p)

/-- `expected_degree` (`sparse/models/random.py:189-199`, `models.py:729-739`,
`spark/models.py:1089-1099`). -/
def rand_degree (o : Rand.Obj) : Except Rand.Err (ℕ → XR) :=
  match o.param with
  | none => .error .notFitted
  | some (p, _) =>
    let d := A.mul (either A p) (ofInt A ((o.num_vertices : ℤ) - 1))
    if o.selfloops then .ok (fun _ => A.add d p) else .ok (fun _ => d)

/-- `expected_out_degree` (`sparse/models/random.py:201-211`, `models.py:741-751`,
`spark/models.py:1101-1111`). -/
def rand_out_degree (o : Rand.Obj) : Except Rand.Err (ℕ → XR) :=
  match o.param with
  | none => .error .notFitted
  | some (p, _) =>
    if o.selfloops then .ok (fun _ => A.mul p (ofInt A o.num_vertices))
    else .ok (fun _ => A.mul p (ofInt A ((o.num_vertices : ℤ) - 1)))

/-- `expected_in_degree` (`sparse/models/random.py:213-215`, `models.py:753-755`,
`spark/models.py:1113-1118`). -/
def rand_in_degree (o : Rand.Obj) : Except Rand.Err (ℕ → XR) := rand_out_degree A o

/-! ### Nearest-neighbour averages -/

/-- An order in which numbers are added: `np.sum` adds long arrays in pairs of blocks. -/
inductive Order where
  | leaf (i : ℕ)
  | node (l r : Order)

/-- The positions that are added. -/
def Order.leaves : Order → List ℕ
  | leaf i => [i]
  | node l r => l.leaves ++ r.leaves

/-- The sum of the numbers `v` in this order. -/
def Order.sum (v : ℕ → XR) : Order → XR
  | leaf i => v i
  | node l r => A.add (l.sum v) (r.sum v)

/-- The order adds all numbers of an array of length `n`, each once. -/
def Order.Covers (t : Order) (n : ℕ) : Prop := t.leaves.Perm (List.range n)

/-- The array `av_nn` before averaging (`sparse/models/random.py:253-264`, `models.py:793-804`,
`spark/models.py:1156-1168`); `np.sum` adds in the order `t`. -/
def rand_avSum (t : Order) (o : Rand.Obj) (p : XR) (prop : ℕ → XR) (ndir : Dir) :
    Except Rand.Err (ℕ → XR) :=
  let tot := fun c : XR => t.sum A (fun j => A.mul c (prop j))
  match ndir with
  | .out | .inn =>
    if o.selfloops then .ok (fun _ => tot p) else .ok (fun i => A.add (tot p) (A.mul (-p) (prop i)))
  | .outIn =>
    let c := either A p
    if o.selfloops then .ok (fun _ => tot c) else .ok (fun i => A.add (tot c) (A.mul (-c) (prop i)))
  | .underscored | .other => .error .badDirection

/-- The degree used as denominator (`sparse/models/random.py:243-251`). -/
def rand_avDeg (o : Rand.Obj) (ndir : Dir) : Except Rand.Err (ℕ → XR) :=
  match ndir with
  | .out => rand_out_degree A o
  | .inn => rand_in_degree A o
  | .outIn => rand_degree A o
  | .underscored | .other => .error .badDirection

/-- The result of `expected_av_nn_property` (`sparse/models/random.py:217-278`, `models.py:757-818`,
`spark/models.py:1120-1181`); for the object after the call see `Rand.expected_av_nn_property`.
`len` is `prop.shape[0]`. -/
def rand_av_nn (t : Order) (o : Rand.Obj) (len : ℕ) (prop : ℕ → XR) (ndir : Dir)
    (selfloops : Option Bool) : Except Rand.Err (ℕ → XR) :=
  match o.param with
  | none => .error .notFitted
  | some (p, _) =>
    if len ≠ o.num_vertices then .error .badShape
    else
      let o' := Rand.withLoops o selfloops
      match rand_avDeg A o' ndir, rand_avSum A t o' p prop ndir with
      | .error e, _ => .error e
      | _, .error e => .error e
      | .ok deg, .ok av =>
        if (List.range o.num_vertices).all (fun i => !(deg i).isZero || (av i).isZero) then
          .ok (fun i => if (deg i).isZero then av i else A.div (av i) (deg i))
        else .error .assertion

/-! ### Likelihood -/

/-- `math.log`, raising. -/
def rand_log (p : ℝ) : Except Rand.Err XR := if 0 < p then .ok (A.log (fin p)) else .error .domain

/-- `math.log1p`, raising. -/
def rand_log1p (x : ℝ) : Except Rand.Err XR :=
  if 0 < 1 + x then .ok (A.log1p (fin x)) else .error .domain

/-- `log_likelihood` (`sparse/models/random.py:280-327`, `models.py:820-869`,
`spark/models.py:1183-1230`) for a finite link probability. -/
def rand_log_likelihood (b : Method.Backend) (o : Rand.Obj) (g : Rand.Arg) (selfloops : Option Bool) :
    Except Rand.Err XR :=
  match o.param with
  | none => .error .notFitted
  | some (p, _) =>
    let sl := selfloops.getD o.selfloops
    match Rand.adjOf b g with
    | .error e => .error e
    | .ok adj =>
      if adj.shape ≠ (o.num_vertices, o.num_vertices) then .error .badShape
      else if p.toReal = 0 ∧ 0 < adj.nnz then .ok ninf
      else if p.toReal = 1 ∧ adj.nnz ≠ 0 then .ok ninf
      else
        match rand_log A p.toReal with
        | .error e => .error e
        | .ok l =>
          match rand_log1p A (-p.toReal) with
          | .error e => .error e
          | .ok l1 =>
            let like := A.mul (ofInt A adj.nnz) l
            if sl then
              .ok (A.add like (A.mul (ofInt A ((o.num_vertices : ℤ) ^ 2 - adj.nnz)) l1))
            else if adj.diag then .ok ninf
            else .ok (A.add like
              (A.mul (ofInt A ((o.num_vertices : ℤ) * ((o.num_vertices : ℤ) - 1) - adj.nnz)) l1))

/-! ### Without rounding -/

theorem ofInt_exact (k : ℤ) : ofInt Arith.exact k = fin (k : ℝ) := by
  show (0 : XR) + fin (k : ℝ) = _
  rw [zero_def, fin_add_fin, zero_add]

theorem randDiv_exact (np : Bool) (a : ℝ) (k : ℤ) :
    randDiv Arith.exact np a k = Rand.pyDiv np a (k : ℝ) := by
  unfold randDiv Rand.pyDiv
  rw [ofInt_exact]
  by_cases h : k = 0
  · simp [h]
  · have h' : (k : ℝ) ≠ 0 := by exact_mod_cast h
    rw [if_neg h, if_neg h']
    exact congrArg _ (fin_div_fin _ _ h')

theorem randDivF_exact (np : Bool) (a b : ℝ) :
    randDivF Arith.exact np a b = Rand.pyDiv np a b := by
  unfold randDivF Rand.pyDiv
  by_cases h : b = 0
  · simp [h]
  · rw [if_neg h, if_neg h]
    exact congrArg _ (fin_div_fin _ _ h)

/-- At the arithmetic without rounding these functions are those of `Verif.Rand`. -/
theorem rand_exact :
    rand_fit Arith.exact = Rand.fit ∧
    rand_num_edges Arith.exact = Rand.expected_num_edges ∧
    rand_degree Arith.exact = Rand.expected_degree ∧
    rand_out_degree Arith.exact = Rand.expected_out_degree ∧
    rand_in_degree Arith.exact = Rand.expected_in_degree ∧
    rand_log_likelihood Arith.exact = Rand.log_likelihood := by
  have hout : rand_out_degree Arith.exact = Rand.expected_out_degree := by
    funext o
    unfold rand_out_degree Rand.expected_out_degree
    simp only [ofInt_exact]
    push_cast
    rfl
  refine ⟨?_, ?_, ?_, hout, hout, ?_⟩
  · funext o
    unfold rand_fit Rand.fit rand_fitWeight Rand.fitWeight
    simp only [randDiv_exact, randDivF_exact]
    push_cast
    rfl
  · funext o
    unfold rand_num_edges Rand.expected_num_edges
    simp only [ofInt_exact]
    push_cast
    rfl
  · funext o
    unfold rand_degree Rand.expected_degree
    simp only [ofInt_exact]
    push_cast
    rfl
  · funext b o g sl
    unfold rand_log_likelihood Rand.log_likelihood
    cases o.param with
    | none => rfl
    | some pq =>
      obtain ⟨p, q⟩ := pq
      dsimp only
      cases Rand.adjOf b g with
      | error e => rfl
      | ok adj =>
        dsimp only
        refine if_congr Iff.rfl rfl (if_congr Iff.rfl rfl (if_congr Iff.rfl rfl ?_))
        unfold rand_log rand_log1p Rand.log Rand.log1p
        simp only [ofInt_exact]
        by_cases h1 : 0 < p.toReal
        · by_cases h2 : 0 < 1 + -p.toReal
          · simp only [if_pos h1, if_pos h2]
            have e1 : Arith.exact.log (fin p.toReal) = fin (Real.log p.toReal) := by
              show XR.log (fin p.toReal) = _
              simp only [XR.log, if_pos h1]
            have e2 : Arith.exact.log1p (fin (-p.toReal)) = fin (Real.log (1 + -p.toReal)) := by
              show XR.log1p (fin (-p.toReal)) = _
              simp only [XR.log1p, if_pos h2]
            rw [e1, e2]
            push_cast
            rfl
          · simp only [if_pos h1, if_neg h2]
        · simp only [if_neg h1]

private theorem xr_comm (a b : XR) : a + b = b + a := by
  cases a <;> cases b <;> first | rfl | (simp only [fin_add_fin]; rw [add_comm])

private theorem xr_assoc (a b c : XR) : a + b + c = a + (b + c) := by
  cases a <;> cases b <;> cases c <;> first | rfl | (simp only [fin_add_fin]; rw [add_assoc])

private theorem xr_zero (a : XR) : 0 + a = a := by
  cases a <;> first | rfl | (rw [zero_def, fin_add_fin, zero_add])

/-- Without rounding the order of a sum does not matter. -/
theorem Order.sum_exact (v : ℕ → XR) {t : Order} {n : ℕ} (h : t.Covers n) :
    t.sum Arith.exact v = ((List.range n).map v).sum := by
  let _ : AddCommMonoid XR :=
    { add_assoc := xr_assoc
      add_comm := xr_comm
      zero_add := xr_zero
      add_zero := fun a => (xr_comm a 0).trans (xr_zero a)
      nsmul := nsmulRec }
  have h1 : ∀ t : Order, t.sum Arith.exact v = (t.leaves.map v).sum := by
    intro t
    induction t with
    | leaf i => exact (List.sum_singleton (α := XR)).symm
    | node l r hl hr =>
      rw [Order.leaves, List.map_append, List.sum_append, ← hl, ← hr]; rfl
  rw [h1]
  exact (h.map v).sum_eq

/-- `expected_av_nn_property` without rounding is that of `Verif.Rand`. -/
theorem rand_av_nn_exact {t : Order} {o : Rand.Obj} (h : t.Covers o.num_vertices) (len : ℕ)
    (prop : ℕ → XR) (ndir : Dir) (sl : Option Bool) :
    rand_av_nn Arith.exact t o len prop ndir sl = (Rand.expected_av_nn_property o len prop ndir sl).2 := by
  have hdeg : ∀ o : Rand.Obj, rand_avDeg Arith.exact o ndir = Rand.avDeg o ndir := by
    intro o
    unfold rand_avDeg Rand.avDeg
    cases ndir <;> simp only [rand_exact.2.2.1, rand_exact.2.2.2.1, rand_exact.2.2.2.2.1]
  have hsum : ∀ (o : Rand.Obj) (p : XR), t.Covers o.num_vertices →
      rand_avSum Arith.exact t o p prop ndir = Rand.avSum o p prop ndir := by
    intro o p h
    unfold rand_avSum Rand.avSum
    simp only [Order.sum_exact _ h]
    cases ndir <;> rfl
  unfold rand_av_nn Rand.expected_av_nn_property
  cases o.param with
  | none => rfl
  | some pq =>
    obtain ⟨p, q⟩ := pq
    dsimp only
    have h' : t.Covers (Rand.withLoops o sl).num_vertices := by cases sl <;> exact h
    rw [hdeg, hsum _ _ h']
    split_ifs with h1
    · rfl
    · cases Rand.avDeg (Rand.withLoops o sl) ndir with
      | error e => rfl
      | ok deg =>
        cases Rand.avSum (Rand.withLoops o sl) p prop ndir with
        | error e => rfl
        | ok av =>
          dsimp only
          split_ifs <;> rfl

end

end Round

end Verif
