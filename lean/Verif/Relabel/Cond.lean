import Verif.Relabel.Label
import Verif.Cond.LikeProps
import Verif.Cond.MeanProps
import Verif.Cond.Fit

/-!
# C90: the numbering of the vertices in the conditional model

The conditional model reads a group for every vertex; the coarse graph and its groups keep their
numbers.
-/

namespace Verif

open XR DiGraphEnsemble

namespace Relabel

open Verif.Cond (Obj Mat Err condP)

/-- The conditional model given the same vertices in another order. -/
abbrev obj (σ : Equiv.Perm ℕ) (o : Obj) : Obj :=
  { o with
    prop_out := fun i => o.prop_out (σ i)
    prop_in := fun i => o.prop_in (σ i)
    groups := fun i => o.groups (σ i) }

variable {σ : Equiv.Perm ℕ} {n : ℕ}

/-! ## Loops that may raise -/

section

variable {S κ ι τ : Type}

theorem foldlM_nested {ε : Type} (f : S → ι → κ → Except ε S) (m : ι → List κ) (l : List ι) (s : S) :
    l.foldlM (fun s i => (m i).foldlM (fun s j => f s i j) s) s
      = (l.flatMap (fun i => (m i).map (fun j => (i, j)))).foldlM (fun s e => f s e.1 e.2) s := by
  induction l generalizing s with
  | nil => rfl
  | cons i l ih =>
    rw [List.foldlM_cons, List.flatMap_cons, List.foldlM_append, List.foldlM_map]
    congr 1
    funext s
    exact ih s

theorem foldlM_perm {ε : Type} {f : S → κ → Except ε S}
    (hf : ∀ s a b, (f s a >>= fun s => f s b) = (f s b >>= fun s => f s a)) {l l' : List κ}
    (h : l.Perm l') (s : S) : l.foldlM f s = l'.foldlM f s := by
  induction h generalizing s with
  | nil => rfl
  | cons a _ ih =>
    rw [List.foldlM_cons, List.foldlM_cons]
    congr 1
    funext s
    exact ih s
  | swap a b l =>
    simp only [List.foldlM_cons]
    rw [← bind_assoc, ← bind_assoc, hf]
  | trans _ _ ih1 ih2 => rw [ih1, ih2]

/-- The only exception is the division by zero. -/
def OnlyZero {α : Type} (r : Except Err α) : Prop := ∀ e, r = .error e → e = .zeroDivision

theorem OnlyZero.ok {α : Type} (a : α) : OnlyZero (.ok a) := fun _ h => by cases h

theorem OnlyZero.bind {α β : Type} {r : Except Err α} {f : α → Except Err β} (hr : OnlyZero r)
    (hf : ∀ a, OnlyZero (f a)) : OnlyZero (r >>= f) := by
  cases r with
  | error e => intro e' h; cases h; exact hr _ rfl
  | ok a => exact hf a

theorem bind_swap {α β γ : Type} {r : Except Err α} {t : Except Err β} (hr : OnlyZero r)
    (ht : OnlyZero t) (f : α → β → Except Err γ) :
    (r >>= fun a => t >>= fun b => f a b) = (t >>= fun b => r >>= fun a => f a b) := by
  cases r with
  | ok a => cases t <;> rfl
  | error e =>
    cases t with
    | ok b => rfl
    | error e' =>
      obtain rfl := hr e rfl
      obtain rfl := ht e' rfl
      rfl

theorem step_comm {c : κ → Except Err τ} {add : S → τ → S} (hc : ∀ a, OnlyZero (c a))
    (hadd : ∀ s t u, add (add s t) u = add (add s u) t) (s : S) (a b : κ) :
    ((c a >>= fun t => Except.ok (add s t)) >>= fun s => c b >>= fun t => Except.ok (add s t))
      = ((c b >>= fun t => Except.ok (add s t)) >>= fun s => c a >>= fun t => Except.ok (add s t)) := by
  have h : ∀ a b, ((c a >>= fun t => Except.ok (add s t)) >>= fun s => c b >>= fun t =>
      Except.ok (add s t)) = (c a >>= fun t => c b >>= fun u => Except.ok (add (add s t) u)) := by
    intro a b
    cases c a <;> rfl
  rw [h, h, bind_swap (hc a) (hc b)]
  simp only [hadd]

end

theorem square_renum (hσ : Renum n σ) :
    ((List.range n).flatMap (fun i => (List.range n).map (fun j => (i, j)))).Perm
      (((List.range n).flatMap (fun i => (List.range n).map (fun j => (i, j)))).map
        (fun e => (σ e.1, σ e.2))) := by
  have hn : ((List.range n).flatMap (fun i => (List.range n).map (fun j => (i, j)))).Nodup := by
    rw [List.nodup_flatMap]
    refine ⟨fun i _ => List.nodup_range.map (fun a b h => by simpa using h), ?_⟩
    refine List.nodup_range.imp (fun {a b} hab => ?_)
    intro e h1 h2
    simp only [List.mem_map] at h1 h2
    obtain ⟨_, _, rfl⟩ := h1
    obtain ⟨_, _, h⟩ := h2
    simp only [Prod.mk.injEq] at h
    exact hab h.1.symm
  have hinj : Function.Injective (fun e : ℕ × ℕ => (σ e.1, σ e.2)) := by
    rintro ⟨a, b⟩ ⟨c, d⟩ h
    simpa using h
  rw [List.perm_ext_iff_of_nodup hn (hn.map hinj)]
  rintro ⟨a, b⟩
  simp only [List.mem_flatMap, List.mem_map, List.mem_range, Prod.mk.injEq, Prod.exists]
  constructor
  · rintro ⟨i, hi, j, hj, rfl, rfl⟩
    exact ⟨σ.symm i, σ.symm j, ⟨σ.symm i, (hσ _).1 (by simpa using hi), σ.symm j,
      (hσ _).1 (by simpa using hj), rfl, rfl⟩, by simp, by simp⟩
  · rintro ⟨i, j, ⟨i', hi, j', hj, rfl, rfl⟩, rfl, rfl⟩
    exact ⟨_, (hσ _).2 hi, _, (hσ _).2 hj, rfl, rfl⟩

/-! ## The quantities of the groups -/

section

attribute [local instance] addMonoid

theorem agg_sum (n : ℕ) (groups : ℕ → ℕ) (v : ℕ → XR) (a : ℕ) :
    Cond.agg n groups v a = ∑ i ∈ Finset.range n, if a = groups i then v i else 0 := by
  unfold Cond.agg
  rw [show (zeros : ℕ → XR) = id 0 from rfl,
    foldl_rep (A := ℕ → XR) id _ (fun i => Pi.single (groups i) (v i)) n
      (fun i _ s => addAt_single _ _ _), id, zero_add, Finset.sum_apply]
  simp only [Pi.single_apply]

theorem agg_renum (hσ : Renum n σ) (groups : ℕ → ℕ) (v : ℕ → XR) :
    Cond.agg n (fun i => groups (σ i)) (fun i => v (σ i)) = Cond.agg n groups v := by
  funext a
  rw [agg_sum, agg_sum]
  exact sum_renum hσ (fun i _ => rfl)

end

variable {o : Obj}

theorem aggOut_renum (hσ : Renum o.n σ) : (obj σ o).aggOut = o.aggOut := agg_renum hσ _ _
theorem aggIn_renum (hσ : Renum o.n σ) : (obj σ o).aggIn = o.aggIn := agg_renum hσ _ _
theorem aggDiag_renum (hσ : Renum o.n σ) : (obj σ o).aggDiag = o.aggDiag :=
  agg_renum hσ o.groups (fun i => o.prop_out i * o.prop_in i)

theorem zAgg_renum (hσ : Renum o.n σ) : (obj σ o).zAgg = o.zAgg := by
  funext a b
  unfold Obj.zAgg
  rw [aggOut_renum hσ, aggIn_renum hσ, aggDiag_renum hσ]

theorem condP_renum (hσ : Renum o.n σ) (d : XR) (i j : ℕ) :
    condP (obj σ o) d i j = condP o d (σ i) (σ j) := by
  unfold condP
  rw [zAgg_renum hσ, aggOut_renum hσ, aggIn_renum hσ]

theorem zAgg_onlyZero (o : Obj) (a b : ℕ) : OnlyZero (o.zAgg a b) := by
  unfold Obj.zAgg
  split
  · refine OnlyZero.bind ?_ (fun _ => .ok _)
    unfold Cond.divZ
    split
    · intro e h; cases h; rfl
    · exact .ok _
  · exact .ok _

theorem condP_onlyZero (o : Obj) (d : XR) (i j : ℕ) : OnlyZero (condP o d i j) :=
  (zAgg_onlyZero o _ _).bind (fun _ => .ok _)

/-! ## Expected edges and fit -/

theorem admissible_renum (σ : Equiv.Perm ℕ) (i j : ℕ) (b : Bool) :
    admissible (σ i) (σ j) b = admissible i j b := by
  rw [Bool.eq_iff_iff, admissible_iff, admissible_iff, σ.injective.ne_iff]

/-- The double loop over all pairs that adds what `c` returns. -/
theorem loop_renum {A : Type} [AddCommMonoid A] (hσ : Renum n σ) (c : ℕ → ℕ → Except Err A)
    (hc : ∀ i j, OnlyZero (c i j)) :
    (List.range n).foldlM (fun s i => (List.range n).foldlM (fun s j =>
        c (σ i) (σ j) >>= fun t => Except.ok (s + t)) s) (0 : A)
      = (List.range n).foldlM (fun s i => (List.range n).foldlM (fun s j =>
        c i j >>= fun t => Except.ok (s + t)) s) (0 : A) := by
  rw [foldlM_nested (fun s i j => c i j >>= fun t => Except.ok (s + t)),
    foldlM_nested (fun s i j => c (σ i) (σ j) >>= fun t => Except.ok (s + t)),
    foldlM_perm (step_comm (c := fun e : ℕ × ℕ => c e.1 e.2) (add := fun s t : A => s + t)
      (fun e => hc e.1 e.2) (fun s t u => by rw [add_assoc, add_comm t, ← add_assoc]))
      (square_renum hσ), List.foldlM_map]

section

attribute [local instance] addMonoid

/-- What the pair adds in `exp_edges`. -/
noncomputable def edgeTerm (o : Obj) (d : XR) (i j : ℕ) : Except Err XR :=
  if (o.adj.row (o.groups i)).contains (o.groups j) && admissible i j o.selfloops then condP o d i j
  else .ok 0

theorem edges_loop (o : Obj) (d : XR) :
    Cond.exp_edges o d = (List.range o.n).foldlM (fun s i => (List.range o.n).foldlM (fun s j =>
        edgeTerm o d i j >>= fun t => Except.ok (s + t)) s) (0 : XR) := by
  unfold Cond.exp_edges
  congr 1
  funext s i
  congr 1
  funext s j
  unfold edgeTerm
  split
  · rfl
  · show _ = Except.ok (s + 0)
    rw [add_zero]

/-- The expected number of edges of the conditional model, or the exception raised. -/
theorem C90_cond_edges (hσ : Renum o.n σ) (d : XR) :
    Cond.exp_edges (obj σ o) d = Cond.exp_edges o d := by
  rw [edges_loop, edges_loop, ← loop_renum hσ (edgeTerm o d)]
  · congr 1
    funext s i
    congr 1
    funext s j
    unfold edgeTerm
    rw [condP_renum hσ, admissible_renum]
  · intro i j
    unfold edgeTerm
    split
    · exact condP_onlyZero o d i j
    · exact .ok _

/-- What the pair adds in `exp_edges_f_jac`. -/
noncomputable def jacTerm (o : Obj) (d : XR) (i j : ℕ) : Except Err (XR × XR) :=
  if (o.adj.row (o.groups i)).contains (o.groups j) && admissible i j o.selfloops then
    Cond.condPJ o d i j
  else .ok 0

theorem jac_loop (o : Obj) (d : XR) :
    Cond.exp_edges_f_jac o d = (List.range o.n).foldlM (fun s i => (List.range o.n).foldlM (fun s j =>
        jacTerm o d i j >>= fun t => Except.ok (s + t)) s) (0 : XR × XR) := by
  unfold Cond.exp_edges_f_jac
  congr 1
  funext s i
  congr 1
  funext s j
  unfold jacTerm
  split
  · rfl
  · show _ = Except.ok (s + 0)
    rw [add_zero]

theorem f_jac_renum (hσ : Renum o.n σ) (d : XR) :
    Cond.exp_edges_f_jac (obj σ o) d = Cond.exp_edges_f_jac o d := by
  rw [jac_loop, jac_loop, ← loop_renum hσ (jacTerm o d)]
  · congr 1
    funext s i
    congr 1
    funext s j
    unfold jacTerm Cond.condPJ
    rw [zAgg_renum hσ, aggOut_renum hσ, aggIn_renum hσ, admissible_renum]
  · intro i j
    unfold jacTerm
    split
    · exact (zAgg_onlyZero o _ _).bind (fun _ => .ok _)
    · exact .ok _

/-- The fit of the conditional model: same parameter, same diagnostics, same exceptions. -/
theorem C90_cond_fit (hσ : Renum o.n σ) (num_edges : Option ℝ) (x0 : Fit.X0) (method : Fit.Method)
    (opts : Fit.Opts) :
    Cond.fit (obj σ o) num_edges x0 method opts = Cond.fit o num_edges x0 method opts := by
  have h : Cond.objective (obj σ o) = Cond.objective o := by
    funext d
    unfold Cond.objective
    rw [f_jac_renum hσ]
  unfold Cond.fit
  rw [h, f_jac_renum hσ]

end

/-! ## Degrees -/

section

attribute [local instance] addMonoid

/-- Sum of arrays. -/
noncomputable def addD (s t : Degrees) : Degrees :=
  ⟨s.exp_d + t.exp_d, s.exp_d_out + t.exp_d_out, s.exp_d_in + t.exp_d_in⟩

theorem addD_comm (s t u : Degrees) : addD (addD s t) u = addD (addD s u) t := by
  have h : ∀ a b c : ℕ → XR, a + b + c = a + c + b := fun a b c => by
    rw [add_assoc, add_comm b, ← add_assoc]
  simp only [addD, h _ t.exp_d, h _ t.exp_d_out, h _ t.exp_d_in]

/-- What the pair adds in `exp_degrees`. -/
noncomputable def degTerm (o : Obj) (d : XR) (e : ℕ × ℕ) : Except Err Degrees :=
  if (o.adj.row (o.groups e.1)).contains (o.groups e.2) then
    if e.1 ≠ e.2 then
      condP o d e.1 e.2 >>= fun pij => condP o d e.2 e.1 >>= fun pji =>
        .ok (Cond.addPair ⟨0, 0, 0⟩ e.1 e.2 pij pji)
    else if o.selfloops then
      condP o d e.1 e.2 >>= fun pii => .ok (Cond.addSelf ⟨0, 0, 0⟩ e.1 e.2 pii)
    else .ok ⟨0, 0, 0⟩
  else .ok ⟨0, 0, 0⟩

theorem addPair_addD (s : Degrees) (i j : ℕ) (p q : XR) :
    Cond.addPair s i j p q = addD s (Cond.addPair ⟨0, 0, 0⟩ i j p q) := by
  simp only [Cond.addPair, addD, addAt_single, zero_add, add_assoc]

theorem addSelf_addD (s : Degrees) (i j : ℕ) (p : XR) :
    Cond.addSelf s i j p = addD s (Cond.addSelf ⟨0, 0, 0⟩ i j p) := by
  simp only [Cond.addSelf, addD, addAt_single, zero_add]

theorem addD_zero (s : Degrees) : addD s ⟨0, 0, 0⟩ = s := by
  simp only [addD, add_zero]

theorem addPair_flip (i j : ℕ) (p q : XR) :
    Cond.addPair ⟨0, 0, 0⟩ i j p q = Cond.addPair ⟨0, 0, 0⟩ j i q p := by
  simp only [Cond.addPair, addAt_single, zero_add, add_comm' p q, mul_comm' p q]
  simp only [Degrees.mk.injEq]
  exact ⟨add_comm _ _, add_comm _ _, add_comm _ _⟩

theorem degTerm_step (o : Obj) (d : XR) (i j : ℕ) (s : Degrees) :
    Cond.exp_degrees_step o d i s j = (degTerm o d (i, j) >>= fun t => .ok (addD s t)) := by
  unfold Cond.exp_degrees_step degTerm
  dsimp only
  split
  · split
    · cases condP o d i j with
      | error e => rfl
      | ok p =>
        cases condP o d j i with
        | error e => rfl
        | ok q => exact congrArg Except.ok (addPair_addD s i j p q)
    · split
      · cases condP o d i j with
        | error e => rfl
        | ok p => exact congrArg Except.ok (addSelf_addD s i j p)
      · exact congrArg Except.ok (addD_zero s).symm
  · exact congrArg Except.ok (addD_zero s).symm

theorem degTerm_onlyZero (o : Obj) (d : XR) (e : ℕ × ℕ) : OnlyZero (degTerm o d e) := by
  unfold degTerm
  split
  · split
    · exact (condP_onlyZero _ _ _ _).bind (fun _ => (condP_onlyZero _ _ _ _).bind (fun _ => .ok _))
    · split
      · exact (condP_onlyZero _ _ _ _).bind (fun _ => .ok _)
      · exact .ok _
  · exact .ok _

/-- Every coarse link between groups of vertices goes both ways. -/
def CoarseSymm (o : Obj) : Prop := ∀ i < o.n, ∀ j < o.n,
  o.groups j ∈ o.adj.row (o.groups i) → o.groups i ∈ o.adj.row (o.groups j)

theorem degTerm_flip (hs : CoarseSymm o) (d : XR) {i j : ℕ} (hi : i < o.n) (hj : j < o.n) :
    degTerm o d (j, i) = degTerm o d (i, j) := by
  have hc : (o.adj.row (o.groups j)).contains (o.groups i)
      = (o.adj.row (o.groups i)).contains (o.groups j) := by
    rw [Bool.eq_iff_iff, List.contains_iff_mem, List.contains_iff_mem]
    exact ⟨hs j hj i hi, hs i hi j hj⟩
  unfold degTerm
  dsimp only
  rw [hc]
  by_cases h : i = j
  · subst h; rfl
  · rw [if_pos h, if_pos (Ne.symm h), bind_swap (condP_onlyZero _ _ _ _) (condP_onlyZero _ _ _ _)]
    simp only [addPair_flip j i]

/-- The pairs visited by `exp_degrees`. -/
def tri (n : ℕ) : List (ℕ × ℕ) :=
  (List.range n).flatMap (fun i => (List.range (i + 1)).map (fun j => (i, j)))

theorem mem_tri (a b : ℕ) : (a, b) ∈ tri n ↔ a < n ∧ b ≤ a := by
  unfold tri
  simp only [List.mem_flatMap, List.mem_map, List.mem_range, Prod.mk.injEq]
  constructor
  · rintro ⟨i, hi, j, hj, rfl, rfl⟩; exact ⟨hi, by omega⟩
  · rintro ⟨h1, h2⟩; exact ⟨a, h1, b, by omega, rfl, rfl⟩

theorem nodup_tri (n : ℕ) : (tri n).Nodup := by
  unfold tri
  rw [List.nodup_flatMap]
  refine ⟨fun i _ => List.nodup_range.map (fun a b h => by simpa using h), ?_⟩
  refine List.nodup_range.imp (fun {a b} hab => ?_)
  intro e h1 h2
  simp only [List.mem_map] at h1 h2
  obtain ⟨_, _, rfl⟩ := h1
  obtain ⟨_, _, h⟩ := h2
  simp only [Prod.mk.injEq] at h
  exact hab h.1.symm

/-- The pair with its larger vertex first. -/
def down (e : ℕ × ℕ) : ℕ × ℕ := if e.2 ≤ e.1 then e else (e.2, e.1)

theorem tri_renum (hσ : Renum n σ) :
    ((tri n).map (fun e => down (σ e.1, σ e.2))).Perm (tri n) := by
  have hnd : ((tri n).map (fun e => down (σ e.1, σ e.2))).Nodup := by
    refine (nodup_tri n).map_on ?_
    rintro ⟨a, b⟩ h1 ⟨c, d⟩ h2 h
    rw [mem_tri] at h1 h2
    unfold down at h
    dsimp only at h
    split at h <;> split at h <;> simp only [Prod.mk.injEq, EmbeddingLike.apply_eq_iff_eq] at h <;>
      simp only [Prod.mk.injEq] <;> omega
  rw [List.perm_ext_iff_of_nodup hnd (nodup_tri n)]
  rintro ⟨a, b⟩
  rw [mem_tri]
  simp only [List.mem_map, Prod.exists]
  constructor
  · rintro ⟨i, j, hij, h⟩
    rw [mem_tri] at hij
    have h1 := (hσ i).2 hij.1
    have h2 := (hσ j).2 (by omega)
    unfold down at h
    dsimp only at h
    split at h <;> simp only [Prod.mk.injEq] at h <;> omega
  · rintro ⟨ha, hb⟩
    have h1 : σ.symm a < n := (hσ _).1 (by simpa using ha)
    have h2 : σ.symm b < n := (hσ _).1 (by simpa using (by omega : b < n))
    by_cases hle : σ.symm b ≤ σ.symm a
    · refine ⟨σ.symm a, σ.symm b, (mem_tri _ _).2 ⟨h1, hle⟩, ?_⟩
      simp [down, hb]
    · refine ⟨σ.symm b, σ.symm a, (mem_tri _ _).2 ⟨h2, by omega⟩, ?_⟩
      simp only [Equiv.apply_symm_apply, down]
      have hne : a ≠ b := fun h => hle (by rw [h])
      rw [if_neg (by omega)]

theorem degrees_loop (o : Obj) (d : XR) :
    Cond.exp_degrees o d
      = (tri o.n).foldlM (fun s e => degTerm o d e >>= fun t => .ok (addD s t)) ⟨0, 0, 0⟩ := by
  unfold Cond.exp_degrees tri
  rw [foldlM_nested (fun s i j => Cond.exp_degrees_step o d i s j)]
  simp only [degTerm_step]
  rfl

/-- The same arrays in the other order. -/
def SameD (σ : Equiv.Perm ℕ) (D D' : Degrees) : Prop :=
  (∀ i, D'.exp_d i = D.exp_d (σ i)) ∧ (∀ i, D'.exp_d_out i = D.exp_d_out (σ i)) ∧
    ∀ i, D'.exp_d_in i = D.exp_d_in (σ i)

/-- Related results of the loops. -/
inductive Both {α : Type} (R : α → α → Prop) : Except Err α → Except Err α → Prop
  | error (e : Err) : Both R (.error e) (.error e)
  | ok {a a' : α} (h : R a a') : Both R (.ok a) (.ok a')

theorem addAt_renum (σ : Equiv.Perm ℕ) {a a' : ℕ → XR} (h : ∀ i, a' i = a (σ i)) (k : ℕ) (v : XR)
    (i : ℕ) : addAt a' k v i = addAt a (σ k) v (σ i) := by
  unfold addAt
  simp only [Function.update_apply, h, EmbeddingLike.apply_eq_iff_eq]

theorem degTerm_renum (hσ : Renum o.n σ) (d : XR) (e : ℕ × ℕ) :
    Both (SameD σ) (degTerm o d (σ e.1, σ e.2)) (degTerm (obj σ o) d e) := by
  obtain ⟨i, j⟩ := e
  have h0 : ∀ i : ℕ, (0 : ℕ → XR) i = (0 : ℕ → XR) (σ i) := fun _ => rfl
  unfold degTerm
  dsimp only
  rw [condP_renum hσ, condP_renum hσ]
  split
  · by_cases hij : i = j
    · subst hij
      simp only [ne_eq, not_true_eq_false, if_false]
      split
      · cases condP o d (σ i) (σ i) with
        | error e => exact .error e
        | ok p => exact .ok ⟨addAt_renum σ h0 _ _, addAt_renum σ h0 _ _, addAt_renum σ h0 _ _⟩
      · exact .ok ⟨h0, h0, h0⟩
    · rw [if_pos hij, if_pos (fun h => hij (σ.injective h))]
      cases condP o d (σ i) (σ j) with
      | error e => exact .error e
      | ok p =>
        cases condP o d (σ j) (σ i) with
        | error e => exact .error e
        | ok q =>
          exact .ok ⟨addAt_renum σ (addAt_renum σ h0 _ _) _ _,
            addAt_renum σ (addAt_renum σ h0 _ _) _ _, addAt_renum σ (addAt_renum σ h0 _ _) _ _⟩
  · exact .ok ⟨h0, h0, h0⟩

theorem addD_renum {s s' t t' : Degrees} (h : SameD σ s s') (ht : SameD σ t t') :
    SameD σ (addD s t) (addD s' t') :=
  ⟨fun i => by simp only [addD, Pi.add_apply, h.1 i, ht.1 i],
    fun i => by simp only [addD, Pi.add_apply, h.2.1 i, ht.2.1 i],
    fun i => by simp only [addD, Pi.add_apply, h.2.2 i, ht.2.2 i]⟩

theorem foldlM_both {κ : Type} (f f' : κ → Except Err Degrees) (l : List κ)
    (hf : ∀ a ∈ l, Both (SameD σ) (f a) (f' a)) (s s' : Degrees) (h : SameD σ s s') :
    Both (SameD σ) (l.foldlM (fun s e => f e >>= fun t => .ok (addD s t)) s)
      (l.foldlM (fun s e => f' e >>= fun t => .ok (addD s t)) s') := by
  induction l generalizing s s' with
  | nil => exact .ok h
  | cons a l ih =>
    rw [List.foldlM_cons, List.foldlM_cons]
    have h1 := hf a (by simp)
    generalize f a = r at h1
    generalize f' a = r' at h1
    cases h1 with
    | error e => exact .error e
    | ok ht => exact ih (fun b hb => hf b (by simp [hb])) _ _ (addD_renum h ht)

/-- The expected degrees of the conditional model when the coarse graph is symmetric, or the
exception raised.  Missing: other coarse graphs, see `C90_cond_degrees_violated`. -/
theorem C90_cond_degrees_partial (hσ : Renum o.n σ) (hs : CoarseSymm o) (d : XR) :
    Both (SameD σ) (Cond.exp_degrees o d) (Cond.exp_degrees (obj σ o) d) := by
  rw [degrees_loop, degrees_loop]
  have hperm := foldlM_perm (step_comm (c := degTerm o d) (add := addD) (degTerm_onlyZero o d)
    addD_comm) (tri_renum hσ) ⟨0, 0, 0⟩
  rw [← hperm, List.foldlM_map]
  refine foldlM_both _ _ _ ?_ _ _ ⟨fun _ => rfl, fun _ => rfl, fun _ => rfl⟩
  rintro ⟨i, j⟩ he
  rw [mem_tri] at he
  have h1 := (hσ i).2 he.1
  have h2 := (hσ j).2 (by omega : j < o.n)
  have hd : degTerm o d (down (σ i, σ j)) = degTerm o d (σ i, σ j) := by
    unfold down
    split
    · rfl
    · exact degTerm_flip hs d h1 h2
  show Both (SameD σ) (degTerm o d (down (σ i, σ j))) _
  rw [hd]
  exact degTerm_renum hσ d (i, j)

end

end Relabel

end Verif
