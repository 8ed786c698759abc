import Verif.Validate.Spark
import Verif.Validate.Props
import Verif.Validate.RandomProps
import Verif.Validate.MultiProps
import Verif.Spark.Props

/-!
# C77: the Spark constructors

A Spark model is constructed exactly when its first argument is a `SparkContext`, the sparse model
would be constructed from the remaining arguments and the options other than `p_blocks`, and
`p_blocks` is absent or a positive integer; the attributes are those of the sparse model.
-/

namespace Verif.Validate.Spark

open XR Verif.Spark

noncomputable section

/-- The last value given for `p_blocks`. -/
def blocksOption (kw : List (SKey × Val)) : Option Val :=
  (kw.reverse.find? (fun e => e.1 = .p_blocks)).map Prod.snd

theorem blocksOption_cons (e : SKey × Val) (kw : List (SKey × Val)) :
    blocksOption (e :: kw)
      = (blocksOption kw).or (if e.1 = .p_blocks then some e.2 else none) := by
  unfold blocksOption
  rw [List.reverse_cons, List.find?_append]
  cases kw.reverse.find? (fun e => e.1 = .p_blocks) with
  | some a => simp
  | none => by_cases h : e.1 = .p_blocks <;> simp [h]

theorem others_cons_blocks (v : Val) (kw : List (SKey × Val)) :
    others ((.p_blocks, v) :: kw) = others kw := rfl

theorem others_cons_key (k : Key) (v : Val) (kw : List (SKey × Val)) :
    others ((.key k, v) :: kw) = (k, v) :: others kw := rfl

/-- The loop over the options, compared with that of the sparse model. -/
theorem setOptions_eq {allowed : List SKey} {base : List Key} (hb : SKey.p_blocks ∈ allowed)
    (hk : ∀ k, SKey.key k ∈ allowed ↔ k ∈ base) (kw : List (SKey × Val)) : ∀ f : SFields,
    setOptions allowed f kw =
      match Validate.setOptions base f.base (others kw) with
      | .ok g => .ok ⟨g, (blocksOption kw).or f.p_blocks⟩
      | .error e => .error (.base e) := by
  induction kw with
  | nil => intro f; rfl
  | cons e kw ih =>
    intro f
    obtain ⟨k, v⟩ := e
    have step : ∀ f', (if k ∈ allowed then Except.ok (f.set v k) else .error (SErr.base .illegal))
        = .ok f' → setOptions allowed f ((k, v) :: kw) = setOptions allowed f' kw := by
      intro f' h
      unfold setOptions
      rw [List.foldlM_cons]
      dsimp only
      rw [h]; rfl
    cases k with
    | p_blocks =>
      rw [step _ (if_pos hb), ih, others_cons_blocks, blocksOption_cons]
      simp only [SFields.set, if_true]
      cases blocksOption kw <;> rfl
    | key k =>
      rw [others_cons_key, blocksOption_cons]
      by_cases h : k ∈ base
      · rw [step _ (if_pos ((hk k).2 h)), ih, setOptions_cons h]
        simp only [SFields.set, reduceCtorEq, if_false, Option.or_none]
      · unfold setOptions Validate.setOptions
        rw [List.foldlM_cons, List.foldlM_cons]
        dsimp only
        rw [if_neg h, if_neg (fun h' => h ((hk k).1 h'))]
        rfl

theorem lift_ok {α : Type} (a : α) : lift (Except.ok a) = .ok a := rfl

/-- All three constructors: the outcome is that of the sparse constructor on the arguments after the
context and the options other than `p_blocks`, followed by the blocks. -/
theorem init_eq {α : Type} {allowed : List SKey} {base : List Key} (hb : SKey.p_blocks ∈ allowed)
    (hk : ∀ k, SKey.key k ∈ allowed ↔ k ∈ base) (graph : List Val → Except Err Fields)
    (check : Fields → Except Err α) (n : α → ℤ) (args : List Arg) (kw : List (SKey × Val)) :
    (fromArgs graph (.context :: args) >>= fun f => setOptions allowed f kw >>= fun f =>
      lift (check f.base) >>= fun o => finish (n o) f.p_blocks o)
    = lift (graph (args.map Arg.toVal) >>= fun f =>
        Validate.setOptions base f (others kw) >>= check) >>= fun o =>
      finish (n o) (blocksOption kw) o := by
  unfold fromArgs
  dsimp only
  cases graph (args.map Arg.toVal) with
  | error e => rfl
  | ok f =>
    show (setOptions allowed { base := f } kw >>= fun f =>
      lift (check f.base) >>= fun o => finish (n o) f.p_blocks o) = _
    rw [setOptions_eq hb hk]
    show _ = lift (Validate.setOptions base f (others kw) >>= check) >>= _
    dsimp only
    cases Validate.setOptions base f (others kw) with
    | error e => rfl
    | ok g =>
      show (lift (check g) >>= fun o => finish (n o) ((blocksOption kw).or none) o) = _
      rw [Option.or_none]; rfl

/-- The number of blocks asked for: a positive integer, 10 if the option is absent. -/
def Asked (v : Option Val) (k : ℤ) : Prop :=
  (v = none ∧ k = 10) ∨ ∃ w, v = some w ∧ IsCount w k ∧ 0 < k

theorem blockCount_iff (v : Option Val) (k : ℤ) : blockCount v = .ok k ↔ Asked v k := by
  cases v with
  | none => simp [blockCount, Asked, eq_comm]
  | some w =>
    have : blockCount (some w) = .ok k ↔ count w = .ok k := by
      unfold blockCount
      cases h : count w <;> simp [h]
    rw [this, count_iff]
    simp [Asked]

/-- The number of blocks used when `k` are asked for: `k` if there are at least ten vertices per
block, otherwise a tenth of the number of vertices, but at least two. -/
def used (n k : ℕ) : ℕ := if 10 * k ≤ n then k else max 2 (n / 10)

theorem clampBlocks_eq (n k : ℕ) : clampBlocks n k = used n k := by
  unfold clampBlocks used
  split_ifs <;> omega

/-- The blocks of a constructed object: each ordered pair of vertices is in exactly one element of
`p_iter_rdd`, each unordered pair in exactly one of `p_sym_rdd`. -/
def Tiled (N : ℕ) {α : Type} (o : Obj α) : Prop :=
  o.iter.length = o.p_blocks ^ 2 ∧
  (∀ i j : ℕ, (visited o.iter).count (i, j) = if i < N ∧ j < N then 1 else 0) ∧
  (∀ i j : ℕ, (visitedSym o.sym).count (i, j) = if i < N ∧ j ≤ i then 1 else 0)

theorem iterBlocks_length (N p : ℕ) : (iterBlocks N p).length = p ^ 2 := by
  simp [iterBlocks, List.length_flatMap, sq]

theorem used_pos {n k : ℕ} (hk : 0 < k) : 0 < used n k := by
  unfold used; split_ifs <;> omega

theorem finish_iff {α : Type} (n : ℤ) (v : Option Val) (m : α) (o : Obj α) :
    finish n v m = .ok o ↔ o.model = m ∧ ∃ k, Asked v k ∧ o.p_blocks = used n.toNat k.toNat ∧
      o.iter = iterBlocks n.toNat o.p_blocks ∧ o.sym = symBlocks n.toNat o.p_blocks := by
  have hf : finish n v m = .ok o ↔ ∃ k, blockCount v = .ok k ∧
      (⟨m, used n.toNat k.toNat, iterBlocks n.toNat (used n.toNat k.toNat),
        symBlocks n.toNat (used n.toNat k.toNat)⟩ : Obj α) = o := by
    unfold finish
    cases blockCount v with
    | error e => simp
    | ok k => simp [clampBlocks_eq]
  rw [hf]
  constructor
  · rintro ⟨k, hk, rfl⟩
    exact ⟨rfl, k, (blockCount_iff _ _).1 hk, rfl, rfl, rfl⟩
  · rintro ⟨h1, k, hk, h2, h3, h4⟩
    refine ⟨k, (blockCount_iff _ _).2 hk, ?_⟩
    obtain ⟨a, b, c, d⟩ := o
    simp only at h1 h2 h3 h4
    subst h1 h2 h3 h4; rfl

theorem finish_exists {α : Type} (n : ℤ) (v : Option Val) (m : α) :
    (∃ o, finish n v m = .ok o) ↔ ∃ k, Asked v k := by
  constructor
  · rintro ⟨o, h⟩
    obtain ⟨_, k, hk, _⟩ := (finish_iff n v m o).1 h
    exact ⟨k, hk⟩
  · rintro ⟨k, hk⟩
    exact ⟨⟨m, used n.toNat k.toNat, iterBlocks _ _, symBlocks _ _⟩,
      (finish_iff n v m _).2 ⟨rfl, k, hk, rfl, rfl, rfl⟩⟩

theorem Asked.pos {v : Option Val} {k : ℤ} (h : Asked v k) : 0 < k := by
  rcases h with ⟨_, rfl⟩ | ⟨_, _, _, h⟩
  · norm_num
  · exact h

theorem tiled {α : Type} {o : Obj α} {N : ℕ} (hp : 0 < o.p_blocks)
    (h1 : o.iter = iterBlocks N o.p_blocks) (h2 : o.sym = symBlocks N o.p_blocks) : Tiled N o := by
  refine ⟨by rw [h1, iterBlocks_length], fun i j => ?_, fun i j => ?_⟩
  · rw [h1]; exact C43_ordered_pairs N hp (i, j)
  · rw [h2]; exact C43_unordered_pairs N hp (i, j)

theorem lift_finish {α : Type} (x : Except Err α) (n : α → ℤ) (v : Option Val) (o : Obj α) :
    (lift x >>= fun m => finish (n m) v m) = .ok o ↔
      x = .ok o.model ∧ ∃ k, Asked v k ∧ o.p_blocks = used (n o.model).toNat k.toNat ∧
        o.iter = iterBlocks (n o.model).toNat o.p_blocks ∧
        o.sym = symBlocks (n o.model).toNat o.p_blocks := by
  cases x with
  | error e =>
    constructor
    · intro h; cases h
    · rintro ⟨h, _⟩; cases h
  | ok m =>
    show finish (n m) v m = .ok o ↔ _
    rw [finish_iff]
    constructor
    · rintro ⟨h, h'⟩; subst h; exact ⟨rfl, h'⟩
    · rintro ⟨h, h'⟩; cases h; exact ⟨rfl, h'⟩

theorem lift_finish_base {α : Type} (x : Except Err α) (n : α → ℤ) (v : Option Val) (e : Err) :
    (lift x >>= fun m => finish (n m) v m) = .error (.base e) ↔ x = .error e := by
  cases x with
  | error e' =>
    show Except.error (SErr.base e') = _ ↔ _
    simp
  | ok m =>
    show finish (n m) v m = _ ↔ _
    unfold finish
    cases h : blockCount v with
    | ok k => simp
    | error e' =>
      constructor
      · intro h'
        simp only [Except.error.injEq] at h'
        subst h'
        unfold blockCount at h
        split at h
        · cases h
        · split at h <;> simp at h
      · intro h'; cases h'

/-- What is claimed of a Spark constructor `init` relative to the sparse constructor `sparse`, where
`n` is the number of vertices of a sparse object. -/
structure Refines {α : Type} (init : List Arg → List (SKey × Val) → Except SErr (Obj α))
    (sparse : List Val → List (Key × Val) → Except Err α) (n : α → ℤ) : Prop where
  /-- Without a `SparkContext` nothing is constructed. -/
  noArgument : ∀ kw, init [] kw = .error .noArgument
  notContext : ∀ v args kw, init (.val v :: args) kw = .error .notContext
  /-- Which objects are constructed. -/
  ok : ∀ args kw o, init (.context :: args) kw = .ok o ↔
    sparse (args.map Arg.toVal) (others kw) = .ok o.model ∧
    ∃ k, Asked (blocksOption kw) k ∧ o.p_blocks = used (n o.model).toNat k.toNat ∧
      o.iter = iterBlocks (n o.model).toNat o.p_blocks ∧
      o.sym = symBlocks (n o.model).toNat o.p_blocks
  /-- Exceptions of the sparse constructor come first. -/
  error : ∀ args kw e, init (.context :: args) kw = .error (.base e) ↔
    sparse (args.map Arg.toVal) (others kw) = .error e

theorem C77_random_refines :
    Refines RandomDiGraph.init Validate.RandomDiGraph.init (fun o => o.num_vertices) := by
  have h := fun args kw => init_eq (allowed := RandomDiGraph.allowed)
    (base := Validate.RandomDiGraph.allowed) (by simp [RandomDiGraph.allowed])
    (by simp [RandomDiGraph.allowed, Validate.RandomDiGraph.allowed])
    Validate.RandomDiGraph.fromArgs Validate.RandomDiGraph.check (fun o => o.num_vertices) args kw
  exact ⟨fun _ => rfl, fun _ _ _ => rfl,
    fun args kw o => by rw [RandomDiGraph.init, h]; exact lift_finish _ _ _ _,
    fun args kw e => by rw [RandomDiGraph.init, h]; exact lift_finish_base _ _ _ _⟩

theorem C77_fitness_refines :
    Refines FitnessModel.init Validate.FitnessModel.init (fun o => o.num_vertices) := by
  have h := fun args kw => init_eq (allowed := FitnessModel.allowed)
    (base := Validate.FitnessModel.allowed) (by simp [FitnessModel.allowed])
    (by simp [FitnessModel.allowed, Validate.FitnessModel.allowed])
    Validate.FitnessModel.fromArgs Validate.FitnessModel.check (fun o => o.num_vertices) args kw
  exact ⟨fun _ => rfl, fun _ _ _ => rfl,
    fun args kw o => by rw [FitnessModel.init, h]; exact lift_finish _ _ _ _,
    fun args kw e => by rw [FitnessModel.init, h]; exact lift_finish_base _ _ _ _⟩

theorem C77_multi_refines :
    Refines MultiFitnessModel.init Validate.MultiFitnessModel.init (fun o => o.num_vertices) := by
  have h := fun args kw => init_eq (allowed := MultiFitnessModel.allowed)
    (base := Validate.MultiFitnessModel.allowed) (by simp [MultiFitnessModel.allowed])
    (by simp [MultiFitnessModel.allowed, Validate.MultiFitnessModel.allowed])
    Validate.MultiFitnessModel.fromArgs (Validate.MultiFitnessModel.check (others kw))
    (fun o => o.num_vertices) args kw
  exact ⟨fun _ => rfl, fun _ _ _ => rfl,
    fun args kw o => by rw [MultiFitnessModel.init, h]; exact lift_finish _ _ _ _,
    fun args kw e => by rw [MultiFitnessModel.init, h]; exact lift_finish_base _ _ _ _⟩

/-- Acceptance and the constructed object, given those of the sparse constructor. -/
theorem refines_spec {α : Type} {init : List Arg → List (SKey × Val) → Except SErr (Obj α)}
    {sparse : List Val → List (Key × Val) → Except Err α} {n : α → ℤ} (R : Refines init sparse n)
    {Valid : Prop} {Holds : α → Prop} (args : List Arg) (kw : List (SKey × Val))
    (hv : (∃ o, sparse ((args.drop 1).map Arg.toVal) (others kw) = .ok o) ↔ Valid)
    (hh : ∀ o, sparse ((args.drop 1).map Arg.toVal) (others kw) = .ok o → Holds o) :
    ((∃ o, init args kw = .ok o) ↔
      args.head? = some .context ∧ Valid ∧ ∃ k, Asked (blocksOption kw) k) ∧
    ∀ o, init args kw = .ok o → Holds o.model ∧
      (∃ k, Asked (blocksOption kw) k ∧ o.p_blocks = used (n o.model).toNat k.toNat) ∧
      0 < o.p_blocks ∧ Tiled (n o.model).toNat o := by
  cases args with
  | nil => simp [R.noArgument]
  | cons a args =>
    cases a with
    | val v => simp [R.notContext]
    | context =>
      simp only [List.head?_cons, true_and, List.drop_one, List.tail_cons] at hv hh ⊢
      constructor
      · constructor
        · rintro ⟨o, ho⟩
          obtain ⟨h1, k, hk, -⟩ := (R.ok args kw o).1 ho
          exact ⟨hv.1 ⟨_, h1⟩, k, hk⟩
        · rintro ⟨h1, k, hk⟩
          obtain ⟨m, hm⟩ := hv.2 h1
          exact ⟨⟨m, used (n m).toNat k.toNat, iterBlocks (n m).toNat (used (n m).toNat k.toNat),
              symBlocks (n m).toNat (used (n m).toNat k.toNat)⟩,
            (R.ok args kw _).2 ⟨hm, k, hk, rfl, rfl, rfl⟩⟩
      · intro o ho
        obtain ⟨h1, k, hk, h2, h3, h4⟩ := (R.ok args kw o).1 ho
        have hp : 0 < o.p_blocks := by
          rw [h2]; exact used_pos (by have := hk.pos; omega)
        exact ⟨hh _ h1, ⟨k, hk, h2⟩, hp, tiled hp h3 h4⟩

/-- **C77** (random graph model). -/
theorem C77_random_partial (args : List Arg) (kw : List (SKey × Val)) :
    let a := (args.drop 1).map Arg.toVal
    let V := Validate.RandomDiGraph.value a (others kw)
    (∀ v, V .num_edges = some v → CleanNumber v) → (∀ v, V .param = some v → CleanParam v) →
    (∀ v, V .total_weight = some v → CleanNumber v) →
    ((∃ o, RandomDiGraph.init args kw = .ok o) ↔
      args.head? = some .context ∧ Validate.RandomDiGraph.Valid a (others kw) ∧
        ∃ k, Asked (blocksOption kw) k) ∧
    ∀ o, RandomDiGraph.init args kw = .ok o → Validate.RandomDiGraph.Holds V o.model ∧
      (∃ k, Asked (blocksOption kw) k ∧ o.p_blocks = used o.model.num_vertices.toNat k.toNat) ∧
      0 < o.p_blocks ∧ Tiled o.model.num_vertices.toNat o := by
  intro a V hm hp hw
  obtain ⟨h1, h2⟩ := Validate.RandomDiGraph.C46_random_partial a (others kw) hm hp hw
  exact refines_spec C77_random_refines args kw h1 h2

/-- The hypotheses of `C77_random_partial` hold and the model is constructed: two vertices, two edges
and a total weight, in four blocks. -/
example : ∃ o, RandomDiGraph.init [.context]
    [(.key .num_vertices, .num (fin 2)), (.p_blocks, .num (fin 4)), (.key .num_edges, .list [fin 2]),
      (.key .total_weight, .num (fin 5))] = .ok o := by
  refine (C77_random_partial _ _ ?_ ?_ ?_).1.2 ⟨rfl, ⟨?_, by simp [others],
    ⟨2, by norm_num, _, rfl, .inl ?_⟩, ?_, ?_, ?_, .inl rfl⟩, 4,
    .inr ⟨_, rfl, .inl (by norm_num), by norm_num⟩⟩
  · intro v h
    cases (show some (Val.list [fin 2]) = some v from h)
    simp [CleanNumber]
  · intro v h; cases (show (none : Option Val) = some v from h)
  · intro v h
    cases (show some (Val.num (fin 5)) = some v from h)
    simp [CleanNumber]
  · intro v r h; cases h
  · norm_num
  · intro v h
    cases (show some (Val.list [fin 2]) = some v from h)
    exact ⟨fin 2, .inr (.inr (.inl rfl)), by simp [Nonneg]⟩
  · intro v h; cases (show (none : Option Val) = some v from h)
  · intro v h
    cases (show some (Val.num (fin 5)) = some v from h)
    exact ⟨fin 5, .inl rfl, by simp [Nonneg]⟩

/-- **C77** (fitness and scale-invariant models). -/
theorem C77_fitness_partial (args : List Arg) (kw : List (SKey × Val)) :
    let a := (args.drop 1).map Arg.toVal
    let V := Validate.FitnessModel.value a (others kw)
    (∀ v, V .num_edges = some v → CleanNumber v) → (∀ v, V .param = some v → CleanParam v) →
    ((∃ o, FitnessModel.init args kw = .ok o) ↔
      args.head? = some .context ∧ Validate.FitnessModel.Valid a (others kw) ∧
        ∃ k, Asked (blocksOption kw) k) ∧
    ∀ o, FitnessModel.init args kw = .ok o → Validate.FitnessModel.Holds V o.model ∧
      (∃ k, Asked (blocksOption kw) k ∧ o.p_blocks = used o.model.num_vertices.toNat k.toNat) ∧
      0 < o.p_blocks ∧ Tiled o.model.num_vertices.toNat o := by
  intro a V hm hp
  obtain ⟨h1, h2⟩ := Validate.FitnessModel.C46_fitness_partial a (others kw) hm hp
  exact refines_spec C77_fitness_refines args kw h1 h2

/-- The hypotheses of `C77_fitness_partial` hold and the model is constructed: a graph, with an
explicit number of edges. -/
example : ∃ o, FitnessModel.init
    [.context, .val (.graph .digraph 3 2 none (fun _ => 1) (fun _ => 1) none 0 (fun _ => 0) ([], []))]
    [(.key .num_edges, .num (fin 7))] = .ok o := by
  refine (C77_fitness_partial _ _ ?_ ?_).1.2 ⟨rfl, ⟨?_, by simp [others], ⟨3, by norm_num,
    ⟨_, rfl, .inl ?_⟩, ⟨_, _, rfl, .float, 3, rfl, by simp, rfl, ?_⟩,
    ⟨_, _, rfl, .float, 3, rfl, by simp, rfl, ?_⟩⟩, ?_, ?_, .inl rfl⟩, 10, .inl ⟨rfl, rfl⟩⟩
  · intro v h
    cases (show some (Val.num (fin 7)) = some v from h)
    simp [CleanNumber]
  · intro v h; cases (show (none : Option Val) = some v from h)
  · intro v r h; cases h
    exact ⟨_, _, _, _, _, _, _, _, _, _, rfl, .inl rfl⟩
  · norm_num
  · intro i _; simp [Nonneg]
  · intro i _; simp [Nonneg]
  · intro v h
    cases (show some (Val.num (fin 7)) = some v from h)
    exact ⟨fin 7, .inl rfl, by simp [Nonneg]⟩
  · intro v h; cases (show (none : Option Val) = some v from h)

/-- **C77** (multi-layer models). -/
theorem C77_multi_partial (args : List Arg) (kw : List (SKey × Val)) :
    let a := (args.drop 1).map Arg.toVal
    let V := Validate.MultiFitnessModel.value a (others kw)
    Validate.MultiFitnessModel.Clean V →
    ((∃ o, MultiFitnessModel.init args kw = .ok o) ↔
      args.head? = some .context ∧ Validate.MultiFitnessModel.Valid a (others kw) ∧
        ∃ k, Asked (blocksOption kw) k) ∧
    ∀ o, MultiFitnessModel.init args kw = .ok o → Validate.MultiFitnessModel.Holds V o.model ∧
      (∃ k, Asked (blocksOption kw) k ∧ o.p_blocks = used o.model.num_vertices.toNat k.toNat) ∧
      0 < o.p_blocks ∧ Tiled o.model.num_vertices.toNat o := by
  intro a V hc
  obtain ⟨h1, h2⟩ := Validate.MultiFitnessModel.C46_multi_partial a (others kw) hc
  exact refines_spec C77_multi_refines args kw h1 h2

/-- The hypotheses of `C77_multi_partial` hold, and the model is constructed: two vertices, two
labels, three edges, and five blocks asked for; two are used. -/
example : ∃ o, MultiFitnessModel.init [.context]
    ((SKey.p_blocks, .num (fin 5)) ::
      (Validate.MultiFitnessModel.exKw .num_edges (.num (fin 3))).map (fun e : Key × Val => (SKey.key e.1, e.2)))
      = .ok o ∧ o.p_blocks = 2 ∧ 0 < o.model.num_vertices := by
  obtain ⟨h1, h2⟩ := C77_multi_partial [.context] ((SKey.p_blocks, .num (fin 5)) ::
    (Validate.MultiFitnessModel.exKw .num_edges (.num (fin 3))).map (fun e : Key × Val => (SKey.key e.1, e.2)))
    Validate.MultiFitnessModel.exKw_total.1
  have h5 : Asked (some (.num (fin 5))) 5 := .inr ⟨_, rfl, .inl (by norm_num), by norm_num⟩
  obtain ⟨o, ho⟩ := h1.2 ⟨rfl, Validate.MultiFitnessModel.exKw_total.2, 5, h5⟩
  obtain ⟨⟨⟨hn0, v, hv, hn⟩, -⟩, ⟨k, hk, hp⟩, -, -⟩ := h2 o ho
  refine ⟨o, ho, ?_, hn0⟩
  cases (show some (Val.num (fin 2)) = some v from hv)
  have hk5 : k = 5 := by
    have a1 := (blockCount_iff _ _).2 hk
    have a2 := (blockCount_iff _ _).2 h5
    rw [show blocksOption _ = some (Val.num (fin 5)) from rfl, a2] at a1
    exact (Except.ok.inj a1).symm
  have hn2 : o.model.num_vertices = 2 := by
    have a1 := (count_iff _ _).2 ⟨hn, hn0⟩
    have a2 : count (.num (fin 2)) = .ok 2 :=
      (count_iff _ _).2 ⟨.inl (by norm_num), by norm_num⟩
    rw [a2] at a1
    exact (Except.ok.inj a1).symm
  rw [hp, hk5, hn2]
  decide

/-- Blocks that are not a positive integer are refused with their own exception, once everything
else is accepted. -/
theorem C77_blocks_refused (args : List Arg) (kw : List (SKey × Val)) (v : Val)
    (hb : blocksOption kw = some v) (hv : ∀ k, ¬ (IsCount v k ∧ 0 < k))
    (o : Validate.FitnessModel.Obj)
    (ho : Validate.FitnessModel.init (args.map Arg.toVal) (others kw) = .ok o) :
    FitnessModel.init (.context :: args) kw = .error (.blocks .notInteger) ∨
      FitnessModel.init (.context :: args) kw = .error (.blocks .notPositive) := by
  have h := init_eq (allowed := FitnessModel.allowed)
    (base := Validate.FitnessModel.allowed) (by simp [FitnessModel.allowed])
    (by simp [FitnessModel.allowed, Validate.FitnessModel.allowed])
    Validate.FitnessModel.fromArgs Validate.FitnessModel.check (fun o => o.num_vertices) args kw
  rw [Validate.FitnessModel.init] at ho
  rw [FitnessModel.init, h, ho, hb]
  show finish _ (some v) o = _ ∨ finish _ (some v) o = _
  unfold finish blockCount
  dsimp only
  cases hc : count v with
  | ok k => exact absurd ((count_iff _ _).1 hc) (hv k)
  | error e =>
    suffices e = .notInteger ∨ e = .notPositive by
      rcases this with rfl | rfl
      · left; rfl
      · right; rfl
    have hi : ∀ x e', intOf x = .error e' → e' = .notInteger := by
      intro x e' h
      unfold intOf at h
      split at h
      · split_ifs at h <;> simp_all
      · simp_all
    unfold count at hc
    have : ∀ (x : Except Err ℤ), (∀ e', x = .error e' → e' = .notInteger) →
        (x >>= fun k => if k ≤ 0 then Except.error .notPositive else .ok k) = .error e →
        e = .notInteger ∨ e = .notPositive := by
      intro x hx h
      cases x with
      | error e' => left; cases h; exact hx _ rfl
      | ok k =>
        change (if k ≤ 0 then Except.error Err.notPositive else .ok k) = .error e at h
        split_ifs at h
        right; cases h; rfl
    refine this _ ?_ hc
    intro e' h'
    split at h'
    · exact hi _ _ h'
    · exact hi _ _ h'
    · split at h'
      · cases h'; rfl
      · exact hi _ _ h'
      · cases h'; rfl
    · cases h'; rfl

/-- No blocks at all are refused. -/
example : FitnessModel.init [.context] [(.key .num_vertices, .num (fin (1 : ℕ))),
    (.key .prop_out, .arr .float [1] (fun _ => fin 1)),
    (.key .prop_in, .arr .float [1] (fun _ => fin 1)), (.p_blocks, .num (fin 0)),
    (.key .num_edges, .num nan)] = .error (.blocks .notInteger) ∨
    FitnessModel.init [.context] [(.key .num_vertices, .num (fin (1 : ℕ))),
    (.key .prop_out, .arr .float [1] (fun _ => fin 1)),
    (.key .prop_in, .arr .float [1] (fun _ => fin 1)), (.p_blocks, .num (fin 0)),
    (.key .num_edges, .num nan)] = .error (.blocks .notPositive) := by
  obtain ⟨o, ho, -⟩ :=
    (Validate.FitnessModel.C46_violated 1 (by norm_num) (fun _ => 1) (by simp) [] (by simp)).1
  refine C77_blocks_refused [] _ (.num (fin 0)) rfl ?_ o ho
  rintro k ⟨h, hk⟩
  have := (count_iff _ _).2 ⟨h, hk⟩
  simp only [count, intOf, trunc, le_refl, if_true, Int.floor_zero] at this
  cases this

/-- **C77** does not hold without the restrictions of `C77_fitness_partial`: as for the sparse
model, `nan` is accepted as number of edges. -/
theorem C77_violated (n : ℕ) (hn : 0 < n) (s : ℕ → ℝ) (hs : ∀ i, 0 ≤ s i) :
    ∃ o, FitnessModel.init [.context] [(.key .num_vertices, .num (fin n)),
        (.key .prop_out, .arr .float [n] (fun i => fin (s i))),
        (.key .prop_in, .arr .float [n] (fun i => fin (s i))), (.key .num_edges, .num nan)] = .ok o ∧
      o.model.num_edges = some (.num nan) := by
  obtain ⟨m, hm, hn⟩ := (Validate.FitnessModel.C46_violated n hn s hs [] (by simp)).1
  exact ⟨⟨m, used m.num_vertices.toNat 10,
      iterBlocks m.num_vertices.toNat (used m.num_vertices.toNat 10),
      symBlocks m.num_vertices.toNat (used m.num_vertices.toNat 10)⟩,
    (C77_fitness_refines.ok [] _ _).2
    ⟨hm, 10, .inl ⟨rfl, rfl⟩, rfl, rfl, rfl⟩, hn⟩

end

end Verif.Validate.Spark
