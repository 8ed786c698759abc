import Verif.Graph.Table
import Verif.Graph.BuildLemmas

/-!
# C105: the tables of the caller

What the constructors do to the two data frames, and which rows they read from them.
-/

namespace Verif

namespace Graph

namespace Tab

variable {κ : Type}

/-- The names in a column argument. -/
def Sel.names : Sel → List String
  | .str s => [s]
  | .list l => l

/-- Equal up to the columns in `N`. -/
def Agree (N : List String) (t t' : Table κ) : Prop :=
  t.len = t'.len ∧ ∀ s ∉ N, t.col s = t'.col s

/-- The columns that the constructors write. -/
def vertexCols : List String := ["_node"]

/-- The columns that the constructors write. -/
def edgeCols : List String := ["_src", "_dst", "_label"]

/-- No argument names a column that the constructors write. -/
def Plain (a : Args) : Prop :=
  (∀ s ∈ a.v_id.names, s ∉ vertexCols) ∧ (∀ g ∈ a.v_group, ∀ s ∈ g.names, s ∉ vertexCols) ∧
  (∀ s ∈ a.src.names, s ∉ edgeCols) ∧ (∀ s ∈ a.dst.names, s ∉ edgeCols) ∧
  (∀ w ∈ a.weight, ∀ s ∈ w.names, s ∉ edgeCols) ∧ ∀ l ∈ a.edge_label, ∀ s ∈ l.names, s ∉ edgeCols

theorem Agree.rfl' {N : List String} (t : Table κ) : Agree N t t := ⟨rfl, fun _ _ => rfl⟩

theorem Agree.trans' {N : List String} {t t' t'' : Table κ} (h : Agree N t t') (h' : Agree N t' t'') :
    Agree N t t'' := ⟨h.1.trans h'.1, fun s hs => (h.2 s hs).trans (h'.2 s hs)⟩

theorem Agree.symm' {N : List String} {t t' : Table κ} (h : Agree N t t') : Agree N t' t :=
  ⟨h.1.symm, fun s hs => (h.2 s hs).symm⟩

theorem Agree.set {N : List String} (t : Table κ) {s : String} (hs : s ∈ N) (f : ℕ → κ) :
    Agree N (t.set s f) t := by
  refine ⟨rfl, fun s' hs' => ?_⟩
  have : s' ≠ s := fun h => hs' (h ▸ hs)
  simp [Table.set, Function.update_of_ne this]

theorem names_norm (a : Sel) : a.norm.names = a.names := by
  unfold Sel.norm
  split <;> rfl

private theorem mapM_agree {α : Type} {f g : String → Option α} : ∀ (l : List String),
    (∀ s ∈ l, f s = g s) → l.mapM f = l.mapM g
  | [], _ => rfl
  | s :: l, h => by
    rw [List.mapM_cons, List.mapM_cons, h s (by simp), mapM_agree l fun s hs => h s (by simp [hs])]

variable [Cell κ]

theorem get_agree {N : List String} {t t' : Table κ} (h : Agree N t t') (a : Sel)
    (ha : ∀ s ∈ a.names, s ∉ N) : t.get a.norm = t'.get a.norm := by
  rw [← names_norm] at ha
  cases hn : a.norm with
  | str s =>
    rw [hn] at ha
    simp only [Table.get]
    rw [h.2 s (ha s (by simp [Sel.names]))]
  | list l =>
    rw [hn] at ha
    simp only [Table.get]
    rw [mapM_agree l fun s hs => h.2 s (ha s hs), h.1]

theorem weightCols_agree {N : List String} {t t' : Table κ} (h : Agree N t t') (a : Sel)
    (ha : ∀ s ∈ a.names, s ∉ N) : weightCols t a.norm = weightCols t' a.norm := by
  rw [← names_norm] at ha
  cases hn : a.norm with
  | str s =>
    rw [hn] at ha
    simp only [weightCols]
    rw [h.2 s (ha s (by simp [Sel.names]))]
  | list l =>
    rw [hn] at ha
    simp only [weightCols]
    rw [mapM_agree l fun s hs => h.2 s (ha s hs)]

theorem vertices_agree (a : Args) (v : Table κ) : Agree vertexCols (vertices a v).1 v := by
  have hs : ∀ f, Agree vertexCols (v.set "_node" f) v := fun f => Agree.set v (by simp [vertexCols]) f
  unfold vertices
  split
  · exact Agree.rfl' v
  · exact Agree.rfl' v
  · next node _ =>
    simp only
    split
    · exact hs node
    · split
      · exact hs node
      · split
        · exact hs node
        · split <;> exact hs node

theorem endpoints_agree (a : Args) (d : List (κ × ℕ)) (e : Table κ) :
    Agree edgeCols (endpoints a d e).1 e := by
  have h1 : ∀ (t : Table κ) f, Agree edgeCols (t.set "_src" f) t :=
    fun t f => Agree.set t (by simp [edgeCols]) f
  have h2 : ∀ (t : Table κ) f, Agree edgeCols (t.set "_dst" f) t :=
    fun t f => Agree.set t (by simp [edgeCols]) f
  unfold endpoints
  split
  · split
    · exact Agree.rfl' e
    · next x _ =>
      simp only
      split
      · exact h1 e x
      · next y _ =>
        have := ((h2 _ (mapIds d y)).trans' (h1 _ (mapIds d x))).trans' ((h2 _ y).trans' (h1 e x))
        split <;> exact this
  · exact Agree.rfl' e

theorem labels_agree (l : Sel) (e : Table κ) : Agree edgeCols (labels l e).1 e := by
  have h1 : ∀ (t : Table κ) f, Agree edgeCols (t.set "_label" f) t :=
    fun t f => Agree.set t (by simp [edgeCols]) f
  unfold labels
  split
  · exact Agree.rfl' e
  · split
    · exact h1 e _
    · exact (h1 _ _).trans' (h1 e _)

/-- **C105**, the tables.  Whatever the arguments, and also if an exception is raised, a constructor
changes no column of the vertex table but `_node` and no column of the edge table but `_src`, `_dst` and
`_label`, and no number of rows. -/
theorem C105_tables (b : Backend) (a : Args) (v e : Table κ) :
    ((build b a v e).1.1.len = v.len ∧ ∀ s, s ≠ "_node" → (build b a v e).1.1.col s = v.col s) ∧
    (build b a v e).1.2.len = e.len ∧
      ∀ s, s ≠ "_src" → s ≠ "_dst" → s ≠ "_label" → (build b a v e).1.2.col s = e.col s := by
  have key : Agree vertexCols (build b a v e).1.1 v ∧ Agree edgeCols (build b a v e).1.2 e := by
    have hv := vertices_agree a v
    unfold build
    simp only
    split
    · exact ⟨hv, Agree.rfl' e⟩
    · next ids _ =>
      have he := endpoints_agree a ids.id_dict e
      split
      · exact ⟨hv, he⟩
      · split
        · exact ⟨hv, he⟩
        · split
          · exact ⟨hv, he⟩
          · next l _ =>
            have hl := (labels_agree l (endpoints a ids.id_dict e).1).trans' he
            split
            · exact ⟨hv, hl⟩
            · split <;> exact ⟨hv, hl⟩
  exact ⟨⟨key.1.1, fun s hs => key.1.2 s (by simpa [vertexCols] using hs)⟩, key.2.1,
    fun s h1 h2 h3 => key.2.2 s (by simp [edgeCols, h1, h2, h3])⟩

private theorem vertices_congr {a : Args} (hp : Plain a) {v v' : Table κ} (h : Agree vertexCols v v') :
    (vertices a v).2 = (vertices a v').2 := by
  have hset : ∀ f, Agree vertexCols (v.set "_node" f) (v'.set "_node" f) := fun f =>
    ((Agree.set v (by simp [vertexCols]) f).trans' h).trans' (Agree.set v' (by simp [vertexCols]) f).symm'
  unfold vertices
  rw [get_agree h a.v_id hp.1]
  cases hg : v'.get a.v_id.norm with
  | error err => cases err <;> rfl
  | ok node =>
    have hl : (v.set "_node" node).list node = (v'.set "_node" node).list node := by
      show (List.range v.len).map node = (List.range v'.len).map node
      rw [h.1]
    simp only [hl]
    cases generate_id_dict ((v'.set "_node" node).list node) true with
    | error err => rfl
    | ok d =>
      simp only
      cases hgr : a.v_group with
      | none => simp only [h.1]
      | some g =>
        simp only
        rw [get_agree (hset node) g (hp.2.1 g hgr)]
        have hlen : (v.set "_node" node).len = (v'.set "_node" node).len := h.1
        cases (v'.set "_node" node).get g.norm with
        | error err => rfl
        | ok group =>
          simp only [hlen, h.1]
          split <;> rfl

private theorem endpoints_congr {a : Args} (hp : Plain a) (d : List (κ × ℕ)) {e e' : Table κ}
    (h : Agree edgeCols e e') : (endpoints a d e).2 = (endpoints a d e').2 := by
  have hset : ∀ f, Agree edgeCols (e.set "_src" f) (e'.set "_src" f) := fun f =>
    ((Agree.set e (by simp [edgeCols]) f).trans' h).trans' (Agree.set e' (by simp [edgeCols]) f).symm'
  unfold endpoints
  split
  · rw [get_agree h a.src hp.2.2.1]
    cases e'.get a.src.norm with
    | error err => rfl
    | ok x =>
      simp only
      rw [get_agree (hset x) a.dst hp.2.2.2.1]
      cases (e'.set "_src" x).get a.dst.norm with
      | error err => rfl
      | ok y =>
        simp only [h.1]
        split <;> rfl
  · rfl

private theorem weights_congr {a : Args} (hp : Plain a) {e e' : Table κ}
    (h : Agree edgeCols e e') : weights a e = weights a e' := by
  unfold weights
  cases hw : a.weight with
  | none => rfl
  | some w =>
    simp only
    rw [weightCols_agree h w (hp.2.2.2.2.1 w hw), h.1]

private theorem labels_congr {a : Args} (hp : Plain a) {l : Sel} (hl : a.edge_label = some l)
    {e e' : Table κ} (h : Agree edgeCols e e') : (labels l e).2 = (labels l e').2 := by
  unfold labels
  rw [get_agree h l (hp.2.2.2.2.2 l hl)]
  cases e'.get l.norm with
  | error err => rfl
  | ok x =>
    have : e.list x = e'.list x := by
      show (List.range e.len).map x = (List.range e'.len).map x
      rw [h.1]
    simp only [this]
    split <;> rfl

/-- **C105**, other columns.  If no argument names a column that the constructors write, the outcome does
not depend on whether the tables have these columns and what they contain. -/
theorem C105_columns_partial (b : Backend) (a : Args) (hp : Plain a) (v v' e e' : Table κ)
    (hv : Agree vertexCols v v') (he : Agree edgeCols e e') : (build b a v e).2 = (build b a v' e').2 := by
  unfold build
  simp only
  rw [vertices_congr hp hv]
  cases (vertices a v').2 with
  | error err => rfl
  | ok ids =>
    simp only
    have hs : Agree edgeCols (endpoints a ids.id_dict e).1 (endpoints a ids.id_dict e').1 :=
      ((endpoints_agree a _ e).trans' he).trans' (endpoints_agree a _ e').symm'
    rw [endpoints_congr hp _ he]
    cases (endpoints a ids.id_dict e').2 with
    | error err => rfl
    | ok xy =>
      obtain ⟨x, y⟩ := xy
      have hr : ∀ {V : Type} (w : ℕ → V), rowsOf e x y w = rowsOf e' x y w := by
        intro V w
        unfold rowsOf
        rw [he.1]
      simp only
      rw [weights_congr hp hs]
      cases weights a (endpoints a ids.id_dict e').1 with
      | error err => rfl
      | ok w =>
        simp only
        cases hl : a.edge_label with
        | none =>
          cases w with
          | none => simp only [hr]
          | some w => simp only [hr]
        | some l =>
          have ht : Agree edgeCols (labels l (endpoints a ids.id_dict e).1).1
              (labels l (endpoints a ids.id_dict e').1).1 :=
            ((labels_agree l _).trans' hs).trans' (labels_agree l _).symm'
          simp only
          rw [labels_congr hp hl hs]
          cases (labels l (endpoints a ids.id_dict e').1).2 with
          | error err => rfl
          | ok dl =>
            obtain ⟨d, lb⟩ := dl
            simp only
            cases hw : a.weight with
            | none => simp only [hr, he.1]
            | some w' =>
              simp only
              rw [weightCols_agree ht w' (hp.2.2.2.2.1 w' hw)]
              cases weightCols (labels l (endpoints a ids.id_dict e').1).1 w'.norm with
              | error err => rfl
              | ok fs => simp only [hr, he.1, Except.map]

/-- **C105**, repeated use of the tables.  If no argument names a column that the constructors write, any
sequence of constructions on the same tables, of any class in any backend, whether or not they raise,
gives what each would give on the original tables. -/
theorem C105_sequence_partial (cs : List (Backend × Args)) (hp : ∀ c ∈ cs, Plain c.2) (v e : Table κ) :
    buildAll v e cs = cs.map fun c => (build c.1 c.2 v e).2 := by
  have gen : ∀ (cs : List (Backend × Args)), (∀ c ∈ cs, Plain c.2) → ∀ v' e' : Table κ,
      Agree vertexCols v' v → Agree edgeCols e' e →
      buildAll v' e' cs = cs.map fun c => (build c.1 c.2 v e).2 := by
    intro cs
    induction cs with
    | nil => intros; rfl
    | cons c cs ih =>
      intro hp v' e' hv he
      obtain ⟨h1, h2⟩ := C105_tables c.1 c.2 v' e'
      have hv1 : Agree vertexCols (build c.1 c.2 v' e').1.1 v' :=
        ⟨h1.1, fun s hs => h1.2 s (by simpa [vertexCols] using hs)⟩
      have he1 : Agree edgeCols (build c.1 c.2 v' e').1.2 e' :=
        ⟨h2.1, fun s hs => by
          simp only [edgeCols, List.mem_cons, List.not_mem_nil, or_false, not_or] at hs
          exact h2.2 s hs.1 hs.2.1 hs.2.2⟩
      show _ :: buildAll _ _ cs = _
      rw [ih (fun c hc => hp c (List.mem_cons_of_mem _ hc)) _ _ (hv1.trans' hv) (he1.trans' he),
        List.map_cons, C105_columns_partial c.1 c.2 (hp c (by simp)) v' v e' e hv he]
  exact gen cs hp v e (Agree.rfl' v) (Agree.rfl' e)

/-! ### The rows that are read -/

/-- The argument is one name, alone or in a list. -/
def Sel.Single : Sel → Prop
  | .str _ => True
  | .list l => l.length = 1

/-- The values that a column argument stands for: those of the column, or the tuples of the values of
several columns. -/
def Table.Reads (t : Table κ) : Sel → (ℕ → κ) → Prop
  | .str s, f => t.col s = some f
  | .list [s], f => t.col s = some f
  | .list l, f => l ≠ [] ∧ ∃ fs : List (ℕ → κ), l.map t.col = fs.map some ∧
      f = fun i => Cell.tuple (fs.map fun g => g i)

private theorem mapM_some {α : Type} {f : String → Option α} : ∀ (l : List String) (fs : List α),
    l.map f = fs.map some → l.mapM f = some fs
  | [], [], _ => rfl
  | [], _ :: _, h => by simp at h
  | _ :: _, [], h => by simp at h
  | s :: l, g :: fs, h => by
    simp only [List.map_cons, List.cons.injEq] at h
    rw [List.mapM_cons, h.1, mapM_some l fs h.2]
    rfl

private theorem get_reads {t : Table κ} : ∀ {a : Sel} {f : ℕ → κ}, t.Reads a f → t.get a.norm = .ok f
  | .str s, f, h => by
    have h : t.col s = some f := h
    simp [Sel.norm, Table.get, h]
  | .list [], f, h => absurd rfl h.1
  | .list [s], f, h => by
    have h : t.col s = some f := h
    simp [Sel.norm, Table.get, h]
  | .list (s :: s' :: l), f, h => by
    obtain ⟨-, fs, h1, h2⟩ := h
    have hne : fs ≠ [] := by
      rintro rfl
      simp at h1
    simp [Sel.norm, Table.get, mapM_some _ _ h1, hne, h2]

private theorem sameKind_single : ∀ {a c : Sel}, (a.Single ↔ c.Single) → sameKind a.norm c.norm = true := by
  intro a c h
  match a, c, h with
  | .str _, .str _, _ => rfl
  | .str _, .list [_], _ => rfl
  | .str _, .list [], h => exact absurd (h.1 trivial) (by simp [Sel.Single])
  | .str _, .list (_ :: _ :: _), h => exact absurd (h.1 trivial) (by simp [Sel.Single])
  | .list [_], .str _, _ => rfl
  | .list [], .str _, h => exact absurd (h.2 trivial) (by simp [Sel.Single])
  | .list (_ :: _ :: _), .str _, h => exact absurd (h.2 trivial) (by simp [Sel.Single])
  | .list [], .list [], _ => rfl
  | .list [], .list [_], h => exact absurd (h.2 rfl) (by simp [Sel.Single])
  | .list [], .list (_ :: _ :: _), _ => rfl
  | .list [_], .list [], h => exact absurd (h.1 rfl) (by simp [Sel.Single])
  | .list [_], .list [_], _ => rfl
  | .list [_], .list (_ :: _ :: _), h => exact absurd (h.1 rfl) (by simp [Sel.Single])
  | .list (_ :: _ :: _), .list [], _ => rfl
  | .list (_ :: _ :: _), .list [_], h => exact absurd (h.2 rfl) (by simp [Sel.Single])
  | .list (_ :: _ :: _), .list (_ :: _ :: _), _ => rfl

/-- The rows of the vertex table, as `Graph/Model.lean` takes them. -/
def vertexRows (v : Table κ) (node group : ℕ → κ) : List (κ × κ) :=
  (List.range v.len).map fun i => (node i, group i)

/-- The rows of the edge table, as `Graph/Model.lean` takes them. -/
def edgeRows {V : Type} (e : Table κ) (x y : ℕ → κ) (w : ℕ → V) : List (Row κ V) :=
  (List.range e.len).map fun i => ⟨x i, y i, w i⟩

/-- The exceptions of the constructors on rows. -/
def liftErr : Err → TErr
  | .repeatedId => .repeatedId
  | .unknownVertex => .unknownVertex
  | .badWeight => .badWeight

/-- Without `v_group` there are no attributes about groups. -/
def Ids.only (g : Option Sel) (i : Ids κ) : Ids κ :=
  match g with
  | none => { i with group_dict := [], groups := [] }
  | some _ => i

private noncomputable def sortedIdx (v : Table κ) (d : List (κ × ℕ)) (node : ℕ → κ) : List ℕ :=
  (List.range v.len).mergeSort fun i j =>
    decide ((d.lookup (node i)).getD 0 ≤ (d.lookup (node j)).getD 0)

private noncomputable def idsOf (v : Table κ) (d : List (κ × ℕ)) (node group : ℕ → κ) : Ids κ :=
  let gd := (npUnique ((sortedIdx v d node).map group)).zipIdx
  ⟨v.len, d, gd, (sortedIdx v d node).map fun i => (gd.lookup (group i)).getD 0⟩

private theorem dict_false (l : List κ) : generate_id_dict l false = .ok (npUnique l).zipIdx := by
  simp [generate_id_dict]

private theorem dict_err {l : List κ} {err : Err} (h : generate_id_dict l true = .error err) :
    err = .repeatedId := by
  unfold generate_id_dict at h
  simp only at h
  split at h
  · injection h with h
    exact h.symm
  · exact absurd h (by simp)

private theorem vertices_rows {a : Args} (hp : Plain a) {v : Table κ} {node group : ℕ → κ}
    (h1 : v.Reads a.v_id node) (h2 : ∀ g ∈ a.v_group, v.Reads g group) :
    (vertices a v).2 = match generate_id_dict ((List.range v.len).map node) true with
      | .error _ => .error .repeatedId
      | .ok d => .ok ((idsOf v d node group).only a.v_group) := by
  unfold vertices
  rw [get_reads h1]
  simp only
  rw [show (v.set "_node" node).list node = (List.range v.len).map node from rfl]
  cases generate_id_dict ((List.range v.len).map node) true with
  | error err => rfl
  | ok d =>
    simp only
    cases hg : a.v_group with
    | none => rfl
    | some g =>
      simp only
      have : (v.set "_node" node).get g.norm = .ok group := by
        rw [get_agree (Agree.set v (by simp [vertexCols]) node) g (hp.2.1 g hg), get_reads (h2 g hg)]
      rw [this]
      simp only [dict_false]
      rfl

private theorem endpoints_rows {a : Args} (hp : Plain a) {e : Table κ} {x y : ℕ → κ}
    (hk : a.src.Single ↔ a.dst.Single) (h1 : e.Reads a.src x) (h2 : e.Reads a.dst y)
    (d : List (κ × ℕ)) :
    (endpoints a d e).2 =
      if (List.range e.len).all fun i => (d.lookup (x i)).isSome && (d.lookup (y i)).isSome then
        .ok (fun i => (d.lookup (x i)).getD 0, fun i => (d.lookup (y i)).getD 0)
      else .error .unknownVertex := by
  unfold endpoints
  rw [if_pos (sameKind_single hk), get_reads h1]
  simp only
  rw [get_agree (Agree.set e (by simp [edgeCols]) x) a.dst hp.2.2.2.1, get_reads h2]
  simp only
  split <;> rfl

private theorem mapM_internal {V : Type} (d : List (κ × ℕ)) (x y : ℕ → κ) (w : ℕ → V) (l : List ℕ) :
    (l.map fun i => (⟨x i, y i, w i⟩ : Row κ V)).mapM (toInternal d) =
      if l.all fun i => (d.lookup (x i)).isSome && (d.lookup (y i)).isSome then
        some (l.map fun i => ⟨(d.lookup (x i)).getD 0, (d.lookup (y i)).getD 0, w i⟩)
      else none := by
  induction l with
  | nil => rfl
  | cons i l ih =>
    rw [List.map_cons, List.mapM_cons, ih]
    simp only [toInternal, List.all_cons, List.map_cons]
    cases hx : d.lookup (x i) with
    | none => simp
    | some a =>
      cases hy : d.lookup (y i) with
      | none => simp
      | some c =>
        simp only [Option.isSome_some, Bool.and_self, Bool.true_and, Option.getD_some]
        split <;> rfl

private theorem base_rows {V : Type} [Dtype V] (v e : Table κ) (node group x y : ℕ → κ) (w : ℕ → V) :
    base (vertexRows v node group) (edgeRows e x y w) =
      match generate_id_dict ((List.range v.len).map node) true with
      | .error _ => .error .repeatedId
      | .ok d =>
        if (List.range e.len).all fun i => (d.lookup (x i)).isSome && (d.lookup (y i)).isSome then
          if (List.range e.len).all fun i => Dtype.pos (w i) then
            .ok ⟨v.len, d, (idsOf v d node group).group_dict, (idsOf v d node group).groups,
              rowsOf e (fun i => (d.lookup (x i)).getD 0) (fun i => (d.lookup (y i)).getD 0) w⟩
          else .error .badWeight
        else .error .unknownVertex := by
  unfold base vertexRows edgeRows
  rw [List.map_map]
  rw [show (Prod.fst ∘ fun i => (node i, group i)) = node from rfl]
  cases hd : generate_id_dict ((List.range v.len).map node) true with
  | error err => rw [dict_err hd]
  | ok d =>
    simp only [dict_false]
    have hs : ((List.range v.len).map fun i => (node i, group i)).mergeSort
        (fun a b => decide ((d.lookup a.1).getD 0 ≤ (d.lookup b.1).getD 0))
        = (sortedIdx v d node).map fun i => (node i, group i) := by
      unfold sortedIdx
      refine (List.map_mergeSort ?_).symm
      intros
      rfl
    rw [hs, mapM_internal]
    by_cases hall : ((List.range e.len).all fun i => (d.lookup (x i)).isSome && (d.lookup (y i)).isSome) = true
    · rw [if_pos hall, if_pos hall]
      simp only [List.map_map, List.length_map, List.length_range, List.all_map]
      rfl
    · rw [if_neg hall, if_neg hall]

/-- The constructor on rows. -/
noncomputable def ctor {V : Type} [Dtype V] (b : Backend) (v : List (κ × κ)) (e : List (Row κ V)) :
    Except Err (Obj κ κ V) :=
  match b with
  | .dense => Dense.mk v e
  | .sparse => Sparse.mk v e

/-- The constructor of multigraphs on rows. -/
noncomputable def ctorMulti {V : Type} [Dtype V] (b : Backend) (v : List (κ × κ))
    (e : List (κ × Row κ V)) : Except Err (MultiObj κ κ κ V) :=
  match b with
  | .dense => Dense.mkMulti v e
  | .sparse => Sparse.mkMulti v e

/-- Without `v_group` there are no attributes about groups. -/
def objOnly {V : Type} (g : Option Sel) (o : Obj κ κ V) : Obj κ κ V :=
  match g with
  | none => { o with group_dict := [], groups := [] }
  | some _ => o

/-- Without `v_group` there are no attributes about groups. -/
def multiOnly {V : Type} (g : Option Sel) (o : MultiObj κ κ κ V) : MultiObj κ κ κ V :=
  match g with
  | none => { o with group_dict := [], groups := [] }
  | some _ => o

private theorem weights_rows {a : Args} (hp : Plain a) {e t : Table κ} (ht : Agree edgeCols t e)
    {w : Sel} (hw : a.weight = some w) (hs : w.Single) {c : ℕ → κ} (hc : e.Reads w c) :
    weightCols t w.norm = .ok [fun i => Cell.num (c i)] ∧
    weights a t = if (List.range e.len).all fun i => Dtype.pos (Cell.num (c i) : ℝ) then
      .ok (some fun i => Cell.num (c i)) else .error .badWeight := by
  have hcols : weightCols t w.norm = .ok [fun i => Cell.num (c i)] := by
    rw [weightCols_agree ht w (hp.2.2.2.2.1 w hw)]
    match w, hs, hc with
    | .str s, _, hc =>
      have hc : e.col s = some c := hc
      simp [Sel.norm, weightCols, hc]
    | .list [s], _, hc =>
      have hc : e.col s = some c := hc
      simp [Sel.norm, weightCols, hc]
  refine ⟨hcols, ?_⟩
  unfold weights
  rw [hw]
  simp only
  rw [hcols, ht.1]
  simp only [List.all_cons, List.all_nil, Bool.and_true]

private theorem labels_rows {a : Args} (hp : Plain a) {e t : Table κ} (ht : Agree edgeCols t e)
    {l : Sel} (hl : a.edge_label = some l) {c : ℕ → κ} (hc : e.Reads l c) :
    (labels l t).2 = .ok ((npUnique ((List.range e.len).map c)).zipIdx,
      fun i => ((npUnique ((List.range e.len).map c)).zipIdx.lookup (c i)).getD 0) := by
  unfold labels
  rw [get_agree ht l (hp.2.2.2.2.2 l hl), get_reads hc]
  simp only
  rw [show t.list c = (List.range t.len).map c from rfl, ht.1]
  simp only [dict_false]

section Rows

variable (b : Backend) (a : Args) (hp : Plain a) (v e : Table κ) (node group x y : ℕ → κ)
  (hn : v.Reads a.v_id node) (hg : ∀ g ∈ a.v_group, v.Reads g group)
  (hk : a.src.Single ↔ a.dst.Single) (hx : e.Reads a.src x) (hy : e.Reads a.dst y)

include hp hn hg hk hx hy

/-- **C105**, rows of `Graph` and `DiGraph` with weights: the outcome is that of the constructor on the
rows of the named columns. -/
theorem C105_weighted_partial (w : Sel) (c : ℕ → κ) (hw : a.weight = some w) (hs : w.Single)
    (hc : e.Reads w c) (hl : a.edge_label = none) :
    (build b a v e).2 = match ctor b (vertexRows v node group)
        (edgeRows e x y fun i => (Cell.num (c i) : ℝ)) with
      | .ok o => .ok (.weighted (objOnly a.v_group o))
      | .error err => .error (liftErr err) := by
  have hb := base_rows v e node group x y fun i => (Cell.num (c i) : ℝ)
  have hctor : ctor b (vertexRows v node group) (edgeRows e x y fun i => (Cell.num (c i) : ℝ))
      = (base (vertexRows v node group) (edgeRows e x y fun i => (Cell.num (c i) : ℝ))).map
        fun r => ⟨r.num_vertices, r.id_dict, r.group_dict, r.groups, adjOf b r.edges⟩ := by
    cases b <;> rfl
  rw [hctor, hb]
  unfold build
  simp only
  rw [vertices_rows hp hn hg]
  cases generate_id_dict ((List.range v.len).map node) true with
  | error err => rfl
  | ok d =>
    simp only
    have hd : ((idsOf v d node group).only a.v_group).id_dict = d := by
      unfold Ids.only
      cases a.v_group <;> rfl
    rw [hd, endpoints_rows hp hk hx hy]
    generalize ((List.range e.len).all fun i => (d.lookup (x i)).isSome && (d.lookup (y i)).isSome) = kb
    cases kb with
    | false => rfl
    | true =>
      simp only [if_true]
      rw [(weights_rows hp (endpoints_agree a d e) hw hs hc).2]
      generalize ((List.range e.len).all fun i => Dtype.pos (Cell.num (c i) : ℝ)) = pb
      cases pb with
      | false => rfl
      | true =>
        simp only [if_true, hl]
        unfold Ids.only objOnly
        cases a.v_group <;> rfl

/-- **C105**, rows of `Graph` and `DiGraph` without weights. -/
theorem C105_unweighted_partial (hw : a.weight = none) (hl : a.edge_label = none) :
    (build b a v e).2 = match ctor b (vertexRows v node group) (edgeRows e x y fun _ => true) with
      | .ok o => .ok (.unweighted (objOnly a.v_group o))
      | .error err => .error (liftErr err) := by
  have hb := base_rows v e node group x y fun _ => true
  have hctor : ctor b (vertexRows v node group) (edgeRows e x y fun _ => true)
      = (base (vertexRows v node group) (edgeRows e x y fun _ => true)).map
        fun r => ⟨r.num_vertices, r.id_dict, r.group_dict, r.groups, adjOf b r.edges⟩ := by
    cases b <;> rfl
  have hpos : ((List.range e.len).all fun _ => Dtype.pos true) = true := by
    simp [Dtype.pos]
  rw [hctor, hb]
  unfold build
  simp only
  rw [vertices_rows hp hn hg]
  cases generate_id_dict ((List.range v.len).map node) true with
  | error err => rfl
  | ok d =>
    simp only
    have hd : ((idsOf v d node group).only a.v_group).id_dict = d := by
      unfold Ids.only
      cases a.v_group <;> rfl
    rw [hd, endpoints_rows hp hk hx hy]
    generalize ((List.range e.len).all fun i => (d.lookup (x i)).isSome && (d.lookup (y i)).isSome) = kb
    cases kb with
    | false => rfl
    | true =>
      simp only [if_true]
      rw [if_pos hpos]
      have hwt : weights a (endpoints a d e).1 = .ok none := by
        unfold weights
        rw [hw]
      rw [hwt]
      simp only [hl]
      unfold Ids.only objOnly
      cases a.v_group <;> rfl

/-- The rows of the edge table of a multigraph. -/
def labelRows {V : Type} (e : Table κ) (z x y : ℕ → κ) (w : ℕ → V) : List (κ × Row κ V) :=
  (List.range e.len).map fun i => (z i, ⟨x i, y i, w i⟩)

omit hp hn hg hk hx hy in
private theorem multi_rows {V : Type} [Dtype V] (z : ℕ → κ) (w : ℕ → V) :
    ctorMulti b (vertexRows v node group) (labelRows e z x y w) =
      (base (vertexRows v node group) (edgeRows e x y w)).map fun r =>
        ⟨r.num_vertices, (npUnique ((List.range e.len).map z)).zipIdx.length, r.id_dict,
          (npUnique ((List.range e.len).map z)).zipIdx, r.group_dict, r.groups,
          tensorOf b (((List.range e.len).map fun i =>
            ((npUnique ((List.range e.len).map z)).zipIdx.lookup (z i)).getD 0).zip r.edges)⟩ := by
  have h1 : (labelRows e z x y w).map Prod.snd = edgeRows e x y w := by
    unfold labelRows edgeRows
    rw [List.map_map]
    rfl
  have h2 : (labelRows e z x y w).map Prod.fst = (List.range e.len).map z := by
    unfold labelRows
    rw [List.map_map]
    rfl
  have h3 : ∀ d : List (κ × ℕ), (labelRows e z x y w).map (fun r => (d.lookup r.1).getD 0)
      = (List.range e.len).map fun i => (d.lookup (z i)).getD 0 := by
    intro d
    unfold labelRows
    rw [List.map_map]
    rfl
  cases b with
  | dense =>
    show Graph.mkMulti Dense.assignT _ _ = _
    unfold mkMulti
    rw [h1, h2, dict_false]
    simp only [h3]
    cases base (vertexRows v node group) (edgeRows e x y w) <;> rfl
  | sparse =>
    show Graph.mkMulti Sparse.cooT _ _ = _
    unfold mkMulti
    rw [h1, h2, dict_false]
    simp only [h3]
    cases base (vertexRows v node group) (edgeRows e x y w) <;> rfl

/-- **C105**, rows of `MultiGraph` and `MultiDiGraph` with weights. -/
theorem C105_multi_weighted_partial (w l : Sel) (c z : ℕ → κ) (hw : a.weight = some w) (hs : w.Single)
    (hc : e.Reads w c) (hl : a.edge_label = some l) (hz : e.Reads l z) :
    (build b a v e).2 = match ctorMulti b (vertexRows v node group)
        (labelRows e z x y fun i => (Cell.num (c i) : ℝ)) with
      | .ok o => .ok (.multiWeighted (multiOnly a.v_group o))
      | .error err => .error (liftErr err) := by
  rw [multi_rows, base_rows v e node group x y fun i => (Cell.num (c i) : ℝ)]
  unfold build
  simp only
  rw [vertices_rows hp hn hg]
  cases generate_id_dict ((List.range v.len).map node) true with
  | error err => rfl
  | ok d =>
    simp only
    have hd : ((idsOf v d node group).only a.v_group).id_dict = d := by
      unfold Ids.only
      cases a.v_group <;> rfl
    rw [hd, endpoints_rows hp hk hx hy]
    generalize ((List.range e.len).all fun i => (d.lookup (x i)).isSome && (d.lookup (y i)).isSome) = kb
    cases kb with
    | false => rfl
    | true =>
      simp only [if_true]
      have ha := endpoints_agree a d e
      rw [(weights_rows hp ha hw hs hc).2]
      generalize ((List.range e.len).all fun i => Dtype.pos (Cell.num (c i) : ℝ)) = pb
      cases pb with
      | false => rfl
      | true =>
        simp only [if_true, hl]
        rw [labels_rows hp ha hl hz]
        simp only [hw]
        rw [(weights_rows hp ((labels_agree l _).trans' ha) hw hs hc).1]
        unfold Ids.only multiOnly
        cases a.v_group <;> rfl

/-- **C105**, rows of `MultiGraph` and `MultiDiGraph` without weights. -/
theorem C105_multi_unweighted_partial (l : Sel) (z : ℕ → κ) (hw : a.weight = none)
    (hl : a.edge_label = some l) (hz : e.Reads l z) :
    (build b a v e).2 = match ctorMulti b (vertexRows v node group)
        (labelRows e z x y fun _ => true) with
      | .ok o => .ok (.multiUnweighted (multiOnly a.v_group o))
      | .error err => .error (liftErr err) := by
  have hpos : ((List.range e.len).all fun _ => Dtype.pos true) = true := by
    simp [Dtype.pos]
  rw [multi_rows, base_rows v e node group x y fun _ => true]
  unfold build
  simp only
  rw [vertices_rows hp hn hg]
  cases generate_id_dict ((List.range v.len).map node) true with
  | error err => rfl
  | ok d =>
    simp only
    have hd : ((idsOf v d node group).only a.v_group).id_dict = d := by
      unfold Ids.only
      cases a.v_group <;> rfl
    rw [hd, endpoints_rows hp hk hx hy]
    generalize ((List.range e.len).all fun i => (d.lookup (x i)).isSome && (d.lookup (y i)).isSome) = kb
    cases kb with
    | false => rfl
    | true =>
      simp only [if_true]
      have ha := endpoints_agree a d e
      rw [if_pos hpos]
      have hwt : weights a (endpoints a d e).1 = .ok none := by
        unfold weights
        rw [hw]
      rw [hwt]
      simp only [hl]
      rw [labels_rows hp ha hl hz]
      simp only [hw]
      unfold Ids.only multiOnly
      cases a.v_group <;> rfl

end Rows

/-! ### Exceptions -/

/-- **C105**, exceptions.  (1) With `src` a name and `dst` several names, or the reverse, no graph is
built, and the edge table stays as it is.  (2) With several names of weights no graph is built. -/
theorem C105_errors (b : Backend) (a : Args) (v e : Table κ) :
    ((a.src.Single ∧ ¬ a.dst.Single ∨ ¬ a.src.Single ∧ a.dst.Single) →
      (∃ err, (build b a v e).2 = .error err) ∧ (build b a v e).1.2 = e) ∧
    ((∃ w, a.weight = some w ∧ ¬ w.Single) → ∃ err, (build b a v e).2 = .error err) := by
  constructor
  · intro h
    have hk : sameKind a.src.norm a.dst.norm = false := by
      match a.src, a.dst, h with
      | .str _, .list [], _ => rfl
      | .str _, .list [_], h => simp [Sel.Single] at h
      | .str _, .list (_ :: _ :: _), _ => rfl
      | .list [], .str _, _ => rfl
      | .list [_], .str _, h => simp [Sel.Single] at h
      | .list (_ :: _ :: _), .str _, _ => rfl
      | .str _, .str _, h => simp [Sel.Single] at h
      | .list [], .list [], h => simp [Sel.Single] at h
      | .list [], .list [_], _ => rfl
      | .list [], .list (_ :: _ :: _), h => simp [Sel.Single] at h
      | .list [_], .list [], _ => rfl
      | .list [_], .list [_], h => simp [Sel.Single] at h
      | .list [_], .list (_ :: _ :: _), _ => rfl
      | .list (_ :: _ :: _), .list [], h => simp [Sel.Single] at h
      | .list (_ :: _ :: _), .list [_], _ => rfl
      | .list (_ :: _ :: _), .list (_ :: _ :: _), h => simp [Sel.Single] at h
    have he : ∀ d, endpoints a d e = (e, .error .value) := by
      intro d
      unfold endpoints
      rw [if_neg (by rw [hk]; simp)]
    unfold build
    simp only
    cases (vertices a v).2 with
    | error err => exact ⟨⟨err, rfl⟩, rfl⟩
    | ok ids =>
      simp only [he]
      exact ⟨⟨_, rfl⟩, trivial⟩
  · rintro ⟨w, hw, hs⟩
    have hwt : ∀ t : Table κ, ∃ err, weights a t = .error err := by
      intro t
      unfold weights
      rw [hw]
      simp only
      have hn : ∃ l, w.norm = .list l ∧ l.length ≠ 1 := by
        match w, hs with
        | .str _, hs => exact absurd trivial hs
        | .list [], _ => exact ⟨[], rfl, by simp⟩
        | .list [_], hs => exact absurd rfl hs
        | .list (s :: s' :: l), _ => exact ⟨_, rfl, by simp⟩
      obtain ⟨l, hl, hlen⟩ := hn
      rw [hl]
      simp only [weightCols]
      cases hm : l.mapM t.col with
      | none => exact ⟨_, rfl⟩
      | some fs =>
        have hfs : fs.length ≠ 1 := by
          have : fs.length = l.length := by
            clear hl hlen
            induction l generalizing fs with
            | nil =>
              simp only [List.mapM_nil] at hm
              injection hm with hm
              rw [← hm]
              rfl
            | cons s l ih =>
              rw [List.mapM_cons] at hm
              cases h1 : t.col s with
              | none => simp [h1] at hm
              | some f =>
                cases h2 : l.mapM t.col with
                | none => simp [h1, h2] at hm
                | some gs =>
                  simp only [h1, h2, Option.pure_def, Option.bind_eq_bind, Option.bind_some,
                    Option.some.injEq] at hm
                  rw [← hm, List.length_cons, List.length_cons, ih gs h2]
          omega
        simp only
        split
        · match fs, hfs with
          | [], _ => exact ⟨_, rfl⟩
          | [_], h => exact absurd rfl h
          | _ :: _ :: _, _ => exact ⟨_, rfl⟩
        · exact ⟨_, rfl⟩
    unfold build
    simp only
    cases (vertices a v).2 with
    | error err => exact ⟨err, rfl⟩
    | ok ids =>
      simp only
      cases (endpoints a ids.id_dict e).2 with
      | error err => exact ⟨err, rfl⟩
      | ok xy =>
        obtain ⟨err, h⟩ := hwt (endpoints a ids.id_dict e).1
        simp only [h]
        exact ⟨err, rfl⟩

/-- A name in `v_id` that the vertex table does not have is reported as a repeated identifier. -/
theorem C105_missing_violated (b : Backend) (a : Args) (v e : Table κ) (s : String)
    (hs : s ∈ a.v_id.names) (hc : v.col s = none) : (build b a v e).2 = .error .repeatedId := by
  have hget : v.get a.v_id.norm = .error .key := by
    rw [← names_norm] at hs
    cases hn : a.v_id.norm with
    | str s' =>
      rw [hn] at hs
      simp only [Sel.names, List.mem_singleton] at hs
      subst hs
      simp [Table.get, hc]
    | list l =>
      rw [hn] at hs
      have hm : l.mapM v.col = none := by
        have hs : s ∈ l := hs
        clear hn
        induction l with
        | nil => simp at hs
        | cons s' l ih =>
          rw [List.mapM_cons]
          rcases List.mem_cons.1 hs with rfl | h
          · simp [hc]
          · cases v.col s' with
            | none => rfl
            | some f => simp [ih h h]
      simp [Table.get, hm]
  unfold build vertices
  rw [hget]

private theorem adjOf_nz {V : Type} [Dtype V] (hz : Dtype.nz (Dtype.zero : V) = false)
    (b : Backend) (rows : List (Row ℕ V)) (i j : ℕ) (h : Dtype.nz (adjOf b rows i j) = true) :
    ∃ r ∈ rows, i = r.src ∧ j = r.dst := by
  induction rows using List.reverseRecOn with
  | nil =>
    cases b <;> simp [adjOf, assign, coo, hz] at h
  | append_singleton rows r ih =>
    by_cases hr : i = r.src ∧ j = r.dst
    · exact ⟨r, by simp, hr⟩
    · have : adjOf b (rows ++ [r]) i j = adjOf b rows i j := by
        cases b with
        | dense => simp [adjOf, assign, List.foldl_append, hr]
        | sparse => simp [adjOf, coo, List.foldl_append, hr]
      rw [this] at h
      obtain ⟨r', h1, h2⟩ := ih h
      exact ⟨r', by simp [h1], h2⟩

/-- If `src` is the column `_dst` and `dst` the column `_src`, as when the columns left by an earlier
construction are used to reverse the graph, all links of the graph are self-loops: `_src` is overwritten
before it is read. -/
theorem C105_swap_violated (b : Backend) (a : Args) (v e : Table κ) (hs : a.src = .str "_dst")
    (hd : a.dst = .str "_src") :
    (∀ o, (build b a v e).2 = .ok (.weighted o) → ∀ i j, o.adj i j ≠ 0 → i = j) ∧
    ∀ o, (build b a v e).2 = .ok (.unweighted o) → ∀ i j, o.adj i j = true → i = j := by
  have rows : ∀ {V : Type} [Dtype V] (x : ℕ → ℕ) (w : ℕ → V) (i j : ℕ),
      Dtype.nz (Dtype.zero : V) = false → Dtype.nz (adjOf b (rowsOf e x x w) i j) = true → i = j := by
    intro V _ x w i j hz hnz
    obtain ⟨r, hr, h1, h2⟩ := adjOf_nz hz b _ i j hnz
    unfold rowsOf at hr
    obtain ⟨k, -, rfl⟩ := List.mem_map.1 hr
    rw [h1, h2]
  generalize hr : (build b a v e).2 = r
  unfold build at hr
  simp only at hr
  cases hv : (vertices a v).2 with
  | error err =>
    simp only [hv] at hr
    subst hr
    exact ⟨fun o h => by simp at h, fun o h => by simp at h⟩
  | ok ids =>
    simp only [hv] at hr
    have he : ∀ xy, (endpoints a ids.id_dict e).2 = .ok xy → xy.1 = xy.2 := by
      intro xy hxy
      unfold endpoints at hxy
      rw [hs, hd] at hxy
      simp only [Sel.norm, sameKind, if_true] at hxy
      cases hg : e.get (.str "_dst") with
      | error err => simp [hg] at hxy
      | ok x =>
        have hg2 : (e.set "_src" x).get (.str "_src") = .ok x := by
          simp [Table.get, Table.set]
        simp only [hg, hg2] at hxy
        split at hxy
        · injection hxy with hxy
          rw [← hxy]
        · simp at hxy
    cases hxy : (endpoints a ids.id_dict e).2 with
    | error err =>
      simp only [hxy] at hr
      subst hr
      exact ⟨fun o h => by simp at h, fun o h => by simp at h⟩
    | ok xy =>
      obtain ⟨x, y⟩ := xy
      have hxy' : x = y := he _ hxy
      subst hxy'
      simp only [hxy] at hr
      cases hw : weights a (endpoints a ids.id_dict e).1 with
      | error err =>
        simp only [hw] at hr
        subst hr
        exact ⟨fun o h => by simp at h, fun o h => by simp at h⟩
      | ok w =>
        simp only [hw] at hr
        cases hl : a.edge_label with
        | some l =>
          simp only [hl] at hr
          constructor
          · intro o h
            rw [h] at hr
            split at hr
            · simp at hr
            · split at hr <;> simp at hr
          · intro o h
            rw [h] at hr
            split at hr
            · simp at hr
            · split at hr <;> simp at hr
        | none =>
          simp only [hl] at hr
          cases w with
          | none =>
            refine ⟨fun o h => by simp [h] at hr, fun o h i j hij => ?_⟩
            simp only [h, Except.ok.injEq, Built.unweighted.injEq] at hr
            rw [← hr] at hij
            exact rows (V := Bool) x (fun _ => true) i j rfl hij
          | some w =>
            refine ⟨fun o h i j hij => ?_, fun o h => by simp [h] at hr⟩
            simp only [h, Except.ok.injEq, Built.weighted.injEq] at hr
            rw [← hr] at hij
            exact rows x w i j (by simp [Dtype.nz, Dtype.zero]) (by simpa [Dtype.nz] using hij)

end Tab

end Graph

end Verif
