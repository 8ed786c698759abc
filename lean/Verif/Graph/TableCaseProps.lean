import Verif.Graph.TableProps
import Mathlib.Order.WithBot
import Mathlib.Logic.Encodable.Basic

/-!
# C105: tables that the claim does not hold for, and tables that meet the hypotheses
-/

namespace Verif

namespace Graph

namespace Tab

/-- Numbers, and a missing value. -/
noncomputable instance : Cell (WithTop ℕ) where
  tuple l := ((l.map fun x => (x.untopD 0 + 1) * 1000).sum : ℕ)
  int k := (k : ℕ)
  missing := ⊤
  num x := (x.untopD 0 : ℕ)

/-- Two vertices, `10` and `20`. -/
def exV : Table (WithTop ℕ) := ⟨2, fun s => if s = "id" then some (fun i => ((10 * (i + 1) : ℕ))) else none⟩

/-- One link from `10` to `20`, in columns with the given names. -/
def exE (src dst : String) : Table (WithTop ℕ) :=
  ⟨1, fun s => if s = src then some (fun _ => (10 : ℕ)) else if s = dst then some (fun _ => (20 : ℕ))
    else none⟩

/-- The arguments. -/
def exA (src dst : String) : Args := ⟨.str "id", .str src, .str dst, none, none, none⟩

private theorem ex_ids (l : List (WithTop ℕ)) (h : l.Nodup) :
    generate_id_dict l true = .ok (npUnique l).zipIdx := by
  unfold generate_id_dict
  simp only [Bool.true_and]
  rw [(counts_iff l).2 h]
  rfl

/-- The dictionary of the identifiers. -/
noncomputable def exD : List (WithTop ℕ × ℕ) := (npUnique [((10 : ℕ) : WithTop ℕ), ((20 : ℕ) : WithTop ℕ)]).zipIdx

private theorem ex_vertices (src dst : String) (v : Table (WithTop ℕ)) (hlen : v.len = 2)
    (hc : v.col "id" = some fun i => ((10 * (i + 1) : ℕ) : WithTop ℕ)) :
    vertices (exA src dst) v = (v.set "_node" fun i => ((10 * (i + 1) : ℕ) : WithTop ℕ), .ok ⟨2, exD, [], []⟩) := by
  have hl : (v.set "_node" fun i => ((10 * (i + 1) : ℕ) : WithTop ℕ)).list
      (fun i => ((10 * (i + 1) : ℕ) : WithTop ℕ)) = [((10 : ℕ) : WithTop ℕ), ((20 : ℕ) : WithTop ℕ)] := by
    show (List.range v.len).map _ = _
    rw [hlen]
    rfl
  have hg : v.get (exA src dst).v_id.norm = .ok fun i => ((10 * (i + 1) : ℕ) : WithTop ℕ) := by
    simp [exA, Sel.norm, Table.get, hc]
  unfold vertices
  rw [hg]
  simp only [hl]
  rw [ex_ids _ (by simp), hlen]
  rfl

private theorem ex_known (n : ℕ) : (exD.lookup ((n : ℕ) : WithTop ℕ)).isSome = true ↔ n = 10 ∨ n = 20 := by
  unfold exD
  rw [lookup_isSome]
  simp only [List.mem_cons, List.not_mem_nil, or_false]
  constructor <;> intro h <;> exact_mod_cast h

private theorem ex_lt {x : WithTop ℕ} {k : ℕ} (h : exD.lookup x = some k) : k < 2 := by
  have := (numbering_dict [((10 : ℕ) : WithTop ℕ), ((20 : ℕ) : WithTop ℕ)]).range x k h
  rw [(npUnique_perm (by simp)).length_eq] at this
  exact this

/-- With the columns `_src` and `_dst` of the caller as `src` and `dst`, the first construction succeeds and
the second, with the same arguments, raises: the columns have been overwritten with positions. -/
theorem C105_twice_violated (b : Backend) :
    ∃ o, buildAll exV (exE "_src" "_dst") [(b, exA "_src" "_dst"), (b, exA "_src" "_dst")]
      = [.ok o, .error .unknownVertex] := by
  have hv := ex_vertices "_src" "_dst" exV rfl (by simp [exV])
  have hv' := ex_vertices "_src" "_dst" (exV.set "_node" fun i => ((10 * (i + 1) : ℕ) : WithTop ℕ)) rfl
    (by simp [exV, Table.set])
  obtain ⟨k, hk⟩ := Option.isSome_iff_exists.1 ((ex_known 10).2 (Or.inl rfl))
  obtain ⟨k', hk'⟩ := Option.isSome_iff_exists.1 ((ex_known 20).2 (Or.inr rfl))
  have hk2 := ex_lt hk
  have he : endpoints (exA "_src" "_dst") exD (exE "_src" "_dst")
      = ((((exE "_src" "_dst").set "_src" fun _ => ((10 : ℕ) : WithTop ℕ)).set "_dst"
          (fun _ => ((20 : ℕ) : WithTop ℕ)) |>.set "_src" (mapIds exD fun _ => ((10 : ℕ) : WithTop ℕ))).set "_dst"
          (mapIds exD fun _ => ((20 : ℕ) : WithTop ℕ)),
        .ok (fun _ => k, fun _ => k')) := by
    have h1 : (exE "_src" "_dst").get (.str "_src") = .ok fun _ => ((10 : ℕ) : WithTop ℕ) := by
      simp [Table.get, exE]
    have h2 : ((exE "_src" "_dst").set "_src" fun _ => ((10 : ℕ) : WithTop ℕ)).get (.str "_dst")
        = .ok fun _ => ((20 : ℕ) : WithTop ℕ) := by
      simp [Table.get, exE, Table.set]
    unfold endpoints
    simp only [exA, Sel.norm, sameKind, if_true]
    rw [h1]
    simp only [h2, hk, hk']
    simp
  set e' := ((((exE "_src" "_dst").set "_src" fun _ => ((10 : ℕ) : WithTop ℕ)).set "_dst"
    (fun _ => ((20 : ℕ) : WithTop ℕ)) |>.set "_src" (mapIds exD fun _ => ((10 : ℕ) : WithTop ℕ))).set "_dst"
    (mapIds exD fun _ => ((20 : ℕ) : WithTop ℕ))) with hE
  have he' : (endpoints (exA "_src" "_dst") exD e').2 = .error .unknownVertex := by
    have hx : e'.get (.str "_src") = .ok fun _ => ((k : ℕ) : WithTop ℕ) := by
      simp only [Table.get, hE, Table.set]
      rw [Function.update_of_ne (by decide), Function.update_self]
      simp only
      congr 1
      funext i
      unfold mapIds
      rw [hk]
      rfl
    have hun : exD.lookup ((k : ℕ) : WithTop ℕ) = none := by
      rw [← Option.not_isSome_iff_eq_none, ex_known]
      omega
    unfold endpoints
    simp only [exA, Sel.norm, sameKind, if_true]
    rw [hx]
    simp only
    cases hy : (e'.set "_src" fun _ => ((k : ℕ) : WithTop ℕ)).get (.str "_dst") with
    | error err =>
      simp [Table.get, Table.set, hE] at hy
    | ok y =>
      simp only [hun]
      rw [if_neg]
      simp [hE, Table.set, exE]
  have hb : build b (exA "_src" "_dst") exV (exE "_src" "_dst") =
      ((exV.set "_node" fun i => ((10 * (i + 1) : ℕ) : WithTop ℕ), e'),
        .ok (.unweighted ⟨2, exD, [], [], adjOf b (rowsOf (exE "_src" "_dst") (fun _ => k) (fun _ => k')
          fun _ => true)⟩)) := by
    unfold build
    simp only [hv, he]
    rfl
  have hb' : (build b (exA "_src" "_dst") (exV.set "_node" fun i => ((10 * (i + 1) : ℕ) : WithTop ℕ)) e').2
      = .error .unknownVertex := by
    unfold build
    simp only [hv', he']
  refine ⟨.unweighted ⟨2, exD, [], [], adjOf b (rowsOf (exE "_src" "_dst") (fun _ => k) (fun _ => k')
    fun _ => true)⟩, ?_⟩
  unfold buildAll buildAll buildAll
  rw [hb]
  simp only [hb']

/-- Hypotheses of `C105_swap_violated`: the graph is built although no link is a self-loop. -/
example (b : Backend) : ∃ o, (build b (exA "_dst" "_src") exV (exE "_src" "_dst")).2
    = .ok (.unweighted o) := by
  have hv := ex_vertices "_dst" "_src" exV rfl (by simp [exV])
  obtain ⟨k', hk'⟩ := Option.isSome_iff_exists.1 ((ex_known 20).2 (Or.inr rfl))
  have he : (endpoints (exA "_dst" "_src") exD (exE "_src" "_dst")).2 = .ok (fun _ => k', fun _ => k') := by
    have h1 : (exE "_src" "_dst").get (.str "_dst") = .ok fun _ => ((20 : ℕ) : WithTop ℕ) := by
      simp [Table.get, exE]
    have h2 : ((exE "_src" "_dst").set "_src" fun _ => ((20 : ℕ) : WithTop ℕ)).get (.str "_src")
        = .ok fun _ => ((20 : ℕ) : WithTop ℕ) := by
      simp [Table.get, Table.set]
    unfold endpoints
    simp only [exA, Sel.norm, sameKind, if_true]
    rw [h1]
    simp only [h2, hk']
    simp
  unfold build
  simp only [hv, he]
  exact ⟨_, rfl⟩

/-- Hypotheses of `C105_columns_partial`, `C105_sequence_partial` and `C105_unweighted_partial`: columns
`a` and `b`, also with lists as arguments. -/
example : Plain (exA "a" "b") ∧ exV.Reads (.str "id") (fun i => ((10 * (i + 1) : ℕ))) ∧
    (exE "a" "b").Reads (.list ["a"]) (fun _ => (10 : ℕ)) ∧
    (exE "a" "b").Reads (.list ["a", "b"]) (fun _ => Cell.tuple [((10 : ℕ) : WithTop ℕ), ((20 : ℕ) : WithTop ℕ)]) ∧
    ((Sel.str "a").Single ↔ (Sel.list ["b"]).Single) := by
  refine ⟨?_, by simp [Table.Reads, exV], by simp [Table.Reads, exE],
    ⟨by simp, [fun _ => (10 : ℕ), fun _ => (20 : ℕ)], by simp [exE], rfl⟩, by simp [Sel.Single]⟩
  simp [Plain, exA, Sel.names, vertexCols, edgeCols]

/-- Hypotheses of `C105_weighted_partial` and `C105_multi_weighted_partial`: a column of weights and one of
labels. -/
example : ∃ (a : Args) (e : Table (WithTop ℕ)) (w l : Sel) (c z : ℕ → WithTop ℕ), Plain a ∧
    a.weight = some w ∧ w.Single ∧ e.Reads w c ∧ a.edge_label = some l ∧ e.Reads l z := by
  refine ⟨⟨.str "id", .str "a", .str "b", some (.str "w"), none, some (.str "l")⟩,
    ⟨1, fun s => if s = "w" then some (fun _ => (3 : ℕ)) else some (fun _ => (10 : ℕ))⟩, _, _,
    fun _ => (3 : ℕ), fun _ => (10 : ℕ), ?_, rfl, trivial, rfl, rfl, rfl⟩
  simp [Plain, Sel.names, vertexCols, edgeCols]

/-- Hypotheses of `C105_errors` and `C105_missing_violated`. -/
example : ((Sel.str "a").Single ∧ ¬ (Sel.list ["b", "c"]).Single) ∧ "name" ∈ (Sel.str "name").names ∧
    exV.col "name" = none := by
  simp [Sel.Single, Sel.names, exV]

end Tab

end Graph

end Verif
