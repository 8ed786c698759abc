import Verif.Num

/-!
# Model of the connection probability functions

One definition per function of the source, with the same branch ladder.  Single-parameter
arrays `d` of which only `d[0]` is read are represented by that entry; the unused argument
`z_ij`/`prop_dyad` of the functions that ignore it is kept as `_z`.

The `(labels, values)` tuples of the multi-layer models are represented as one list of
`(label, value)` pairs (`zip(labels, values)`; the two arrays always have equal length
because they are slices with equal bounds, see `csx_to_tuple_list`,
`sparse/models/fitness.py:826-833`).
-/

namespace Verif

noncomputable section

open XR

/-! ## Single layer, sparse backend -/

namespace Sparse.FitnessModel

/-- `/repo/src/graph_ensembles/sparse/models/fitness.py:291-300` -/
def p_ij (d x_i y_j z_ij : XR) : XR :=
  if x_i.isZero || y_j.isZero || z_ij.isZero || d.isZero then 0
  else
    let tmp := d * x_i * y_j * z_ij
    if tmp.isInf then 1 else tmp / (1 + tmp)

/-- `/repo/src/graph_ensembles/sparse/models/fitness.py:272-287` -/
def p_jac_ij (d x_i y_j z_ij : XR) : XR × XR :=
  if x_i.isZero || y_j.isZero || z_ij.isZero then (0, 0)
  else if d.isZero then (0, x_i * y_j * z_ij)
  else
    let tmp := x_i * y_j * z_ij
    let tmp1 := d * tmp
    if tmp1.isInf then (1, 0)
    else (tmp1 / (1 + tmp1), tmp / ((1 + tmp1) * (1 + tmp1)))

/-- `/repo/src/graph_ensembles/sparse/models/fitness.py:304-313` -/
def logp (d x_i y_j z_ij : XR) : XR :=
  if x_i.isZero || y_j.isZero || z_ij.isZero || d.isZero then ninf
  else
    let tmp := d * x_i * y_j * z_ij
    if tmp.isInf then 0 else XR.log (tmp / (1 + tmp))

/-- `/repo/src/graph_ensembles/sparse/models/fitness.py:317-328` -/
def log1mp (d x_i y_j z_ij : XR) : XR :=
  if x_i.isZero || y_j.isZero || z_ij.isZero || d.isZero then 0
  else
    let tmp := d * x_i * y_j * z_ij
    if tmp.isInf then ninf else XR.log1p (-tmp / (1 + tmp))

end Sparse.FitnessModel

namespace Sparse.ScaleInvariantModel

/-- `/repo/src/graph_ensembles/sparse/models/invariant.py:68-77` -/
def p_ij (d x_i y_j z_ij : XR) : XR :=
  if x_i.isZero || y_j.isZero || z_ij.isZero || d.isZero then 0
  else
    let tmp := d * x_i * y_j * z_ij
    if tmp.isInf then 1 else -(XR.expm1 (-tmp))

/-- `/repo/src/graph_ensembles/sparse/models/invariant.py:49-64` -/
def p_jac_ij (d x_i y_j z_ij : XR) : XR × XR :=
  if x_i.isZero || y_j.isZero || z_ij.isZero then (0, 0)
  else if d.isZero then (0, x_i * y_j * z_ij)
  else
    let tmp := x_i * y_j * z_ij
    let tmp1 := d * tmp
    if tmp1.isInf then (1, 0)
    else (-(XR.expm1 (-tmp1)), tmp * XR.exp (-tmp1))

/-- `/repo/src/graph_ensembles/sparse/models/invariant.py:81-90` -/
def logp (d x_i y_j z_ij : XR) : XR :=
  if x_i.isZero || y_j.isZero || z_ij.isZero || d.isZero then ninf
  else
    let tmp := d * x_i * y_j * z_ij
    if tmp.isInf then 0 else XR.log (-(XR.expm1 (-tmp)))

/-- `/repo/src/graph_ensembles/sparse/models/invariant.py:94-105` -/
def log1mp (d x_i y_j z_ij : XR) : XR :=
  if x_i.isZero || y_j.isZero || z_ij.isZero || d.isZero then 0
  else
    let tmp := d * x_i * y_j * z_ij
    if tmp.isInf then ninf else -tmp

end Sparse.ScaleInvariantModel

/-! ## Single layer, dense backend (and one layer of the multi-layer models)

The spark versions (`/repo/src/graph_ensembles/spark/models.py:1731-1787` for the fitness
model) are character by character the dense ones, so the same definitions model them; the
one function that differs, `ScaleInvariantModel.log1mp`, has its own spark definition. -/

namespace Dense.FitnessModel

/-- `/repo/src/graph_ensembles/models.py:1307-1316`, `spark/models.py:1750-1759`; identical to
the one-layer functions `models.py:2387-2398`, `sparse/models/fitness.py:965-976` and
`spark/models.py:3809-3820` (`p_ijk`). -/
def p_ij (d x_i y_j : XR) (_z : XR) : XR :=
  if x_i.isZero || y_j.isZero || d.isZero then 0
  else
    let tmp := d * x_i * y_j
    if tmp.isInf then 1 else tmp / (1 + tmp)

/-- `/repo/src/graph_ensembles/models.py:1288-1303`, `spark/models.py:1731-1746`; identical to
`p_jac_ijk` in `sparse/models/fitness.py:807-822`, `models.py:2303-2320`,
`spark/models.py:3697-3712`. -/
def p_jac_ij (d x_i y_j : XR) : XR × XR :=
  if x_i.isZero || y_j.isZero then (0, 0)
  else if d.isZero then (0, x_i * y_j)
  else
    let tmp := x_i * y_j
    let tmp1 := d * tmp
    if tmp1.isInf then (1, 0)
    else (tmp1 / (1 + tmp1), tmp / ((1 + tmp1) * (1 + tmp1)))

/-- `/repo/src/graph_ensembles/models.py:1320-1329`, `spark/models.py:1763-1772`; identical to
`logp_ijk` in `sparse/models/fitness.py:980-991`. -/
def logp (d x_i y_j : XR) (_z : XR) : XR :=
  if x_i.isZero || y_j.isZero || d.isZero then ninf
  else
    let tmp := d * x_i * y_j
    if tmp.isInf then 0 else XR.log (tmp / (1 + tmp))

/-- `/repo/src/graph_ensembles/models.py:1333-1344`, `spark/models.py:1776-1787`; identical to
`log1mp_ijk` in `sparse/models/fitness.py:995-1006`. -/
def log1mp (d x_i y_j : XR) (_z : XR) : XR :=
  if x_i.isZero || y_j.isZero || d.isZero then 0
  else
    let tmp := d * x_i * y_j
    if tmp.isInf then ninf else XR.log1p (-tmp / (1 + tmp))

end Dense.FitnessModel

namespace Dense.ScaleInvariantModel

/-- `/repo/src/graph_ensembles/models.py:1395-1404`, `spark/models.py:1850-1859`; identical to
`p_ijk` in `sparse/models/invariant.py:313-324`. -/
def p_ij (d x_i y_j : XR) (_z : XR) : XR :=
  if x_i.isZero || y_j.isZero || d.isZero then 0
  else
    let tmp := d * x_i * y_j
    if tmp.isInf then 1 else -(XR.expm1 (-tmp))

/-- `/repo/src/graph_ensembles/models.py:1376-1391`, `spark/models.py:1831-1846`; identical to
`p_jac_ijk` in `sparse/models/invariant.py:192-207`. -/
def p_jac_ij (d x_i y_j : XR) : XR × XR :=
  if x_i.isZero || y_j.isZero then (0, 0)
  else if d.isZero then (0, x_i * y_j)
  else
    let tmp := x_i * y_j
    let tmp1 := d * tmp
    if tmp1.isInf then (1, 0)
    else (-(XR.expm1 (-tmp1)), tmp * XR.exp (-tmp1))

/-- `/repo/src/graph_ensembles/models.py:1408-1417`, `spark/models.py:1863-1872`; identical to
`logp_ijk` in `sparse/models/invariant.py:328-339`. -/
def logp (d x_i y_j : XR) (_z : XR) : XR :=
  if x_i.isZero || y_j.isZero || d.isZero then ninf
  else
    let tmp := d * x_i * y_j
    if tmp.isInf then 0 else XR.log (-(XR.expm1 (-tmp)))

/-- `/repo/src/graph_ensembles/models.py:1421-1428`; identical to `log1mp_ijk` in
`sparse/models/invariant.py:343-350` and `spark/models.py:4072-4079`. -/
def log1mp (d x_i y_j : XR) (_z : XR) : XR :=
  if x_i.isZero || y_j.isZero || d.isZero then 0
  else -d * x_i * y_j

end Dense.ScaleInvariantModel

/-- `/repo/src/graph_ensembles/spark/models.py:1876-1887` -/
def Spark.ScaleInvariantModel.log1mp (d x_i y_j : XR) (_z : XR) : XR :=
  if x_i.isZero || y_j.isZero || d.isZero then 0
  else
    let tmp := d * x_i * y_j
    if tmp.isInf then ninf else -tmp

/-! ## All layers, sparse and spark backends: merge of two label lists -/

/-- The `while i < len(x_lbl) and j < len(y_lbl)` loop shared by all functions of the
multi-layer models (e.g. `/repo/src/graph_ensembles/sparse/models/fitness.py:877-889`).  `body`
is the code executed when the two current labels coincide: it either updates the accumulator
or returns from the function (`Except.error r` carries the returned value `r`).
The indices `i`, `j` are represented by the not yet visited suffixes of the two lists. -/
def mergeLoop {σ ρ : Type} (body : σ → ℕ → XR → XR → Except ρ σ) :
    List (ℕ × XR) → List (ℕ × XR) → σ → Except ρ σ
  | [], _, s => .ok s
  | _ :: _, [], s => .ok s
  | (a, xv) :: xs, (b, yv) :: ys, s =>
    if a = b then
      match body s a xv yv with
      | .error r => .error r
      | .ok s' => mergeLoop body xs ys s'
    else if a < b then mergeLoop body xs ((b, yv) :: ys) s
    else mergeLoop body ((a, xv) :: xs) ys s
termination_by x y => x.length + y.length

/-- The `for i, (x_i, y_i) in enumerate(zip(prop_out, prop_in))` loop of the dense backend
(e.g. `/repo/src/graph_ensembles/models.py:2332-2340`), starting at index `k`. -/
def zipLoop {σ ρ : Type} (body : σ → ℕ → XR → XR → Except ρ σ) :
    ℕ → List XR → List XR → σ → Except ρ σ
  | _, [], _, s => .ok s
  | _, _ :: _, [], s => .ok s
  | k, xv :: xs, yv :: ys, s =>
    match body s k xv yv with
    | .error r => .error r
    | .ok s' => zipLoop body (k + 1) xs ys s'

/-- A function value: either returned early or computed from the final accumulator. -/
def finish {σ ρ : Type} (r : Except ρ σ) (k : σ → ρ) : ρ :=
  match r with
  | .error v => v
  | .ok s => k s

/-! ### Loop bodies, one per function -/

/-- Body of `MultiFitnessModel.p_ij`, `logp`, `log1mp`
(`/repo/src/graph_ensembles/sparse/models/fitness.py:879-884,913-918,947-952`,
`models.py:2333-2338`, `spark/models.py:3730-3735`); `ret` is the value returned when the
product is infinite: `1.0`, `0.0` and `-np.infty` respectively. -/
def fitBody (ret : XR) (d : ℕ → XR) (val : XR) (k : ℕ) (x y : XR) : Except XR XR :=
  if !(d k).isZero && !x.isZero && !y.isZero then
    let tmp := d k * x * y
    if tmp.isInf then .error ret else .ok (val / (1 + tmp))
  else .ok val

/-- Body of `MultiInvariantModel.p_ij`, `logp`, `log1mp`
(`/repo/src/graph_ensembles/sparse/models/invariant.py:229-234,260-265,296-301`,
`models.py:2533-2538`, `spark/models.py:3966-3971`). -/
def invBody (ret : XR) (d : ℕ → XR) (val : XR) (k : ℕ) (x y : XR) : Except XR XR :=
  if !(d k).isZero && !x.isZero && !y.isZero then
    let tmp := d k * x * y
    if tmp.isInf then .error ret else .ok (val + tmp)
  else .ok val

/-- Body of `MultiFitnessModel.p_jac_ij`
(`/repo/src/graph_ensembles/sparse/models/fitness.py:783-796`, `models.py:2286-2299`,
`spark/models.py:3673-3685`); `d` is `d[0]`, the accumulator is `(val, jac)`. -/
def fitJacBody (d : XR) (s : XR × XR) (_k : ℕ) (x y : XR) : Except (XR × XR) (XR × XR) :=
  if !x.isZero && !y.isZero then
    if d.isZero then .ok (s.1, s.2 + x * y)
    else
      let tmp := x * y
      let tmp1 := d * tmp
      if tmp1.isInf then .error (1, 0)
      else .ok (s.1 / (1 + tmp1), s.2 + tmp / (1 + tmp1))
  else .ok s

/-- Body of `MultiInvariantModel.p_jac_ij`
(`/repo/src/graph_ensembles/sparse/models/invariant.py:171-176`, `models.py:2487-2493`,
`spark/models.py:3912-3917`). -/
def invJacBody (val : XR) (_k : ℕ) (x y : XR) : Except (XR × XR) XR :=
  if !x.isZero && !y.isZero then
    let tmp := x * y
    if tmp.isInf then .error (1, 0) else .ok (val + tmp)
  else .ok val

/-- Code after the loop in `MultiFitnessModel.logp`
(`/repo/src/graph_ensembles/sparse/models/fitness.py:922-925`, `models.py:2360-2363`). -/
def fitLogpEnd (val : XR) : XR := if val.isOne then ninf else XR.log1p (-val)

/-- Code after the loop in `MultiInvariantModel.logp`
(`/repo/src/graph_ensembles/sparse/models/invariant.py:273-276`). -/
def invLogpEnd (val : XR) : XR := if val.isZero then ninf else XR.log (-(XR.expm1 (-val)))

/-- Code after the loop in `MultiInvariantModel.p_jac_ij`
(`/repo/src/graph_ensembles/sparse/models/invariant.py:184-188`). -/
def invJacEnd (d val : XR) : XR × XR :=
  let val1 := d * val
  if val1.isZero then (0, val) else (-(XR.expm1 (-val1)), val * XR.exp (-val1))

namespace Sparse.MultiFitnessModel

/-- `/repo/src/graph_ensembles/sparse/models/fitness.py:860-891`; the same code with the tuples
unpacked is `spark/models.py:3716-3743`. -/
def p_ij (d : ℕ → XR) (prop_out prop_in : List (ℕ × XR)) : XR :=
  finish (mergeLoop (fitBody 1 d) prop_out prop_in 1) (fun val => 1 - val)

/-- `/repo/src/graph_ensembles/sparse/models/fitness.py:895-925`, `spark/models.py:3747-3773` -/
def logp (d : ℕ → XR) (prop_out prop_in : List (ℕ × XR)) : XR :=
  finish (mergeLoop (fitBody 0 d) prop_out prop_in 1) fitLogpEnd

/-- `/repo/src/graph_ensembles/sparse/models/fitness.py:929-961`, `spark/models.py:3777-3805` -/
def log1mp (d : ℕ → XR) (prop_out prop_in : List (ℕ × XR)) : XR :=
  finish (mergeLoop (fitBody ninf d) prop_out prop_in 1)
    (fun val => if val.isOne then 0 else XR.log val)

/-- `/repo/src/graph_ensembles/sparse/models/fitness.py:764-803`, `spark/models.py:3658-3693` -/
def p_jac_ij (d : XR) (prop_out prop_in : List (ℕ × XR)) : XR × XR :=
  finish (mergeLoop (fitJacBody d) prop_out prop_in (1, 0)) (fun s => (1 - s.1, s.1 * s.2))

end Sparse.MultiFitnessModel

namespace Sparse.MultiInvariantModel

/-- `/repo/src/graph_ensembles/sparse/models/invariant.py:211-242`, `spark/models.py:3952-3979` -/
def p_ij (d : ℕ → XR) (prop_out prop_in : List (ℕ × XR)) : XR :=
  finish (mergeLoop (invBody 1 d) prop_out prop_in 0) (fun val => -(XR.expm1 (-val)))

/-- `/repo/src/graph_ensembles/sparse/models/invariant.py:246-276`, `spark/models.py:3983-4009` -/
def logp (d : ℕ → XR) (prop_out prop_in : List (ℕ × XR)) : XR :=
  finish (mergeLoop (invBody 0 d) prop_out prop_in 0) invLogpEnd

/-- `/repo/src/graph_ensembles/sparse/models/invariant.py:280-309`, `spark/models.py:4013-4038` -/
def log1mp (d : ℕ → XR) (prop_out prop_in : List (ℕ × XR)) : XR :=
  finish (mergeLoop (invBody ninf d) prop_out prop_in 0) (fun val => -val)

/-- `/repo/src/graph_ensembles/sparse/models/invariant.py:149-188`, `spark/models.py:3894-3929` -/
def p_jac_ij (d : XR) (prop_out prop_in : List (ℕ × XR)) : XR × XR :=
  if d.isInf then (1, 0)
  else finish (mergeLoop invJacBody prop_out prop_in 0) (invJacEnd d)

end Sparse.MultiInvariantModel

namespace Dense.MultiFitnessModel

/-- `/repo/src/graph_ensembles/models.py:2324-2342` -/
def p_ij (d : ℕ → XR) (prop_out prop_in : List XR) : XR :=
  finish (zipLoop (fitBody 1 d) 0 prop_out prop_in 1) (fun val => 1 - val)

/-- `/repo/src/graph_ensembles/models.py:2346-2363` -/
def logp (d : ℕ → XR) (prop_out prop_in : List XR) : XR :=
  finish (zipLoop (fitBody 0 d) 0 prop_out prop_in 1) fitLogpEnd

/-- `/repo/src/graph_ensembles/models.py:2367-2383` -/
def log1mp (d : ℕ → XR) (prop_out prop_in : List XR) : XR :=
  finish (zipLoop (fitBody ninf d) 0 prop_out prop_in 1) XR.log

/-- `/repo/src/graph_ensembles/models.py:2275-2301` -/
def p_jac_ij (d : XR) (prop_out prop_in : List XR) : XR × XR :=
  finish (zipLoop (fitJacBody d) 0 prop_out prop_in (1, 0)) (fun s => (1 - s.1, s.1 * s.2))

end Dense.MultiFitnessModel

namespace Dense.MultiInvariantModel

/-- `/repo/src/graph_ensembles/models.py:2521-2542` -/
def p_ij (d : ℕ → XR) (prop_out prop_in : List XR) : XR :=
  finish (zipLoop (invBody 1 d) 0 prop_out prop_in 0)
    (fun val => if val.isZero then 0 else -(XR.expm1 (-val)))

/-- `/repo/src/graph_ensembles/models.py:2546-2563` -/
def logp (d : ℕ → XR) (prop_out prop_in : List XR) : XR :=
  finish (zipLoop (invBody 0 d) 0 prop_out prop_in 0) invLogpEnd

/-- `/repo/src/graph_ensembles/models.py:2567-2583` -/
def log1mp (d : ℕ → XR) (prop_out prop_in : List XR) : XR :=
  finish (zipLoop (invBody ninf d) 0 prop_out prop_in 0) (fun val => -val)

/-- `/repo/src/graph_ensembles/models.py:2472-2499` -/
def p_jac_ij (d : XR) (prop_out prop_in : List XR) : XR × XR :=
  if d.isInf then (1, 0)
  else finish (zipLoop invJacBody 0 prop_out prop_in 0) (invJacEnd d)

end Dense.MultiInvariantModel

/-! ### One layer of the multi-layer models

These functions are textually identical in the three backends and identical to the dense
single-layer functions above. -/

/-- `MultiFitnessModel.p_ijk`: `/repo/src/graph_ensembles/sparse/models/fitness.py:965-976`,
`models.py:2387-2398`, `spark/models.py:3809-3820`. -/
abbrev MultiFitnessModel.p_ijk := Dense.FitnessModel.p_ij
/-- `MultiFitnessModel.p_jac_ijk`: `/repo/src/graph_ensembles/sparse/models/fitness.py:807-822`,
`models.py:2305-2320`, `spark/models.py:3697-3712`. -/
abbrev MultiFitnessModel.p_jac_ijk := Dense.FitnessModel.p_jac_ij
/-- `MultiFitnessModel.logp_ijk`: `/repo/src/graph_ensembles/sparse/models/fitness.py:980-991`,
`models.py:2402-2413`, `spark/models.py:3824-3835`. -/
abbrev MultiFitnessModel.logp_ijk := Dense.FitnessModel.logp
/-- `MultiFitnessModel.log1mp_ijk`: `/repo/src/graph_ensembles/sparse/models/fitness.py:995-1006`,
`models.py:2417-2428`, `spark/models.py:3839-3850`. -/
abbrev MultiFitnessModel.log1mp_ijk := Dense.FitnessModel.log1mp
/-- `MultiInvariantModel.p_ijk`: `/repo/src/graph_ensembles/sparse/models/invariant.py:313-324`,
`models.py:2587-2598`, `spark/models.py:4042-4053`. -/
abbrev MultiInvariantModel.p_ijk := Dense.ScaleInvariantModel.p_ij
/-- `MultiInvariantModel.p_jac_ijk`:
`/repo/src/graph_ensembles/sparse/models/invariant.py:192-207`,
`models.py:2502-2517`, `spark/models.py:3933-3948`. -/
abbrev MultiInvariantModel.p_jac_ijk := Dense.ScaleInvariantModel.p_jac_ij
/-- `MultiInvariantModel.logp_ijk`:
`/repo/src/graph_ensembles/sparse/models/invariant.py:328-339`,
`models.py:2602-2613`, `spark/models.py:4057-4068`. -/
abbrev MultiInvariantModel.logp_ijk := Dense.ScaleInvariantModel.logp
/-- `MultiInvariantModel.log1mp_ijk`:
`/repo/src/graph_ensembles/sparse/models/invariant.py:343-350`,
`models.py:2617-2624`, `spark/models.py:4072-4079`. -/
abbrev MultiInvariantModel.log1mp_ijk := Dense.ScaleInvariantModel.log1mp

end

end Verif
