import Verif.Model.PitfRaw

/-!
# Calls of the TensorFlow sampling operators with any samples (`base/pitf_ops.py`)

As in `Model/PitfRaw.lean` the sample list is a list of lists of integers, `dim` is any integer or `None`, and the matrices need not have
the sizes of the tensor.  The lists are tensors whose length is known when the graph is built and whose values are known when it is run.
Simplifications: the shape has three entries; there is at least one sample (the theorems say so: with none, the element type TensorFlow
gives to an empty list decides, and that is not modelled).
-/
namespace TD.pitf.rawtf
open TD Spec

/-- `spl[r][i]` while the graph is built: `spl` is a Python list, its members are tensors of known length (`pitf_ops.py:256`, `332`, `465`). -/
def pick (spl : List (List Int)) (r i : Nat) : Res Int :=
  match spl[r]? with
  | none => .error .indexError
  | some l => match l[i]? with
    | none => .error .valueError
    | some z => .ok z

/-- `sample_vec[i]` while the graph is built: a tensor of known length (`pitf_ops.py:333`). -/
def value (y : List ℝ) (i : Nat) : Res ℝ :=
  match y[i]? with
  | none => .error .valueError
  | some v => .ok v

/-- The index tensor `z` on an axis of size `n` when the graph is run: negative values count from the end (`pitf_ops.py:257`, `465`). -/
def slice (n : Nat) (z : Int) : Res (Fin n) :=
  match tf.wrap n z with
  | some k => if h : k < n then .ok ⟨k, h⟩ else .error .invalidArgument
  | none => .error .invalidArgument

/-- The index `z` of a `tf.SparseTensor` on an axis of size `n`: `tf.sparse_tensor_to_dense` checks the bounds, and negative values are
outside (`pitf_ops.py:394-395`). -/
def within (n : Nat) (z : Int) : Res (Fin n) :=
  if h : 0 ≤ z ∧ z < n then .ok ⟨z.toNat, by omega⟩ else .error .invalidArgument

/-- The loop of a branch of `Pomega_mat` builds the graph, then it is run (`pitf_ops.py:255-258`, `264-267`, `273-276`). -/
def gather {p q : Nat} (spl : List (List Int)) (mat : Mat p q) (r c m : Nat) : Res (List ℝ) := do
  let ops ← (List.range m).mapM fun i => do
    let t1 ← pick spl r i
    let t2 ← pick spl c i
    .ok (t1, t2)
  ops.mapM fun t => do
    let a ← slice p t.1
    let b ← slice q t.2
    .ok (mat a b)

/-- `pitf_ops.py:211-287` `Pomega_mat` and the run of its result.  An entry that is not a number (a size 0 under the root) is `none`. -/
noncomputable def PomegaMat {p q : Nat} (spl : List (List Int)) (mat : Mat p q) (n : Fin 3 → Nat) (m : Nat) (dim : Option Int) :
    Res (List (Option ℝ)) :=
  if dim = some 0 then do
    let v ← gather spl mat 0 1 m
    .ok (v.map fun x => loss.fdiv x √(n 2))
  else if dim = some 1 then do
    let v ← gather spl mat 1 2 m
    .ok (v.map fun x => loss.fdiv x √(n 0))
  else if dim = some 2 then do
    let v ← gather spl mat 2 0 m
    .ok (v.map fun x => loss.fdiv x √(n 1))
  else .error .valueError

/-- `index_value_append` builds indices and values (`pitf_ops.py:290-335`), which are then made dense (`pitf_ops.py:385-399`). -/
noncomputable def scatter (spl : List (List Int)) (y : List ℝ) (p q r c m : Nat) : Res (Mat p q) := do
  let entries ← (List.range m).mapM fun i => do
    let t1 ← pick spl r i
    let t2 ← pick spl c i
    let v ← value y i
    .ok (t1, t2, v)
  let es ← entries.mapM fun e => do
    let a ← within p e.1
    let b ← within q e.2.1
    .ok ((a, b), e.2.2)
  .ok (0 + tfl.sparseToDense es)

/-- `pitf_ops.py:338-425` `adjoint_operator` and the run of its result. -/
noncomputable def adjointOperator (spl : List (List Int)) (y : List ℝ) (n : Fin 3 → Nat) (m : Nat) (dim : Option Int) : Res raw.Adjoint :=
  if dim = some 0 then do
    let X ← scatter spl y (n 0) (n 1) 0 1 m
    .ok (.mat _ _ X)
  else if dim = some 1 then do
    let Y ← scatter spl y (n 1) (n 2) 1 2 m
    .ok (.mat _ _ Y)
  else if dim = some 2 then do
    let Z ← scatter spl y (n 2) (n 0) 2 0 m
    .ok (.mat _ _ Z)
  else .error .valueError

/-- `pitf_ops.py:428-467` `Pomega_tensor` and the run of its result.  Simplification: `tensor` has three axes. -/
def PomegaTensor {p q r : Nat} (spl : List (List Int)) (T : Fin p → Fin q → Fin r → ℝ) (m : Nat) : Res (List ℝ) := do
  let ops ← (List.range m).mapM fun i => do
    let a ← pick spl 0 i
    let b ← pick spl 1 i
    let c ← pick spl 2 i
    .ok (a, b, c)
  ops.mapM fun t => do
    let a ← slice p t.1
    let b ← slice q t.2.1
    let c ← slice r t.2.2
    .ok (T a b c)

/-- `pitf_ops.py:470-517` `Pomega_Pair` and the run of its result.  Simplification: if several of the three parts fail, which exception is
seen first is not modelled (the three graphs are built before any of them is run). -/
noncomputable def PomegaPair {p0 q0 p1 q1 p2 q2 : Nat} (spl : List (List Int)) (X : Mat p0 q0) (Y : Mat p1 q1) (Z : Mat p2 q2)
    (n : Fin 3 → Nat) (m : Nat) : Res (List (Option ℝ)) := do
  let A ← PomegaMat spl X n m (some 0)
  let B ← PomegaMat spl Y n m (some 1)
  let C ← PomegaMat spl Z n m (some 2)
  .ok (List.zipWith raw.addNum (List.zipWith raw.addNum A B) C)

end TD.pitf.rawtf
