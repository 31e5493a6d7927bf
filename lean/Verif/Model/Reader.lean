import Verif.Model.TF

/-!
# `tensorD/dataproc/reader.py`
-/
namespace TD.reader
open TD Tensor

/-! ### Library contracts -/

/-- Text mode of `open(path, 'r')` (universal newlines): `\r\n` and `\r` become `\n`.  `cr`: the previous
character was `\r`.  Simplification: the bytes are already decoded (`reader.py:33`). -/
def universal (cr : Bool) : List Char → List Char
  | [] => []
  | c :: r =>
    if c = '\r' then '\n' :: universal true r
    else if cr && c = '\n' then universal false r
    else c :: universal false r

/-- States of `csv.reader` (CPython `_csv.c`, `parse_process_char`) (`reader.py:36`). -/
inductive CsvState | startRecord | startField | inField | inQuoted | quoteInQuoted
  deriving DecidableEq

/-- `csv.reader` with its defaults (`excel` dialect: delimiter `,`, quote character `"`, doubled quotes, not
strict, no escape character), character by character; `row` and `field` are what has been collected of the
current record.  A quote opens a quoted field only as its first character, a newline inside quotes belongs to
the field, a quoted field that is still open at the end of the file is closed there.  Simplifications: no NUL
characters, no limit on the size of a field (131072 characters by default) (`reader.py:36`). -/
def csvGo : CsvState → List (List Char) → List Char → List Char → List (List (List Char))
  | .startRecord, _, _, [] => []
  | .startField, row, field, [] => [row ++ [field]]
  | .inField, row, field, [] => [row ++ [field]]
  | .inQuoted, row, field, [] => [row ++ [field]]
  | .quoteInQuoted, row, field, [] => [row ++ [field]]
  | .startRecord, row, field, c :: cs =>
    if c = '\n' then [] :: csvGo .startRecord [] [] cs
    else if c = '"' then csvGo .inQuoted row field cs
    else if c = ',' then csvGo .startField (row ++ [field]) [] cs
    else csvGo .inField row (field ++ [c]) cs
  | .startField, row, field, c :: cs =>
    if c = '\n' then (row ++ [field]) :: csvGo .startRecord [] [] cs
    else if c = '"' then csvGo .inQuoted row field cs
    else if c = ',' then csvGo .startField (row ++ [field]) [] cs
    else csvGo .inField row (field ++ [c]) cs
  | .inField, row, field, c :: cs =>
    if c = '\n' then (row ++ [field]) :: csvGo .startRecord [] [] cs
    else if c = ',' then csvGo .startField (row ++ [field]) [] cs
    else csvGo .inField row (field ++ [c]) cs
  | .inQuoted, row, field, c :: cs =>
    if c = '"' then csvGo .quoteInQuoted row field cs
    else csvGo .inQuoted row (field ++ [c]) cs
  | .quoteInQuoted, row, field, c :: cs =>
    if c = '"' then csvGo .inQuoted row (field ++ [c]) cs
    else if c = ',' then csvGo .startField (row ++ [field]) [] cs
    else if c = '\n' then (row ++ [field]) :: csvGo .startRecord [] [] cs
    else csvGo .inField row (field ++ [c]) cs

/-- `csv.reader(open(path, 'r'))`: the rows of the file; a blank line gives an empty row (`reader.py:33-38`). -/
def csvRows (content : List Char) : List (List (List Char)) :=
  csvGo .startRecord [] [] (universal false content)

/-- ASCII white space, removed by `int()` on both sides (`reader.py:49`). -/
def isWs (c : Char) : Bool := c = ' ' || (9 ≤ c.toNat && c.toNat ≤ 13)

/-- Decimal digits with single underscores between them (`int()` syntax) (`reader.py:49`). -/
def digitsAux (acc : Nat) (prev : Bool) : List Char → Option Nat
  | [] => if prev then some acc else none
  | c :: r =>
    if c = '_' then (if prev then digitsAux acc false r else none)
    else if c.isDigit then digitsAux (10 * acc + (c.toNat - '0'.toNat)) true r
    else none

/-- Python `int(s)`; `none` is `ValueError`.  Simplification: ASCII only, unbounded (numpy's int64
overflow is not modelled) (`reader.py:49`). -/
def pyInt (s : List Char) : Option Int :=
  let s := ((s.dropWhile isWs).reverse.dropWhile isWs).reverse
  match s with
  | '-' :: r => (digitsAux 0 false r).map fun n : Nat => -(n : Int)
  | '+' :: r => (digitsAux 0 false r).map fun n : Nat => (n : Int)
  | r => (digitsAux 0 false r).map fun n : Nat => (n : Int)

/-- `tf.SparseTensor(indices, values, dense_shape)` (`reader.py:57`). -/
structure Sparse (α : Type) where
  indices : List (List Int)
  values : List α
  dims : List Int
  deriving DecidableEq

/-- Coordinates as a multi-index, if they are inside the shape (`reader.py:58`). -/
def inBounds (dims idx : List Int) : Bool :=
  idx.length = dims.length && (idx.zip dims).all fun p => decide (0 ≤ p.1) && decide (p.1 < p.2)

/-- Evaluation of `tf.sparse_tensor_to_dense(st, validate_indices=False)`: zeros, then the entries are
written in order (a later duplicate overwrites); any index out of bounds or a negative dimension is an
error (`reader.py:58`). -/
def toDense {α : Type} [Zero α] (st : Sparse α) : Res (Tensor α) :=
  if st.dims.any (· < 0) || !(st.indices.all (inBounds st.dims)) then .error .invalidArgument
  else
    let s := st.dims.map Int.toNat
    let es := (st.indices.map fun i => i.map Int.toNat).zip st.values
    .ok (Tensor.ofFn s fun i => ((es.reverse.find? fun e => e.1 = i).map Prod.snd).getD 0)

/-! ### Code -/

/-- `reader.py:30`: `file_path.split('.')[-1]`. -/
def fileType (path : List Char) : List Char := (tf.splitAll '.' path).getLastD []

/-- `reader.py:49`: `int(entry[mode])`, `IndexError` or `ValueError`. -/
def intField (e : List (List Char)) (m : Nat) : Res Int :=
  match e[m]? with
  | none => .error .indexError
  | some f => match pyInt f with
    | none => .error .valueError
    | some i => .ok i

/-- `reader.py:47-50`: one line of the file; `int` and `float` raise `ValueError`, a missing field
`IndexError`.  `pyFloat` is Python's `float()`. -/
def entry {α : Type} (pyFloat : List Char → Option α) (order : Nat) (e : List (List Char)) :
    Res (List Int × α) := do
  let idx ← (List.range order).mapM (intField e)
  match e.getLast? with
  | none => .error .indexError
  | some f => match pyFloat f with
    | none => .error .valueError
    | some v => .ok (idx, v)

/-- `np.max` of a non-empty column (`reader.py:53`). -/
def maxOf : List Int → Int
  | [] => 0
  | x :: xs => xs.foldl max x

/-- `reader.py:52-55`: `max_dim`. -/
def maxDim {α : Type} (fullShape : Option (List Nat)) (order : Nat) (es : List (List Int × α)) : List Int :=
  match fullShape with
  | none => (List.range order).map fun m => maxOf (es.map fun e => e.1.getD m 0) + 1
  | some s => s.map fun d : Nat => (d : Int)

/-- `reader.py:34-57`: `read` on the contents of the opened file, for the stored `_type`: the sparse tensor that
is built. -/
def readAs {α : Type} (pyFloat : List Char → Option α) (type content : List Char)
    (fullShape : Option (List Nat)) : Res (Sparse α) :=
  if type = "csv".toList ∨ type = "txt".toList then
    match (csvRows content).filter (fun r => r.length ≠ 0) with
    | [] => .error .indexError
    | first :: rest => do
      let order := first.length - 1
      let es ← (first :: rest).mapM (entry pyFloat order)
      let dims := maxDim fullShape order es
      if dims.length ≠ order then .error .valueError
      else .ok ⟨es.map Prod.fst, es.map Prod.snd, dims⟩
  else .error .argumentError

/-- `reader.py:20-58`: constructor and one `read` of a file that exists. -/
def read {α : Type} (pyFloat : List Char → Option α) (path content : List Char)
    (fullShape : Option (List Nat) := none) : Res (Sparse α) :=
  readAs pyFloat (fileType path) content fullShape

/-- `reader.py:57-62`: evaluating `full_data` after `read`. -/
def fullData {α : Type} [Zero α] (pyFloat : List Char → Option α) (path content : List Char)
    (fullShape : Option (List Nat) := none) : Res (Tensor α) := do
  let st ← read pyFloat path content fullShape
  toDense st

/-! ### The object -/

/-- `reader.py:10-30`: the attributes of a `TensorReader` (`_dense` is never used).  `full` is the graph node of
`full_data`, given by the sparse tensor it converts. -/
structure TensorReader (α : Type) where
  path : List Char
  type : List Char
  sparse : Option (Sparse α)
  full : Option (Sparse α)

/-- `reader.py:18-30`: `__init__`. -/
def TensorReader.new {α : Type} (path : List Char) : TensorReader α := ⟨path, fileType path, none, none⟩

/-- `reader.py:32-58`: `read` on an object; `fs` gives the contents of the files that exist.  The file is opened
before its type is looked at; the attributes are assigned in the last two lines. -/
def TensorReader.read {α : Type} (pyFloat : List Char → Option α) (fs : List Char → Option (List Char))
    (r : TensorReader α) (fullShape : Option (List Nat)) : TensorReader α × Option PyErr :=
  match fs r.path with
  | none => (r, some .fileNotFound)
  | some content =>
    match readAs pyFloat r.type content fullShape with
    | .error e => (r, some e)
    | .ok st =>
      let r := { r with sparse := some st }
      let r := { r with full := some st }
      (r, none)

/-- `reader.py:60-66`: the properties `sparse_data` and `full_data`, evaluated in a session; `none` is Python's
`None`. -/
def TensorReader.sparseData {α : Type} (r : TensorReader α) : Option (Sparse α) := r.sparse
/-- As above (`reader.py:60-62`). -/
def TensorReader.fullData {α : Type} [Zero α] (r : TensorReader α) : Option (Res (Tensor α)) := r.full.map toDense

end TD.reader
