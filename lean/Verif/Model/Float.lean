import Mathlib.Data.Real.Basic
import Mathlib.Algebra.Order.BigOperators.Group.List
import Verif.Model.TF

/-!
# Rounded arithmetic

This file models no code of /repo: it is a second value domain for the same model functions, in which every addition and
multiplication is rounded, as in the float32 arithmetic the TensorFlow graphs of TensorD run in.

A sum of more than two terms has no fixed meaning in such an arithmetic: TensorFlow chooses an evaluation order (blocked,
pairwise, fused multiply-add, operands of an Einstein sum contracted in pairs).  The order is a parameter here: an *evaluation
tree* per reduction, required only to compute the right sum in exact arithmetic and to round each term no more often than one
rounding per product and one per addition.  The trees depend on the sizes, not on the values.

Results too small for the format lose accuracy (gradual underflow): the error of a rounding is relative, plus a constant `eta`.

Simplification: the exponent range is unbounded upwards (no overflow, no Inf/NaN; see `Model/Special.lean`).
-/
namespace TD.fl
open TD

/-- An evaluation tree: which rounded operations are applied to the operands named by `ι`, in which order
(the sums in `ops.py:259`, `ops.py:357`, `ops.py:381`). -/
inductive Expr (ι : Type) where
  | leaf (i : ι)
  | zero
  | one
  | add (a b : Expr ι)
  | mul (a b : Expr ι)
  | fma (a b c : Expr ι)

namespace Expr
variable {ι : Type}

/-- Value in exact arithmetic (as `ops.py:259`, `ops.py:357`, `ops.py:381` without rounding). -/
def exact (f : ι → ℝ) : Expr ι → ℝ
  | leaf i => f i
  | zero => 0
  | one => 1
  | add a b => a.exact f + b.exact f
  | mul a b => a.exact f * b.exact f
  | fma a b c => a.exact f * b.exact f + c.exact f

/-- Value when every operation is rounded; a fused multiply-add rounds once
(as `ops.py:259`, `ops.py:357`, `ops.py:381` on float32). -/
def rounded (rnd : ℝ → ℝ) (f : ι → ℝ) : Expr ι → ℝ
  | leaf i => f i
  | zero => 0
  | one => 1
  | add a b => rnd (a.rounded rnd f + b.rounded rnd f)
  | mul a b => rnd (a.rounded rnd f * b.rounded rnd f)
  | fma a b c => rnd (a.rounded rnd f * b.rounded rnd f + c.rounded rnd f)

/-- The number of roundings the terms of the result have gone through at most, when operand `i` has gone through `e i`
(for the sums in `ops.py:259`, `ops.py:357`, `ops.py:381`). -/
def passes (e : ι → Nat) : Expr ι → Nat
  | leaf i => e i
  | zero => 0
  | one => 0
  | add a b => max (a.passes e) (b.passes e) + 1
  | mul a b => a.passes e + b.passes e + 1
  | fma a b c => max (a.passes e + b.passes e) (c.passes e) + 1

end Expr

/-- A rounded arithmetic: a rounding function of relative error at most `u`, up to the constant `eta`, and the evaluation trees of
the reductions (the `tf.float32` of `cp.py:69`). -/
structure Arith where
  /-- rounding to the nearest number of the format (or in any other direction) -/
  rnd : ℝ → ℝ
  /-- the unit roundoff: `2⁻²⁴` for float32 and round to nearest -/
  u : ℝ
  u_nonneg : 0 ≤ u
  /-- the largest error of a result below the normal range: `2⁻¹⁵⁰` for float32 and round to nearest; 0 if there is no underflow -/
  eta : ℝ
  eta_nonneg : 0 ≤ eta
  rnd_zero : rnd 0 = 0
  rnd_rnd : ∀ x, rnd (rnd x) = rnd x
  rnd_one : rnd 1 = 1
  rnd_err : ∀ x, |rnd x - x| ≤ u * |x| + eta
  /-- order of a sum of `n` numbers -/
  sumTree : (n : Nat) → Expr Nat
  sum_exact : ∀ n f, (sumTree n).exact f = ((List.range n).map f).sum
  sum_passes : ∀ n e E, (∀ i < n, e i ≤ E) → (sumTree n).passes e ≤ E + (n - 1)
  /-- order of a sum of `n` products; `(i, false)` and `(i, true)` are the factors of product `i` -/
  dotTree : (n : Nat) → Expr (Nat × Bool)
  dot_exact : ∀ n f, (dotTree n).exact f = ((List.range n).map fun i => f (i, false) * f (i, true)).sum
  dot_passes : ∀ n e E E', (∀ i < n, e (i, false) ≤ E ∧ e (i, true) ≤ E') → (dotTree n).passes e ≤ E + E' + n
  /-- order of an Einstein sum of `n` operands; `(v, k)` is the entry of operand `k` for the values `v` of the summed labels -/
  einTree : (n : Nat) → (dims : List Nat) → Expr (List Nat × Nat)
  ein_exact : ∀ n dims f, (einTree n dims).exact f =
    ((indices dims).map fun v => ((List.range n).map fun k => f (v, k)).prod).sum
  ein_passes : ∀ n dims e E, (∀ v ∈ indices dims, ∀ k < n, e (v, k) ≤ E k) →
    (einTree n dims).passes e ≤ ((List.range n).map E).sum + (n - 1) + (dims.prod - 1)

/-- The numbers of the format (`tf.float32`, `cp.py:69`). -/
structure Fl (S : Arith) where
  val : ℝ
  rep : S.rnd val = val

variable {S : Arith}

/-- No underflow: the exponent range is unbounded downwards (`tf.float32` of `cp.py:69` as long as no result is too small). -/
class Arith.NoUnderflow (S : Arith) : Prop where
  eta_zero : S.eta = 0

theorem Arith.rel_err (S : Arith) [h : S.NoUnderflow] (x : ℝ) : |S.rnd x - x| ≤ S.u * |x| := by
  have := S.rnd_err x
  rwa [h.eta_zero, add_zero] at this

theorem Expr.rounded_rep {ι : Type} (f : ι → Fl S) : ∀ t : Expr ι,
    S.rnd (t.rounded S.rnd fun i => (f i).val) = t.rounded S.rnd fun i => (f i).val
  | leaf i => (f i).rep
  | zero => S.rnd_zero
  | one => S.rnd_one
  | add _ _ => S.rnd_rnd _
  | mul _ _ => S.rnd_rnd _
  | fma _ _ _ => S.rnd_rnd _

/-- The value of an evaluation tree on numbers of the format (for `ops.py:259`, `ops.py:357`, `ops.py:381`). -/
def run {ι : Type} (t : Expr ι) (f : ι → Fl S) : Fl S :=
  ⟨t.rounded S.rnd fun i => (f i).val, t.rounded_rep f⟩

instance : Zero (Fl S) := ⟨⟨0, S.rnd_zero⟩⟩
instance : One (Fl S) := ⟨⟨1, S.rnd_one⟩⟩
/-- A product is rounded once. -/
instance : Mul (Fl S) := ⟨fun x y => ⟨S.rnd (x.val * y.val), S.rnd_rnd _⟩⟩

/-- So are a sum and a difference of two numbers. -/
instance : Add (Fl S) := ⟨fun x y => ⟨S.rnd (x.val + y.val), S.rnd_rnd _⟩⟩
@[inherit_doc instAddFl] instance : Sub (Fl S) := ⟨fun x y => ⟨S.rnd (x.val - y.val), S.rnd_rnd _⟩⟩

/-- Sums are evaluated along the trees of the arithmetic. -/
instance : tf.Red (Fl S) where
  total l := run (S.sumTree l.length) fun i => l.getD i 0
  dot l := run (S.dotTree l.length) fun p => if p.2 then (l.getD p.1 (0, 0)).2 else (l.getD p.1 (0, 0)).1

@[inherit_doc tf.Ein] instance : tf.Ein (Fl S) where
  contract n dims f := run (S.einTree n dims) fun p => (f p.1).getD p.2 0

end TD.fl
