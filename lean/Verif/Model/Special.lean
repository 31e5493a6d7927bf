import Mathlib.Analysis.Real.Sqrt
import Mathlib.Data.EReal.Basic
import Verif.Model.Float
import Verif.Model.Train

/-!
# Rounded arithmetic with overflow, infinities and NaN

This file models no code of /repo: it is a third value domain for the same model functions.  Numbers beyond the largest number of
the format become infinite, undefined operations give NaN, as IEEE 754 prescribes and as float32 in TensorFlow and numpy behaves.
Results below the normal range lose accuracy or become zero.  The order in which sums are evaluated is a parameter, as in
`Model/Float.lean`.

Simplification: no signed zeros (a number divided by zero gets the sign of the number).
-/
namespace TD.sp
open TD

/-- A format: a rounding function that does not change signs, evaluation orders and the largest finite number; the bounds on
the accuracy hold for every format with at least one bit of precision (the `tf.float32` of `cp.py:69`). -/
structure Fmt where
  arith : fl.Arith
  big : ℝ
  one_le_big : 1 ≤ big
  rnd_nonneg : ∀ x, 0 ≤ x → 0 ≤ arith.rnd x
  u_le : arith.u ≤ 1 / 2
  eta_le : arith.eta ≤ 1 / 4

/-- The values of the format (`tf.float32`, `cp.py:69`). -/
inductive Num (F : Fmt) where
  | fin (x : ℝ) (h : F.arith.rnd x = x ∧ |x| ≤ F.big)
  | inf (neg : Bool)
  | nan

namespace Num
variable {F : Fmt}

/-- The result of an operation whose exact value is `x` (`tf.float32`, `cp.py:69`). -/
noncomputable def round (F : Fmt) (x : ℝ) : Num F :=
  if h : |F.arith.rnd x| ≤ F.big then .fin (F.arith.rnd x) ⟨F.arith.rnd_rnd x, h⟩ else .inf (decide (x < 0))

instance : Zero (Num F) := ⟨.fin 0 ⟨F.arith.rnd_zero, by rw [abs_zero]; exact zero_le_one.trans F.one_le_big⟩⟩
instance : One (Num F) := ⟨.fin 1 ⟨F.arith.rnd_one, by rw [abs_one]; exact F.one_le_big⟩⟩

noncomputable instance : Add (Num F) := ⟨fun
  | .fin x _, .fin y _ => round F (x + y)
  | .fin _ _, .inf t => .inf t
  | .inf s, .fin _ _ => .inf s
  | .inf s, .inf t => if s = t then .inf s else .nan
  | .nan, _ => .nan
  | _, .nan => .nan⟩

noncomputable instance : Sub (Num F) := ⟨fun
  | .fin x _, .fin y _ => round F (x - y)
  | .fin _ _, .inf t => .inf (!t)
  | .inf s, .fin _ _ => .inf s
  | .inf s, .inf t => if s = t then .nan else .inf s
  | .nan, _ => .nan
  | _, .nan => .nan⟩

noncomputable instance : Mul (Num F) := ⟨fun
  | .fin x _, .fin y _ => round F (x * y)
  | .fin x _, .inf t => if x = 0 then .nan else .inf (xor (decide (x < 0)) t)
  | .inf s, .fin y _ => if y = 0 then .nan else .inf (xor s (decide (y < 0)))
  | .inf s, .inf t => .inf (xor s t)
  | .nan, _ => .nan
  | _, .nan => .nan⟩

noncomputable instance : Div (Num F) := ⟨fun
  | .fin x _, .fin y _ => if y = 0 then (if x = 0 then .nan else .inf (decide (x < 0))) else round F (x / y)
  | .fin _ _, .inf _ => 0
  | .inf s, .fin y _ => .inf (xor s (decide (y < 0)))
  | .inf _, .inf _ => .nan
  | .nan, _ => .nan
  | _, .nan => .nan⟩

/-- A fused multiply-add: one rounding (within `tf.matmul`, `ops.py:259`). -/
noncomputable def fma : Num F → Num F → Num F → Num F
  | .fin x _, .fin y _, .fin z _ => round F (x * y + z)
  | .fin _ _, .fin _ _, c => c
  | a, b, c => a * b + c

/-- Square root (`loss.py:55`, `ncp.py:137`). -/
noncomputable def sqrt : Num F → Num F
  | .fin x _ => if x < 0 then .nan else round F (Real.sqrt x)
  | .inf s => if s then .nan else .inf false
  | .nan => .nan

/-- Absolute value (`cp.py:164`). -/
noncomputable def abs : Num F → Num F
  | .fin x _ => round F |x|
  | .inf _ => .inf false
  | .nan => .nan

/-- The extended real number, none for NaN (the numbers of `cp.py:164-170`). -/
noncomputable def val : Num F → Option EReal
  | .fin x _ => some x
  | .inf false => some ⊤
  | .inf true => some ⊥
  | .nan => none

open Classical in
/-- `x < y`; false when one of them is NaN (`cp.py:166`, `ncp.py:227`). -/
noncomputable def lt (x y : Num F) : Bool :=
  match x.val, y.val with
  | some a, some b => decide (a < b)
  | _, _ => false

/-- A number, neither infinite nor NaN (the numbers of `cp.py:160`). -/
def Finite : Num F → Prop
  | .fin _ _ => True
  | _ => False

/-- The value of an evaluation tree (for `ops.py:259`, `ops.py:357`, `ops.py:381`). -/
noncomputable def eval {ι : Type} (f : ι → Num F) : fl.Expr ι → Num F
  | .leaf i => f i
  | .zero => 0
  | .one => 1
  | .add a b => eval f a + eval f b
  | .mul a b => eval f a * eval f b
  | .fma a b c => fma (eval f a) (eval f b) (eval f c)

/-- Sums are evaluated along the trees of the arithmetic. -/
noncomputable instance : tf.Red (Num F) where
  total l := eval (fun i => l.getD i 0) (F.arith.sumTree l.length)
  dot l := eval (fun p => if p.2 then (l.getD p.1 (0, 0)).2 else (l.getD p.1 (0, 0)).1) (F.arith.dotTree l.length)

@[inherit_doc tf.Ein] noncomputable instance : tf.Ein (Num F) where
  contract n dims f := eval (fun p => (f p.1).getD p.2 0) (F.arith.einTree n dims)

/-- The arithmetic of the training loops on such numbers (`cp.py:160-172`). -/
noncomputable def loopArith (F : Fmt) : fact.Arith (Num F) where
  one := 1
  add := (· + ·)
  sub := (· - ·)
  div := (· / ·)
  abs := abs
  lt := lt

end Num
end TD.sp
