import Mathlib.Topology.Algebra.Order.Field
import Mathlib.Topology.Instances.Real.Lemmas
import Verif.Model.SpecialTucker
import Verif.Model.SpecialCp
import Verif.Spec.StopRule

/-!
# Specification: what it means that computations in rounded arithmetic tend to an exact one

`F 0, F 1, …` is a sequence of formats.
-/
namespace TD.Spec
open TD sp Filter Topology
variable {F : ℕ → Fmt}

/-- Better and better formats: the relative rounding error and the error of an underflow tend to zero and the largest number to infinity.  Rounding
directions and the orders in which sums are evaluated may change from format to format. -/
structure Refining (F : ℕ → Fmt) : Prop where
  u : Tendsto (fun j => (F j).arith.u) atTop (𝓝 0)
  eta : Tendsto (fun j => (F j).arith.eta) atTop (𝓝 0)
  big : Tendsto (fun j => (F j).big) atTop atTop

/-- The real number; 0 for infinities and NaN. -/
def real {F : Fmt} : Num F → ℝ
  | .fin x _ => x
  | _ => 0

/-- From some format on the results are numbers (neither infinite nor NaN), and they tend to `y`. -/
def Tends (x : ∀ j, Num (F j)) (y : ℝ) : Prop :=
  (∀ᶠ j in atTop, (x j).Finite) ∧ Tendsto (fun j => real (x j)) atTop (𝓝 y)

/-- Tensors of the shape of `B` whose entries tend to those of `B`. -/
def TendsT (A : ∀ j, Tensor (Num (F j))) (B : Tensor ℝ) : Prop :=
  (∀ j, (A j).shape = B.shape) ∧ ∀ i, InB B.shape i → Tends (fun j => (A j).at_ i) (B.at_ i)

/-- Lists of tensors that tend to the list `B` member by member. -/
def TendsL (A : ∀ j, List (Tensor (Num (F j)))) (B : List (Tensor ℝ)) : Prop :=
  ∃ L : List ((∀ j, Tensor (Num (F j))) × Tensor ℝ), (∀ j, A j = L.map fun p => p.1 j) ∧ B = (L.map fun p => p.2) ∧
    ∀ p ∈ L, TendsT p.1 p.2

/-- Attributes that are set in both, and tend to `b`, or are set in neither. -/
def TendsOpt {X : ℕ → Type} {Y : Type} (P : (∀ j, X j) → Y → Prop) (a : ∀ j, Option (X j)) : Option Y → Prop
  | none => ∀ j, a j = none
  | some b => ∃ a', (∀ j, a j = some (a' j)) ∧ P a' b

/-- If the exact computation returns a result `b`, the rounded ones return results from some format on, and these tend
to `b` in the sense of `P`. -/
def TendsR {X : ℕ → Type} {Y : Type} (P : (∀ j, X j) → Y → Prop) (x : ∀ j, Res (X j)) (y : Res Y) : Prop :=
  ∀ b, y = .ok b → ∃ a, (∀ᶠ j in atTop, x j = .ok (a j)) ∧ P a b

/-- Singular value routines: on matrices that tend to one on which the exact routine returns, they return values that are
not negative and tend to the exact one. -/
def SvTends (topSvs : ∀ j, Tensor (Num (F j)) → Res (Num (F j))) (topSv : Tensor ℝ → Res ℝ) : Prop :=
  ∀ A B, TendsT A B → TendsR (fun a b => Tends a b ∧ ∀ᶠ j in atTop, (a j).lt 0 = false) (fun j => topSvs j (A j)) (topSv B)

/-- Pseudo-inverse routines: on matrices that tend to one on which the exact routine returns, they return matrices that
tend to the exact one.  The exact routine may raise where it is not continuous. -/
def PinvTends (pinvs : ∀ j, Tensor (Num (F j)) → Res (Tensor (Num (F j)))) (pinv : Tensor ℝ → Res (Tensor ℝ)) : Prop :=
  ∀ A B, TendsT A B → TendsR TendsT (fun j => pinvs j (A j)) (pinv B)

/-- Singular value decompositions `(s, U, V)`: the same for the matrix `U` of left singular vectors.  The exact routine may
raise where the singular vectors are not continuous. -/
def SvdTends (svds : ∀ j, Svd (F j)) (svd : Tensor ℝ → Res (Tensor ℝ × Tensor ℝ × Tensor ℝ)) : Prop :=
  ∀ A B, TendsT A B → TendsR (fun a b => TendsT (fun j => (a j).2.1) b.2.1) (fun j => svds j (A j)) (svd B)

/-- Every entry rounded to the format. -/
noncomputable def rounded (F : Fmt) (X : Tensor ℝ) : Tensor (Num F) := tf.map (Num.round F) X

/-- The real numbers in a tensor. -/
noncomputable def reals {F : Fmt} (A : Tensor (Num F)) : Tensor ℝ := tf.map real A

/-- The arguments with the tolerance rounded to the format. -/
noncomputable def roundedArgs (F : Fmt) (args : fact.Args ℝ) : fact.Args (Num F) :=
  ⟨args.validationInternal, args.verbose, .round F args.tol⟩

/-- Attributes of the model objects that tend to those of `b`, and the same flag. -/
structure TendsSelf (a : ∀ j, fact.Self (List (Tensor (Num (F j)))) (Tensor (Num (F j))) (Tensor (Num (F j))))
    (b : fact.Self (List (Tensor ℝ)) (Tensor ℝ) (Tensor ℝ)) : Prop where
  full : TendsOpt TendsT (fun j => (a j).full) b.full
  factors : TendsOpt TendsL (fun j => (a j).factors) b.factors
  aux : TendsOpt TendsT (fun j => (a j).aux) b.aux
  finish : ∀ j, (a j).finish = b.finish

/-- Histories of the same length whose losses and relative residuals tend to those of `b`. -/
def TendsHist (a : ∀ j, List (Num (F j) × Num (F j))) (b : List (ℝ × ℝ)) : Prop :=
  (∀ j, (a j).length = b.length) ∧ ∀ k < b.length,
    Tends (fun j => ((a j)[k]?.getD (0, 0)).1) (b[k]?.getD (0, 0)).1 ∧ Tends (fun j => ((a j)[k]?.getD (0, 0)).2) (b[k]?.getD (0, 0)).2

/-- None of the comparisons on which the loop decides is an equality: of the relative residual and of the stall quotient
with the tolerance, and (for the classes that extrapolate, `track`) of the objective with its reference value. -/
def NoTies (A : fact.Arith ℝ) (track : Bool) (X : Tensor ℝ) (tol : ℝ) (hist : List (ℝ × ℝ)) : Prop :=
  ∀ k < hist.length, histRel hist k ≠ tol ∧
    |histObj X hist k - refObj A track (histObj X hist) k| / (refObj A track (histObj X hist) k + 1) ≠ tol ∧
    (track = true → histObj X hist k ≠ refObj A track (histObj X hist) k)

end TD.Spec
