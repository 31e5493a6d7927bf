import Verif.Model.Ratings

/-!
# Specification of the rating scripts
-/
namespace TD.Spec
open TD.ex TD.sp

/-- The file of ratings. -/
def ratingsFile : List Char := "/root/tensorD_f/data_out_tmp/u1.base.csv".toList

/-- The report of a rating script. -/
def ratingsReport (a : Alg) : List Char :=
  "/root/tensorD_f/data_out_tmp/python_out/".toList ++
    (match a with | .cp => "cp".toList | .ncp => "ncp".toList | .tucker => "hooi".toList | .ntucker => "ntucker".toList) ++
    "_ml_20.txt".toList

/-- The random draws of the scripts have the sizes the classes ask for. -/
def DrawsFit {F : Fmt} (w : World F) : Prop :=
  w.cp.map Tensor.shape = [[943, 20], [1682, 20], [31, 20]] ∧ w.ncp.map Tensor.shape = [[943, 20], [1682, 20], [31, 20]] ∧
    w.ntucker.map Tensor.shape = [[943, 20], [1682, 20], [31, 20]] ∧ w.core.shape = [20, 20, 20]

/-- The random draws of an experiment script have the sizes the classes ask for: data of `n1 × n2 × n3`, rank `r`. -/
def ExDrawsFit {F : Fmt} (w : World F) (n1 n2 n3 r : Nat) : Prop :=
  w.cp.map Tensor.shape = [[n1, r], [n2, r], [n3, r]] ∧ w.ncp.map Tensor.shape = [[n1, r], [n2, r], [n3, r]] ∧
    w.ntucker.map Tensor.shape = [[n1, r], [n2, r], [n3, r]] ∧ w.core.shape = [r, r, r]

/-- How many lines the report of an experiment script has at most: the number of steps it asks for. -/
def exSteps : Alg → Nat
  | .cp => 600
  | .ncp => 6000
  | .tucker => 100
  | .ntucker => 10000

end TD.Spec
