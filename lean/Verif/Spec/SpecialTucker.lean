import Verif.Model.SpecialTucker
import Verif.Spec.ThinSvd
import Verif.Spec.TuckerFit

/-!
# Specification: `HOSVD` and `HOOI` in rounded arithmetic
-/
namespace TD.Spec
open TD sp
variable {F : Fmt}

/-- What is used of `tf.svd(M, full_matrices=False)`: when it returns, `U` has the size of a thin factor.  Its entries may be
anything. -/
def SvdSize (svd : Svd F) : Prop := ∀ M s U V m n, M.shape = [m, n] → svd M = .ok (s, U, V) → U.shape = [m, min m n]

end TD.Spec
