import Mathlib.Algebra.Ring.Int.Defs
import Verif.Lemmas.Skip

/-!
# C21 : the skip argument; C15 : `hadamard`
-/
namespace TD.Props
open TD Tensor Spec ops
variable {α : Type}

/-- **C21**: for `hadamard`, `kron` and `khatri`, passing a skip argument is the same as passing the
list of the matrices at the surviving positions and no skip argument.  (`max_single_value_mul`:
`C21_skip_means_kept_msv`; `ttm`: C12.) -/
theorem C21_skip_means_kept [CommSemiring α] (ms : List (Tensor α)) (s : Skip) (rev : Bool) :
    hadamard ms s = hadamard (kept ms s) ∧ kron ms s rev = kron (kept ms s) .none rev ∧
      khatri ms s rev = khatri (kept ms s) .none rev := by
  rw [← skip_eq_kept]
  exact ⟨rfl, rfl, rfl⟩

/-- **C21**: an int skip removes exactly that position (nothing when it is past the end). -/
theorem C21_int_removes_position [CommSemiring α] (ms : List (Tensor α)) (k : Nat) (rev : Bool) :
    hadamard ms (.int k) = hadamard (ms.eraseIdx k) ∧
      kron ms (.int k) rev = kron (ms.eraseIdx k) .none rev ∧
      khatri ms (.int k) rev = khatri (ms.eraseIdx k) .none rev := by
  rw [← kept_int]
  exact C21_skip_means_kept ms _ rev

/-- **C21**: indices outside `range(len(matrices))`, in particular negative ones, remove nothing. -/
theorem C21_out_of_range_removes_nothing [CommSemiring α] (ms : List (Tensor α)) (l : List Int)
    (rev : Bool) (h : ∀ k ∈ l, k < 0 ∨ (ms.length : Int) ≤ k) :
    hadamard ms (.list l) = hadamard ms ∧ kron ms (.list l) rev = kron ms .none rev ∧
      khatri ms (.list l) rev = khatri ms .none rev := by
  have e : kept ms (.list l) = ms := by
    apply kept_all
    intro i hi hmem
    rcases h _ hmem with h | h <;> omega
  have := C21_skip_means_kept ms (.list l) rev
  rwa [e] at this

/-- **C21** for `max_single_value_mul`, whatever the singular value routine returns. -/
theorem C21_skip_means_kept_msv [Mul α] (topSv : Tensor α → Res α) (ms : List (Tensor α)) (s : Skip) :
    maxSingleValueMul topSv ms s = maxSingleValueMul topSv (kept ms s) := by
  rw [← skip_eq_kept]; rfl

example : kept ["a", "b", "c", "d"] (.list [2, 0, -1, 7, 2]) = ["b", "d"] := by decide
example : ∀ k ∈ [(-1 : Int), 4], k < 0 ∨ ((["a", "b", "c", "d"].length : Nat) : Int) ≤ k := by decide

/-- **C15** (value). -/
theorem C15_hadamard_entry [CommSemiring α] (ms : List (Tensor α)) (s : Skip) (sh : List Nat)
    (hne : kept ms s ≠ []) (h : ∀ M ∈ kept ms s, M.shape = sh) :
    ∃ H, hadamard ms s = .ok H ∧ H.shape = sh ∧
      ∀ i, InB sh i → H.at_ i = ((kept ms s).map (·.at_ i)).prod :=
  ⟨_, hadamard_core hne h, rfl, fun _ hi => at_ofFn _ hi⟩

/-- **C15** (order of the list does not matter). -/
theorem C15_hadamard_perm [CommSemiring α] (ms ms' : List (Tensor α)) (s s' : Skip) (sh : List Nat)
    (h : ∀ M ∈ kept ms s, M.shape = sh) (hp : (kept ms s).Perm (kept ms' s')) :
    hadamard ms s = hadamard ms' s' := by
  by_cases hne : kept ms s = []
  · have hne' : kept ms' s' = [] := by rw [hne] at hp; exact hp.symm.eq_nil
    unfold hadamard; rw [skip_eq_kept, skip_eq_kept, hne, hne']
  · rw [hadamard_core hne h, hadamard_core (fun e => hne (by rw [e] at hp; exact hp.eq_nil))
      (fun M hM => h M (hp.mem_iff.2 hM))]
    congr 1
    apply ofFn_congr
    intro i _
    exact (hp.map _).prod_eq

/-- **C15** (nothing kept raises `TypeError`). -/
theorem C15_hadamard_empty [CommSemiring α] (ms : List (Tensor α)) (s : Skip) (h : kept ms s = []) :
    hadamard ms s = .error .typeError := by
  unfold hadamard; rw [skip_eq_kept, h]; rfl

/-- A case meeting the hypotheses: two 2x2 matrices kept out of three. -/
example : let ms : List (Tensor Int) := [mat 2 2 fun i j => i + j, mat 3 1 fun _ _ => 1, mat 2 2 fun i j => i * 5 - j]
    kept ms (.int 1) ≠ [] ∧ ∀ M ∈ kept ms (.int 1), M.shape = [2, 2] := by decide

end TD.Props
