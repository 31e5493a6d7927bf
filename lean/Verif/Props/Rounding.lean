import Verif.Lemmas.Close
import Verif.Lemmas.Nearest
import Verif.Props.Inner
import Verif.Props.Kron
import Verif.Props.Khatri
import Mathlib.Tactic.FieldSimp
import Mathlib.Tactic.IntervalCases

/-!
# C107-C109: rounded arithmetic

The same model functions, run on floating-point numbers of any format (relative error `u` per operation), with the sums evaluated
in any order.
-/
namespace TD.Props
open TD Tensor fl Spec ops
variable {S : Arith}

/-- The three runs of a list of operands. -/
def triples (ms : List (Tensor (Fl S))) : List (Triple S) := ms.map fun A => (A, vals A, mags A)

theorem triples_maps (ms : List (Tensor (Fl S))) : ((triples ms).map fun p => p.1) = ms ∧
    ((triples ms).map fun p => p.2.1) = ms.map vals ∧ ((triples ms).map fun p => p.2.2) = ms.map mags := by
  simp [triples, Function.comp_def]

theorem triples_close (ms : List (Tensor (Fl S))) : ∀ p ∈ triples ms, TRel (Close S 0) p.1 p.2.1 p.2.2 := by
  intro p hp
  obtain ⟨A, -, rfl⟩ := List.mem_map.1 hp
  exact close_input A

theorem triples_int {ms : List (Tensor (Fl S))} (h : ∀ A ∈ ms, Integral A) (P : ℝ) :
    ∀ p ∈ triples ms, TRel (IntRel S P 0) p.1 p.2.1 p.2.2 := by
  intro p hp
  obtain ⟨A, hA, rfl⟩ := List.mem_map.1 hp
  exact int_input (h A hA) P

theorem skip_triples (ms : List (Tensor (Fl S))) (s : Skip) : (ops.skip (triples ms) s).length = (ops.skip ms s).length := by
  unfold triples; rw [Graded.skip_map_list, List.length_map]

/-! ## C107: error bounds -/

/-- **C107** (`inner`): the computed inner product of `N` pairs is within `(1+u)^N - 1` times `∑|aᵢ||bᵢ|` of the exact one. -/
theorem C107_inner [S.NoUnderflow] (A B : Tensor (Fl S)) (h : A.shape = B.shape) :
    ∃ r, inner A B = .ok r ∧
      |r.val - boxSum A.shape fun i => (A.at_ i).val * (B.at_ i).val| ≤
        gamma S A.shape.prod * boxSum A.shape fun i => |(A.at_ i).val| * |(B.at_ i).val| := by
  have hr := graded_close.ops_inner (close_input A) (close_input B)
  have e1 : inner (vals A) (vals B) = .ok (boxSum A.shape fun i => (A.at_ i).val * (B.at_ i).val) := by
    rw [inner_same (show (vals A).shape = (vals B).shape from h)]
    simp only [at_vals]; rfl
  have e2 : inner (mags A) (mags B) = .ok (boxSum A.shape fun i => |(A.at_ i).val| * |(B.at_ i).val|) := by
    rw [inner_same (show (mags A).shape = (mags B).shape from h)]
    simp only [at_mags]; rfl
  obtain ⟨r, c, hr1, hc, hrc⟩ := hr.of_ok e1
  rw [e2] at hc
  obtain rfl := Except.ok.inj hc
  refine ⟨r, hr1, ?_⟩
  rcases Nat.eq_zero_or_pos A.shape.prod with h0 | h0
  · have := hrc.1
    have hz : ∀ f : List Nat → ℝ, boxSum A.shape f = 0 := fun f => by rw [boxSum_eq_sum_range, h0]; simp
    rw [hz, hz] at this ⊢
    rw [mul_zero] at this ⊢
    exact this
  · have := hrc.1
    rwa [show 0 + 0 + 1 + (A.shape.prod - 1) = A.shape.prod by omega] at this

/-- **C107** (`mul`): contraction over axes of total size `k`. -/
theorem C107_mul [S.NoUnderflow] (A B : Tensor (Fl S)) (a b : Axis) :
    Within (gamma S (axesSize A.shape a.elems)) (mul A B a b) (mul (vals A) (vals B) a b) (mul (mags A) (mags B) a b) := by
  have := graded_close.ops_mul (close_input A) (close_input B) a b
  rw [show 0 + 0 + axesSize A.shape a.elems = axesSize A.shape a.elems by omega] at this
  exact within_of this

/-- **C107** (`ttm`): products with `n` matrices, the contracted modes having `k` entries in total. -/
theorem C107_ttm [S.NoUnderflow] (X : Tensor (Fl S)) (ms : List (Tensor (Fl S))) (axis : List Nat) (tr : Bool) (hN : X.order ≤ 13)
    (hne : axis ≠ []) (hnd : axis.Nodup) (hlt : ∀ i ∈ axis, i < X.order) :
    Within (gamma S (ms.length + (axesSize X.shape axis - 1))) (ttm X ms (some axis) tr)
      (ttm (vals X) (ms.map vals) (some axis) tr) (ttm (mags X) (ms.map mags) (some axis) tr) := by
  have := graded_close.ops_ttm (close_input X) (triples_close ms) tr hne hnd hlt (fun i hi => by have := hlt i hi; omega)
  obtain ⟨t1, t2, t3⟩ := triples_maps ms
  rw [t1, t2, t3, show (triples ms).length = ms.length by simp [triples], Nat.mul_zero, Nat.zero_add] at this
  exact within_of this

/-- **C107** (`hadamard`): the product of `n` matrices. -/
theorem C107_hadamard [S.NoUnderflow] (ms : List (Tensor (Fl S))) (s : Skip) :
    Within (gamma S ((ops.skip ms s).length - 1)) (hadamard ms s) (hadamard (ms.map vals) s) (hadamard (ms.map mags) s) := by
  have := graded_close.ops_hadamard (triples_close ms) s
  obtain ⟨t1, t2, t3⟩ := triples_maps ms
  rw [t1, t2, t3, skip_triples, Nat.mul_zero, Nat.zero_add] at this
  exact within_of this

/-- **C107** (`kron`): the Kronecker product of `n` matrices. -/
theorem C107_kron [S.NoUnderflow] (ms : List (Tensor (Fl S))) (s : Skip) (rev : Bool) :
    Within (gamma S ((ops.skip ms s).length - 1)) (kron ms s rev) (kron (ms.map vals) s rev) (kron (ms.map mags) s rev) := by
  have := graded_close.ops_kron (triples_close ms) s rev
  obtain ⟨t1, t2, t3⟩ := triples_maps ms
  rw [t1, t2, t3, skip_triples, Nat.mul_zero, Nat.zero_add] at this
  exact within_of this

/-- **C107** (`khatri`): the Khatri-Rao product of `n` matrices. -/
theorem C107_khatri [S.NoUnderflow] (ms : List (Tensor (Fl S))) (s : Skip) (rev : Bool) :
    Within (gamma S ((ops.skip ms s).length - 1)) (khatri ms s rev) (khatri (ms.map vals) s rev) (khatri (ms.map mags) s rev) := by
  have := graded_close.ops_khatri (triples_close ms) s rev
  obtain ⟨t1, t2, t3⟩ := triples_maps ms
  rw [t1, t2, t3, skip_triples, Nat.mul_zero, Nat.zero_add] at this
  exact within_of this

/-- **C107** (`KTensor.extract`): `n` factors with `R` columns. -/
theorem C107_kruskal [S.NoUnderflow] (k : KTensor (Fl S)) :
    Within (gamma S ((k.U.length - 1) + rankOf k.U)) k.extract (onK vals k).extract (onK mags k).extract := by
  have := graded_close.kextract (triples_close k.U) (close_input k.lam) k.udtype k.ldtype
  obtain ⟨t1, t2, t3⟩ := triples_maps k.U
  rw [t1, t2, t3, show (triples k.U).length = k.U.length by simp [triples], Nat.mul_zero, Nat.zero_add, Nat.add_zero] at this
  exact within_of this

/-- **C107** (`TTensor.extract`): a core of `k` entries and one factor per mode. -/
theorem C107_tucker [S.NoUnderflow] (t : TTensor (Fl S)) (hN : t.g.order ≤ 13) (hne : t.U ≠ []) (hlen : t.U.length = t.g.order) :
    Within (gamma S (t.U.length + (t.g.shape.prod - 1))) t.extract (onT vals t).extract (onT mags t).extract := by
  have h := C107_ttm t.g t.U (List.range t.U.length) false hN (by simpa using hne) List.nodup_range
    (fun i hi => by simp at hi; omega)
  have hs : axesSize t.g.shape (List.range t.U.length) = t.g.shape.prod := by
    unfold axesSize
    rw [map_getD_range _ _ hlen.symm]
  rw [hs] at h
  unfold TTensor.extract
  show Within _ (if t.gdtype = t.udtype then _ else _) (if t.gdtype = t.udtype then _ else _)
    (if t.gdtype = t.udtype then _ else _)
  by_cases hd : t.gdtype = t.udtype
  · rw [if_pos hd, if_pos hd, if_pos hd]
    have e : ∀ {α : Type} [Zero α] [tf.Ein α] (X : Tensor α) (ms : List (Tensor α)),
      ttm X ms = ttm X ms (some (List.range ms.length)) := fun X ms => rfl
    rw [e, e, e]
    simp only [onT, List.length_map]
    exact h
  · rw [if_neg hd, if_neg hd, if_neg hd]; exact rfl

/-- **C107** (size of the bound): `k` roundings cost at most `k·u/(1-k·u)`. -/
theorem C107_gamma (S : Arith) (k : Nat) (h : k * S.u < 1) : gamma S k ≤ k * S.u / (1 - k * S.u) := by
  have hu := S.u_nonneg
  have key : ∀ k : Nat, (k : ℝ) * S.u < 1 → (1 + S.u) ^ k * (1 - k * S.u) ≤ 1 := by
    intro k
    induction k with
    | zero => intro _; simp
    | succ n ih =>
        intro hn
        push_cast at hn ⊢
        have h1 := ih (by nlinarith)
        have h2 : (1 + S.u) * (1 - (n + 1) * S.u) ≤ 1 - n * S.u := by nlinarith [mul_nonneg (Nat.cast_nonneg (α := ℝ) n) (mul_self_nonneg S.u), mul_self_nonneg S.u]
        have h3 : 0 ≤ (1 + S.u) ^ n := by positivity
        calc (1 + S.u) ^ (n + 1) * (1 - (n + 1) * S.u) = (1 + S.u) ^ n * ((1 + S.u) * (1 - (n + 1) * S.u)) := by ring
          _ ≤ (1 + S.u) ^ n * (1 - n * S.u) := mul_le_mul_of_nonneg_left h2 h3
          _ ≤ 1 := h1
  have hp : 0 < 1 - k * S.u := by linarith
  unfold gamma
  rw [le_div_iff₀ hp]
  nlinarith [key k h]

/-- The rounding of float32 has no number between `0` and `2⁻¹⁴⁹`. -/
theorem float32_tiny : float32.rnd ((2 : ℝ) ^ (-100 : ℤ) * 2 ^ (-100 : ℤ)) = 0 := by
  have hl : Int.log 2 |(2 : ℝ) ^ (-100 : ℤ) * 2 ^ (-100 : ℤ)| = -200 := by
    rw [← zpow_add₀ (by norm_num), abs_of_pos (by positivity)]
    have := Int.log_zpow (R := ℝ) (b := 2) (by norm_num) (-200)
    push_cast at this
    exact this
  show nearestSub 24 (-149) _ = 0
  unfold nearestSub
  rw [hl, if_neg (by norm_num)]
  rw [show round (((2 : ℝ) ^ (-100 : ℤ) * 2 ^ (-100 : ℤ)) / 2 ^ (-149 : ℤ)) = 0 by
    rw [round_eq, Int.floor_eq_iff]; norm_num]
  simp

/-- **C107** (no underflow is needed): in float32, the inner product of `[2⁻¹⁰⁰]` with itself is computed as 0, so that no bound
relative to `∑|aᵢ||bᵢ|` and below 1 holds. -/
theorem C107_underflow (ε : ℝ) (hε : ε < 1) : ¬ ∀ A B : Tensor (Fl float32), A.shape = B.shape →
    ∃ r, inner A B = .ok r ∧ |r.val - boxSum A.shape fun i => (A.at_ i).val * (B.at_ i).val| ≤
      ε * boxSum A.shape fun i => |(A.at_ i).val| * |(B.at_ i).val| := by
  intro h
  have hr : float32.rnd ((2 : ℝ) ^ (-100 : ℤ)) = 2 ^ (-100 : ℤ) := by
    have := nearestSub_fix (p := 24) (by omega) (emin := -149) (m := 1) (e := -100) (by norm_num) (by omega)
    rw [Int.cast_one, one_mul] at this
    exact this
  obtain ⟨r, h1, h2⟩ := h ⟨[1], [⟨2 ^ (-100 : ℤ), hr⟩], rfl⟩ ⟨[1], [⟨2 ^ (-100 : ℤ), hr⟩], rfl⟩ rfl
  have h3 : r.val = float32.rnd ((2 : ℝ) ^ (-100 : ℤ) * 2 ^ (-100 : ℤ)) := by
    have h1' : inner (⟨[1], [⟨2 ^ (-100 : ℤ), hr⟩], rfl⟩ : Tensor (Fl float32)) ⟨[1], [⟨2 ^ (-100 : ℤ), hr⟩], rfl⟩ =
        .ok (⟨2 ^ (-100 : ℤ), hr⟩ * ⟨2 ^ (-100 : ℤ), hr⟩) := by
      have hv : ∀ x : Fl float32, vectorize ⟨[1], [x], rfl⟩ = .ok ⟨[1], [x], rfl⟩ := fun x => by
        unfold vectorize tf.reshape tf.reshapeDims
        simp
      unfold ops.inner
      rw [if_neg (by simp), hv]
      rfl
    rw [h1'] at h1
    rw [← Except.ok.inj h1]; rfl
  rw [h3, float32_tiny] at h2
  rw [boxSum_eq_sum_range, boxSum_eq_sum_range] at h2
  have e1 : (∑ k ∈ Finset.range ([1] : List Nat).prod,
      ((⟨[1], [⟨2 ^ (-100 : ℤ), hr⟩], rfl⟩ : Tensor (Fl float32)).at_ (unravel [1] k)).val *
      ((⟨[1], [⟨2 ^ (-100 : ℤ), hr⟩], rfl⟩ : Tensor (Fl float32)).at_ (unravel [1] k)).val) = (2 : ℝ) ^ (-100 : ℤ) * 2 ^ (-100 : ℤ) := by
    rw [show ([1] : List Nat).prod = 1 from rfl, Finset.sum_range_one]; rfl
  have e2 : (∑ k ∈ Finset.range ([1] : List Nat).prod,
      |((⟨[1], [⟨2 ^ (-100 : ℤ), hr⟩], rfl⟩ : Tensor (Fl float32)).at_ (unravel [1] k)).val| *
      |((⟨[1], [⟨2 ^ (-100 : ℤ), hr⟩], rfl⟩ : Tensor (Fl float32)).at_ (unravel [1] k)).val|) =
      |(2 : ℝ) ^ (-100 : ℤ)| * |(2 : ℝ) ^ (-100 : ℤ)| := by
    rw [show ([1] : List Nat).prod = 1 from rfl, Finset.sum_range_one]; rfl
  rw [e1, e2, abs_of_pos (by positivity : (0 : ℝ) < 2 ^ (-100 : ℤ)), zero_sub, abs_neg, abs_of_pos (by positivity)] at h2
  have : (0 : ℝ) < 2 ^ (-100 : ℤ) * 2 ^ (-100 : ℤ) := by positivity
  nlinarith

/-! ## C108: integers -/

/-- **C108** (`inner`). -/
theorem C108_inner {P : ℝ} (hP : 0 ≤ P) (hS : Holds S P) (A B : Tensor (Fl S)) (hA : Integral A) (hB : Integral B)
    (h : A.shape = B.shape) (hb : boxSum A.shape (fun i => |(A.at_ i).val| * |(B.at_ i).val|) ≤ P) :
    ∃ r, inner A B = .ok r ∧ r.val = boxSum A.shape fun i => (A.at_ i).val * (B.at_ i).val := by
  have hr := (graded_int hP hS).ops_inner (int_input hA P) (int_input hB P)
  have e1 : inner (vals A) (vals B) = .ok (boxSum A.shape fun i => (A.at_ i).val * (B.at_ i).val) := by
    rw [inner_same (show (vals A).shape = (vals B).shape from h)]
    simp only [at_vals]; rfl
  have e2 : inner (mags A) (mags B) = .ok (boxSum A.shape fun i => |(A.at_ i).val| * |(B.at_ i).val|) := by
    rw [inner_same (show (mags A).shape = (mags B).shape from h)]
    simp only [at_mags]; rfl
  obtain ⟨r, c, hr1, hc, hrc⟩ := hr.of_ok e1
  rw [e2] at hc
  obtain rfl := Except.ok.inj hc
  exact ⟨r, hr1, hrc.1 hb⟩

/-- **C108** (`mul`). -/
theorem C108_mul {P : ℝ} (hP : 0 ≤ P) (hS : Holds S P) (A B : Tensor (Fl S)) (hA : Integral A) (hB : Integral B) (a b : Axis) :
    ExactUpTo P (mul A B a b) (mul (vals A) (vals B) a b) (mul (mags A) (mags B) a b) :=
  exact_of ((graded_int hP hS).ops_mul (int_input hA P) (int_input hB P) a b)

/-- **C108** (`ttm`). -/
theorem C108_ttm {P : ℝ} (hP : 0 ≤ P) (hS : Holds S P) (X : Tensor (Fl S)) (ms : List (Tensor (Fl S))) (hX : Integral X)
    (hms : ∀ A ∈ ms, Integral A) (axis : List Nat) (tr : Bool) (hN : X.order ≤ 13)
    (hne : axis ≠ []) (hnd : axis.Nodup) (hlt : ∀ i ∈ axis, i < X.order) :
    ExactUpTo P (ttm X ms (some axis) tr) (ttm (vals X) (ms.map vals) (some axis) tr)
      (ttm (mags X) (ms.map mags) (some axis) tr) := by
  have := (graded_int hP hS).ops_ttm (int_input hX P) (triples_int hms P) tr hne hnd hlt
    (fun i hi => by have := hlt i hi; omega)
  obtain ⟨t1, t2, t3⟩ := triples_maps ms
  rw [t1, t2, t3] at this
  exact exact_of this

/-- **C108** (`TTensor.extract`). -/
theorem C108_tucker {P : ℝ} (hP : 0 ≤ P) (hS : Holds S P) (t : TTensor (Fl S)) (hg : Integral t.g) (hU : ∀ A ∈ t.U, Integral A)
    (hN : t.g.order ≤ 13) (hne : t.U ≠ []) (hlen : t.U.length = t.g.order) :
    ExactUpTo P t.extract (onT vals t).extract (onT mags t).extract := by
  have h := C108_ttm hP hS t.g t.U hg hU (List.range t.U.length) false hN (by simpa using hne) List.nodup_range
    (fun i hi => by simp at hi; omega)
  unfold TTensor.extract
  show ExactUpTo P (if t.gdtype = t.udtype then _ else _) (if t.gdtype = t.udtype then _ else _)
    (if t.gdtype = t.udtype then _ else _)
  by_cases hd : t.gdtype = t.udtype
  · rw [if_pos hd, if_pos hd, if_pos hd]
    have e : ∀ {α : Type} [Zero α] [tf.Ein α] (X : Tensor α) (ms : List (Tensor α)),
      ttm X ms = ttm X ms (some (List.range ms.length)) := fun X ms => rfl
    rw [e, e, e]
    simp only [onT, List.length_map]
    exact h
  · rw [if_neg hd, if_neg hd, if_neg hd]; exact rfl

/-- **C108** (`kron`). -/
theorem C108_kron {P : ℝ} (hP : 0 ≤ P) (hS : Holds S P) (ms : List (Tensor (Fl S))) (hms : ∀ A ∈ ms, Integral A) (s : Skip)
    (rev : Bool) : ExactUpTo P (kron ms s rev) (kron (ms.map vals) s rev) (kron (ms.map mags) s rev) := by
  have := (graded_int hP hS).ops_kron (triples_int hms P) s rev
  obtain ⟨t1, t2, t3⟩ := triples_maps ms
  rw [t1, t2, t3] at this
  exact exact_of this

/-- **C108** (`khatri`). -/
theorem C108_khatri {P : ℝ} (hP : 0 ≤ P) (hS : Holds S P) (ms : List (Tensor (Fl S))) (hms : ∀ A ∈ ms, Integral A) (s : Skip)
    (rev : Bool) : ExactUpTo P (khatri ms s rev) (khatri (ms.map vals) s rev) (khatri (ms.map mags) s rev) := by
  have := (graded_int hP hS).ops_khatri (triples_int hms P) s rev
  obtain ⟨t1, t2, t3⟩ := triples_maps ms
  rw [t1, t2, t3] at this
  exact exact_of this

/-- **C108** (`hadamard`). -/
theorem C108_hadamard {P : ℝ} (hP : 0 ≤ P) (hS : Holds S P) (ms : List (Tensor (Fl S))) (hms : ∀ A ∈ ms, Integral A) (s : Skip) :
    ExactUpTo P (hadamard ms s) (hadamard (ms.map vals) s) (hadamard (ms.map mags) s) := by
  have := (graded_int hP hS).ops_hadamard (triples_int hms P) s
  obtain ⟨t1, t2, t3⟩ := triples_maps ms
  rw [t1, t2, t3] at this
  exact exact_of this

/-- **C108** (`KTensor.extract`). -/
theorem C108_kruskal {P : ℝ} (hP : 0 ≤ P) (hS : Holds S P) (k : KTensor (Fl S)) (hU : ∀ A ∈ k.U, Integral A)
    (hl : Integral k.lam) : ExactUpTo P k.extract (onK vals k).extract (onK mags k).extract := by
  have := (graded_int hP hS).kextract (triples_int hU P) (int_input hl P) k.udtype k.ldtype
  obtain ⟨t1, t2, t3⟩ := triples_maps k.U
  rw [t1, t2, t3] at this
  exact exact_of this

/-- **C108** (float32): 24 significant bits hold every integer up to `2²⁴`. -/
theorem C108_float32 : Holds (ieee 24 (by omega)) (2 ^ 24) := by
  intro k hk
  have : |k| ≤ 2 ^ 24 := by exact_mod_cast hk
  have := nearest_fix (p := 24) (by omega) (e := 0) this
  rw [zpow_zero, mul_one] at this
  exact this

/-- **C108** (float32): the same with gradual underflow. -/
theorem C108_float32_underflow : Holds float32 (2 ^ 24) := by
  intro k hk
  have : |k| ≤ 2 ^ 24 := by exact_mod_cast hk
  have := nearestSub_fix (p := 24) (by omega) (emin := -149) (e := 0) this (by omega)
  rw [zpow_zero, mul_one] at this
  exact this

theorem nearest_sharp : nearest 24 ((4096 : ℝ) * 8192 + 1) = 4096 * 8192 := by
  have hl : Int.log 2 |(4096 : ℝ) * 8192 + 1| = 25 := by
    rw [abs_of_pos (by norm_num)]
    apply le_antisymm
    · have : Int.log 2 ((4096 : ℝ) * 8192 + 1) < 26 :=
        (Int.lt_zpow_iff_log_lt (b := 2) (by norm_num) (by norm_num)).1 (by norm_num)
      omega
    · exact (Int.zpow_le_iff_le_log (b := 2) (by norm_num) (by norm_num)).1 (by norm_num)
  have hr : round ((4096 * 8192 + 1 : ℝ) / 2 ^ (2 : ℤ)) = 2 ^ 23 := by
    rw [round_eq, Int.floor_eq_iff]; norm_num
  unfold nearest
  rw [hl, show (25 : ℤ) - ((24 : Nat) - 1 : ℤ) = 2 by norm_num, hr]
  norm_num

/-- A small number of the float32 format. -/
noncomputable def fl32 (k : ℤ) (h : |(k : ℝ)| ≤ 2 ^ 24) : Fl (ieee 24 (by omega)) := ⟨k, C108_float32 k h⟩

/-- **C108** (the bound cannot be dropped): in float32, the inner product of the integer vectors `[4096, 1]` and `[8192, 1]` is
computed as `2²⁵`, not `2²⁵ + 1`. -/
theorem C108_sharp : ¬ ∀ A B : Tensor (Fl (ieee 24 (by omega))), Integral A → Integral B → A.shape = B.shape →
    ∃ r, inner A B = .ok r ∧ r.val = boxSum A.shape fun i => (A.at_ i).val * (B.at_ i).val := by
  intro h
  obtain ⟨r, hr, hv⟩ := h ⟨[2], [fl32 4096 (by norm_num), fl32 1 (by norm_num)], rfl⟩
    ⟨[2], [fl32 8192 (by norm_num), fl32 1 (by norm_num)], rfl⟩
    (by intro x hx; simp at hx; rcases hx with rfl | rfl; exacts [⟨4096, rfl⟩, ⟨1, rfl⟩])
    (by intro x hx; simp at hx; rcases hx with rfl | rfl; exacts [⟨8192, rfl⟩, ⟨1, rfl⟩]) rfl
  have h1 : r.val = nearest 24 (nearest 24 (((4096 : ℤ) : ℝ) * ((8192 : ℤ) : ℝ)) + nearest 24 (((1 : ℤ) : ℝ) * ((1 : ℤ) : ℝ))) := by
    rw [← Except.ok.inj hr]; rfl
  have h2 : boxSum [2] (fun i => ((⟨[2], [fl32 4096 (by norm_num), fl32 1 (by norm_num)], rfl⟩ : Tensor (Fl (ieee 24 (by omega)))).at_ i).val *
      ((⟨[2], [fl32 8192 (by norm_num), fl32 1 (by norm_num)], rfl⟩ : Tensor (Fl (ieee 24 (by omega)))).at_ i).val) =
      ((4096 : ℤ) : ℝ) * ((8192 : ℤ) : ℝ) + ((1 : ℤ) : ℝ) * ((1 : ℤ) : ℝ) := by
    rw [boxSum_eq_sum_range]
    rw [show ([2] : List Nat).prod = 2 from rfl, Finset.sum_range_succ, Finset.sum_range_succ, Finset.sum_range_zero, zero_add]; rfl
  rw [h1] at hv
  rw [show nearest 24 (((4096 : ℤ) : ℝ) * ((8192 : ℤ) : ℝ)) = 4096 * 8192 by
      have := nearest_fix (p := 24) (by omega) (m := 1) (e := 25) (by norm_num)
      norm_num at this ⊢; exact this,
    show nearest 24 (((1 : ℤ) : ℝ) * ((1 : ℤ) : ℝ)) = 1 by
      have := nearest_fix (p := 24) (by omega) (m := 1) (e := 0) (by norm_num)
      norm_num at this ⊢; exact this, nearest_sharp] at hv
  rw [show (⟨[2], [fl32 4096 (by norm_num), fl32 1 (by norm_num)], rfl⟩ : Tensor (Fl (ieee 24 (by omega)))).shape = [2] from rfl, h2] at hv
  norm_num at hv

/-! ## C109: relative accuracy -/

theorem mags_of_nonneg {A : Tensor (Fl S)} (h : NoNegative A) : mags A = vals A := by
  unfold mags vals tf.map
  congr 1
  exact List.map_congr_left fun x hx => abs_of_nonneg (h x hx)

/-- **C109** (`mul`): on nonnegative data the *relative* error of each entry is at most `(1+u)^k - 1`. -/
theorem C109_mul [S.NoUnderflow] (A B : Tensor (Fl S)) (a b : Axis) (hA : NoNegative A) (hB : NoNegative B) :
    Within (gamma S (axesSize A.shape a.elems)) (mul A B a b) (mul (vals A) (vals B) a b) (mul (vals A) (vals B) a b) := by
  have := C107_mul A B a b
  rwa [mags_of_nonneg hA, mags_of_nonneg hB] at this

/-- **C109** (`ttm`). -/
theorem C109_ttm [S.NoUnderflow] (X : Tensor (Fl S)) (ms : List (Tensor (Fl S))) (axis : List Nat) (tr : Bool) (hN : X.order ≤ 13)
    (hne : axis ≠ []) (hnd : axis.Nodup) (hlt : ∀ i ∈ axis, i < X.order) (hX : NoNegative X) (hms : ∀ A ∈ ms, NoNegative A) :
    Within (gamma S (ms.length + (axesSize X.shape axis - 1))) (ttm X ms (some axis) tr)
      (ttm (vals X) (ms.map vals) (some axis) tr) (ttm (vals X) (ms.map vals) (some axis) tr) := by
  have := C107_ttm X ms axis tr hN hne hnd hlt
  rwa [mags_of_nonneg hX, List.map_congr_left fun A hA => mags_of_nonneg (hms A hA)] at this

/-- **C109** (`KTensor.extract`). -/
theorem C109_kruskal [S.NoUnderflow] (k : KTensor (Fl S)) (hU : ∀ A ∈ k.U, NoNegative A) (hl : NoNegative k.lam) :
    Within (gamma S ((k.U.length - 1) + rankOf k.U)) k.extract (onK vals k).extract (onK vals k).extract := by
  have := C107_kruskal k
  rwa [show onK mags k = onK vals k by
    unfold onK
    rw [mags_of_nonneg hl, List.map_congr_left fun A hA => mags_of_nonneg (hU A hA)]] at this

/-- **C109** (`TTensor.extract`). -/
theorem C109_tucker [S.NoUnderflow] (t : TTensor (Fl S)) (hN : t.g.order ≤ 13) (hne : t.U ≠ []) (hlen : t.U.length = t.g.order)
    (hg : NoNegative t.g) (hU : ∀ A ∈ t.U, NoNegative A) :
    Within (gamma S (t.U.length + (t.g.shape.prod - 1))) t.extract (onT vals t).extract (onT vals t).extract := by
  have := C107_tucker t hN hne hlen
  rwa [show onT mags t = onT vals t by
    unfold onT
    rw [mags_of_nonneg hg, List.map_congr_left fun A hA => mags_of_nonneg (hU A hA)]] at this

theorem vals_rowDims (L : List (Tensor (Fl S))) : rowDims (L.map vals) = rowDims L ∧ colDims (L.map vals) = colDims L ∧
    rowDims (L.map mags) = rowDims L ∧ colDims (L.map mags) = colDims L := by
  simp [rowDims, colDims, Function.comp_def, vals, mags, tf.map]

theorem kronEntry_mags : ∀ (L : List (Tensor (Fl S))) (rs cs : List Nat),
    kronEntry (L.map mags) rs cs = |kronEntry (L.map vals) rs cs|
  | [], _, _ => by simp [kronEntry]
  | M :: L, [], _ => by simp [kronEntry]
  | M :: L, r :: rs, [] => by simp [kronEntry]
  | M :: L, r :: rs, c :: cs => by
      simp only [List.map_cons, kronEntry]
      rw [kronEntry_mags L rs cs, abs_mul, at_mags, at_vals]

theorem khatriEntry_mags (r : Nat) : ∀ (L : List (Tensor (Fl S))) (is : List Nat),
    khatriEntry r (L.map mags) is = |khatriEntry r (L.map vals) is|
  | [], _ => by simp [khatriEntry]
  | M :: L, [] => by simp [khatriEntry]
  | M :: L, i :: is => by
      simp only [List.map_cons, khatriEntry]
      rw [khatriEntry_mags r L is, abs_mul, at_mags, at_vals]

/-- **C109** (`kron`, entries of any sign): each computed entry has relative error at most `(1+u)^(n-1) - 1`. -/
theorem C109_kron [S.NoUnderflow] (ms : List (Tensor (Fl S))) (s : Skip) (rev : Bool) (L : List (Tensor (Fl S)))
    (hL : L = if rev then (kept ms s).reverse else kept ms s) (hmat : AllMat L) (hne : L ≠ []) (hlen : L.length ≤ 13) :
    ∃ K, kron ms s rev = .ok K ∧ K.shape = [(rowDims L).prod, (colDims L).prod] ∧
      ∀ rs cs, InB (rowDims L) rs → InB (colDims L) cs →
        |(K.at_ [ravel (rowDims L) rs, ravel (colDims L) cs]).val - kronEntry (L.map vals) rs cs| ≤
          gamma S (L.length - 1) * |kronEntry (L.map vals) rs cs| := by
  have hLm : ∀ f : Tensor (Fl S) → Tensor ℝ, L.map f = if rev then (kept (ms.map f) s).reverse else kept (ms.map f) s := by
    intro f; rw [hL, kept_map]; cases rev <;> simp
  have hm : ∀ f : Tensor (Fl S) → Tensor ℝ, (∀ A, (f A).shape = A.shape) → AllMat (L.map f) := by
    intro f hf M hM
    obtain ⟨A, hA, rfl⟩ := List.mem_map.1 hM
    rw [hf]; exact hmat A hA
  obtain ⟨X, hX, hXs, hXe⟩ := C16_kron_entry _ s rev _ (hLm vals) (hm vals fun _ => rfl) (by simpa using hne) (by simpa using hlen)
  obtain ⟨M, hM, hMs, hMe⟩ := C16_kron_entry _ s rev _ (hLm mags) (hm mags fun _ => rfl) (by simpa using hne) (by simpa using hlen)
  obtain ⟨v1, v2, v3, v4⟩ := vals_rowDims L
  rw [v1, v2] at hXs hXe
  rw [v3, v4] at hMs hMe
  have hn : (ops.skip ms s).length = L.length := by rw [hL, skip_eq_kept]; cases rev <;> simp
  have h := C107_kron ms s rev
  rw [hX, hM, hn] at h
  cases hK : kron ms s rev with
  | error e => rw [hK] at h; exact h.elim
  | ok K =>
      rw [hK] at h
      obtain ⟨hs, -, he⟩ := h
      refine ⟨K, rfl, hs.trans hXs, fun rs cs hrs hcs => ?_⟩
      have := he [ravel (rowDims L) rs, ravel (colDims L) cs] (by
        rw [hs, hXs]; exact InB_pair.2 ⟨_, _, rfl, ravel_lt hrs, ravel_lt hcs⟩)
      rwa [hXe rs cs hrs hcs, hMe rs cs hrs hcs, kronEntry_mags] at this

/-- **C109** (`khatri`, entries of any sign). -/
theorem C109_khatri [S.NoUnderflow] (ms : List (Tensor (Fl S))) (s : Skip) (rev : Bool) (R : Nat) (L : List (Tensor (Fl S)))
    (hL : L = if rev then (kept ms s).reverse else kept ms s) (hmat : AllMat L) (hR : ∀ M ∈ L, M.shape.getD 1 0 = R)
    (hne : L ≠ []) (hlen : L.length ≤ 25) :
    ∃ K, khatri ms s rev = .ok K ∧ K.shape = [(rowDims L).prod, R] ∧
      ∀ is r, InB (rowDims L) is → r < R →
        |(K.at_ [ravel (rowDims L) is, r]).val - khatriEntry r (L.map vals) is| ≤
          gamma S (L.length - 1) * |khatriEntry r (L.map vals) is| := by
  have hLm : ∀ f : Tensor (Fl S) → Tensor ℝ, L.map f = if rev then (kept (ms.map f) s).reverse else kept (ms.map f) s := by
    intro f; rw [hL, kept_map]; cases rev <;> simp
  have hm : ∀ f : Tensor (Fl S) → Tensor ℝ, (∀ A, (f A).shape = A.shape) →
      AllMat (L.map f) ∧ ∀ M ∈ L.map f, M.shape.getD 1 0 = R := by
    intro f hf
    constructor <;>
    · intro M hM
      obtain ⟨A, hA, rfl⟩ := List.mem_map.1 hM
      rw [hf]
      first | exact hmat A hA | exact hR A hA
  obtain ⟨X, hX, hXs, hXe⟩ := C18_khatri_entry _ s rev R _ (hLm vals) (hm vals fun _ => rfl).1 (hm vals fun _ => rfl).2
    (by simpa using hne) (by simpa using hlen)
  obtain ⟨M, hM, hMs, hMe⟩ := C18_khatri_entry _ s rev R _ (hLm mags) (hm mags fun _ => rfl).1 (hm mags fun _ => rfl).2
    (by simpa using hne) (by simpa using hlen)
  obtain ⟨v1, v2, v3, v4⟩ := vals_rowDims L
  rw [v1] at hXs hXe
  rw [v3] at hMs hMe
  have hn : (ops.skip ms s).length = L.length := by rw [hL, skip_eq_kept]; cases rev <;> simp
  have h := C107_khatri ms s rev
  rw [hX, hM, hn] at h
  cases hK : khatri ms s rev with
  | error e => rw [hK] at h; exact h.elim
  | ok K =>
      rw [hK] at h
      obtain ⟨hs, -, he⟩ := h
      refine ⟨K, rfl, hs.trans hXs, fun is r his hr => ?_⟩
      have := he [ravel (rowDims L) is, r] (by
        rw [hs, hXs]; exact InB_pair.2 ⟨_, _, rfl, ravel_lt his, hr⟩)
      rwa [hXe is r his hr, hMe is r his hr, khatriEntry_mags] at this

/-! Concrete float32 cases. -/

/-- `[[1, 2], [3, -4]]` in float32. -/
noncomputable def ex32 : Tensor (Fl (ieee 24 (by omega))) :=
  ⟨[2, 2], [fl32 1 (by norm_num), fl32 2 (by norm_num), fl32 3 (by norm_num), fl32 (-4) (by norm_num)], rfl⟩

theorem ex32_integral : Integral ex32 := by
  intro x hx
  simp only [ex32, List.mem_cons, List.not_mem_nil, or_false] at hx
  rcases hx with rfl | rfl | rfl | rfl
  exacts [⟨1, rfl⟩, ⟨2, rfl⟩, ⟨3, rfl⟩, ⟨-4, rfl⟩]

/-- `inner` in float32: exact, since `1 + 4 + 9 + 16 ≤ 2²⁴`. -/
example : ∃ r, inner ex32 ex32 = .ok r ∧ r.val = boxSum ex32.shape fun i => (ex32.at_ i).val * (ex32.at_ i).val :=
  C108_inner (by positivity) C108_float32 ex32 ex32 ex32_integral ex32_integral rfl (by
    rw [boxSum_eq_sum_range, show ex32.shape.prod = 4 from rfl]
    rw [show (∑ k ∈ Finset.range 4, |(ex32.at_ (unravel ex32.shape k)).val| * |(ex32.at_ (unravel ex32.shape k)).val|) =
      ∑ k ∈ Finset.range 4, ([|((1 : ℤ) : ℝ)| * |((1 : ℤ) : ℝ)|, |((2 : ℤ) : ℝ)| * |((2 : ℤ) : ℝ)|, |((3 : ℤ) : ℝ)| * |((3 : ℤ) : ℝ)|,
        |((-4 : ℤ) : ℝ)| * |((-4 : ℤ) : ℝ)|] : List ℝ).getD k 0 from Finset.sum_congr rfl (by
          intro k hk
          have : k < 4 := by simpa using hk
          interval_cases k <;> rfl)]
    simp [Finset.sum_range_succ]; norm_num)

/-- `ttm`, `kron`, `extract` in float32: the hypotheses hold. -/
example : ([0, 1] : List Nat) ≠ [] ∧ ([0, 1] : List Nat).Nodup ∧ (∀ i ∈ ([0, 1] : List Nat), i < ex32.order) ∧ ex32.order ≤ 13 ∧
    AllMat [ex32, ex32] ∧ (∀ M ∈ [ex32, ex32], M.shape.getD 1 0 = 2) ∧
    ((2 + (4 - 1) : Nat) : ℝ) * (ieee 24 (by omega)).u < 1 := by
  refine ⟨by simp, by simp, ?_, ?_, ?_, ?_, ?_⟩
  · intro i hi; simp at hi; rcases hi with rfl | rfl <;> decide
  · decide
  · intro M hM; simp at hM; subst hM; rfl
  · intro M hM; simp at hM; subst hM; rfl
  · show ((2 + (4 - 1) : Nat) : ℝ) * 2⁻¹ ^ 24 < 1
    norm_num

end TD.Props
