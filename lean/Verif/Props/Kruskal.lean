import Mathlib.Data.Rat.Defs
import Mathlib.Algebra.Field.Rat
import Mathlib.Tactic.FieldSimp
import Mathlib.Tactic.Ring
import Verif.Lemmas.Unfolding
import Verif.Spec.Kruskal

/-!
# C23 - C26 : `KTensor`
-/
namespace TD.Props
open TD Tensor Spec ops
variable {α : Type}

theorem init_ok [CommSemiring α] {src : Src} {dt : DType} {U : List (Tensor α)} {lam : Option (KTensor.Arr α)}
    {R : Nat} (hU : Factors U R) (hw : WeightShape R lam) :
    ∃ k, KTensor.init src dt U lam = .ok k ∧ k.U = U ∧ k.lam.shape = [R, 1] ∧
      (∀ r < R, k.lam.at_ [r, 0] = weight lam r) ∧ k.udtype = storedDtype src dt ∧
      k.ldtype = weightDtype lam := by
  obtain ⟨hne, hlen, hm, hR⟩ := hU
  obtain _ | ⟨f0, fs⟩ := U
  · exact absurd rfl hne
  have hd : (match src with | .np => DType.float32 | .tf => dt) = storedDtype src dt := by cases src <;> rfl
  obtain _ | a := lam
  · have h0 : f0.shape = [f0.shape.getD 0 0, R] := by
      have := hm.shape_eq (M := f0) (by simp)
      rwa [hR f0 (by simp)] at this
    refine ⟨⟨f0 :: fs, storedDtype src dt, tf.ones [R, 1], .float32⟩, ?_, rfl, rfl, ?_, rfl, rfl⟩
    · unfold KTensor.init
      simp only [dimOf]
      rw [h0]
      cases src <;> rfl
    · intro r hr
      rw [tf.ones_eq_mat, at_mat _ hr (by omega)]; rfl
  · simp only [KTensor.init]
    refine ⟨_, rfl, rfl, ?_⟩
    rcases hw with h | h
    · have ho : a.val.order = 1 := by simp [Tensor.order, h]
      simp only [if_pos ho]
      refine ⟨(KTensor.at_expandLast h (r := 0)).1, fun r hr => ?_, hd, rfl⟩
      rw [(KTensor.at_expandLast h).2, weight, if_pos (by simp [h])]
    · have ho : a.val.order ≠ 1 := by simp [Tensor.order, h]
      simp only [if_neg ho]
      refine ⟨h, fun r hr => ?_, hd, rfl⟩
      rw [weight, if_neg (by simp [h])]

/-- **C23**: `KTensor(U, lam).extract()[i] = ∑_r lam_r ∏_k U_k[i_k, r]`, for numpy or TensorFlow factors,
without weights (all 1), with a weight vector or with a weight column, as long as the element types agree. -/
theorem C23_extract_entry [CommSemiring α] (src : Src) (dt : DType) (U : List (Tensor α))
    (lam : Option (KTensor.Arr α)) (R : Nat) (hU : Factors U R) (hw : WeightShape R lam)
    (hd : storedDtype src dt = weightDtype lam) :
    ∃ k X, KTensor.init src dt U lam = .ok k ∧ k.extract = .ok X ∧ X.shape = rowDims U ∧
      ∀ i, InB (rowDims U) i → X.at_ i = ∑ r ∈ Finset.range R, weight lam r * khatriEntry r U i := by
  obtain ⟨k, hk, hkU, hl, hlw, hu1, hl1⟩ := init_ok (src := src) (dt := dt) hU hw
  obtain ⟨hne, hlen, hm, hR⟩ := hU
  obtain ⟨X, hX, hs, he⟩ := KTensor.extract_core k (R := R) (by rwa [hkU]) (by rwa [hkU]) (by rwa [hkU])
    (by rwa [hkU]) (by rw [hu1, hl1, hd]) hl
  rw [hkU] at hs he
  refine ⟨k, X, hk, hX, hs, fun i hi => ?_⟩
  rw [he i hi]
  refine Finset.sum_congr rfl fun r hr => ?_
  rw [hlw r (Finset.mem_range.1 hr), mul_comm]

def exU : List (Tensor Int) := [mat 2 2 fun i j => (i : Int) + 2 * j + 1, mat 3 2 fun i j => (i : Int) - j]
def exLam : KTensor.Arr Int := ⟨.tf, .float32, ofFn [2] fun i => (i.getD 0 0 : Int) + 3⟩

theorem exU_factors : Factors exU 2 := by
  refine ⟨by simp [exU], by simp [exU], ?_, ?_⟩ <;> intro M hM <;> simp [exU] at hM <;> rcases hM with rfl | rfl <;> rfl

/-- Hypotheses of C23 on concrete data, with and without weights. -/
example : Factors exU 2 ∧ WeightShape 2 (some exLam) ∧ storedDtype .np .float64 = weightDtype (some exLam) ∧
    WeightShape 2 (none : Option (KTensor.Arr Int)) ∧
    storedDtype .tf .float32 = weightDtype (none : Option (KTensor.Arr Int)) :=
  ⟨exU_factors, Or.inl rfl, rfl, trivial, rfl⟩

/-- **C23**, an empty factor list raises `IndexError`. -/
theorem C23_no_factors [CommSemiring α] (src : Src) (dt : DType) (lam : Option (KTensor.Arr α)) :
    KTensor.init src dt ([] : List (Tensor α)) lam = .error .indexError := rfl

/-- **C24**: `unfold(KTensor(U, lam).extract(), n) = U_n diag(lam) khatri(U, skip n, reverse)ᵀ`. -/
theorem C24_unfold_kruskal [CommSemiring α] (src : Src) (dt : DType) (U : List (Tensor α))
    (lam : Option (KTensor.Arr α)) (R n : Nat) (A : Tensor α) (hU : Factors U R) (hw : WeightShape R lam)
    (hd : storedDtype src dt = weightDtype lam) (h2 : 2 ≤ U.length) (hA : U[n]? = some A)
    (hpos : 0 < A.shape.getD 0 0) :
    ∃ k X K M, KTensor.init src dt U lam = .ok k ∧ k.extract = .ok X ∧ unfold X n = .ok M ∧
      khatri U (.int n) true = .ok K ∧
      tf.matmul (mat (A.shape.getD 0 0) R fun i r => A.at_ [i, r] * weight lam r) K false true = .ok M := by
  obtain ⟨k, X, hk, hX, hs, he⟩ := C23_extract_entry src dt U lam R hU hw hd
  obtain ⟨hne, hlen, hm, hR⟩ := hU
  have hn : n < U.length := (List.getElem?_eq_some_iff.1 hA).1
  have hrow : (rowDims U).getD n 0 = A.shape.getD 0 0 := by
    simp [rowDims, hA]
  obtain ⟨K, hK, hKs, hKe⟩ := khatri_skip_reverse hm hR (by omega) hn h2
  have hKs' : K.shape = [otherSize X.shape n, R] := by rw [hKs, hs, otherSize_eq_prod]
  have hXn : X.shape.getD n 0 = A.shape.getD 0 0 := by rw [hs, hrow]
  refine ⟨k, X, K, _, hk, hX, unfold_eq_mat X (n := n) (by rw [Tensor.order, hs]; simpa using hn)
    (by rw [hXn]; exact hpos) (fun i j => ∑ r ∈ Finset.range R, (A.at_ [i, r] * weight lam r) * K.at_ [j, r]) ?_, hK, ?_⟩
  · intro i hi
    have hi' : InB (rowDims U) i := hs ▸ hi
    rw [he i hi']
    refine Finset.sum_congr rfl fun r hr => ?_
    rw [khatriEntry_eraseIdx r (by simpa using hi'.length) hA, koldaCol_eq_ravel n hi.length, hs,
      hKe i r hi' (Finset.mem_range.1 hr)]
    ring
  · rw [tf.matmul_nt rfl hKs', hXn]
    congr 1
    refine ext_mat rfl rfl fun i hi j hj => ?_
    rw [at_mat _ hi hj, at_mat _ hi hj]
    refine Finset.sum_congr rfl fun r hr => ?_
    rw [at_mat _ hi (Finset.mem_range.1 hr)]

/-- Hypotheses of C24 on concrete data. -/
example : ∃ A, exU[1]? = some A ∧ 0 < A.shape.getD 0 0 ∧ 2 ≤ exU.length := ⟨_, rfl, by decide, by decide⟩

/-- **C25**: dividing column `r` of factor `n` by `c r` and multiplying weight `r` by `c r` changes nothing. -/
theorem C25_rescale [Field α] (src : Src) (dt : DType) (U : List (Tensor α))
    (lam lam' : Option (KTensor.Arr α)) (R n : Nat) (A : Tensor α) (c : Nat → α) (hU : Factors U R)
    (hw : WeightShape R lam) (hw' : WeightShape R lam')
    (hd : storedDtype src dt = weightDtype lam) (hd' : storedDtype src dt = weightDtype lam')
    (hA : U[n]? = some A) (hc : ∀ r < R, c r ≠ 0) (hl : ∀ r < R, weight lam' r = weight lam r * c r) :
    ∃ k k' X, KTensor.init src dt U lam = .ok k ∧
      KTensor.init src dt (U.set n (mat (A.shape.getD 0 0) R fun i r => A.at_ [i, r] / c r)) lam' = .ok k' ∧
      k.extract = .ok X ∧ k'.extract = .ok X := by
  set A' : Tensor α := mat (A.shape.getD 0 0) R fun i r => A.at_ [i, r] / c r with hA'
  obtain ⟨k, X, hk, hX, hs, he⟩ := C23_extract_entry src dt U lam R hU hw hd
  have hn : n < U.length := (List.getElem?_eq_some_iff.1 hA).1
  have hU' : Factors (U.set n A') R := by
    obtain ⟨hne, hlen, hm, hR⟩ := hU
    refine ⟨by simpa using hne, by simpa using hlen, fun M hM => ?_, fun M hM => ?_⟩
    · rcases List.mem_or_eq_of_mem_set hM with h | rfl
      · exact hm M h
      · rfl
    · rcases List.mem_or_eq_of_mem_set hM with h | rfl
      · exact hR M h
      · rfl
  obtain ⟨k', X', hk', hX', hs', he'⟩ := C23_extract_entry src dt (U.set n A') lam' R hU' hw' hd'
  have hrows : rowDims (U.set n A') = rowDims U := by
    unfold rowDims
    rw [List.map_set]
    apply List.ext_getElem?
    intro j
    rw [List.getElem?_set]
    by_cases hj : n = j
    · subst hj
      have hUn : U[n] = A := by
        rw [List.getElem?_eq_getElem hn] at hA
        exact Option.some.inj hA
      simp [hn, hA', hUn]
    · simp [hj]
  refine ⟨k, k', X, hk, hk', hX, ?_⟩
  rw [hX']
  congr 1
  refine ext_at (by rw [hs', hs, hrows]) fun i hi => ?_
  have hi' : InB (rowDims (U.set n A')) i := hs' ▸ hi
  have hi0 : InB (rowDims U) i := hrows ▸ hi'
  have hil : i.length = U.length := by simpa using hi0.length
  rw [he' i hi', he i hi0]
  refine Finset.sum_congr rfl fun r hr => ?_
  rw [Finset.mem_range] at hr
  have hA'n : (U.set n A')[n]? = some A' := by simp [hn]
  rw [khatriEntry_eraseIdx r (by simpa using hil) hA'n, khatriEntry_eraseIdx r hil hA, hl r hr]
  have hib : i.getD n 0 < A.shape.getD 0 0 := by
    have := (InB_iff_getD.1 hi0).2 n (by simpa using hn)
    simpa [rowDims, hA] using this
  have he : (U.set n A').eraseIdx n = U.eraseIdx n := by
    simp [List.eraseIdx_set_eq]
  rw [he, hA', at_mat _ hib hr]
  have := hc r hr
  field_simp

/-- Hypotheses of C25 on concrete data: halve column 0 and multiply weight 0 by 2. -/
example : ∃ (lam lam' : Option (KTensor.Arr ℚ)) (c : Nat → ℚ), WeightShape 2 lam ∧ WeightShape 2 lam' ∧
    storedDtype .np .float64 = weightDtype lam ∧ storedDtype .np .float64 = weightDtype lam' ∧
    (∀ r < 2, c r ≠ 0) ∧ ∀ r < 2, weight lam' r = weight lam r * c r :=
  ⟨none, some ⟨.tf, .float32, ofFn [2] fun i => if i = [0] then 2 else 1⟩, fun r => if r = 0 then 2 else 1,
    trivial, Or.inl rfl, rfl, rfl, by decide +kernel, by decide +kernel⟩

/-- **C26** is false: numpy factors are stored as float32 while numpy weights keep their element type, so
weights of numpy's default precision (float64) make `extract` raise `TypeError`, for *every* choice of
factors. -/
theorem C26_default_precision_false [CommSemiring α] (dt : DType) (U : List (Tensor α)) (a : KTensor.Arr α)
    (R : Nat) (hU : Factors U R) (hw : WeightShape R (some a)) (ha : a.src = .np ∧ a.dtype = .float64) :
    ∃ k, KTensor.init .np dt U (some a) = .ok k ∧ k.extract = .error .typeError := by
  obtain ⟨k, hk, hkU, hl, hlw, hu1, hl1⟩ := init_ok (src := .np) (dt := dt) hU hw
  obtain ⟨hne, hlen, hm, hR⟩ := hU
  refine ⟨k, hk, ?_⟩
  obtain ⟨K, hK, -⟩ := khatri_core hm hne hR hlen
  unfold KTensor.extract
  rw [hkU, hK, ok_bind, dimOfEach_ok (fun M hM => by rw [hm M hM]; omega), ok_bind, if_neg]
  · rfl
  · rw [hu1, hl1]; simp [storedDtype, weightDtype, ha.2]

/-- **C26**, the part that holds: numpy factors with weights whose element type is float32 (or without
weights) evaluate.  Missing: numpy weights of default precision, see `C26_default_precision_false`. -/
theorem C26_float32_weights_partial [CommSemiring α] (dt : DType) (U : List (Tensor α))
    (lam : Option (KTensor.Arr α)) (R : Nat) (hU : Factors U R) (hw : WeightShape R lam)
    (h : weightDtype lam = .float32) :
    ∃ k X, KTensor.init .np dt U lam = .ok k ∧ k.extract = .ok X := by
  obtain ⟨k, X, hk, hX, -⟩ := C23_extract_entry .np dt U lam R hU hw h.symm
  exact ⟨k, X, hk, hX⟩

example : ∃ a : KTensor.Arr Int, WeightShape 2 (some a) ∧ a.src = .np ∧ a.dtype = .float64 :=
  ⟨⟨.np, .float64, ofFn [2] fun _ => 1⟩, Or.inl rfl, rfl, rfl⟩

end TD.Props
