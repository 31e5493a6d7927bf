import Verif.Props.Pitf
import Verif.Spec.Recovery
import Mathlib.LinearAlgebra.FiniteDimensional.Lemmas
import Mathlib.LinearAlgebra.Matrix.FiniteDimensional

/-!
# C159: the column constraints are a normal form of a pairwise interaction tensor, and what the samples determine
-/
namespace TD.Props
open TD TD.pitf Matrix Spec

variable {n : Fin 3 → Nat} {m : Nat}

/-- A pairwise interaction that vanishes everywhere has vanishing parts, under the column constraints. -/
theorem pair_zero {p q r : Nat} (hp : 0 < p) (hq : 0 < q) (hr : 0 < r) {E : Fin p → Fin q → ℝ} {F : Fin q → Fin r → ℝ}
    {G : Fin r → Fin p → ℝ} (h : ∀ i j k, E i j + F j k + G k i = 0) (hE : ∀ j j', ∑ i, E i j = ∑ i, E i j')
    (hF : ∀ k, ∑ j, F j k = 0) (hG : ∀ i, ∑ k, G k i = 0) :
    (∀ i j, E i j = 0) ∧ (∀ j k, F j k = 0) ∧ ∀ k i, G k i = 0 := by
  have hp' : (p : ℝ) ≠ 0 := by exact_mod_cast hp.ne'
  have hq' : (q : ℝ) ≠ 0 := by exact_mod_cast hq.ne'
  have hr' : (r : ℝ) ≠ 0 := by exact_mod_cast hr.ne'
  have g1 : ∀ k i, (q : ℝ) * G k i = -∑ j, E i j := fun k i => by
    have := Finset.sum_congr (s₁ := Finset.univ) rfl fun j _ => h i j k
    rw [Finset.sum_add_distrib, Finset.sum_add_distrib, hF k, Finset.sum_const, Finset.sum_const_zero, Finset.card_univ,
      Fintype.card_fin, nsmul_eq_mul] at this
    linarith
  have hG0 : ∀ k i, G k i = 0 := fun k i => by
    have e : ∀ k', G k' i = G k i := fun k' => mul_left_cancel₀ hq' ((g1 k' i).trans (g1 k i).symm)
    have := hG i
    rw [Finset.sum_congr rfl fun k' _ => e k', Finset.sum_const, Finset.card_univ, Fintype.card_fin, nsmul_eq_mul] at this
    exact (mul_eq_zero.1 this).resolve_left hr'
  have e1 : ∀ i j k, E i j = -F j k := fun i j k => by have := h i j k; rw [hG0] at this; linarith
  have hFc : ∀ j j' k, F j k = F j' k := fun j j' k => by
    have := hE j j'
    rw [Finset.sum_congr rfl fun i _ => e1 i j k, Finset.sum_congr rfl fun i _ => e1 i j' k, Finset.sum_const,
      Finset.sum_const, Finset.card_univ, Fintype.card_fin, nsmul_eq_mul, nsmul_eq_mul] at this
    have := mul_left_cancel₀ hp' this
    linarith
  have hF0 : ∀ j k, F j k = 0 := fun j k => by
    have := hF k
    rw [Finset.sum_congr rfl fun j' _ => hFc j' j k, Finset.sum_const, Finset.card_univ, Fintype.card_fin,
      nsmul_eq_mul] at this
    exact (mul_eq_zero.1 this).resolve_left hq'
  exact ⟨fun i j => by rw [e1 i j ⟨0, hr⟩, hF0, neg_zero], hF0, hG0⟩

/-- **C159** (unique): two triples of matrices that meet the column constraints and have the same pairwise interaction at
every position are equal. -/
theorem C159_unique (hn : ∀ d, 0 < n d) (A A' : Mat (n 0) (n 1)) (B B' : Mat (n 1) (n 2)) (C C' : Mat (n 2) (n 0))
    (hA : EqualColSums A) (hA' : EqualColSums A') (hB : ZeroColSums B) (hB' : ZeroColSums B') (hC : ZeroColSums C)
    (hC' : ZeroColSums C')
    (h : ∀ i j k, A i j / √(n 2) + B j k / √(n 0) + C k i / √(n 1) = A' i j / √(n 2) + B' j k / √(n 0) + C' k i / √(n 1)) :
    A = A' ∧ B = B' ∧ C = C' := by
  have hs : ∀ d, √(n d : ℝ) ≠ 0 := fun d => (Real.sqrt_pos.2 (by exact_mod_cast hn d)).ne'
  obtain ⟨e1, e2, e3⟩ := pair_zero (hn 0) (hn 1) (hn 2) (E := fun i j => (A i j - A' i j) / √(n 2))
    (F := fun j k => (B j k - B' j k) / √(n 0)) (G := fun k i => (C k i - C' k i) / √(n 1))
    (fun i j k => by have := h i j k; simp only [sub_div]; linarith)
    (fun j j' => by
      rw [← Finset.sum_div, ← Finset.sum_div, Finset.sum_sub_distrib, Finset.sum_sub_distrib, hA j j', hA' j j'])
    (fun k => by rw [← Finset.sum_div, Finset.sum_sub_distrib, hB k, hB' k, sub_self, zero_div])
    (fun i => by rw [← Finset.sum_div, Finset.sum_sub_distrib, hC i, hC' i, sub_self, zero_div])
  refine ⟨?_, ?_, ?_⟩
  · ext i j; exact sub_eq_zero.1 ((div_eq_zero_iff.1 (e1 i j)).resolve_right (hs 2))
  · ext i j; exact sub_eq_zero.1 ((div_eq_zero_iff.1 (e2 i j)).resolve_right (hs 0))
  · ext i j; exact sub_eq_zero.1 ((div_eq_zero_iff.1 (e3 i j)).resolve_right (hs 1))

/-- **C159** (sampling): if every position is sampled, then `Pomega_Pair` of either version tells two such triples apart. -/
theorem C159_samples_determine (hn : ∀ d, 0 < n d) (spl : Samples n m)
    (hall : ∀ i j k, ∃ s, spl 0 s = i ∧ spl 1 s = j ∧ spl 2 s = k)
    (A A' : Mat (n 0) (n 1)) (B B' : Mat (n 1) (n 2)) (C C' : Mat (n 2) (n 0))
    (hA : EqualColSums A) (hA' : EqualColSums A') (hB : ZeroColSums B) (hB' : ZeroColSums B') (hC : ZeroColSums C)
    (hC' : ZeroColSums C') :
    (np.PomegaPair spl A B C = np.PomegaPair spl A' B' C' ↔ A = A' ∧ B = B' ∧ C = C') ∧
    (tfl.PomegaPair spl A B C = tfl.PomegaPair spl A' B' C' ↔ A = A' ∧ B = B' ∧ C = C') := by
  refine ⟨⟨fun h => ?_, ?_⟩, fun h => ?_, ?_⟩
  · refine C159_unique hn A A' B B' C C' hA hA' hB hB' hC hC' fun i j k => ?_
    obtain ⟨s, rfl, rfl, rfl⟩ := hall i j k
    exact congrFun h s
  · rintro ⟨rfl, rfl, rfl⟩; rfl
  · refine C159_unique hn A A' B B' C C' hA hA' hB hB' hC hC' fun i j k => ?_
    obtain ⟨s, rfl, rfl, rfl⟩ := hall i j k
    exact congrFun h s
  · rintro ⟨rfl, rfl, rfl⟩; rfl

/-- **C159** (the generated matrices): a tensor built from matrices of `sample_rule4mat`, in either version, determines these
matrices: whatever other draws give the same tensor, they give the same three matrices. -/
theorem C159_generated (hn : ∀ d, 0 < n d) {ra rb rc ra' rb' rc' : Nat} (UA : Mat (n 0) ra) (VA : Mat (n 1) ra) (UB : Mat (n 1) rb)
    (VB : Mat (n 2) rb) (UC : Mat (n 2) rc) (VC : Mat (n 0) rc) (UA' : Mat (n 0) ra') (VA' : Mat (n 1) ra') (UB' : Mat (n 1) rb')
    (VB' : Mat (n 2) rb') (UC' : Mat (n 2) rc') (VC' : Mat (n 0) rc') (A A' B B' C C')
    (h : np.sampleRule4mat n UA VA UB VB UC VC = (some A, some B, some C))
    (h' : tfl.sampleRule4mat n UA' VA' UB' VB' UC' VC' = (some A', some B', some C'))
    (heq : ∀ i j k, A i j / √(n 2) + B j k / √(n 0) + C k i / √(n 1) = A' i j / √(n 2) + B' j k / √(n 0) + C' k i / √(n 1)) :
    A = A' ∧ B = B' ∧ C = C' := by
  obtain ⟨A1, B1, C1, e, -, a1, b1, c1⟩ := C62_sample_rule4mat n hn UA VA UB VB UC VC
  obtain ⟨A2, B2, C2, -, e', a2, b2, c2⟩ := C62_sample_rule4mat n hn UA' VA' UB' VB' UC' VC'
  rw [h] at e
  rw [h'] at e'
  simp only [Prod.mk.injEq, Option.some.injEq] at e e'
  obtain ⟨rfl, rfl, rfl⟩ := e
  obtain ⟨rfl, rfl, rfl⟩ := e'
  exact C159_unique hn _ _ _ _ _ _ a1 a2 b1 b2 c1 c2 heq

/-- **C159** (normal form): every pairwise interaction tensor is that of matrices that meet the constraints. -/
theorem C159_normal_form (hn : ∀ d, 0 < n d) (A : Mat (n 0) (n 1)) (B : Mat (n 1) (n 2)) (C : Mat (n 2) (n 0)) :
    ∃ A' B' C', EqualColSums A' ∧ ZeroColSums B' ∧ ZeroColSums C' ∧
      ∀ i j k, A i j / √(n 2) + B j k / √(n 0) + C k i / √(n 1) =
        A' i j / √(n 2) + B' j k / √(n 0) + C' k i / √(n 1) := by
  have hs : ∀ d, √(n d : ℝ) ≠ 0 := fun d => (Real.sqrt_pos.2 (by exact_mod_cast hn d)).ne'
  have hc : ∀ d, (n d : ℝ) ≠ 0 := fun d => by exact_mod_cast (hn d).ne'
  have hm : ∀ (d : Fin 3) (x : ℝ), (n d : ℝ) * (x / n d) = x := fun d x => by have := hc d; field_simp
  set E : Fin (n 0) → Fin (n 1) → ℝ := fun i j => A i j / √(n 2) with hE
  set F : Fin (n 1) → Fin (n 2) → ℝ := fun j k => B j k / √(n 0) with hF
  set G : Fin (n 2) → Fin (n 0) → ℝ := fun k i => C k i / √(n 1) with hG
  set β : Fin (n 2) → ℝ := fun k => (∑ j, F j k) / n 1 with hβ
  set γ : Fin (n 0) → ℝ := fun i => (∑ k, (G k i + β k)) / n 2 with hγ
  set a : Fin (n 1) → ℝ := fun j => (∑ i, (E i j + γ i)) / n 0 with ha
  set t : ℝ := (∑ j, a j) / n 1 with ht
  have sumc : ∀ (d : Fin 3) (x : ℝ), ∑ _ : Fin (n d), x = n d * x := fun d x => by
    rw [Finset.sum_const, Finset.card_univ, Fintype.card_fin, nsmul_eq_mul]
  refine ⟨Matrix.of fun i j => √(n 2) * (E i j + γ i - a j + t), Matrix.of fun j k => √(n 0) * (F j k - β k + a j - t),
    Matrix.of fun k i => √(n 1) * (G k i + β k - γ i), fun j j' => ?_, fun k => ?_, fun i => ?_, fun i j k => ?_⟩
  · simp only [of_apply]
    rw [← Finset.mul_sum, ← Finset.mul_sum]
    congr 1
    have : ∀ j, ∑ i, (E i j + γ i - a j + t) = n 0 * t := fun j => by
      rw [Finset.sum_add_distrib, Finset.sum_sub_distrib, sumc 0, sumc 0, ha, hm, sub_self, zero_add]
    rw [this, this]
  · simp only [of_apply]
    rw [← Finset.mul_sum]
    have : ∑ j, (F j k - β k + a j - t) = 0 := by
      rw [Finset.sum_sub_distrib, Finset.sum_add_distrib, Finset.sum_sub_distrib, sumc 1, sumc 1, hβ, ht, hm, hm, sub_self, zero_add, sub_self]
    rw [this, mul_zero]
  · simp only [of_apply]
    rw [← Finset.mul_sum]
    have : ∑ k, (G k i + β k - γ i) = 0 := by
      rw [Finset.sum_sub_distrib, sumc 2, hγ, hm, sub_self]
    rw [this, mul_zero]
  · simp only [of_apply]
    rw [mul_div_cancel_left₀ _ (hs 2), mul_div_cancel_left₀ _ (hs 0), mul_div_cancel_left₀ _ (hs 1)]
    change E i j + F j k + G k i = _
    ring

/-- The constraints and the samples as one linear map. -/
noncomputable def sampleMap (hn : ∀ d, 0 < n d) (spl : Samples n m) :
    (Mat (n 0) (n 1) × Mat (n 1) (n 2) × Mat (n 2) (n 0)) →ₗ[ℝ]
      (Fin (n 1 - 1) → ℝ) × (Fin (n 2) → ℝ) × (Fin (n 0) → ℝ) × (Fin m → ℝ) where
  toFun p := (fun j => ∑ i, p.1 i ⟨j + 1, by have := j.isLt; omega⟩ - ∑ i, p.1 i ⟨0, hn 1⟩, fun k => ∑ j, p.2.1 j k,
    fun i => ∑ k, p.2.2 k i, fun s => p.1 (spl 0 s) (spl 1 s) / √(n 2) + p.2.1 (spl 1 s) (spl 2 s) / √(n 0) +
      p.2.2 (spl 2 s) (spl 0 s) / √(n 1))
  map_add' p q := by
    refine Prod.ext (funext fun j => ?_) (Prod.ext (funext fun k => ?_) (Prod.ext (funext fun i => ?_) (funext fun s => ?_))) <;>
      simp only [Prod.fst_add, Prod.snd_add, Matrix.add_apply, Finset.sum_add_distrib, Pi.add_apply] <;> ring
  map_smul' c p := by
    refine Prod.ext (funext fun j => ?_) (Prod.ext (funext fun k => ?_) (Prod.ext (funext fun i => ?_) (funext fun s => ?_))) <;>
      simp only [Prod.smul_fst, Prod.smul_snd, Matrix.smul_apply, smul_eq_mul, ← Finset.mul_sum, Pi.smul_apply, RingHom.id_apply] <;> ring

/-- Fewer equations than unknowns. -/
theorem fewer_equations {p q r m : Nat} (h0 : 0 < p) (h1' : 0 < q) (h2 : 0 < r) (hne : ¬ (p = 1 ∧ q = 1 ∧ r = 1)) (c1 : m ≤ p * q)
    (c2 : m ≤ q * r) (c3 : m ≤ r * p) : q - 1 + (r + (p + m)) < p * q + (q * r + r * p) := by
  by_cases hr : r = 1
  · subst hr
    have : m < p * q := by
      by_cases hp : p = 1
      · subst hp
        omega
      · have : 2 * q ≤ p * q := Nat.mul_le_mul_right _ (by omega)
        omega
    omega
  · obtain ⟨r', rfl⟩ : ∃ r', r = r' + 2 := ⟨r - 2, by omega⟩
    obtain ⟨p', rfl⟩ : ∃ p', p = p' + 1 := ⟨p - 1, by omega⟩
    obtain ⟨q', rfl⟩ : ∃ q', q = q' + 1 := ⟨q - 1, by omega⟩
    have e1 : (q' + 1) * (r' + 2) = q' * r' + 2 * q' + r' + 2 := by ring
    have e2 : (r' + 2) * (p' + 1) = r' * p' + r' + 2 * p' + 2 := by ring
    omega

/-- **C159** (pairwise distinct samples never determine the matrices): with samples as `exact_recovery` needs them for its
convergence (C87) and a tensor with more than one entry, there are always other matrices that meet the constraints and agree
with the data at all samples; which of them is recovered is decided by the objective alone. -/
theorem C159_distinct_undetermined (hn : ∀ d, 0 < n d) (h1 : ∃ d, n d ≠ 1) (T : Tensor3 n) (spl : Samples n m)
    (hd : DistinctPairs (spl 0) (spl 1) (spl 2)) (A : Mat (n 0) (n 1)) (B : Mat (n 1) (n 2)) (C : Mat (n 2) (n 0))
    (h : Fits T (spl 0) (spl 1) (spl 2) A B C) :
    ∃ A' B' C', Fits T (spl 0) (spl 1) (spl 2) A' B' C' ∧ (A', B', C') ≠ (A, B, C) := by
  have c1 : m ≤ n 0 * n 1 := by
    have := Fintype.card_le_of_injective (fun s => (spl 0 s, spl 1 s)) fun i j e => by
      by_contra hne; exact (hd i j hne).1 e
    simpa using this
  have c2 : m ≤ n 1 * n 2 := by
    have := Fintype.card_le_of_injective (fun s => (spl 1 s, spl 2 s)) fun i j e => by
      by_contra hne; exact (hd i j hne).2.1 e
    simpa using this
  have c3 : m ≤ n 2 * n 0 := by
    have := Fintype.card_le_of_injective (fun s => (spl 2 s, spl 0 s)) fun i j e => by
      by_contra hne; exact (hd i j hne).2.2 e
    simpa using this
  have hlt : n 1 - 1 + (n 2 + (n 0 + m)) < n 0 * n 1 + (n 1 * n 2 + n 2 * n 0) := by
    refine fewer_equations (hn 0) (hn 1) (hn 2) ?_ c1 c2 c3
    rintro ⟨e0, e1, e2⟩
    obtain ⟨d, hd⟩ := h1
    match d with
    | 0 => exact hd e0
    | 1 => exact hd e1
    | 2 => exact hd e2
  have hker := LinearMap.ker_ne_bot_of_finrank_lt (f := sampleMap hn spl) (by
    simpa [Module.finrank_prod, Module.finrank_matrix] using hlt)
  obtain ⟨⟨P, Q, R⟩, hk, hne⟩ := Submodule.exists_mem_ne_zero_of_ne_bot hker
  have hk := LinearMap.mem_ker.1 hk
  obtain ⟨k1, k2, k3, k4⟩ : (∀ j : Fin (n 1 - 1), ∑ i, P i ⟨j + 1, by have := j.isLt; omega⟩ - ∑ i, P i ⟨0, hn 1⟩ = 0) ∧
      (∀ k, ∑ j, Q j k = 0) ∧ (∀ i, ∑ k, R k i = 0) ∧
      ∀ s, P (spl 0 s) (spl 1 s) / √(n 2) + Q (spl 1 s) (spl 2 s) / √(n 0) + R (spl 2 s) (spl 0 s) / √(n 1) = 0 :=
    ⟨fun j => congrFun (congrArg (·.1) hk) j, fun k => congrFun (congrArg (·.2.1) hk) k,
      fun i => congrFun (congrArg (·.2.2.1) hk) i, fun s => congrFun (congrArg (·.2.2.2) hk) s⟩
  have hP : ∀ j, ∑ i, P i j = ∑ i, P i ⟨0, hn 1⟩ := by
    rintro ⟨j, hj⟩
    cases j with
    | zero => rfl
    | succ j => exact sub_eq_zero.1 (k1 ⟨j, by omega⟩)
  refine ⟨A + P, B + Q, C + R, ⟨fun j j' => ?_, fun k => ?_, fun i => ?_, fun s => ?_⟩, fun e => hne ?_⟩
  · simp only [Matrix.add_apply, Finset.sum_add_distrib]
    rw [h.equal j j', hP j, hP j']
  · simp only [Matrix.add_apply, Finset.sum_add_distrib]
    rw [h.zero1 k, k2 k, add_zero]
  · simp only [Matrix.add_apply, Finset.sum_add_distrib]
    rw [h.zero2 i, k3 i, add_zero]
  · have := h.agree s
    unfold sampleError at this ⊢
    simp only [Matrix.add_apply, add_div]
    linarith [k4 s]
  · simp only [Prod.mk.injEq, add_eq_left] at e
    obtain ⟨rfl, rfl, rfl⟩ := e
    rfl

/-- The hypotheses are met: a 2 × 2 × 2 tensor of ones, two samples, and matrices that fit (`A` constant, `B = C = 0`). -/
example : let n : Fin 3 → Nat := ![2, 2, 2]
    let spl : Samples n 2 := fun d i => match d with | 0 => i | 1 => i | 2 => i
    (∀ d, 0 < n d) ∧ (∃ d, n d ≠ 1) ∧ DistinctPairs (n := n) (spl 0) (spl 1) (spl 2) ∧
      Fits (n := n) (fun _ _ _ => 1) (spl 0) (spl 1) (spl 2) (Matrix.of fun _ _ => √2) 0 0 := by
  refine ⟨by decide, ⟨0, by decide⟩, fun i j hne => ?_, ⟨fun j j' => rfl, fun k => Finset.sum_const_zero, fun k => Finset.sum_const_zero, fun i => ?_⟩⟩
  · refine ⟨fun e => hne (Prod.ext_iff.1 e).1, fun e => hne (Prod.ext_iff.1 e).1, fun e => hne (Prod.ext_iff.1 e).1⟩
  · have h2 : √(2 : ℝ) ≠ 0 := by positivity
    change (1 : ℝ) - (√2 / √((2 : Nat) : ℝ) + 0 / _ + 0 / _) = 0
    rw [zero_div, zero_div, Nat.cast_ofNat, div_self h2]
    norm_num

end TD.Props
