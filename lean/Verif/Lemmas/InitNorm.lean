import Verif.Lemmas.NTuckerRun
import Verif.Lemmas.Bcu
import Mathlib.Algebra.Order.BigOperators.Ring.Finset

/-! # The size of the initial point of the block coordinate methods -/
namespace TD.bcu
open TD Tensor Spec

theorem normInit_size {X v u : Tensor ℝ} {p : Nat} (hp : 0 < p) (h : normInit X p v = .ok u) :
    Real.sqrt (normSqT u) ^ p = Real.sqrt (normSqT X) := by
  unfold normInit at h
  by_cases h0 : tf.norm v = 0
  · rw [if_pos h0] at h; cases h
  rw [if_neg h0] at h
  cases h
  have hX : tf.norm X = Real.sqrt (normSqT X) := by rw [tf.norm, reduceSum_sq]
  set c := Real.rpow (tf.norm X) (1 / (p : ℝ)) with hc
  have hc0 : 0 ≤ c := Real.rpow_nonneg (Real.sqrt_nonneg _) _
  have e : normSqT (tf.map (fun x => x / tf.norm v * c) v) = c ^ 2 := by
    have e1 : normSqT (tf.map (fun x => x / tf.norm v * c) v) = (c / tf.norm v) ^ 2 * normSqT v := by
      unfold normSqT
      rw [← boxSum_mul_left]
      refine boxSum_congr fun i hi => ?_
      rw [at_map _ v (show InB v.shape i from hi)]; ring
    rw [e1, ← cp.norm_sq]
    field_simp
  rw [e, Real.sqrt_sq hc0, hc, ← hX]
  have := Real.rpow_inv_natCast_pow (x := tf.norm X) (Real.sqrt_nonneg _) (by omega : p ≠ 0)
  rw [← one_div] at this
  exact this

theorem init_size {X : Tensor ℝ} {p : Nat} (hp : 0 < p) {draws : List (Tensor ℝ)} {st : State}
    (h : init X p draws = .ok st) : ∀ M ∈ st.A, Real.sqrt (normSqT M) ^ p = Real.sqrt (normSqT X) := by
  unfold init at h
  cases h1 : draws.mapM (fun d => normInit X p (relu d)) with
  | error e => rw [h1] at h; cases h
  | ok A =>
      rw [h1, ok_bind] at h
      cases h
      have hf := mapM_inv h1
      intro M hM
      simp only at hM
      clear h1
      induction hf with
      | nil => cases hM
      | cons hx _ ih =>
          rcases List.mem_cons.1 hM with e | e
          · rw [e]; exact normInit_size hp hx
          · exact ih e

/-! ### Norm of a Kruskal tensor -/

theorem sum_mul_le_mul_sum {n : Nat} {f g : Nat → ℝ} (hf : ∀ i, 0 ≤ f i) (hg : ∀ i, 0 ≤ g i) :
    ∑ i ∈ Finset.range n, f i * g i ≤ (∑ i ∈ Finset.range n, f i) * ∑ i ∈ Finset.range n, g i := by
  rw [Finset.sum_mul]
  refine Finset.sum_le_sum fun i hi => mul_le_mul_of_nonneg_left ?_ (hf i)
  exact Finset.single_le_sum (fun j _ => hg j) hi

/-- `∏_k ∑_r A_k[i_k, r]²`. -/
noncomputable def rowSq (R : Nat) : List (Tensor ℝ) → List Nat → ℝ
  | M :: ms, i :: is => (∑ r ∈ Finset.range R, M.at_ [i, r] ^ 2) * rowSq R ms is
  | _, _ => 1

theorem khatri_sq_le (R : Nat) : ∀ (U : List (Tensor ℝ)) (i : List Nat), U ≠ [] → i.length = U.length →
    ∑ r ∈ Finset.range R, khatriEntry r U i ^ 2 ≤ rowSq R U i
  | [], _, h, _ => absurd rfl h
  | _ :: _, [], _, h => by simp at h
  | M :: [], i :: is, _, h => by
      have : is = [] := by simpa using h
      subst this
      simp [khatriEntry, rowSq]
  | M :: N :: ms, i :: is, _, h => by
      have ih := khatri_sq_le R (N :: ms) is (by simp) (by simpa using h)
      calc ∑ r ∈ Finset.range R, khatriEntry r (M :: N :: ms) (i :: is) ^ 2
          = ∑ r ∈ Finset.range R, M.at_ [i, r] ^ 2 * khatriEntry r (N :: ms) is ^ 2 :=
            Finset.sum_congr rfl fun r _ => by rw [khatriEntry, mul_pow]
        _ ≤ (∑ r ∈ Finset.range R, M.at_ [i, r] ^ 2) * ∑ r ∈ Finset.range R, khatriEntry r (N :: ms) is ^ 2 :=
            sum_mul_le_mul_sum (fun _ => sq_nonneg _) fun _ => sq_nonneg _
        _ ≤ _ := by
            rw [rowSq]
            exact mul_le_mul_of_nonneg_left ih (Finset.sum_nonneg fun _ _ => sq_nonneg _)

theorem kruskal_sq_le (R : Nat) (U : List (Tensor ℝ)) (i : List Nat) (h2 : 2 ≤ U.length) (hi : i.length = U.length) :
    (∑ r ∈ Finset.range R, khatriEntry r U i) ^ 2 ≤ rowSq R U i := by
  match U, i, h2, hi with
  | M :: N :: ms, i :: is, _, hi =>
      have := khatri_sq_le R (N :: ms) is (by simp) (by simpa using hi)
      calc (∑ r ∈ Finset.range R, khatriEntry r (M :: N :: ms) (i :: is)) ^ 2
          = (∑ r ∈ Finset.range R, M.at_ [i, r] * khatriEntry r (N :: ms) is) ^ 2 := rfl
        _ ≤ (∑ r ∈ Finset.range R, M.at_ [i, r] ^ 2) * ∑ r ∈ Finset.range R, khatriEntry r (N :: ms) is ^ 2 :=
            Finset.sum_mul_sq_le_sq_mul_sq _ _ _
        _ ≤ _ := by
            rw [rowSq]
            exact mul_le_mul_of_nonneg_left this (Finset.sum_nonneg fun _ _ => sq_nonneg _)

theorem boxSum_rowSq (R : Nat) : ∀ (shape : List Nat) (U : List (Tensor ℝ)), FactorsFor shape R U →
    boxSum shape (rowSq R U) = (U.map normSqT).prod
  | [], [], _ => rfl
  | [], _ :: _, h => by cases h
  | _ :: _, [], h => by cases h
  | d :: shape, M :: U, h => by
      have hM : M.shape = [d, R] := (List.cons.inj h).1
      have ih := boxSum_rowSq R shape U (List.cons.inj h).2
      rw [boxSum, List.map_cons, List.prod_cons, ← ih]
      simp only [rowSq]
      rw [Finset.sum_congr rfl fun i _ => boxSum_mul_left shape _ _, ← Finset.sum_mul]
      congr 1
      unfold normSqT
      rw [hM]
      simp [boxSum]

theorem length_of_inB {s i : List Nat} (h : InB s i) : i.length = s.length := h.length_eq

theorem kruskal_norm_le {shape : List Nat} {R : Nat} {U : List (Tensor ℝ)} (hU : FactorsFor shape R U)
    (h2 : 2 ≤ shape.length) :
    boxSum shape (fun i => (∑ r ∈ Finset.range R, khatriEntry r U i) ^ 2) ≤ (U.map normSqT).prod := by
  have hl : U.length = shape.length := by simpa using congrArg List.length hU
  rw [← boxSum_rowSq R shape U hU]
  exact loss.boxSum_le _ fun i hi => kruskal_sq_le R U i (by omega) (by rw [length_of_inB hi, hl])

/-! ### Norm of a Tucker tensor -/

theorem boxSum_kron_sq : ∀ (shape ranks : List Nat) (U : List (Tensor ℝ)),
    U.map Tensor.shape = (shape.zip ranks).map (fun p => [p.1, p.2]) → ranks.length = shape.length →
    boxSum shape (fun i => boxSum ranks fun j => kronEntry U i j ^ 2) = (U.map normSqT).prod
  | [], [], [], _, _ => by simp [boxSum, kronEntry]
  | [], [], _ :: _, h, _ => by simp at h
  | [], _ :: _, _, _, h => by simp at h
  | _ :: _, [], _, _, h => by simp at h
  | _ :: _, _ :: _, [], h, _ => by simp at h
  | d :: shape, r :: ranks, M :: U, h, hl => by
      have hM : M.shape = [d, r] := (List.cons.inj h).1
      have ih := boxSum_kron_sq shape ranks U (List.cons.inj h).2 (by simpa using hl)
      have e : ∀ i is, boxSum (r :: ranks) (fun j => kronEntry (M :: U) (i :: is) j ^ 2) =
          (∑ j ∈ Finset.range r, M.at_ [i, j] ^ 2) * boxSum ranks fun j => kronEntry U is j ^ 2 := by
        intro i is
        rw [boxSum, Finset.sum_mul]
        refine Finset.sum_congr rfl fun j _ => ?_
        rw [← boxSum_mul_left]
        exact boxSum_congr fun js _ => by rw [kronEntry, mul_pow]
      rw [boxSum, List.map_cons, List.prod_cons, ← ih]
      simp only [e]
      rw [Finset.sum_congr rfl fun i _ => boxSum_mul_left shape _ _, ← Finset.sum_mul]
      congr 1
      unfold normSqT
      rw [hM]
      simp [boxSum]

theorem boxSum_cauchy (s : List Nat) (f g : List Nat → ℝ) :
    boxSum s (fun i => f i * g i) ^ 2 ≤ boxSum s (fun i => f i ^ 2) * boxSum s (fun i => g i ^ 2) := by
  simp only [boxSum_eq_sum_range]
  exact Finset.sum_mul_sq_le_sq_mul_sq _ _ _

theorem tuckerShapes_zip : ∀ (shape ranks : List Nat), ranks.length = shape.length →
    tuckerShapes shape ranks = (shape.zip ranks).map fun p => [p.1, p.2] := by
  intro shape ranks h
  unfold tuckerShapes
  refine List.ext_getElem (by simp [h]) fun k h1 h2 => ?_
  have hk : k < shape.length := by simpa using h1
  simp [List.getD_eq_getElem?_getD, hk, h]

theorem tucker_norm_le {shape ranks : List Nat} {g : Tensor ℝ} {U : List (Tensor ℝ)} (hg : g.shape = ranks)
    (hU : U.map Tensor.shape = tuckerShapes shape ranks) (hr : ranks.length = shape.length) :
    boxSum shape (fun i => (boxSum g.shape fun j => g.at_ j * kronEntry U i j) ^ 2) ≤
      normSqT g * (U.map normSqT).prod := by
  rw [tuckerShapes_zip _ _ hr] at hU
  rw [← boxSum_kron_sq shape ranks U hU hr, ← boxSum_mul_left]
  refine loss.boxSum_le _ fun i _ => ?_
  rw [← hg]
  exact boxSum_cauchy _ _ _

theorem prod_of_size {c : ℝ} (hc : 0 ≤ c) {p : Nat} (hp : 0 < p) : ∀ {U : List (Tensor ℝ)},
    (∀ M ∈ U, Real.sqrt (normSqT M) ^ p = c ^ p) → (U.map normSqT).prod = (c ^ 2) ^ U.length
  | [], _ => by simp
  | M :: U, h => by
      have ih := prod_of_size hc hp (U := U) fun N hN => h N (List.mem_cons_of_mem _ hN)
      have e : Real.sqrt (normSqT M) = c :=
        (pow_left_injective₀' hp (Real.sqrt_nonneg _) hc (h M List.mem_cons_self))
      rw [List.map_cons, List.prod_cons, ih, List.length_cons, pow_succ, ← Real.sq_sqrt (normSqT_nonneg M), e]
      ring
where
  pow_left_injective₀' {a b : ℝ} {p : Nat} (hp : 0 < p) (ha : 0 ≤ a) (hb : 0 ≤ b) (h : a ^ p = b ^ p) : a = b :=
    (pow_left_inj₀ ha hb (by omega)).1 h

end TD.bcu
