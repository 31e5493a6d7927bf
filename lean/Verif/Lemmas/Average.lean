import Mathlib.Algebra.BigOperators.Ring.Finset
import Mathlib.Algebra.BigOperators.Field
import Mathlib.Data.Fintype.BigOperators
import Mathlib.Data.Real.Basic
import Mathlib.Tactic.FieldSimp
import Mathlib.Tactic.Ring
import Mathlib.Tactic.Linarith
import Verif.Spec.Average

/-! # Averages over independent draws -/
namespace TD.Spec

variable {ι P : Type} [Fintype ι] [Fintype P]

theorem average_congr {f g : ι → ℝ} (h : ∀ i, f i = g i) : average f = average g := by rw [funext h]

theorem average_add (f g : ι → ℝ) : average (fun i => f i + g i) = average f + average g := by
  simp only [average, Finset.sum_add_distrib, add_div]

theorem average_sub (f g : ι → ℝ) : average (fun i => f i - g i) = average f - average g := by
  simp only [average, Finset.sum_sub_distrib, sub_div]

theorem average_mul (c : ℝ) (f : ι → ℝ) : average (fun i => c * f i) = c * average f := by
  simp only [average, ← Finset.mul_sum, mul_div_assoc]

theorem average_sum {κ : Type} (s : Finset κ) (f : κ → ι → ℝ) :
    average (fun i => ∑ k ∈ s, f k i) = ∑ k ∈ s, average (f k) := by
  simp only [average]
  rw [Finset.sum_comm, Finset.sum_div]

theorem average_const [Nonempty ι] (c : ℝ) : average (fun _ : ι => c) = c := by
  have : (Fintype.card ι : ℝ) ≠ 0 := Nat.cast_ne_zero.2 Fintype.card_ne_zero
  simp only [average, Finset.sum_const, Finset.card_univ, nsmul_eq_mul]
  field_simp

theorem average_equiv {κ : Type} [Fintype κ] (e : κ ≃ ι) (f : ι → ℝ) : average (fun k => f (e k)) = average f := by
  simp only [average]
  rw [Fintype.card_congr e, Equiv.sum_comp e f]

/-- Independent draws: the average of a product over all choices is the product of the averages. -/
theorem average_pi {m : Nat} (h : Fin m → P → ℝ) : average (fun f : Fin m → P => ∏ k, h k (f k)) = ∏ k, average (h k) := by
  simp only [average]
  rw [Finset.prod_div_distrib]
  congr 1
  · rw [Finset.prod_univ_sum, Fintype.piFinset_univ]
  · simp

theorem average_one [Nonempty P] {m : Nat} (g : P → ℝ) (k : Fin m) : average (fun f : Fin m → P => g (f k)) = average g := by
  have := average_pi (m := m) (fun l p => if l = k then g p else 1)
  have e : ∀ f : Fin m → P, (∏ l, if l = k then g (f l) else 1) = g (f k) := by
    intro f
    rw [Finset.prod_ite_eq' Finset.univ k (fun l => g (f l))]
    simp
  rw [average_congr e] at this
  rw [this]
  have e' : ∀ l : Fin m, average (fun p => if l = k then g p else 1) = if l = k then average g else 1 := by
    intro l
    split
    · rfl
    · exact average_const 1
  rw [Finset.prod_congr rfl fun l _ => e' l, Finset.prod_ite_eq']
  simp

theorem average_two [Nonempty P] {m : Nat} (g : P → ℝ) (k l : Fin m) (hkl : k ≠ l) :
    average (fun f : Fin m → P => g (f k) * g (f l)) = average g * average g := by
  have := average_pi (m := m) (fun j p => (if j = k then g p else 1) * (if j = l then g p else 1))
  have e : ∀ f : Fin m → P, (∏ j, (if j = k then g (f j) else 1) * (if j = l then g (f j) else 1)) = g (f k) * g (f l) := by
    intro f
    rw [Finset.prod_mul_distrib, Finset.prod_ite_eq' Finset.univ k (fun l => g (f l)),
      Finset.prod_ite_eq' Finset.univ l (fun l => g (f l))]
    simp
  rw [average_congr e] at this
  rw [this]
  have e' : ∀ j : Fin m, average (fun p => (if j = k then g p else 1) * (if j = l then g p else 1))
      = (if j = k then average g else 1) * (if j = l then average g else 1) := by
    intro j
    by_cases h1 : j = k
    · subst h1
      simp [hkl]
    · by_cases h2 : j = l
      · subst h2
        simp [h1]
      · simp only [h1, h2, if_false, mul_one]
        exact average_const 1
  rw [Finset.prod_congr rfl fun l _ => e' l, Finset.prod_mul_distrib, Finset.prod_ite_eq', Finset.prod_ite_eq']
  simp

/-- The mean of `m` independent draws is on average the mean of all values. -/
theorem average_mean [Nonempty P] {m : Nat} (hm : 0 < m) (g : P → ℝ) :
    average (fun f : Fin m → P => (∑ k, g (f k)) / m) = average g := by
  have h0 : (m : ℝ) ≠ 0 := Nat.cast_ne_zero.2 hm.ne'
  have e : ∀ f : Fin m → P, (∑ k, g (f k)) / m = (m : ℝ)⁻¹ * ∑ k, g (f k) := fun f => by rw [div_eq_inv_mul]
  rw [average_congr e, average_mul, average_sum]
  simp only [average_one g, Finset.sum_const, Finset.card_univ, Fintype.card_fin, nsmul_eq_mul]
  field_simp

/-- The mean of `m` independent draws deviates from the mean of all values by `1/m` of the variance, in the mean square. -/
theorem average_variance [Nonempty P] {m : Nat} (hm : 0 < m) (g : P → ℝ) :
    average (fun f : Fin m → P => ((∑ k, g (f k)) / m - average g) ^ 2) = average (fun p => (g p - average g) ^ 2) / m := by
  have h0 : (m : ℝ) ≠ 0 := Nat.cast_ne_zero.2 hm.ne'
  set c := average g with hc
  have hz : average (fun p => g p - c) = 0 := by
    rw [average_sub, average_const, ← hc, sub_self]
  have e : ∀ f : Fin m → P, ((∑ k, g (f k)) / m - c) ^ 2 = ((m : ℝ)⁻¹) ^ 2 * ∑ k, ∑ l, (g (f k) - c) * (g (f l) - c) := by
    intro f
    rw [← Finset.sum_mul_sum, ← pow_two, ← mul_pow]
    congr 1
    rw [Finset.sum_sub_distrib]
    simp only [Finset.sum_const, Finset.card_univ, Fintype.card_fin, nsmul_eq_mul]
    field_simp
  rw [average_congr e, average_mul, average_sum]
  have e2 : ∀ k : Fin m, average (fun f : Fin m → P => ∑ l, (g (f k) - c) * (g (f l) - c)) = average (fun p => (g p - c) ^ 2) := by
    intro k
    rw [average_sum, Finset.sum_eq_single k]
    · rw [← average_one (fun p => (g p - c) ^ 2) k]
      exact average_congr fun f => by ring
    · intro l _ hl
      rw [average_two (fun p => g p - c) k l hl.symm, hz, mul_zero]
    · intro h; exact absurd (Finset.mem_univ _) h
  rw [Finset.sum_congr rfl fun k _ => e2 k]
  simp only [Finset.sum_const, Finset.card_univ, Fintype.card_fin, nsmul_eq_mul]
  field_simp

/-- No draw meets a condition. -/
theorem average_none [Nonempty P] {m : Nat} (q : P → Prop) [DecidablePred q] :
    average (fun f : Fin m → P => if ∃ k, q (f k) then (1 : ℝ) else 0) = 1 - (1 - average fun p => if q p then (1 : ℝ) else 0) ^ m := by
  have e : ∀ f : Fin m → P, (if ∃ k, q (f k) then (1 : ℝ) else 0) = 1 - ∏ k, (1 - if q (f k) then (1 : ℝ) else 0) := by
    intro f
    split
    · rename_i h
      obtain ⟨k, hk⟩ := h
      rw [Finset.prod_eq_zero (Finset.mem_univ k) (by simp [hk]), sub_zero]
    · rename_i h
      rw [Finset.prod_eq_one, sub_self]
      intro k _
      rw [if_neg (fun hk => h ⟨k, hk⟩), sub_zero]
  rw [average_congr e, average_sub, average_const, average_pi (fun _ p => 1 - if q p then (1 : ℝ) else 0)]
  rw [Finset.prod_const, Finset.card_univ, Fintype.card_fin, average_sub, average_const]

variable {a b c : Nat}

theorem average_cell01 (ha : 0 < a) (hb : 0 < b) (hc : 0 < c) (i : Fin a) (j : Fin b) :
    average (fun p : Fin a × Fin b × Fin c => if (p.1, p.2.1) = (i, j) then (1 : ℝ) else 0) = 1 / ((a : ℝ) * b) := by
  have h0 : (a : ℝ) ≠ 0 := Nat.cast_ne_zero.2 ha.ne'
  have h1 : (b : ℝ) ≠ 0 := Nat.cast_ne_zero.2 hb.ne'
  have h2 : (c : ℝ) ≠ 0 := Nat.cast_ne_zero.2 hc.ne'
  simp only [average, Fintype.sum_prod_type, Prod.mk.injEq, Fintype.card_prod, Fintype.card_fin, Nat.cast_mul]
  have : ∀ x : Fin a, (∑ y : Fin b, ∑ _z : Fin c, if x = i ∧ y = j then (1 : ℝ) else 0) = if x = i then (c : ℝ) else 0 := by
    intro x
    by_cases hx : x = i
    · simp only [hx, true_and, if_true]
      rw [Finset.sum_eq_single j]
      · simp
      · intro y _ hy; simp [hy]
      · intro h; exact absurd (Finset.mem_univ _) h
    · simp [hx]
  rw [Finset.sum_congr rfl fun x _ => this x, Finset.sum_ite_eq' Finset.univ i, if_pos (Finset.mem_univ _)]
  field_simp

theorem average_cell12 (ha : 0 < a) (hb : 0 < b) (hc : 0 < c) (i : Fin b) (j : Fin c) :
    average (fun p : Fin a × Fin b × Fin c => if (p.2.1, p.2.2) = (i, j) then (1 : ℝ) else 0) = 1 / ((b : ℝ) * c) := by
  have h0 : (a : ℝ) ≠ 0 := Nat.cast_ne_zero.2 ha.ne'
  have h1 : (b : ℝ) ≠ 0 := Nat.cast_ne_zero.2 hb.ne'
  have h2 : (c : ℝ) ≠ 0 := Nat.cast_ne_zero.2 hc.ne'
  simp only [average, Fintype.sum_prod_type, Prod.mk.injEq, Fintype.card_prod, Fintype.card_fin, Nat.cast_mul]
  have : (∑ y : Fin b, ∑ z : Fin c, if y = i ∧ z = j then (1 : ℝ) else 0) = 1 := by
    rw [Finset.sum_eq_single i]
    · simp
    · intro y _ hy; simp [hy]
    · intro h; exact absurd (Finset.mem_univ _) h
  rw [Finset.sum_congr rfl fun x _ => this]
  simp only [Finset.sum_const, Finset.card_univ, Fintype.card_fin, nsmul_eq_mul, mul_one]
  field_simp

theorem average_cell20 (ha : 0 < a) (hb : 0 < b) (hc : 0 < c) (i : Fin c) (j : Fin a) :
    average (fun p : Fin a × Fin b × Fin c => if (p.2.2, p.1) = (i, j) then (1 : ℝ) else 0) = 1 / ((c : ℝ) * a) := by
  have h0 : (a : ℝ) ≠ 0 := Nat.cast_ne_zero.2 ha.ne'
  have h1 : (b : ℝ) ≠ 0 := Nat.cast_ne_zero.2 hb.ne'
  have h2 : (c : ℝ) ≠ 0 := Nat.cast_ne_zero.2 hc.ne'
  simp only [average, Fintype.sum_prod_type, Prod.mk.injEq, Fintype.card_prod, Fintype.card_fin, Nat.cast_mul]
  have : ∀ x : Fin a, (∑ _y : Fin b, ∑ z : Fin c, if z = i ∧ x = j then (1 : ℝ) else 0) = if x = j then (b : ℝ) else 0 := by
    intro x
    by_cases hx : x = j
    · have : (∑ z : Fin c, if z = i ∧ x = j then (1 : ℝ) else 0) = 1 := by simp [hx]
      rw [Finset.sum_congr rfl fun y _ => this]
      simp [hx]
    · simp [hx]
  rw [Finset.sum_congr rfl fun x _ => this x, Finset.sum_ite_eq' Finset.univ j, if_pos (Finset.mem_univ _)]
  field_simp

end TD.Spec
