import Mathlib.Algebra.Order.Round
import Mathlib.Data.Int.Log
import Mathlib.Tactic.Linarith
import Mathlib.Tactic.FieldSimp
import Mathlib.Tactic.Positivity
import Mathlib.Tactic.NormNum
import Mathlib.Algebra.Order.Archimedean.Real.Basic
import Mathlib.Algebra.Order.Field.Power
import Mathlib.Tactic.Ring
import Verif.Model.Float

/-! # Round to nearest with `p` bits, and left-to-right evaluation: a concrete rounded arithmetic -/
namespace TD.fl
open TD

namespace Expr
variable {ι : Type}

/-- A sum, evaluated from one end. -/
def sumList : List (Expr ι) → Expr ι
  | [] => zero
  | [x] => x
  | x :: y :: l => add x (sumList (y :: l))

/-- A product, evaluated from one end. -/
def prodList : List (Expr ι) → Expr ι
  | [] => one
  | [x] => x
  | x :: y :: l => mul x (prodList (y :: l))

theorem sumList_exact (f : ι → ℝ) : ∀ l : List (Expr ι), (sumList l).exact f = (l.map fun t => t.exact f).sum
  | [] => rfl
  | [x] => by simp [sumList]
  | x :: y :: l => by
      rw [sumList, exact, sumList_exact f (y :: l)]; simp

theorem prodList_exact (f : ι → ℝ) : ∀ l : List (Expr ι), (prodList l).exact f = (l.map fun t => t.exact f).prod
  | [] => rfl
  | [x] => by simp [prodList]
  | x :: y :: l => by
      rw [prodList, exact, prodList_exact f (y :: l)]; simp

theorem sumList_passes (e : ι → Nat) (E : Nat) : ∀ l : List (Expr ι), (∀ t ∈ l, t.passes e ≤ E) →
    (sumList l).passes e ≤ E + (l.length - 1)
  | [], _ => Nat.zero_le _
  | [x], h => by simpa [sumList] using h x (by simp)
  | x :: y :: l, h => by
      have h1 := h x (by simp)
      have h2 := sumList_passes e E (y :: l) fun t ht => h t (by simp [ht])
      simp only [sumList, passes, List.length_cons] at h2 ⊢
      omega

theorem prodList_passes (e : ι → Nat) : ∀ l : List (Expr ι),
    (prodList l).passes e ≤ (l.map fun t => t.passes e).sum + (l.length - 1)
  | [] => Nat.zero_le _
  | [x] => by simp [prodList]
  | x :: y :: l => by
      have h2 := prodList_passes e (y :: l)
      simp only [prodList, passes, List.length_cons, List.map_cons, List.sum_cons] at h2 ⊢
      omega

end Expr

theorem round_mono_real {x y : ℝ} (h : x ≤ y) : round x ≤ round y := by
  rw [round_eq, round_eq]
  exact Int.floor_le_floor (by linarith)

/-- Rounding to the nearest number with `p` significant bits. -/
noncomputable def nearest (p : Nat) (x : ℝ) : ℝ :=
  round (x / 2 ^ (Int.log 2 |x| - (p - 1 : ℤ))) * 2 ^ (Int.log 2 |x| - (p - 1 : ℤ))

theorem nearest_err (p : Nat) (x : ℝ) : |nearest p x - x| ≤ 2⁻¹ ^ p * |x| := by
  by_cases hx : x = 0
  · subst hx; simp [nearest]
  have hx' : 0 < |x| := abs_pos.2 hx
  unfold nearest
  set L := Int.log 2 |x| with hL
  set e := L - (p - 1 : ℤ) with he
  have hpos : (0 : ℝ) < 2 ^ e := by positivity
  have h1 : |x - (round (x / 2 ^ e) : ℝ) * 2 ^ e| = |x / 2 ^ e - round (x / 2 ^ e)| * 2 ^ e := by
    rw [← abs_of_pos hpos, ← abs_mul, abs_of_pos hpos, sub_mul, div_mul_cancel₀ _ hpos.ne']
  rw [abs_sub_comm, h1]
  have h2 := abs_sub_round (x / 2 ^ e)
  have h3 : (2 : ℝ) ^ L ≤ |x| := by
    have := Int.zpow_log_le_self (b := 2) (r := |x|) (by norm_num) hx'
    simpa using this
  have h4 : (2 : ℝ) ^ e = 2⁻¹ ^ p * 2 * 2 ^ L := by
    rw [he, zpow_sub₀ (by norm_num), zpow_sub₀ (by norm_num), inv_pow]
    simp
    field_simp
  calc |x / 2 ^ e - round (x / 2 ^ e)| * 2 ^ e ≤ 1 / 2 * 2 ^ e := by
        exact mul_le_mul_of_nonneg_right h2 hpos.le
    _ = 2⁻¹ ^ p * 2 ^ L := by rw [h4]; ring
    _ ≤ 2⁻¹ ^ p * |x| := mul_le_mul_of_nonneg_left h3 (by positivity)

/-- A number with at most `p` significant bits is not changed. -/
theorem nearest_fix {p : Nat} (hp : 0 < p) {m : ℤ} {e : ℤ} (hm : |m| ≤ 2 ^ p) : nearest p (m * 2 ^ e) = m * 2 ^ e := by
  by_cases h0 : m = 0
  · subst h0; simp [nearest]
  unfold nearest
  have hx : 0 < |(m : ℝ) * 2 ^ e| := abs_pos.2 (mul_ne_zero (by exact_mod_cast h0) (by positivity))
  set L := Int.log 2 |(m : ℝ) * 2 ^ e| with hL
  have h3 : (2 : ℝ) ^ L ≤ |(m : ℝ) * 2 ^ e| := by
    have := Int.zpow_log_le_self (b := 2) (r := |(m : ℝ) * 2 ^ e|) (by norm_num) hx
    rwa [Nat.cast_ofNat] at this
  have habs : |(m : ℝ) * 2 ^ e| = |(m : ℝ)| * 2 ^ e := by rw [abs_mul, abs_of_pos (by positivity : (0 : ℝ) < 2 ^ e)]
  have hm' : |(m : ℝ)| ≤ 2 ^ p := by exact_mod_cast hm
  -- the quotient is an integer
  suffices h : ∃ k : ℤ, (m : ℝ) * 2 ^ e / 2 ^ (L - (p - 1 : ℤ)) = k by
    obtain ⟨k, hk⟩ := h
    rw [hk, round_intCast, ← hk, div_mul_cancel₀]
    positivity
  have hle : L ≤ e + p := by
    have : (2 : ℝ) ^ L ≤ 2 ^ (e + p) := by
      rw [habs] at h3
      refine h3.trans ?_
      rw [zpow_add₀ (by norm_num), mul_comm, zpow_natCast]
      exact mul_le_mul_of_nonneg_left hm' (by positivity)
    exact (zpow_le_zpow_iff_right₀ (by norm_num)).1 this
  rw [mul_div_assoc, ← zpow_sub₀ (by norm_num)]
  rcases lt_or_eq_of_le hle with hlt | heq
  · obtain ⟨n, hn⟩ := Int.eq_ofNat_of_zero_le (show 0 ≤ e - (L - (p - 1 : ℤ)) by omega)
    refine ⟨m * 2 ^ n, ?_⟩
    rw [hn]; simp
  · -- then `|m| = 2 ^ p`
    have hmp : |(m : ℝ)| = 2 ^ p := by
      refine le_antisymm hm' ?_
      rw [habs, heq, zpow_add₀ (by norm_num), mul_comm, zpow_natCast] at h3
      exact le_of_mul_le_mul_right h3 (by positivity)
    have hmz : |m| = 2 ^ p := by exact_mod_cast hmp
    obtain ⟨q, rfl⟩ : ∃ q, p = q + 1 := ⟨p - 1, by omega⟩
    have hd : (2 : ℤ) ∣ m := by
      rw [← dvd_abs, hmz]; exact dvd_pow_self _ (by omega)
    obtain ⟨k, rfl⟩ := hd
    refine ⟨k, ?_⟩
    rw [show e - (L - (((q + 1 : ℕ) : ℤ) - 1)) = -1 by omega]
    push_cast
    rw [zpow_neg_one]; field_simp

/-- Every rounded number has at most `p` significant bits. -/
theorem nearest_form (p : Nat) (x : ℝ) : ∃ m : ℤ, |m| ≤ 2 ^ p ∧ nearest p x = m * 2 ^ (Int.log 2 |x| - (p - 1 : ℤ)) := by
  refine ⟨round (x / 2 ^ (Int.log 2 |x| - (p - 1 : ℤ))), ?_, rfl⟩
  by_cases hx : x = 0
  · subst hx; simp
  have hx' : 0 < |x| := abs_pos.2 hx
  set L := Int.log 2 |x| with hL
  have h3 : |x| < 2 ^ (L + 1) := by
    have := Int.lt_zpow_succ_log_self (b := 2) (by norm_num) (|x|)
    simpa using this
  have hpos : (0 : ℝ) < 2 ^ (L - (p - 1 : ℤ)) := by positivity
  have h4 : |x / 2 ^ (L - (p - 1 : ℤ))| ≤ ((2 ^ p : ℤ) : ℝ) := by
    rw [abs_div, abs_of_pos hpos, div_le_iff₀ hpos]
    have : ((2 ^ p : ℤ) : ℝ) * 2 ^ (L - (p - 1 : ℤ)) = 2 ^ (L + 1) := by
      push_cast
      rw [← zpow_natCast, ← zpow_add₀ (by norm_num)]
      congr 1; ring
    rw [this]; exact h3.le
  rw [abs_le] at h4 ⊢
  constructor
  · have := round_mono_real h4.1
    rwa [show (-((2 ^ p : ℤ) : ℝ)) = ((-2 ^ p : ℤ) : ℝ) by push_cast; ring, round_intCast] at this
  · have := round_mono_real h4.2
    rwa [round_intCast] at this

/-- The arithmetic with `p` significant bits, round to nearest, sums from one end. -/
noncomputable def ieee (p : Nat) (hp : 0 < p) : Arith where
  rnd := nearest p
  u := 2⁻¹ ^ p
  u_nonneg := by positivity
  eta := 0
  eta_nonneg := le_rfl
  rnd_zero := by simp [nearest]
  rnd_rnd x := by
    obtain ⟨m, hm, h⟩ := nearest_form p x
    rw [h, nearest_fix hp hm]
  rnd_one := by
    have := nearest_fix hp (m := 1) (e := 0) (by simpa using one_le_pow₀ (by norm_num : (1 : ℤ) ≤ 2))
    simpa using this
  rnd_err x := by rw [add_zero]; exact nearest_err p x
  sumTree n := Expr.sumList ((List.range n).map Expr.leaf)
  sum_exact n f := by rw [Expr.sumList_exact, List.map_map]; rfl
  sum_passes n e E h := by
    refine (Expr.sumList_passes e E _ ?_).trans (by simp)
    intro t ht
    obtain ⟨i, hi, rfl⟩ := List.mem_map.1 ht
    exact h i (by simpa using hi)
  dotTree n := Expr.sumList ((List.range n).map fun i => .mul (.leaf (i, false)) (.leaf (i, true)))
  dot_exact n f := by rw [Expr.sumList_exact, List.map_map]; rfl
  dot_passes n e E E' h := by
    cases n with
    | zero => exact Nat.zero_le _
    | succ n =>
        refine (Expr.sumList_passes e (E + E' + 1) _ ?_).trans (by simp; omega)
        intro t ht
        obtain ⟨i, hi, rfl⟩ := List.mem_map.1 ht
        have := h i (by simpa using hi)
        simp only [Expr.passes]; omega
  einTree n dims := Expr.sumList ((indices dims).map fun v => Expr.prodList ((List.range n).map fun k => .leaf (v, k)))
  ein_exact n dims f := by
    rw [Expr.sumList_exact, List.map_map]
    congr 1
    refine List.map_congr_left fun v _ => ?_
    simp only [Function.comp_apply]
    rw [Expr.prodList_exact, List.map_map]; rfl
  ein_passes n dims e E h := by
    refine (Expr.sumList_passes e (((List.range n).map E).sum + (n - 1)) _ ?_).trans (by simp [length_indices])
    intro t ht
    obtain ⟨v, hv, rfl⟩ := List.mem_map.1 ht
    refine (Expr.prodList_passes e _).trans ?_
    rw [List.map_map, List.length_map, List.length_range]
    refine Nat.add_le_add_right (List.sum_le_sum fun k hk => ?_) _
    exact h v hv k (by simpa using hk)

instance (p : Nat) (hp : 0 < p) : (ieee p hp).NoUnderflow := ⟨rfl⟩

theorem nearest_nonneg (p : Nat) {x : ℝ} (h : 0 ≤ x) : 0 ≤ nearest p x := by
  unfold nearest
  refine mul_nonneg ?_ (by positivity)
  have := round_mono_real (div_nonneg h (by positivity : (0 : ℝ) ≤ 2 ^ (Int.log 2 |x| - (p - 1 : ℤ))))
  rw [round_zero] at this
  exact_mod_cast this

/-! ### Gradual underflow -/

/-- Rounding to the nearest number with `p` significant bits, among the multiples of `2 ^ emin`. -/
noncomputable def nearestSub (p : Nat) (emin : ℤ) (x : ℝ) : ℝ :=
  if emin ≤ Int.log 2 |x| - (p - 1 : ℤ) then nearest p x else round (x / 2 ^ emin) * 2 ^ emin

theorem nearestSub_err (p : Nat) (emin : ℤ) (x : ℝ) : |nearestSub p emin x - x| ≤ 2⁻¹ ^ p * |x| + 2 ^ (emin - 1) := by
  unfold nearestSub
  have h0 : (0 : ℝ) < 2 ^ (emin - 1) := by positivity
  split
  · have := nearest_err p x
    linarith
  · have hpos : (0 : ℝ) < 2 ^ emin := by positivity
    have h1 : |x - (round (x / 2 ^ emin) : ℝ) * 2 ^ emin| = |x / 2 ^ emin - round (x / 2 ^ emin)| * 2 ^ emin := by
      rw [← abs_of_pos hpos, ← abs_mul, abs_of_pos hpos, sub_mul, div_mul_cancel₀ _ hpos.ne']
    rw [abs_sub_comm, h1]
    have h2 := mul_le_mul_of_nonneg_right (abs_sub_round (x / 2 ^ emin)) hpos.le
    have h3 : (2 : ℝ) ^ (emin - 1) = 1 / 2 * 2 ^ emin := by
      rw [zpow_sub_one₀ (by norm_num)]; ring
    have h4 : 0 ≤ (2⁻¹ : ℝ) ^ p * |x| := by positivity
    linarith

theorem nearestSub_fix {p : Nat} (hp : 0 < p) {emin m e : ℤ} (hm : |m| ≤ 2 ^ p) (he : emin ≤ e) :
    nearestSub p emin (m * 2 ^ e) = m * 2 ^ e := by
  unfold nearestSub
  split
  · exact nearest_fix hp hm
  · obtain ⟨n, hn⟩ := Int.eq_ofNat_of_zero_le (show 0 ≤ e - emin by omega)
    have : (m : ℝ) * 2 ^ e / 2 ^ emin = ((m * 2 ^ n : ℤ) : ℝ) := by
      rw [mul_div_assoc, ← zpow_sub₀ (by norm_num), hn]; simp
    rw [this, round_intCast, ← this, div_mul_cancel₀]
    positivity

theorem nearestSub_form (p : Nat) (emin : ℤ) (x : ℝ) :
    ∃ m e : ℤ, |m| ≤ 2 ^ p ∧ emin ≤ e ∧ nearestSub p emin x = m * 2 ^ e := by
  unfold nearestSub
  split
  · rename_i h
    obtain ⟨m, hm, e⟩ := nearest_form p x
    exact ⟨m, _, hm, h, e⟩
  · rename_i h
    refine ⟨_, emin, ?_, le_rfl, rfl⟩
    have h3 : |x| < 2 ^ (Int.log 2 |x| + 1) := by
      have := Int.lt_zpow_succ_log_self (b := 2) (by norm_num) (|x|)
      simpa using this
    have hpos : (0 : ℝ) < 2 ^ emin := by positivity
    have h4 : |x / 2 ^ emin| ≤ ((2 ^ p : ℤ) : ℝ) := by
      rw [abs_div, abs_of_pos hpos, div_le_iff₀ hpos]
      have : ((2 ^ p : ℤ) : ℝ) * 2 ^ emin = 2 ^ (p + emin) := by
        push_cast
        rw [← zpow_natCast, ← zpow_add₀ (by norm_num)]
      rw [this]
      exact h3.le.trans (zpow_le_zpow_right₀ (by norm_num) (by omega))
    rw [abs_le] at h4 ⊢
    constructor
    · have := round_mono_real h4.1
      rwa [show (-((2 ^ p : ℤ) : ℝ)) = ((-2 ^ p : ℤ) : ℝ) by push_cast; ring, round_intCast] at this
    · have := round_mono_real h4.2
      rwa [round_intCast] at this

theorem nearestSub_nonneg (p : Nat) (emin : ℤ) {x : ℝ} (h : 0 ≤ x) : 0 ≤ nearestSub p emin x := by
  unfold nearestSub
  split
  · exact nearest_nonneg p h
  · refine mul_nonneg ?_ (by positivity)
    have := round_mono_real (div_nonneg h (by positivity : (0 : ℝ) ≤ 2 ^ emin))
    rw [round_zero] at this
    exact_mod_cast this

/-- The arithmetic with `p` significant bits and the smallest positive number `2 ^ emin`, round to nearest, sums from one end. -/
noncomputable def ieeeSub (p : Nat) (hp : 0 < p) (emin : ℤ) (he : emin ≤ 0) : Arith where
  __ := ieee p hp
  rnd := nearestSub p emin
  eta := 2 ^ (emin - 1)
  eta_nonneg := by positivity
  rnd_zero := by
    have := nearestSub_fix hp (emin := emin) (m := 0) (e := 0) (by positivity) he
    simpa using this
  rnd_rnd x := by
    obtain ⟨m, e, hm, h', h⟩ := nearestSub_form p emin x
    rw [h, nearestSub_fix hp hm h']
  rnd_one := by
    have := nearestSub_fix hp (emin := emin) (m := 1) (e := 0) (by simpa using one_le_pow₀ (by norm_num : (1 : ℤ) ≤ 2)) he
    simpa using this
  rnd_err := nearestSub_err p emin

/-- float32: 24 bits, smallest positive number `2⁻¹⁴⁹`. -/
noncomputable def float32 : Arith := ieeeSub 24 (by omega) (-149) (by omega)

end TD.fl
