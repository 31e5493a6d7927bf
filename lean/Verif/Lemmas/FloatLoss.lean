import Verif.Model.FloatLoss
import Verif.Spec.Rounding
import Verif.Lemmas.Loss
import Verif.Lemmas.Rounding
import Verif.Lemmas.Close

/-!
# Relative accuracy of sums of squares, quotients and roots
-/
namespace TD.Spec.Roundings
open TD fl Spec
variable {S : Arith} [S.NoUnderflow]

section
variable (hu : S.u < 1)
include hu

theorem q_pos : 0 < 1 - S.u := by linarith
theorem qpow_pos (k : Nat) : 0 < (1 - S.u) ^ k := pow_pos (q_pos hu) k
theorem qpow_le (k : Nat) : (1 - S.u) ^ k ≤ 1 := pow_le_one₀ (q_pos hu).le (by linarith [S.u_nonneg])

theorem refl (k : Nat) (x : ℝ) : Roundings S k x x := ⟨1, qpow_le hu k, by simpa using qpow_le hu k, by simp⟩

theorem mono {k l : Nat} {x y : ℝ} (h : Roundings S k x y) (hkl : k ≤ l) : Roundings S l x y := by
  obtain ⟨θ, h1, h2, h3⟩ := h
  have := pow_le_pow_of_le_one (q_pos hu).le (by linarith [S.u_nonneg]) hkl
  have hθ : 0 < θ := lt_of_lt_of_le (qpow_pos hu k) h1
  exact ⟨θ, this.trans h1, (mul_le_mul_of_nonneg_left this hθ.le).trans h2, h3⟩

theorem mul {k l : Nat} {x y x' y' : ℝ} (h : Roundings S k x y) (h' : Roundings S l x' y') : Roundings S (k + l) (x * x') (y * y') := by
  obtain ⟨θ, h1, h2, rfl⟩ := h
  obtain ⟨θ', h1', h2', rfl⟩ := h'
  have p := qpow_pos hu k
  have p' := qpow_pos hu l
  have t : 0 < θ := p.trans_le h1
  have t' : 0 < θ' := p'.trans_le h1'
  refine ⟨θ * θ', ?_, ?_, by ring⟩
  · rw [pow_add]; exact mul_le_mul h1 h1' p'.le t.le
  · rw [pow_add]
    calc θ * θ' * ((1 - S.u) ^ k * (1 - S.u) ^ l) = (θ * (1 - S.u) ^ k) * (θ' * (1 - S.u) ^ l) := by ring
      _ ≤ 1 * 1 := mul_le_mul h2 h2' (by positivity) (by norm_num)
      _ = 1 := by norm_num

theorem trans {k l : Nat} {x y z : ℝ} (h : Roundings S k x y) (h' : Roundings S l y z) : Roundings S (l + k) x z := by
  obtain ⟨θ, h1, h2, rfl⟩ := h
  have := mul hu h' (⟨θ, h1, h2, (mul_one θ).symm⟩ : Roundings S k θ 1)
  rwa [mul_one, mul_comm] at this

theorem inv {k : Nat} {x y : ℝ} (h : Roundings S k x y) : Roundings S k x⁻¹ y⁻¹ := by
  obtain ⟨θ, h1, h2, rfl⟩ := h
  have p := qpow_pos hu k
  have t : 0 < θ := p.trans_le h1
  refine ⟨θ⁻¹, ?_, ?_, mul_inv _ _⟩
  · rw [le_inv_comm₀ p t]
    rw [← one_div, le_div_iff₀ p]; exact h2
  · rw [inv_mul_le_iff₀ t]; simpa using h1

theorem div {k l : Nat} {x y x' y' : ℝ} (h : Roundings S k x y) (h' : Roundings S l x' y') : Roundings S (k + l) (x / x') (y / y') := by
  rw [div_eq_mul_inv, div_eq_mul_inv]
  exact mul hu h (inv hu h')

theorem sqrt {k : Nat} {x y : ℝ} (h : Roundings S (2 * k) x y) : Roundings S k (Real.sqrt x) (Real.sqrt y) := by
  obtain ⟨θ, h1, h2, rfl⟩ := h
  have p := qpow_pos hu k
  have t : 0 < θ := (qpow_pos hu (2 * k)).trans_le h1
  rw [mul_comm 2 k, pow_mul] at h1 h2
  refine ⟨Real.sqrt θ, Real.le_sqrt_of_sq_le h1, ?_, Real.sqrt_mul t.le _⟩
  rw [← Real.sqrt_sq p.le, ← Real.sqrt_mul t.le]
  exact Real.sqrt_le_one.2 h2

theorem add {k : Nat} {x y x' y' : ℝ} (hy : 0 ≤ y) (hy' : 0 ≤ y') (h : Roundings S k x y) (h' : Roundings S k x' y') :
    Roundings S k (x + x') (y + y') := by
  obtain ⟨θ, h1, h2, rfl⟩ := h
  obtain ⟨θ', h1', h2', rfl⟩ := h'
  rcases (add_nonneg hy hy').eq_or_lt with h0 | h0
  · have e1 : y = 0 := by linarith
    have e2 : y' = 0 := by linarith
    subst e1 e2
    simpa using refl hu k 0
  · have p := qpow_pos hu k
    refine ⟨(θ * y + θ' * y') / (y + y'), ?_, ?_, by field_simp⟩
    · rw [le_div_iff₀ h0]; nlinarith
    · rw [div_mul_eq_mul_div, div_le_one h0]; nlinarith

theorem rnd1 (x : ℝ) : Roundings S 1 (S.rnd x) x := by
  have h := S.rel_err x
  rcases eq_or_ne x 0 with rfl | hx
  · rw [S.rnd_zero]; exact refl hu 1 0
  · refine ⟨S.rnd x / x, ?_, ?_, by field_simp⟩
    all_goals
      have h2 : |S.rnd x / x - 1| ≤ S.u := by
        rw [show S.rnd x / x - 1 = (S.rnd x - x) / x by field_simp, abs_div, div_le_iff₀ (abs_pos.2 hx)]; exact h
      rw [abs_le] at h2
      rw [pow_one]
    · linarith
    · nlinarith [S.u_nonneg, q_pos hu]

theorem rnd {k : Nat} {x y : ℝ} (h : Roundings S k x y) : Roundings S (k + 1) (S.rnd x) y := trans hu (rnd1 hu x) h

theorem tree {ι : Type} (x y : ι → ℝ) (e : ι → Nat) (h : ∀ i, Roundings S (e i) (x i) (y i)) (hy : ∀ i, 0 ≤ y i) :
    ∀ t : Expr ι, 0 ≤ t.exact y ∧ Roundings S (t.passes e) (t.rounded S.rnd x) (t.exact y)
  | .leaf i => ⟨hy i, h i⟩
  | .zero => ⟨le_refl _, refl hu _ _⟩
  | .one => ⟨zero_le_one, refl hu _ _⟩
  | .add a b => by
      obtain ⟨a1, a2⟩ := tree x y e h hy a
      obtain ⟨b1, b2⟩ := tree x y e h hy b
      exact ⟨add_nonneg a1 b1, rnd hu (add hu a1 b1 (mono hu a2 (le_max_left _ _)) (mono hu b2 (le_max_right _ _)))⟩
  | .mul a b => by
      obtain ⟨a1, a2⟩ := tree x y e h hy a
      obtain ⟨b1, b2⟩ := tree x y e h hy b
      exact ⟨mul_nonneg a1 b1, rnd hu (mul hu a2 b2)⟩
  | .fma a b c => by
      obtain ⟨a1, a2⟩ := tree x y e h hy a
      obtain ⟨b1, b2⟩ := tree x y e h hy b
      obtain ⟨c1, c2⟩ := tree x y e h hy c
      exact ⟨add_nonneg (mul_nonneg a1 b1) c1, rnd hu (add hu (mul_nonneg a1 b1) c1
        (mono hu (mul hu a2 b2) (le_max_left _ _)) (mono hu c2 (le_max_right _ _)))⟩

/-- A sum of nonnegative terms. -/
theorem total {k : Nat} {ι : Type} (L : List ι) (g : ι → Fl S) (y : ι → ℝ) (h : ∀ i ∈ L, 0 ≤ y i ∧ Roundings S k (g i).val (y i)) :
    Roundings S (k + (L.length - 1)) (tf.Red.total (L.map g)).val (L.map y).sum := by
  have ht := tree hu (fun i => ((L.map g).getD i 0).val) (fun i => (L.map y).getD i 0) (fun _ => k) (fun i => by
    rcases Nat.lt_or_ge i L.length with hi | hi
    · have := (h L[i] (List.getElem_mem hi)).2
      simpa [hi] using this
    · simp only [List.getD_eq_getElem?_getD, List.getElem?_map, List.getElem?_eq_none hi]
      exact refl hu k 0) (fun i => by
    rcases Nat.lt_or_ge i L.length with hi | hi
    · have := (h L[i] (List.getElem_mem hi)).1
      simpa [hi] using this
    · simp [List.getD_eq_getElem?_getD, List.getElem?_map, List.getElem?_eq_none hi]) (S.sumTree L.length)
  rw [S.sum_exact] at ht
  have e : (List.range L.length).map (fun i => (L.map y).getD i 0) = L.map y := by
    have := map_getD_list (L.map y) 0 (fun x => x)
    rwa [List.map_id', List.length_map] at this
  rw [e] at ht
  have h2 := mono hu ht.2 (S.sum_passes L.length (fun _ => k) k fun _ _ => le_rfl)
  change Roundings S _ ((S.sumTree (L.map g).length).rounded S.rnd _) _
  rwa [List.length_map]

end

theorem val_mul (x y : Fl S) : (x * y).val = S.rnd (x.val * y.val) := rfl
theorem val_sub (x y : Fl S) : (x - y).val = S.rnd (x.val - y.val) := rfl

/-- A sum of squares. -/
theorem sumSq (hu : S.u < 1) {k : Nat} {s : List Nat} (g : List Nat → Fl S) (y : List Nat → ℝ)
    (h : ∀ i, InB s i → Roundings S k (g i).val (y i)) :
    Roundings S (2 * k + 1 + (s.prod - 1)) (fl.sumSq (Tensor.ofFn s g)).val (boxSum s fun i => y i ^ 2) := by
  have := total hu (k := 2 * k + 1) (indices s) (fun i => g i * g i) (fun i => y i ^ 2) (fun i hi => by
    refine ⟨sq_nonneg _, ?_⟩
    rw [val_mul, sq]
    have := rnd hu (mul hu (h i (mem_indices.1 hi)) (h i (mem_indices.1 hi)))
    rwa [← two_mul] at this)
  rw [length_indices] at this
  rw [fl.sumSq, tf.reduceSum, tf.map]
  simp only [Tensor.ofFn, List.map_map]
  rw [boxSum_eq_list_sum]
  exact this

theorem norm (hu : S.u < 1) {k m : Nat} {s : List Nat} (g : List Nat → Fl S) (y : List Nat → ℝ)
    (h : ∀ i, InB s i → Roundings S k (g i).val (y i)) (hm : 2 * k + 1 + (s.prod - 1) ≤ 2 * m) :
    Roundings S (m + 1) (fl.norm (Tensor.ofFn s g)).val (Real.sqrt (boxSum s fun i => y i ^ 2)) :=
  rnd hu (sqrt hu (mono hu (sumSq hu g y h) hm))

/-- The difference of two tensors is exact up to one rounding per entry. -/
theorem sub (hu : S.u < 1) (A B : Tensor (Fl S)) (i : List Nat) :
    Roundings S 1 (A.at_ i - B.at_ i).val ((vals A).at_ i - (vals B).at_ i) := by
  rw [at_vals, at_vals]
  exact rnd1 hu _

theorem eq_zero_iff (hu : S.u < 1) {k : Nat} {x y : ℝ} (h : Roundings S k x y) : x = 0 ↔ y = 0 := by
  obtain ⟨θ, h1, -, rfl⟩ := h
  have t : 0 < θ := (qpow_pos hu k).trans_le h1
  simp [t.ne']

/-- The form in which error bounds are usually given. -/
theorem relative (hu : S.u < 1) {k : Nat} {x y : ℝ} (h : Roundings S k x y) (hk : k * S.u ≤ 1 / 2) :
    |x - y| ≤ 2 * k * S.u * |y| := by
  obtain ⟨θ, h1, h2, rfl⟩ := h
  have hb : 1 - k * S.u ≤ (1 - S.u) ^ k := by
    have := one_add_mul_le_pow (a := -S.u) (by linarith) k
    rw [show 1 - S.u = 1 + -S.u by ring]
    linarith
  have hu0 := S.u_nonneg
  have hku : 0 ≤ k * S.u := by positivity
  rw [show θ * y - y = (θ - 1) * y by ring, abs_mul]
  refine mul_le_mul_of_nonneg_right (abs_le.2 ⟨by nlinarith, ?_⟩) (abs_nonneg _)
  have t : 0 < θ := (qpow_pos hu k).trans_le h1
  have h3 : θ * (1 - k * S.u) ≤ 1 := (mul_le_mul_of_nonneg_left hb t.le).trans h2
  have h4 : θ ≤ 2 := by nlinarith
  nlinarith

end TD.Spec.Roundings
