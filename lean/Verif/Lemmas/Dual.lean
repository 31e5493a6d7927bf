import Mathlib.Data.Matrix.Mul
import Mathlib.Topology.Algebra.InfiniteSum.Real
import Mathlib.Topology.MetricSpace.Sequences
import Mathlib.Topology.Algebra.Module.FiniteDimension
import Mathlib.LinearAlgebra.Matrix.ToLin
import Mathlib.Algebra.Order.Chebyshev
import Mathlib.Analysis.Real.Sqrt
import Mathlib.Tactic.Linarith
import Mathlib.Tactic.Ring

/-!
# Dual ascent

Minimise `h(x) + ½|x|²` subject to `Aᵀ x = b` by gradient ascent on the dual problem.
-/
namespace TD.dual
open Matrix Filter Topology
variable {ι κ : Type} [Fintype ι] [Fintype κ]

/-- The data of a problem: `pr z` minimises `h(x) + ½|x|² - x·z`. -/
structure Problem (ι κ : Type) [Fintype ι] [Fintype κ] where
  A : Matrix ι κ ℝ
  h : (ι → ℝ) → ℝ
  pr : (ι → ℝ) → ι → ℝ
  L : ℝ
  c : ℝ
  align_le : ∀ y N, N ⬝ᵥ (A *ᵥ y - pr (A *ᵥ y)) ≤ h N
  align_eq : ∀ y, pr (A *ᵥ y) ⬝ᵥ (A *ᵥ y - pr (A *ᵥ y)) = h (pr (A *ᵥ y))
  bound : ∀ x, (x ᵥ* A) ⬝ᵥ (x ᵥ* A) ≤ L * (x ⬝ᵥ x)
  hbound : ∀ N, h N ≤ c * √(N ⬝ᵥ N)

namespace Problem
variable (p : Problem ι κ)

/-- The primal point belonging to `y`. -/
def x (y : κ → ℝ) : ι → ℝ := p.pr (p.A *ᵥ y)

theorem sq_nonneg' {ι : Type} [Fintype ι] (v : ι → ℝ) : 0 ≤ v ⬝ᵥ v :=
  Finset.sum_nonneg fun i _ => mul_self_nonneg (v i)

theorem eq_zero_of_self {ι : Type} [Fintype ι] {v : ι → ℝ} (h : v ⬝ᵥ v = 0) : v = 0 := by
  funext i
  have := (Finset.sum_eq_zero_iff_of_nonneg (fun i _ => mul_self_nonneg (v i))).1 h i (Finset.mem_univ i)
  exact mul_self_eq_zero.1 this

theorem firm (y y' : κ → ℝ) :
    (p.x y - p.x y') ⬝ᵥ (p.x y - p.x y') ≤ (y - y') ⬝ᵥ ((p.x y - p.x y') ᵥ* p.A) := by
  have a := p.align_le y (p.x y')
  have b := p.align_le y' (p.x y)
  have a' := p.align_eq y
  have b' := p.align_eq y'
  have e : (y - y') ⬝ᵥ ((p.x y - p.x y') ᵥ* p.A) = (p.x y - p.x y') ⬝ᵥ (p.A *ᵥ y - p.A *ᵥ y') := by
    rw [dotProduct_comm, ← dotProduct_mulVec, mulVec_sub]
  rw [e]
  unfold x at *
  simp only [sub_dotProduct, dotProduct_sub] at *
  linarith

theorem bound' (hL : 0 ≤ p.L) (y : κ → ℝ) : (p.A *ᵥ y) ⬝ᵥ (p.A *ᵥ y) ≤ p.L * (y ⬝ᵥ y) := by
  set v := p.A *ᵥ y with hv
  have h1 : v ⬝ᵥ v = (v ᵥ* p.A) ⬝ᵥ y := by rw [hv, ← dotProduct_mulVec]
  have h2 : (v ⬝ᵥ v) ^ 2 ≤ ((v ᵥ* p.A) ⬝ᵥ (v ᵥ* p.A)) * (y ⬝ᵥ y) := by
    rw [h1]
    have := Finset.sum_mul_sq_le_sq_mul_sq Finset.univ (v ᵥ* p.A) y
    simpa only [dotProduct, sq] using this
  have h3 := p.bound v
  have h4 := sq_nonneg' v
  have h5 := sq_nonneg' y
  rcases eq_or_lt_of_le h4 with h0 | h0
  · rw [← h0]; positivity
  · have : (v ⬝ᵥ v) ^ 2 ≤ (p.L * (v ⬝ᵥ v)) * (y ⬝ᵥ y) := h2.trans (mul_le_mul_of_nonneg_right h3 h5)
    nlinarith

/-- The dual objective. -/
noncomputable def D (b : κ → ℝ) (y : κ → ℝ) : ℝ := b ⬝ᵥ y - (p.x y ⬝ᵥ p.x y) / 2

theorem weak_duality {b : κ → ℝ} {x0 : ι → ℝ} (h0 : x0 ᵥ* p.A = b) (y : κ → ℝ) :
    p.D b y + ((x0 - p.x y) ⬝ᵥ (x0 - p.x y)) / 2 ≤ p.h x0 + (x0 ⬝ᵥ x0) / 2 := by
  have a := p.align_le y x0
  have e : b ⬝ᵥ y = x0 ⬝ᵥ (p.A *ᵥ y) := by rw [← h0, dotProduct_mulVec]
  unfold D x at *
  rw [e]
  simp only [sub_dotProduct, dotProduct_sub] at *
  rw [dotProduct_comm (p.pr _) x0]
  linarith

/-- One step of the method. -/
def step (b : κ → ℝ) (d : ℝ) (y : κ → ℝ) : κ → ℝ := y + d • (b - p.x y ᵥ* p.A)

theorem ascent (hL : 0 ≤ p.L) (b : κ → ℝ) (d : ℝ) (y : κ → ℝ) :
    p.D b y + d * (1 - d * p.L / 2) * ((b - p.x y ᵥ* p.A) ⬝ᵥ (b - p.x y ᵥ* p.A)) ≤ p.D b (p.step b d y) := by
  set e := b - p.x y ᵥ* p.A with he
  set y' := p.step b d y with hy'
  have hz : p.A *ᵥ y' = p.A *ᵥ y + d • (p.A *ᵥ e) := by
    rw [hy', step, mulVec_add, mulVec_smul]
  have a := p.align_le y (p.x y')
  have a' := p.align_eq y'
  have b1 := p.bound' hL e
  have hb : b ⬝ᵥ y' = b ⬝ᵥ y + d * (e ⬝ᵥ e) + d * (p.x y ⬝ᵥ (p.A *ᵥ e)) := by
    have e1 : b = e + p.x y ᵥ* p.A := by rw [he]; abel
    have e2 : y' = y + d • e := rfl
    rw [e2, dotProduct_add, dotProduct_smul, smul_eq_mul]
    have : b ⬝ᵥ e = e ⬝ᵥ e + p.x y ⬝ᵥ (p.A *ᵥ e) := by
      conv_lhs => rw [e1]
      rw [add_dotProduct, dotProduct_mulVec]
    rw [this]; ring
  -- the conjugate function has a Lipschitz gradient
  have key : p.x y' ⬝ᵥ p.x y' / 2 - p.x y ⬝ᵥ p.x y / 2 ≤
      p.x y ⬝ᵥ (d • (p.A *ᵥ e)) + ((d • (p.A *ᵥ e)) ⬝ᵥ (d • (p.A *ᵥ e))) / 2 := by
    have hs := sq_nonneg' (p.x y' - p.x y - d • (p.A *ᵥ e))
    unfold x at *
    rw [hz] at *
    simp only [sub_dotProduct, dotProduct_sub, dotProduct_add, add_dotProduct, dotProduct_comm (d • (p.A *ᵥ e))] at *
    rw [dotProduct_comm (p.pr (p.A *ᵥ y)) (p.pr (p.A *ᵥ y + d • (p.A *ᵥ e)))] at hs
    linarith
  have h2 : (d • (p.A *ᵥ e)) ⬝ᵥ (d • (p.A *ᵥ e)) ≤ d ^ 2 * (p.L * (e ⬝ᵥ e)) := by
    simp only [dotProduct_smul, smul_dotProduct, smul_eq_mul]
    nlinarith [sq_nonneg d]
  unfold D
  rw [hb]
  rw [dotProduct_smul, smul_eq_mul] at key
  nlinarith

theorem error_decreases (b : κ → ℝ) {d : ℝ} (hd : 0 ≤ d) (hdL : d * p.L ≤ 2) (y : κ → ℝ) :
    (b - p.x (p.step b d y) ᵥ* p.A) ⬝ᵥ (b - p.x (p.step b d y) ᵥ* p.A) ≤
      (b - p.x y ᵥ* p.A) ⬝ᵥ (b - p.x y ᵥ* p.A) := by
  set e := b - p.x y ᵥ* p.A with he
  have hf := p.firm (p.step b d y) y
  have hb := p.bound (p.x (p.step b d y) - p.x y)
  set g := (p.x (p.step b d y) - p.x y) ᵥ* p.A with hg
  have e1 : p.step b d y - y = d • e := by rw [step, he]; abel
  have e2 : b - p.x (p.step b d y) ᵥ* p.A = e - g := by rw [he, hg, sub_vecMul]; abel
  rw [e1, smul_dotProduct, smul_eq_mul] at hf
  rw [e2]
  have hq := sq_nonneg' (p.x (p.step b d y) - p.x y)
  generalize (p.x (p.step b d y) - p.x y) ⬝ᵥ (p.x (p.step b d y) - p.x y) = Q at *
  simp only [sub_dotProduct, dotProduct_sub, dotProduct_comm g e]
  rcases eq_or_lt_of_le hd with h0 | h0
  · subst h0
    have hQ : Q = 0 := le_antisymm (by simpa using hf) hq
    rw [hQ, mul_zero] at hb
    have hg0 : g = 0 := by
      have := le_antisymm hb (sq_nonneg' g)
      exact eq_zero_of_self this
    rw [hg0]; simp
  · have h1 : d * (g ⬝ᵥ g) ≤ 2 * Q := by
      calc d * (g ⬝ᵥ g) ≤ d * (p.L * Q) := mul_le_mul_of_nonneg_left hb hd
        _ = d * p.L * Q := by ring
        _ ≤ 2 * Q := mul_le_mul_of_nonneg_right hdL hq
    nlinarith

/-- The iterates. -/
def iter (b : κ → ℝ) (d : ℝ) (y0 : κ → ℝ) : Nat → κ → ℝ
  | 0 => y0
  | k + 1 => p.step b d (iter b d y0 k)

theorem pos_coeff {d L : ℝ} (hd : 0 < d) (hdL : d * L < 2) : 0 < d * (1 - d * L / 2) :=
  mul_pos hd (by linarith)

theorem error_tendsto (hL : 0 ≤ p.L) {b : κ → ℝ} {x0 : ι → ℝ} (h0 : x0 ᵥ* p.A = b) {d : ℝ} (hd : 0 < d)
    (hdL : d * p.L < 2) (y0 : κ → ℝ) :
    Tendsto (fun k => (b - p.x (p.iter b d y0 k) ᵥ* p.A) ⬝ᵥ (b - p.x (p.iter b d y0 k) ᵥ* p.A)) atTop (𝓝 0) := by
  have hc := pos_coeff hd hdL
  set f := fun k => (b - p.x (p.iter b d y0 k) ᵥ* p.A) ⬝ᵥ (b - p.x (p.iter b d y0 k) ᵥ* p.A) with hf
  set C := d * (1 - d * p.L / 2) with hC
  have hsum : ∀ n, ∑ k ∈ Finset.range n, f k ≤ (p.h x0 + (x0 ⬝ᵥ x0) / 2 - p.D b y0) / C := by
    intro n
    rw [le_div_iff₀ hc]
    have h1 : p.D b y0 + (∑ k ∈ Finset.range n, f k) * C ≤ p.D b (p.iter b d y0 n) := by
      induction n with
      | zero => simp [iter]
      | succ n ih =>
          have := p.ascent hL b d (p.iter b d y0 n)
          rw [Finset.sum_range_succ, add_mul]
          change _ ≤ p.D b (p.step b d (p.iter b d y0 n))
          simp only [hf] at ih ⊢
          rw [← hC] at this
          linarith
    have h2 := p.weak_duality h0 (p.iter b d y0 n)
    have h3 := sq_nonneg' (x0 - p.x (p.iter b d y0 n))
    linarith
  exact (summable_of_sum_range_le (fun k => sq_nonneg' _) hsum).tendsto_atTop_zero

theorem continuous_of_nonexpansive {f : (ι → ℝ) → ι → ℝ}
    (h : ∀ v w, (f v - f w) ⬝ᵥ (f v - f w) ≤ (v - w) ⬝ᵥ (v - w)) : Continuous f := by
  refine continuous_pi fun i => continuous_iff_continuousAt.2 fun v => ?_
  rw [ContinuousAt, tendsto_iff_norm_sub_tendsto_zero]
  have h1 : Continuous fun w : ι → ℝ => √((w - v) ⬝ᵥ (w - v)) := by
    unfold dotProduct
    simp only [Pi.sub_apply]
    fun_prop
  have h2 := h1.tendsto v
  rw [sub_self, zero_dotProduct, Real.sqrt_zero] at h2
  refine squeeze_zero (fun w => norm_nonneg _) (fun w => ?_) h2
  refine Real.abs_le_sqrt (le_trans ?_ (h w v))
  rw [sq]
  exact Finset.single_le_sum (f := fun i => (f w - f v) i * (f w - f v) i) (fun i _ => mul_self_nonneg _)
    (Finset.mem_univ i)

/-- A dual solution exists. -/
theorem exists_multiplier (hL : 0 ≤ p.L) {b : κ → ℝ} {x0 : ι → ℝ} (h0 : x0 ᵥ* p.A = b)
    (hcont : Continuous p.pr) : ∃ y, p.x y ᵥ* p.A = b := by
  classical
  -- any admissible step size
  obtain ⟨d, hd, hdL⟩ : ∃ d : ℝ, 0 < d ∧ d * p.L < 2 := by
    refine ⟨1 / (p.L + 1), by positivity, ?_⟩
    rw [one_div, inv_mul_eq_div, div_lt_iff₀ (by positivity)]
    linarith
  set y := p.iter b d 0 with hy
  set z := fun k => p.A *ᵥ y k with hz
  have hD : ∀ k, p.D b 0 ≤ p.D b (y k) := by
    intro k
    induction k with
    | zero => exact le_refl _
    | succ k ih =>
        have h1 := p.ascent hL b d (y k)
        have h2 := mul_nonneg (pos_coeff hd hdL).le (sq_nonneg' (b - p.x (y k) ᵥ* p.A))
        exact ih.trans (le_trans (by linarith) h1)
  -- the primal points and the arguments of `pr` stay bounded
  have hc0 : 0 ≤ p.c ∨ ∀ v : ι → ℝ, v ⬝ᵥ v = 0 := by
    by_cases hcc : 0 ≤ p.c
    · exact Or.inl hcc
    · right
      intro v
      by_contra hv
      have hv' : 0 < v ⬝ᵥ v := lt_of_le_of_ne (sq_nonneg' v) (Ne.symm hv)
      have h1 := p.hbound v
      have h2 := p.hbound (-v)
      have h3 := p.align_le 0 v
      have h4 := p.align_le 0 (-v)
      rw [neg_dotProduct] at h4
      rw [neg_dotProduct, dotProduct_neg, neg_neg] at h2
      have h5 : p.c * √(v ⬝ᵥ v) < 0 := mul_neg_of_neg_of_pos (not_le.1 hcc) (Real.sqrt_pos.2 hv')
      linarith
  obtain ⟨B, hB⟩ : ∃ B, ∀ k i, |z k i| ≤ B := by
    rcases hc0 with hc0 | hc0
    · set R := p.h x0 + (x0 ⬝ᵥ x0) / 2 - p.D b 0 with hR
      have h1 : ∀ k i, |x0 i - p.x (y k) i| ≤ √(2 * R) := by
        intro k i
        refine Real.abs_le_sqrt ?_
        have h2 := p.weak_duality h0 (y k)
        have h3 : (x0 i - p.x (y k) i) ^ 2 ≤ (x0 - p.x (y k)) ⬝ᵥ (x0 - p.x (y k)) := by
          rw [sq]
          exact Finset.single_le_sum (f := fun i => (x0 - p.x (y k)) i * (x0 - p.x (y k)) i)
            (fun i _ => mul_self_nonneg _) (Finset.mem_univ i)
        have := hD k
        linarith
      have h2 : ∀ k i, |z k i - p.x (y k) i| ≤ p.c := by
        intro k i
        have h3 := p.align_le (y k) (p.A *ᵥ y k - p.pr (p.A *ᵥ y k))
        have h4 := p.hbound (p.A *ᵥ y k - p.pr (p.A *ᵥ y k))
        set v := p.A *ᵥ y k - p.pr (p.A *ᵥ y k) with hv
        have h5 : √(v ⬝ᵥ v) ≤ p.c := by
          rcases eq_or_lt_of_le (Real.sqrt_nonneg (v ⬝ᵥ v)) with e | e
          · rw [← e]; exact hc0
          · have h6 := Real.mul_self_sqrt (sq_nonneg' v)
            nlinarith
        refine le_trans ?_ h5
        refine Real.abs_le_sqrt ?_
        rw [sq]
        exact Finset.single_le_sum (f := fun i => v i * v i) (fun i _ => mul_self_nonneg _) (Finset.mem_univ i)
      obtain ⟨M, hM⟩ : ∃ M, ∀ i, |x0 i| ≤ M := by
        refine ⟨∑ i, |x0 i|, fun i => ?_⟩
        exact Finset.single_le_sum (f := fun i => |x0 i|) (fun i _ => abs_nonneg _) (Finset.mem_univ i)
      refine ⟨p.c + √(2 * R) + M, fun k i => ?_⟩
      have a := abs_le.1 (h1 k i)
      have b := abs_le.1 (h2 k i)
      have c := abs_le.1 (hM i)
      exact abs_le.2 ⟨by linarith, by linarith⟩
    · refine ⟨0, fun k i => ?_⟩
      have := eq_zero_of_self (hc0 (z k))
      rw [this]; simp
  -- a limit point of the arguments
  have hmem : ∀ k, z k ∈ Set.pi Set.univ (fun _ : ι => Set.Icc (-B) B) := fun k i _ => abs_le.1 (hB k i)
  obtain ⟨zl, -, φ, hφ, hlim⟩ := (isCompact_univ_pi fun _ : ι => isCompact_Icc (a := -B) (b := B)).tendsto_subseq hmem
  have hclosed : IsClosed ((LinearMap.range p.A.mulVecLin : Submodule ℝ (ι → ℝ)) : Set (ι → ℝ)) :=
    Submodule.closed_of_finiteDimensional _
  have hr : zl ∈ (LinearMap.range p.A.mulVecLin : Submodule ℝ (ι → ℝ)) :=
    hclosed.mem_of_tendsto hlim (Eventually.of_forall fun k => ⟨y (φ k), rfl⟩)
  obtain ⟨yl, hyl⟩ := hr
  refine ⟨yl, ?_⟩
  have hx : Tendsto (fun k => p.x (y (φ k))) atTop (𝓝 (p.x yl)) := by
    have := (hcont.tendsto zl).comp hlim
    rw [← hyl] at this
    exact this
  have he := (p.error_tendsto hL h0 hd hdL 0).comp hφ.tendsto_atTop
  have hcontE : Continuous fun v : ι → ℝ => (b - v ᵥ* p.A) ⬝ᵥ (b - v ᵥ* p.A) := by
    unfold vecMul dotProduct
    simp only [Pi.sub_apply]
    fun_prop
  have he' := (hcontE.tendsto (p.x yl)).comp hx
  have := tendsto_nhds_unique he' he
  have := eq_zero_of_self this
  exact (sub_eq_zero.1 this).symm

theorem fejer {b y s : κ → ℝ} (hs : p.x s ᵥ* p.A = b) {d : ℝ} (hd : 0 ≤ d) :
    (p.step b d y - s) ⬝ᵥ (p.step b d y - s) + d * (2 - d * p.L) * ((p.x y - p.x s) ⬝ᵥ (p.x y - p.x s)) ≤
      (y - s) ⬝ᵥ (y - s) := by
  have hf := p.firm y s
  have hb := p.bound (p.x y - p.x s)
  set g := (p.x y - p.x s) ᵥ* p.A with hg
  have e : p.step b d y - s = (y - s) - d • g := by
    rw [step, hg, sub_vecMul, hs, ← neg_sub b, smul_neg]; abel
  rw [e]
  generalize (p.x y - p.x s) ⬝ᵥ (p.x y - p.x s) = Q at *
  generalize y - s = w at *
  rw [sub_dotProduct, dotProduct_sub, dotProduct_sub, dotProduct_comm (d • g) w]
  simp only [dotProduct_smul, smul_dotProduct, smul_eq_mul]
  have h1 : d * (d * (g ⬝ᵥ g)) ≤ d * (d * (p.L * Q)) :=
    mul_le_mul_of_nonneg_left (mul_le_mul_of_nonneg_left hb hd) hd
  have h2 : d * Q ≤ d * (w ⬝ᵥ g) := mul_le_mul_of_nonneg_left hf hd
  nlinarith

theorem primal_tendsto {b s : κ → ℝ} (hs : p.x s ᵥ* p.A = b) {d : ℝ} (hd : 0 < d) (hdL : d * p.L < 2)
    (y0 : κ → ℝ) (i : ι) : Tendsto (fun k => p.x (p.iter b d y0 k) i) atTop (𝓝 (p.x s i)) := by
  have hc : 0 < d * (2 - d * p.L) := mul_pos hd (by linarith)
  set f := fun k => (p.x (p.iter b d y0 k) - p.x s) ⬝ᵥ (p.x (p.iter b d y0 k) - p.x s) with hf
  have hsum : ∀ n, ∑ k ∈ Finset.range n, f k ≤ ((y0 - s) ⬝ᵥ (y0 - s)) / (d * (2 - d * p.L)) := by
    intro n
    rw [le_div_iff₀ hc]
    have h1 : (p.iter b d y0 n - s) ⬝ᵥ (p.iter b d y0 n - s) + (∑ k ∈ Finset.range n, f k) * (d * (2 - d * p.L)) ≤
        (y0 - s) ⬝ᵥ (y0 - s) := by
      induction n with
      | zero => simp [iter]
      | succ n ih =>
          have := p.fejer (y := p.iter b d y0 n) hs hd.le
          rw [Finset.sum_range_succ, add_mul]
          change (p.step b d (p.iter b d y0 n) - s) ⬝ᵥ (p.step b d (p.iter b d y0 n) - s) + _ ≤ _
          simp only [hf] at ih ⊢
          linarith
    have := sq_nonneg' (p.iter b d y0 n - s)
    linarith
  have h0 := (summable_of_sum_range_le (fun k => sq_nonneg' _) hsum).tendsto_atTop_zero
  have h1 : Tendsto (fun k => |p.x (p.iter b d y0 k) i - p.x s i|) atTop (𝓝 0) := by
    have h2 : Tendsto (fun k => √(f k)) atTop (𝓝 0) := by
      have := (Real.continuous_sqrt.tendsto 0).comp h0
      rwa [Real.sqrt_zero] at this
    refine squeeze_zero (fun k => abs_nonneg _) (fun k => Real.abs_le_sqrt ?_) h2
    rw [sq]
    exact Finset.single_le_sum (f := fun i => (p.x (p.iter b d y0 k) - p.x s) i * (p.x (p.iter b d y0 k) - p.x s) i)
      (fun i _ => mul_self_nonneg _) (Finset.mem_univ i)
  rw [tendsto_iff_norm_sub_tendsto_zero]
  exact h1

/-- The primal point of a dual solution is the solution, with a quadratic margin. -/
theorem optimal {b s : κ → ℝ} (hs : p.x s ᵥ* p.A = b) {x0 : ι → ℝ} (h0 : x0 ᵥ* p.A = b) :
    p.h (p.x s) + (p.x s ⬝ᵥ p.x s) / 2 + ((x0 - p.x s) ⬝ᵥ (x0 - p.x s)) / 2 ≤ p.h x0 + (x0 ⬝ᵥ x0) / 2 := by
  have h1 := p.weak_duality h0 s
  have h2 := p.align_eq s
  have e : b ⬝ᵥ s = p.x s ⬝ᵥ (p.A *ᵥ s) := by rw [← hs, dotProduct_mulVec]
  unfold D at h1
  rw [e] at h1
  rw [dotProduct_sub] at h2
  unfold x at *
  linarith

end Problem
end TD.dual
