import Mathlib.Analysis.SpecialFunctions.Pow.Continuity
import Verif.Lemmas.Special
import Verif.Lemmas.Par
import Verif.Lemmas.Rounding
import Verif.Spec.Limit

/-! # Rounded operations and evaluation trees tend to the exact ones -/
namespace TD
open Tensor fl Spec sp Num Filter Topology
variable {F : ℕ → Fmt}

namespace Lim

/-! ### Single operations -/

theorem rnd_tends (hF : Refining F) {v : ℕ → ℝ} {y : ℝ} (hv : Tendsto v atTop (𝓝 y)) :
    Tendsto (fun j => (F j).arith.rnd (v j)) atTop (𝓝 y) := by
  have h1 : Tendsto (fun j => (F j).arith.u * |v j| + (F j).arith.eta) atTop (𝓝 0) := by
    have := (hF.u.mul hv.abs).add hF.eta
    rwa [zero_mul, zero_add] at this
  have h2 : Tendsto (fun j => (F j).arith.rnd (v j) - v j) atTop (𝓝 0) :=
    squeeze_zero_norm (fun j => by rw [Real.norm_eq_abs]; exact (F j).arith.rnd_err _) h1
  have := h2.add hv
  simpa using this

theorem le_big (hF : Refining F) {v : ℕ → ℝ} {y : ℝ} (hv : Tendsto v atTop (𝓝 y)) : ∀ᶠ j in atTop, |v j| ≤ (F j).big := by
  have h1 : ∀ᶠ j in atTop, |v j| < |y| + 1 := (hv.abs).eventually (gt_mem_nhds (by linarith))
  have h2 := hF.big.eventually (eventually_ge_atTop (|y| + 1))
  filter_upwards [h1, h2] with j a b
  exact a.le.trans b

theorem round_fin_of {F : Fmt} {x : ℝ} (h : |F.arith.rnd x| ≤ F.big) : ∃ h', Num.round F x = .fin (F.arith.rnd x) h' := by
  unfold Num.round
  rw [dif_pos h]
  exact ⟨_, rfl⟩

theorem tends_of {x : ∀ j, Num (F j)} {v : ℕ → ℝ} {y : ℝ} (hv : Tendsto v atTop (𝓝 y))
    (hx : ∀ᶠ j in atTop, ∃ h, x j = .fin (v j) h) : Tends x y := by
  refine ⟨hx.mono fun j ⟨h, e⟩ => by rw [e]; trivial, hv.congr' (hx.mono fun j ⟨h, e⟩ => ?_)⟩
  show v j = real (x j)
  rw [e]; rfl

theorem _root_.TD.Spec.Tends.fin {x : ∀ j, Num (F j)} {y : ℝ} (h : Tends x y) :
    ∀ᶠ j in atTop, ∃ h, x j = .fin (real (x j)) h := by
  refine h.1.mono fun j hj => ?_
  obtain ⟨v, hv, e⟩ := finite_elim hj
  rw [e]
  exact ⟨hv, rfl⟩

theorem _root_.TD.Spec.Tends.congr {x x' : ∀ j, Num (F j)} {y : ℝ} (h : Tends x y) (e : ∀ᶠ j in atTop, x j = x' j) :
    Tends x' y := by
  refine ⟨?_, h.2.congr' (e.mono fun j e => by rw [e])⟩
  filter_upwards [h.1, e] with j a b
  rwa [← b]

theorem tends_round (hF : Refining F) {v : ℕ → ℝ} {y : ℝ} (hv : Tendsto v atTop (𝓝 y)) :
    Tends (fun j => Num.round (F j) (v j)) y := by
  have h := rnd_tends hF hv
  refine tends_of h ?_
  filter_upwards [le_big hF h] with j hj
  exact round_fin_of hj

theorem tends_zero : Tends (fun j => (0 : Num (F j))) 0 :=
  tends_of tendsto_const_nhds (Eventually.of_forall fun j => ⟨_, zero_def⟩)

theorem tends_one : Tends (fun j => (1 : Num (F j))) 1 :=
  tends_of tendsto_const_nhds (Eventually.of_forall fun j => ⟨_, one_def⟩)

theorem tends_const (hF : Refining F) (x : ℝ) : Tends (fun j => sp.const (F j) x) x :=
  tends_round hF tendsto_const_nhds

theorem tends_add (hF : Refining F) {x x' : ∀ j, Num (F j)} {y y' : ℝ} (h : Tends x y) (h' : Tends x' y') :
    Tends (fun j => x j + x' j) (y + y') := by
  refine (tends_round hF (h.2.add h'.2)).congr ?_
  filter_upwards [h.fin, h'.fin] with j ⟨a, e⟩ ⟨b, e'⟩
  rw [e, e']; rfl

theorem tends_sub (hF : Refining F) {x x' : ∀ j, Num (F j)} {y y' : ℝ} (h : Tends x y) (h' : Tends x' y') :
    Tends (fun j => x j - x' j) (y - y') := by
  refine (tends_round hF (h.2.sub h'.2)).congr ?_
  filter_upwards [h.fin, h'.fin] with j ⟨a, e⟩ ⟨b, e'⟩
  rw [e, e']; rfl

theorem tends_mul (hF : Refining F) {x x' : ∀ j, Num (F j)} {y y' : ℝ} (h : Tends x y) (h' : Tends x' y') :
    Tends (fun j => x j * x' j) (y * y') := by
  refine (tends_round hF (h.2.mul h'.2)).congr ?_
  filter_upwards [h.fin, h'.fin] with j ⟨a, e⟩ ⟨b, e'⟩
  rw [e, e']; rfl

theorem tends_div (hF : Refining F) {x x' : ∀ j, Num (F j)} {y y' : ℝ} (h : Tends x y) (h' : Tends x' y') (h0 : y' ≠ 0) :
    Tends (fun j => x j / x' j) (y / y') := by
  refine (tends_round hF (h.2.div h'.2 h0)).congr ?_
  filter_upwards [h.fin, h'.fin, h'.2.eventually_ne h0] with j ⟨a, e⟩ ⟨b, e'⟩ hn
  rw [e, e', div_fin, if_neg hn]; rfl

theorem tends_sqrt (hF : Refining F) {x : ∀ j, Num (F j)} {y : ℝ} (h : Tends x y)
    (hn : ∀ᶠ j in atTop, 0 ≤ real (x j)) : Tends (fun j => (x j).sqrt) (Real.sqrt y) := by
  refine (tends_round hF ((Real.continuous_sqrt.tendsto y).comp h.2)).congr ?_
  filter_upwards [h.fin, hn] with j ⟨a, e⟩ hj
  rw [e]
  show _ = if _ then _ else _
  rw [if_neg (not_lt.2 hj)]
  rfl

theorem tends_abs (hF : Refining F) {x : ∀ j, Num (F j)} {y : ℝ} (h : Tends x y) : Tends (fun j => (x j).abs) |y| := by
  refine (tends_round hF h.2.abs).congr ?_
  filter_upwards [h.fin] with j ⟨a, e⟩
  rw [e]; rfl

theorem lt_fin {F : Fmt} {x y : ℝ} {h h'} : Num.lt (.fin x h : Num F) (.fin y h') = decide (x < y) := by
  unfold Num.lt
  simp only [Num.val, EReal.coe_lt_coe_iff]

theorem tends_lt {x x' : ∀ j, Num (F j)} {y y' : ℝ} (h : Tends x y) (h' : Tends x' y') (hne : y ≠ y') :
    ∀ᶠ j in atTop, Num.lt (x j) (x' j) = decide (y < y') := by
  rcases lt_or_gt_of_ne hne with hl | hl
  · filter_upwards [h.fin, h'.fin, h.2.eventually_lt h'.2 hl] with j ⟨a, e⟩ ⟨b, e'⟩ hj
    rw [e, e', lt_fin, decide_eq_true hj, decide_eq_true hl]
  · filter_upwards [h.fin, h'.fin, h'.2.eventually_lt h.2 hl] with j ⟨a, e⟩ ⟨b, e'⟩ hj
    rw [e, e', lt_fin, decide_eq_false hj.not_gt, decide_eq_false hl.not_gt]

/-! ### Evaluation trees -/

theorem passes_mono {ι : Type} {e e' : ι → Nat} (h : ∀ i, e i ≤ e' i) : ∀ t : Expr ι, t.passes e ≤ t.passes e'
  | .leaf i => h i
  | .zero => le_rfl
  | .one => le_rfl
  | .add a b => by have := passes_mono h a; have := passes_mono h b; simp only [Expr.passes]; omega
  | .mul a b => by have := passes_mono h a; have := passes_mono h b; simp only [Expr.passes]; omega
  | .fma a b c => by
      have := passes_mono h a; have := passes_mono h b; have := passes_mono h c; simp only [Expr.passes]; omega

theorem occ_passes {ι : Type} {e : ι → Nat} {i : ι} : ∀ {t : Expr ι}, Occ i t → e i ≤ t.passes e
  | .leaf j, h => by cases h; exact le_rfl
  | .zero, h => h.elim
  | .one, h => h.elim
  | .add a b, h => by
      simp only [Expr.passes]
      rcases h with h | h <;> have := occ_passes (e := e) h <;> omega
  | .mul a b, h => by
      simp only [Expr.passes]
      rcases h with h | h <;> have := occ_passes (e := e) h <;> omega
  | .fma a b c, h => by
      simp only [Expr.passes]
      rcases h with h | h | h <;> have := occ_passes (e := e) h <;> omega

/-- The trees with at most `d` operations in a row whose operands belong to `I`. -/
def Small {ι : Type} (I : Set ι) (d : Nat) (t : Expr ι) : Prop := (t.passes fun _ => 0) ≤ d ∧ ∀ i, Occ i t → i ∈ I

theorem small_cases {ι : Type} {I : Set ι} {d : Nat} {t : Expr ι} (h : Small I (d + 1) t) :
    (∃ i ∈ I, t = .leaf i) ∨ t = .zero ∨ t = .one ∨ (∃ a b, t = .add a b ∧ Small I d a ∧ Small I d b) ∨
      (∃ a b, t = .mul a b ∧ Small I d a ∧ Small I d b) ∨
      ∃ a b c, t = .fma a b c ∧ Small I d a ∧ Small I d b ∧ Small I d c := by
  obtain ⟨h1, h2⟩ := h
  cases t with
  | leaf i => exact .inl ⟨i, h2 i rfl, rfl⟩
  | zero => exact .inr (.inl rfl)
  | one => exact .inr (.inr (.inl rfl))
  | add a b =>
      simp only [Expr.passes] at h1
      exact .inr (.inr (.inr (.inl ⟨a, b, rfl, ⟨by omega, fun i hi => h2 i (.inl hi)⟩,
        ⟨by omega, fun i hi => h2 i (.inr hi)⟩⟩)))
  | mul a b =>
      simp only [Expr.passes] at h1
      exact .inr (.inr (.inr (.inr (.inl ⟨a, b, rfl, ⟨by omega, fun i hi => h2 i (.inl hi)⟩,
        ⟨by omega, fun i hi => h2 i (.inr hi)⟩⟩))))
  | fma a b c =>
      simp only [Expr.passes] at h1
      exact .inr (.inr (.inr (.inr (.inr ⟨a, b, c, rfl, ⟨by omega, fun i hi => h2 i (.inl hi)⟩,
        ⟨by omega, fun i hi => h2 i (.inr (.inl hi))⟩, ⟨by omega, fun i hi => h2 i (.inr (.inr hi))⟩⟩))))

theorem small_zero {ι : Type} {I : Set ι} {t : Expr ι} (h : Small I 0 t) : (∃ i ∈ I, t = .leaf i) ∨ t = .zero ∨ t = .one := by
  obtain ⟨h1, h2⟩ := h
  cases t with
  | leaf i => exact .inl ⟨i, h2 i rfl, rfl⟩
  | zero => exact .inr (.inl rfl)
  | one => exact .inr (.inr rfl)
  | add a b => simp [Expr.passes] at h1
  | mul a b => simp [Expr.passes] at h1
  | fma a b c => simp [Expr.passes] at h1

theorem exact_bounded {ι : Type} {I : Set ι} (hI : I.Finite) (y : ι → ℝ) (d : Nat) :
    ∃ M, 1 ≤ M ∧ ∀ t, Small I d t → |t.exact y| ≤ M := by
  obtain ⟨M0, hM0⟩ : ∃ M, ∀ i ∈ I, |y i| ≤ M := by
    obtain ⟨M, hM⟩ := (hI.image fun i => |y i|).bddAbove
    exact ⟨M, fun i hi => hM ⟨i, hi, rfl⟩⟩
  have hlow : ∀ M, 1 ≤ M → M0 ≤ M → ∀ t : Expr ι, ((∃ i ∈ I, t = .leaf i) ∨ t = .zero ∨ t = .one) → |t.exact y| ≤ M := by
    rintro M h1 h2 t (⟨i, hi, rfl⟩ | rfl | rfl)
    · exact (hM0 i hi).trans h2
    · simp only [Expr.exact, abs_zero]; linarith
    · simp only [Expr.exact, abs_one]; exact h1
  induction d with
  | zero => exact ⟨max 1 M0, le_max_left _ _, fun t ht => hlow _ (le_max_left _ _) (le_max_right _ _) t (small_zero ht)⟩
  | succ d ih =>
      obtain ⟨M, h1, h2⟩ := ih
      have h0 : (0 : ℝ) ≤ M := by linarith
      have hm := le_max_right M0 (M * M + M)
      have h3 : (1 : ℝ) ≤ max M0 (M * M + M) := by nlinarith
      have key : ∀ p q r : ℝ, |p| ≤ M → |q| ≤ M → |r| ≤ M → |p * q + r| ≤ max M0 (M * M + M) := by
        intro p q r hp hq hr
        refine le_trans ((abs_add_le _ _).trans ?_) hm
        rw [abs_mul]
        have := mul_le_mul hp hq (abs_nonneg _) h0
        linarith
      refine ⟨max M0 (M * M + M), h3, fun t ht => ?_⟩
      rcases small_cases ht with h | h | h | ⟨a, b, rfl, ha, hb⟩ | ⟨a, b, rfl, ha, hb⟩ | ⟨a, b, c, rfl, ha, hb, hc⟩
      · exact hlow _ h3 (le_max_left _ _) t (.inl h)
      · exact hlow _ h3 (le_max_left _ _) t (.inr (.inl h))
      · exact hlow _ h3 (le_max_left _ _) t (.inr (.inr h))
      · have := key _ 1 _ (h2 a ha) (by rw [abs_one]; exact h1) (h2 b hb)
        rwa [mul_one] at this
      · have := key _ _ 0 (h2 a ha) (h2 b hb) (by rw [abs_zero]; exact h0)
        rwa [add_zero] at this
      · exact key _ _ _ (h2 a ha) (h2 b hb) (h2 c hc)

/-- Within `ε` of the real number `y`. -/
def Near {F : Fmt} (ε : ℝ) (x : Num F) (y : ℝ) : Prop := ∃ v h, x = .fin v h ∧ |v - y| < ε

theorem near_iff {x : ∀ j, Num (F j)} {y : ℝ} : Tends x y ↔ ∀ ε > 0, ∀ᶠ j in atTop, Near ε (x j) y := by
  constructor
  · intro h ε he
    have := (Metric.tendsto_atTop.1 h.2) ε he
    filter_upwards [h.fin, eventually_atTop.2 this] with j ⟨a, e⟩ hj
    exact ⟨_, _, e, by rwa [Real.dist_eq] at hj⟩
  · intro h
    refine ⟨(h 1 one_pos).mono fun j ⟨v, hv, e, _⟩ => by rw [e]; trivial, ?_⟩
    rw [Metric.tendsto_atTop]
    intro ε he
    obtain ⟨N, hN⟩ := eventually_atTop.1 (h ε he)
    refine ⟨N, fun j hj => ?_⟩
    obtain ⟨v, hv, e, hl⟩ := hN j hj
    rw [e, Real.dist_eq]; exact hl

/-- One rounded multiply-add of operands within `δ`. -/
theorem near_step {F : Fmt} {p q r p' q' r' M δ : ℝ} (h1 : 1 ≤ M) (hδ : 0 < δ) (hδ1 : δ ≤ 1) (hp' : |p'| ≤ M)
    (hq' : |q'| ≤ M) (hr' : |r'| ≤ M) (hp : |p - p'| < δ) (hq : |q - q'| < δ) (hr : |r - r'| < δ)
    (hu : F.arith.u * (6 * M * M) + F.arith.eta < δ) (hb : 12 * M * M ≤ F.big) :
    Near (δ * (3 * M + 2)) (Num.round F (p * q + r)) (p' * q' + r') := by
  have hpM : |p| ≤ M + 1 := by
    have := abs_sub_abs_le_abs_sub p p'; linarith
  have hqM : |q| ≤ M + 1 := by
    have := abs_sub_abs_le_abs_sub q q'; linarith
  have hrM : |r| ≤ M + 1 := by
    have := abs_sub_abs_le_abs_sub r r'; linarith
  have hv : |p * q + r| ≤ 6 * M * M := by
    refine (abs_add_le _ _).trans ?_
    rw [abs_mul]
    have := mul_le_mul hpM hqM (abs_nonneg _) (by linarith)
    nlinarith
  have hd : |p * q + r - (p' * q' + r')| ≤ δ * (2 * M + 2) := by
    have e : p * q + r - (p' * q' + r') = p * (q - q') + (p - p') * q' + (r - r') := by ring
    rw [e]
    refine (abs_add_three _ _ _).trans ?_
    rw [abs_mul, abs_mul]
    have a1 := mul_le_mul hpM hq.le (abs_nonneg _) (by linarith)
    have a2 := mul_le_mul hp.le hq' (abs_nonneg _) hδ.le
    nlinarith
  have he := F.arith.rnd_err (p * q + r)
  have hu0 := F.arith.u_nonneg
  have he' : |F.arith.rnd (p * q + r) - (p * q + r)| < δ := by
    refine lt_of_le_of_lt (he.trans ?_) hu
    exact add_le_add_left (mul_le_mul_of_nonneg_left hv hu0) _
  have hbig : |F.arith.rnd (p * q + r)| ≤ F.big := by
    have := abs_sub_abs_le_abs_sub (F.arith.rnd (p * q + r)) (p * q + r)
    nlinarith
  obtain ⟨h', e⟩ := round_fin_of hbig
  refine ⟨_, h', e, ?_⟩
  have e2 : F.arith.rnd (p * q + r) - (p' * q' + r') =
      (F.arith.rnd (p * q + r) - (p * q + r)) + (p * q + r - (p' * q' + r')) := by ring
  rw [e2]
  refine lt_of_le_of_lt (abs_add_le _ _) ?_
  nlinarith

theorem near_mono {F : Fmt} {ε ε' : ℝ} {x : Num F} {y : ℝ} (h : Near ε x y) (hε : ε ≤ ε') : Near ε' x y := by
  obtain ⟨v, hv, e, hl⟩ := h
  exact ⟨v, hv, e, hl.trans_le hε⟩

/-- Trees of bounded depth on finitely many operands, whatever their form: their values tend to the exact ones,
uniformly. -/
theorem tree_near (hF : Refining F) {ι : Type} {I : Set ι} (hI : I.Finite) {x : ι → ∀ j, Num (F j)} {y : ι → ℝ}
    (h : ∀ i ∈ I, Tends (x i) (y i)) (d : Nat) :
    ∀ ε > 0, ∀ᶠ j in atTop, ∀ t, Small I d t → Near ε (Num.eval (fun i => x i j) t) (t.exact y) := by
  have hlow : ∀ ε > 0, ∀ᶠ j in atTop, ∀ t : Expr ι, ((∃ i ∈ I, t = .leaf i) ∨ t = .zero ∨ t = .one) →
      Near ε (Num.eval (fun i => x i j) t) (t.exact y) := by
    intro ε he
    have h1 : ∀ᶠ j in atTop, ∀ i ∈ I, Near ε (x i j) (y i) :=
      (eventually_all_finite hI).2 fun i hi => near_iff.1 (h i hi) ε he
    filter_upwards [h1] with j hj t ht
    rcases ht with ⟨i, hi, rfl⟩ | rfl | rfl
    · exact hj i hi
    · exact ⟨0, _, zero_def, by simp [Expr.exact, he]⟩
    · exact ⟨1, _, one_def, by simp [Expr.exact, he]⟩
  induction d with
  | zero =>
      intro ε he
      filter_upwards [hlow ε he] with j hj t ht
      exact hj t (small_zero ht)
  | succ d ih =>
      intro ε he
      obtain ⟨M, h1, hM⟩ := exact_bounded hI y d
      have h3 : (0 : ℝ) < 3 * M + 2 := by linarith
      set δ := min 1 (ε / (3 * M + 2)) with hδ
      have hδ0 : 0 < δ := lt_min one_pos (div_pos he h3)
      have hδ1 : δ ≤ 1 := min_le_left _ _
      have hδε : δ * (3 * M + 2) ≤ ε := by
        have := min_le_right 1 (ε / (3 * M + 2))
        rw [← hδ, le_div_iff₀ h3] at this
        exact this
      have hu : ∀ᶠ j in atTop, (F j).arith.u * (6 * M * M) + (F j).arith.eta < δ := by
        have := (hF.u.mul_const (6 * M * M)).add hF.eta
        rw [zero_mul, zero_add] at this
        exact this.eventually (gt_mem_nhds hδ0)
      have hb := hF.big.eventually (eventually_ge_atTop (12 * M * M))
      filter_upwards [hlow ε he, ih δ hδ0, hu, hb] with j hj1 hj2 hj3 hj4 t ht
      have h0M : |(0 : ℝ)| ≤ M := by rw [abs_zero]; linarith
      have h1M : |(1 : ℝ)| ≤ M := by rw [abs_one]; exact h1
      have hz : ∀ z : ℝ, |z - z| < δ := fun z => by rw [sub_self, abs_zero]; exact hδ0
      rcases small_cases ht with h | h | h | ⟨a, b, rfl, ha, hb⟩ | ⟨a, b, rfl, ha, hb⟩ | ⟨a, b, c, rfl, ha, hb, hc⟩
      · exact hj1 t (.inl h)
      · exact hj1 t (.inr (.inl h))
      · exact hj1 t (.inr (.inr h))
      · obtain ⟨v, hv, e, hl⟩ := hj2 a ha
        obtain ⟨w, hw, e', hl'⟩ := hj2 b hb
        have := near_step (F := F j) h1 hδ0 hδ1 (hM a ha) h1M (hM b hb) hl (hz 1) hl' hj3 hj4
        rw [mul_one, mul_one] at this
        refine near_mono ?_ hδε
        show Near _ (Num.eval _ a + Num.eval _ b) _
        rw [e, e']; exact this
      · obtain ⟨v, hv, e, hl⟩ := hj2 a ha
        obtain ⟨w, hw, e', hl'⟩ := hj2 b hb
        have := near_step (F := F j) h1 hδ0 hδ1 (hM a ha) (hM b hb) h0M hl hl' (hz 0) hj3 hj4
        rw [add_zero, add_zero] at this
        refine near_mono ?_ hδε
        show Near _ (Num.eval _ a * Num.eval _ b) _
        rw [e, e']; exact this
      · obtain ⟨v, hv, e, hl⟩ := hj2 a ha
        obtain ⟨w, hw, e', hl'⟩ := hj2 b hb
        obtain ⟨z, hz, e'', hl''⟩ := hj2 c hc
        have := near_step (F := F j) h1 hδ0 hδ1 (hM a ha) (hM b hb) (hM c hc) hl hl' hl'' hj3 hj4
        refine near_mono ?_ hδε
        show Near _ (Num.fma (Num.eval _ a) (Num.eval _ b) (Num.eval _ c)) _
        rw [e, e', e'']; exact this

theorem tree_tends (hF : Refining F) {ι : Type} {I : Set ι} (hI : I.Finite) {x : ι → ∀ j, Num (F j)} {y : ι → ℝ}
    (h : ∀ i ∈ I, Tends (x i) (y i)) {d : Nat} {t : ℕ → Expr ι} (ht : ∀ j, Small I d (t j)) {s : ℝ}
    (hs : ∀ j, (t j).exact y = s) : Tends (fun j => Num.eval (fun i => x i j) (t j)) s := by
  rw [near_iff]
  intro ε he
  filter_upwards [tree_near hF hI h d ε he] with j hj
  rw [← hs j]
  exact hj _ (ht j)

/-! ### Sequences of numbers as a type of numbers -/

/-- One number per format. -/
def Sq (F : ℕ → Fmt) : Type := ∀ j, Num (F j)

instance : Zero (Sq F) := ⟨fun _ => 0⟩
noncomputable instance : Mul (Sq F) := ⟨fun x y j => x j * y j⟩
noncomputable instance : tf.Red (Sq F) where
  total l j := tf.Red.total (l.map fun x => x j)
  dot l j := tf.Red.dot (l.map fun p => (p.1 j, p.2 j))
noncomputable instance : tf.Ein (Sq F) where
  contract n dims f j := tf.Ein.contract n dims fun v => (f v).map fun x => x j

theorem getD_map_sq (l : List (Sq F)) (j i : ℕ) : (l.map fun x => x j).getD i 0 = l.getD i 0 j := by
  simp only [List.getD_eq_getElem?_getD, List.getElem?_map]
  cases l[i]? <;> rfl

theorem small_sum (S : Arith) (n : Nat) : Small {i | i < n} (n - 1) (S.sumTree n) := by
  refine ⟨by simpa using S.sum_passes n (fun _ => 0) 0 fun _ _ => le_rfl, fun i hi => ?_⟩
  by_contra hn
  have hn : ¬ i < n := hn
  have h1 := S.sum_passes n (fun k => if k < n then 0 else n) 0 fun k hk => by simp [hk]
  have h2 := occ_passes (e := fun k => if k < n then 0 else n) hi
  simp only [if_neg hn] at h2
  cases n with
  | zero =>
      have h3 := S.sum_passes 0 (fun _ => 1) 0 fun k hk => by omega
      have h4 := occ_passes (e := fun _ => 1) hi
      omega
  | succ n => omega

theorem small_dot (S : Arith) (n : Nat) : Small {p : Nat × Bool | p.1 < n} n (S.dotTree n) := by
  refine ⟨by simpa using S.dot_passes n (fun _ => 0) 0 0 fun _ _ => ⟨le_rfl, le_rfl⟩, fun i hi => ?_⟩
  by_contra hn
  have hn : ¬ i.1 < n := hn
  have h1 := S.dot_passes n (fun k => if k.1 < n then 0 else n + 1) 0 0 fun k hk => by simp [hk]
  have h2 := occ_passes (e := fun k : Nat × Bool => if k.1 < n then 0 else n + 1) hi
  simp only [if_neg hn] at h2
  omega

theorem small_ein (S : Arith) (n : Nat) (dims : List Nat) :
    Small {p : List Nat × Nat | p.1 ∈ indices dims ∧ p.2 < n} (n - 1 + (dims.prod - 1)) (S.einTree n dims) := by
  have hz : ∀ l : List Nat, (l.map fun _ => (0 : Nat)).sum = 0 := fun l => by simp
  refine ⟨by simpa [hz] using S.ein_passes n dims (fun _ => 0) (fun _ => 0) fun _ _ _ _ => le_rfl, fun i hi => ?_⟩
  by_contra hn
  set K := n - 1 + (dims.prod - 1) + 1 with hK
  classical
  have h1 := S.ein_passes n dims (fun p => if p.1 ∈ indices dims ∧ p.2 < n then 0 else K) (fun _ => 0)
    fun v hv k hk => by simp [hv, hk]
  have h2 := occ_passes (e := fun p : List Nat × Nat => if p.1 ∈ indices dims ∧ p.2 < n then 0 else K) hi
  have hn' : ¬ (i.1 ∈ indices dims ∧ i.2 < n) := hn
  simp only [if_neg hn'] at h2
  rw [hz] at h1
  omega

/-- The relation between the sequence of rounded runs, the exact run, and the run in the `j`-th format. -/
def Rl (F : ℕ → Fmt) (j : ℕ) (x : Sq F) (y : ℝ) (z : Num (F j)) : Prop := Tends x y ∧ x j = z

theorem par (hF : Refining F) (j : ℕ) : Par (Rl F j) where
  zero := ⟨tends_zero, rfl⟩
  mul := by
    rintro x y a x' y' a' ⟨h, rfl⟩ ⟨h', rfl⟩
    exact ⟨tends_mul hF h h', rfl⟩
  total := by
    intro l m a h1 h2 h
    refine ⟨?_, ?_⟩
    · have := tree_tends hF (Set.finite_lt_nat l.length) (x := fun i => l.getD i 0) (y := fun i => m.getD i 0)
        (fun i _ => (h i).1) (t := fun j => (F j).arith.sumTree l.length) (fun j => small_sum _ _) (s := m.sum) (by
          intro j
          rw [(F j).arith.sum_exact, h1]
          congr 1
          have := map_getD_list m 0 fun x => x
          simpa using this)
      refine this.congr (Eventually.of_forall fun j => ?_)
      show _ = Num.eval _ ((F j).arith.sumTree (l.map fun x => x j).length)
      simp only [List.length_map, getD_map_sq]
    · show Num.eval _ _ = Num.eval _ _
      simp only [List.length_map, getD_map_sq, h2]
      congr 1
      funext i
      exact (h i).2
  dot := by
    intro l m a h1 h2 h
    have hg : ∀ (j i : ℕ), (l.map fun p => (p.1 j, p.2 j)).getD i (0, 0) =
        ((l.getD i (0, 0)).1 j, (l.getD i (0, 0)).2 j) := by
      intro j i
      simp only [List.getD_eq_getElem?_getD, List.getElem?_map]
      cases l[i]? <;> rfl
    refine ⟨?_, ?_⟩
    · have hfin : {p : Nat × Bool | p.1 < l.length}.Finite := by
        refine Set.Finite.subset ((Set.finite_lt_nat l.length).prod Set.finite_univ) ?_
        rintro ⟨i, b⟩ hi
        exact ⟨hi, trivial⟩
      have := tree_tends hF hfin
        (x := fun p => if p.2 then (l.getD p.1 (0, 0)).2 else (l.getD p.1 (0, 0)).1)
        (y := fun p => if p.2 then (m.getD p.1 (0, 0)).2 else (m.getD p.1 (0, 0)).1)
        (by
          rintro ⟨i, b⟩ _
          cases b
          · exact (h i).1.1
          · exact (h i).2.1) (t := fun j => (F j).arith.dotTree l.length) (fun j => small_dot _ _)
        (s := (m.map fun p => p.1 * p.2).sum) (by
          intro j
          rw [(F j).arith.dot_exact, h1]
          simp only [Bool.false_eq_true, if_false, if_true]
          exact congrArg _ (map_getD_list m (0, 0) fun p => p.1 * p.2))
      refine this.congr (Eventually.of_forall fun j => ?_)
      show _ = Num.eval _ ((F j).arith.dotTree (l.map fun p => (p.1 j, p.2 j)).length)
      simp only [List.length_map, hg]
      congr 1
      funext p
      rcases p with ⟨i, b⟩
      cases b <;> rfl
    · show Num.eval _ _ = Num.eval _ _
      simp only [List.length_map, hg, h2]
      congr 1
      funext p
      rw [(h p.1).1.2, (h p.1).2.2]
  contract := by
    intro n dims f g a h1 h2 h3 h
    refine ⟨?_, ?_⟩
    · have hfin : {p : List Nat × Nat | p.1 ∈ indices dims ∧ p.2 < n}.Finite := by
        refine Set.Finite.subset ((List.finite_toSet (indices dims)).prod (Set.finite_lt_nat n)) ?_
        rintro ⟨v, k⟩ hi
        exact hi
      have := tree_tends hF hfin (x := fun p => (f p.1).getD p.2 0) (y := fun p => (g p.1).getD p.2 0)
        (fun p _ => (h p.1 p.2).1) (t := fun j => (F j).arith.einTree n dims) (fun j => small_ein _ _ _)
        (s := ((indices dims).map fun v => (g v).prod).sum) (by
          intro j
          rw [(F j).arith.ein_exact]
          refine congrArg List.sum (List.map_congr_left fun v _ => ?_)
          have := map_getD_list (g v) 0 fun x => x
          rw [h2] at this
          rw [this, List.map_id'])
      refine this.congr (Eventually.of_forall fun j => ?_)
      show _ = Num.eval (fun p : List Nat × Nat => ((f p.1).map fun x => x j).getD p.2 0) ((F j).arith.einTree n dims)
      simp only [getD_map_sq]
    · show Num.eval (fun p : List Nat × Nat => ((f p.1).map fun x => x j).getD p.2 0) _ = Num.eval _ _
      simp only [getD_map_sq]
      congr 1
      funext p
      exact (h p.1 p.2).2

end Lim
end TD
