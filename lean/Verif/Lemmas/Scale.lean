import Verif.Model.Cp
import Verif.Spec.Scale
import Verif.Lemmas.Ttm
import Verif.Lemmas.Xcb
import Mathlib.Algebra.Order.Field.Basic
import Mathlib.Tactic.Ring
import Mathlib.Tactic.Linarith
import Mathlib.Tactic.FieldSimp

/-!
# How the operations react when their operands are multiplied by numbers
-/
namespace TD
open Tensor tf ops

@[simp] theorem scl_shape (c : ℝ) (t : Tensor ℝ) : (scl c t).shape = t.shape := rfl
@[simp] theorem scl_order (c : ℝ) (t : Tensor ℝ) : (scl c t).order = t.order := rfl
theorem scl_data (c : ℝ) (t : Tensor ℝ) : (scl c t).data = t.data.map (c * ·) := rfl

theorem at_scl (c : ℝ) (t : Tensor ℝ) (i : List Nat) : (scl c t).at_ i = c * t.at_ i := by
  unfold at_ scl tf.map
  simp only [List.getD_eq_getElem?_getD, List.getElem?_map]
  cases t.data[ravel t.shape i]? <;> simp

theorem scl_ofFn (c : ℝ) (s : List Nat) (f : List Nat → ℝ) : scl c (ofFn s f) = ofFn s fun i => c * f i := by
  unfold scl tf.map ofFn
  simp [Function.comp_def]

theorem scl_mat (c : ℝ) (m n : Nat) (f : Nat → Nat → ℝ) : scl c (mat m n f) = mat m n fun i j => c * f i j := by
  unfold mat
  rw [scl_ofFn]
  refine ofFn_congr fun idx h => ?_
  split <;> rfl

theorem scl_one (t : Tensor ℝ) : scl 1 t = t := by
  unfold scl tf.map
  simp

theorem scl_scl (a b : ℝ) (t : Tensor ℝ) : scl a (scl b t) = scl (a * b) t := by
  unfold scl tf.map
  simp [Function.comp_def, mul_assoc]

theorem transpose_scl (c : ℝ) (t : Tensor ℝ) (p : List Nat) : transpose (scl c t) p = scl c <$> transpose t p := by
  unfold transpose
  simp only [scl_order, scl_shape, at_scl]
  by_cases h : p.Perm (List.range t.order)
  · rw [if_pos h, if_pos h]
    exact congrArg Except.ok (scl_ofFn c _ _).symm
  · rw [if_neg h, if_neg h]; rfl

theorem reshape_scl (c : ℝ) (t : Tensor ℝ) (s : List Int) : reshape (scl c t) s = scl c <$> reshape t s := by
  unfold reshape
  have hl : (scl c t).data.length = t.data.length := by simp [scl_data]
  have hd : reshapeDims (scl c t).data.length s = reshapeDims t.data.length s := by rw [hl]
  rw [hd]
  cases reshapeDims t.data.length s with
  | error e => rfl
  | ok dims =>
      simp only
      by_cases h : t.data.length = dims.prod
      · rw [dif_pos h, dif_pos (hl.trans h)]; rfl
      · rw [dif_neg h, dif_neg (fun h' => h (hl.symm.trans h'))]; rfl

theorem unfold_scl (c : ℝ) (t : Tensor ℝ) (m : Int) : unfold (scl c t) m = scl c <$> unfold t m := by
  unfold unfold
  simp only [scl_order, scl_shape, transpose_scl, reshape_scl, bind_map_left, map_bind]

theorem matmul_scl (a b : ℝ) (A B : Tensor ℝ) (ta tb : Bool) :
    matmul (scl a A) (scl b B) ta tb = scl (a * b) <$> matmul A B ta tb := by
  unfold matmul
  simp only [scl_shape, at_scl]
  rcases A.shape with _ | ⟨a0, _ | ⟨a1, _ | ⟨a2, A'⟩⟩⟩ <;> rcases B.shape with _ | ⟨b0, _ | ⟨b1, _ | ⟨b2, B'⟩⟩⟩ <;>
    try rfl
  dsimp only
  generalize (if ta = true then a0 else a1) = k
  generalize (if tb = true then b1 else b0) = k'
  by_cases h : k = k'
  · rw [if_pos h, if_pos h]
    refine congrArg Except.ok (Eq.trans ?_ (scl_mat (a * b) _ _ _).symm)
    congr 1
    funext i j
    rw [dot_range, dot_range, Finset.mul_sum]
    exact Finset.sum_congr rfl fun l _ => by ring
  · rw [if_neg h, if_neg h]; rfl

theorem matmul_scl_left (a : ℝ) (A B : Tensor ℝ) (ta tb : Bool) :
    matmul (scl a A) B ta tb = scl a <$> matmul A B ta tb := by
  have := matmul_scl a 1 A B ta tb
  rwa [scl_one, mul_one] at this

theorem ewise_scl {f : ℝ → ℝ → ℝ} {a b c : ℝ} (hf : ∀ x y, f (a * x) (b * y) = c * f x y) (A B : Tensor ℝ) :
    ewise f (scl a A) (scl b B) = scl c <$> ewise f A B := by
  unfold ewise
  simp only [scl_shape]
  cases bcastShape A.shape B.shape with
  | none => rfl
  | some s =>
      simp only [at_scl, hf]
      exact congrArg Except.ok (scl_ofFn c _ _).symm

theorem prod_scl {ι : Type} (g : ι → Tensor ℝ → ℝ) (hg : ∀ w c t, g w (scl c t) = c * g w t) :
    ∀ (ins : List ι) (ps : List (ℝ × Tensor ℝ)), ins.length = ps.length →
      (List.zipWith g ins (ps.map fun p => scl p.1 p.2)).prod = (ps.map Prod.fst).prod * (List.zipWith g ins (ps.map Prod.snd)).prod
  | [], [], _ => by simp
  | w :: ins, p :: ps, h => by
      have := prod_scl g hg ins ps (by simpa using h)
      simp only [List.map_cons, List.zipWith_cons_cons, List.prod_cons, this, hg]
      ring

theorem einsum_scl (eqn : List Char) (ps : List (ℝ × Tensor ℝ)) :
    einsum eqn (ps.map fun p => scl p.1 p.2) = scl (ps.map Prod.fst).prod <$> einsum eqn (ps.map Prod.snd) := by
  unfold einsum
  cases parseEq eqn with
  | none => rfl
  | some io =>
      obtain ⟨ins, out⟩ := io
      simp only
      unfold einsumL
      have hs : (ps.map fun p => scl p.1 p.2).map Tensor.shape = (ps.map Prod.snd).map Tensor.shape := by
        simp [Function.comp_def]
      rw [hs]
      dsimp only
      split
      · rename_i hok
        refine congrArg Except.ok (Eq.trans ?_ (scl_ofFn _ _ _).symm)
        refine ofFn_congr fun idx _ => ?_
        rw [contract_setLabels _ _ (fun env => List.zipWith (fun w (t : Tensor ℝ) => t.at_ (w.map env)) ins _),
          contract_setLabels _ _ (fun env => List.zipWith (fun w (t : Tensor ℝ) => t.at_ (w.map env)) ins _),
          ← sumOver_mul_left]
        congr 1
        funext env
        have hl : ins.length = ps.length := by simpa using hok.1
        exact prod_scl (fun (w : List Char) t => t.at_ (w.map env)) (fun w c t => at_scl c t _) ins ps hl
      · rfl

/-- All operands multiplied by the same number. -/
theorem einsum_scl_all (eqn : List Char) (a : ℝ) (ts : List (Tensor ℝ)) :
    einsum eqn (ts.map (scl a)) = scl (a ^ ts.length) <$> einsum eqn ts := by
  have := einsum_scl eqn (ts.map fun t => (a, t))
  simpa [Function.comp_def] using this

theorem einsum_scl_cons (eqn : List Char) (a b : ℝ) (t : Tensor ℝ) (ts : List (Tensor ℝ)) :
    einsum eqn (scl a t :: ts.map (scl b)) = scl (a * b ^ ts.length) <$> einsum eqn (t :: ts) := by
  have := einsum_scl eqn ((a, t) :: ts.map fun t => (b, t))
  simpa [Function.comp_def] using this

theorem skip_map {β γ : Type} (f : β → γ) (ms : List β) (s : Skip) : skip (ms.map f) s = (skip ms s).map f := by
  cases s with
  | none => rfl
  | int i =>
      simp only [skip, List.zipIdx_map, List.filter_map, List.map_map]
      congr 1
  | list l =>
      simp only [skip, List.zipIdx_map, List.filter_map, List.map_map]
      congr 1

theorem dimOfEach_scl (a : ℝ) (ms : List (Tensor ℝ)) (i : Nat) : dimOfEach (ms.map (scl a)) i = dimOfEach ms i := by
  unfold dimOfEach
  rw [List.mapM_map]
  rfl

theorem khatri_scl (a : ℝ) (ms : List (Tensor ℝ)) (s : Skip) (rev : Bool) :
    khatri (ms.map (scl a)) s rev = scl (a ^ (skip ms s).length) <$> khatri ms s rev := by
  unfold khatri
  rw [skip_map]
  have hr : (if rev then ((skip ms s).map (scl a)).reverse else (skip ms s).map (scl a)) =
      (if rev then (skip ms s).reverse else skip ms s).map (scl a) := by
    cases rev <;> simp
  have hlen : (if rev then (skip ms s).reverse else skip ms s).length = (skip ms s).length := by cases rev <;> simp
  dsimp only
  rw [hr, ← hlen]
  generalize (if rev then (skip ms s).reverse else skip ms s) = L
  rw [einsum_scl_all, List.length_map, dimOfEach_scl]
  simp only [bind_map_left, map_bind]
  congr 1; funext tmp
  congr 1; funext r
  cases L with
  | nil => rfl
  | cons m L =>
      simp only [List.map_cons, scl_shape]
      cases m.shape[1]? with
      | none => rfl
      | some c => exact reshape_scl _ _ _

theorem hadamard_scl (a : ℝ) (ms : List (Tensor ℝ)) (s : Skip) :
    hadamard (ms.map (scl a)) s = scl (a ^ (skip ms s).length) <$> hadamard ms s := by
  unfold hadamard
  rw [skip_map]
  cases skip ms s with
  | nil => rfl
  | cons m L =>
      unfold pyReduce
      simp only [List.map_cons, List.length_cons]
      have : ∀ (L : List (Tensor ℝ)) (m : Tensor ℝ) (b : ℝ),
          (L.map (scl a)).foldlM (ewise (· * ·)) (scl b m) = scl (b * a ^ L.length) <$> L.foldlM (ewise (· * ·)) m := by
        intro L
        induction L with
        | nil => intro m b; simp
        | cons x L ih =>
            intro m b
            simp only [List.map_cons, List.foldlM_cons, List.length_cons]
            rw [ewise_scl (c := b * a) (fun x y => by ring)]
            simp only [bind_map_left, map_bind]
            congr 1; funext y
            rw [ih, pow_succ]
            congr 2; ring
      rw [this, pow_succ]
      congr 2; ring

theorem ttm_scl (a b : ℝ) (t : Tensor ℝ) (ms : List (Tensor ℝ)) (axis : Option (List Nat)) (tr : Bool) (s : Skip) :
    ttm (scl a t) (ms.map (scl b)) axis tr s = scl (a * b ^ (skip ms s).length) <$> ttm t ms axis tr s := by
  unfold ttm
  split
  · rfl
  · cases s with
    | none =>
        dsimp only
        simp only [List.length_map, scl_order, map_bind]
        congr 1; funext eqn
        exact einsum_scl_cons _ _ _ _ _
    | int i =>
        dsimp only
        simp only [List.length_map, scl_order, map_bind, skip_map]
        congr 1; funext eqn
        exact einsum_scl_cons _ _ _ _ _
    | list l =>
        dsimp only
        simp only [List.length_map, scl_order, map_bind, skip_map]
        congr 1; funext eqn
        exact einsum_scl_cons _ _ _ _ _

theorem map_scl_one (ms : List (Tensor ℝ)) : ms.map (scl 1) = ms := by
  have : scl 1 = id := funext scl_one
  rw [this, List.map_id]

theorem ttm_scl_left (a : ℝ) (t : Tensor ℝ) (ms : List (Tensor ℝ)) (axis : Option (List Nat)) (tr : Bool) (s : Skip) :
    ttm (scl a t) ms axis tr s = scl a <$> ttm t ms axis tr s := by
  have := ttm_scl a 1 t ms axis tr s
  rwa [map_scl_one, one_pow, mul_one] at this

theorem norm_scl {c : ℝ} (hc : 0 ≤ c) (t : Tensor ℝ) : tf.norm (scl c t) = c * tf.norm t := by
  unfold tf.norm
  have : reduceSum (tf.map (fun x => x ^ 2) (scl c t)) = c ^ 2 * reduceSum (tf.map (fun x => x ^ 2) t) := by
    unfold reduceSum scl tf.map
    simp only [List.map_map, total_eq]
    rw [← List.sum_map_mul_left]
    congr 1
    simp [Function.comp_def, mul_pow]
  rw [this, Real.sqrt_mul (sq_nonneg c), Real.sqrt_sq hc]

theorem reduceMax0_scl {c : ℝ} (hc : 0 ≤ c) (t : Tensor ℝ) : reduceMax0 (scl c t) = scl c <$> reduceMax0 t := by
  unfold reduceMax0
  simp only [scl_shape]
  split
  · split
    · rfl
    · refine congrArg Except.ok (Eq.trans ?_ (scl_ofFn _ _ _).symm)
      refine ofFn_congr fun idx _ => ?_
      simp only [at_scl]
      generalize List.range _ = L
      generalize t.at_ [0, idx.getD 0 0] = x
      induction L generalizing x with
      | nil => rfl
      | cons i L ih =>
          simp only [List.foldl_cons]
          rw [← mul_max_of_nonneg _ _ hc, ih]
  · rfl

/-- Numerator and denominator multiplied by the same positive number. -/
theorem div_scl {c : ℝ} (hc : 0 < c) (a b : Tensor ℝ) : tf.div (scl c a) (scl c b) = tf.div a b := by
  unfold tf.div
  have hm : (0 : ℝ) ∈ (scl c b).data ↔ (0 : ℝ) ∈ b.data := by
    rw [scl_data, List.mem_map]
    constructor
    · rintro ⟨x, hx, h⟩
      rcases mul_eq_zero.1 h with h | h
      · exact absurd h hc.ne'
      · rwa [← h]
    · exact fun h => ⟨0, h, mul_zero _⟩
  simp only [hm]
  split
  · rfl
  · rw [ewise_scl (c := 1) (fun x y => by rw [one_mul, mul_div_mul_left _ _ hc.ne'])]
    have : scl 1 = id := funext scl_one
    rw [this, id_map]

theorem nonzero_scl {c : ℝ} (hc : 0 < c) (t : Tensor ℝ) : loss.nonzero (scl c t) = loss.nonzero t := by
  unfold loss.nonzero scl tf.map
  simp [Function.comp_def, hc.ne']

/-- The scalars of the objective: loss times `c`, objective times `c²`, relative residual unchanged. -/
theorem scalars_scl {c : ℝ} (hc : 0 < c) (X full : Tensor ℝ) :
    cp.scalars (scl c X) (scl c full) = (fun s => (c * s.1, c ^ 2 * s.2.1, s.2.2)) <$> cp.scalars X full := by
  unfold cp.scalars loss.rmseIgnoreZero
  simp only [scl_shape, nonzero_scl hc]
  split
  · rfl
  · have h1 : ewise (· * ·) (scl c full) (loss.nonzero X) = scl c <$> ewise (· * ·) full (loss.nonzero X) := by
      have := ewise_scl (f := (· * ·)) (a := c) (b := 1) (c := c) (fun x y => by ring) full (loss.nonzero X)
      rwa [scl_one] at this
    have hsub := fun A B => ewise_scl (f := (· - ·)) (a := c) (b := c) (c := c) (fun x y => by ring) A B
    simp only [h1, hsub, bind_map_left, map_bind, bind_assoc, pure_bind]
    congr 1; funext B'
    congr 1; funext d
    congr 1; funext e
    have hn := norm_scl hc.le d
    have hs : reduceSum (tf.map (fun x => x ^ 2) (scl c d)) = c ^ 2 * reduceSum (tf.map (fun x => x ^ 2) d) := by
      unfold reduceSum scl tf.map
      simp only [List.map_map, total_eq]
      rw [← List.sum_map_mul_left]
      congr 1
      simp [Function.comp_def, mul_pow]
    rw [hs, norm_scl hc.le, norm_scl hc.le]
    unfold loss.fdiv loss.fsqrt
    have hz : c * tf.norm X = 0 ↔ tf.norm X = 0 := by simp [hc.ne']
    simp only [hz]
    by_cases h2 : reduceSum (loss.nonzero X) = 0
    · simp only [h2, if_true]; rfl
    by_cases h3 : tf.norm X = 0
    · simp only [h2, h3, if_true, if_false]; rfl
    simp only [h2, h3, if_false]
    refine congrArg Except.ok ?_
    simp only [Prod.mk.injEq]
    refine ⟨?_, by ring, ?_⟩
    · rw [mul_div_assoc, Real.sqrt_mul (sq_nonneg c), Real.sqrt_sq hc.le]
    · field_simp

end TD
