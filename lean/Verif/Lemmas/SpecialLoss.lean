import Verif.Lemmas.SpecialRel
import Verif.Lemmas.FloatLoss

/-! # The losses on numbers with infinities and NaN -/
namespace TD
open Tensor fl Spec sp Num
variable {F : Fmt}

theorem Spec.Reveals.trans {x y z : Num F} (h : Reveals x y) (h' : Reveals y z) : Reveals x z :=
  ⟨fun hx => h'.1 (h.1 hx), fun hx => h'.2 (h.2 hx)⟩

theorem shows_absorb {x r : Num F} (h : ∀ P : Num F → Prop, Absorbing P → P x → P r) : Reveals x r :=
  ⟨h _ absorbing_infinite, h _ absorbing_nan⟩

theorem shows_sqrt (x : Num F) : Reveals x x.sqrt := by
  cases x with
  | fin v h => exact ⟨fun h => (h trivial).elim, fun h => by cases h⟩
  | inf s => cases s <;> exact ⟨fun _ h => h, fun h => by cases h⟩
  | nan => exact ⟨fun _ h => h, fun _ => rfl⟩

theorem shows_div (x y : Num F) : Reveals x (x / y) := by
  cases x with
  | fin v h => exact ⟨fun h => (h trivial).elim, fun h => by cases h⟩
  | inf s => cases y <;> exact ⟨fun _ h => h, fun h => by cases h⟩
  | nan => rw [nan_div]; exact ⟨fun _ h => h, fun _ => rfl⟩

theorem shows_mul_right (c x : Num F) : Reveals x (c * x) := shows_absorb fun _ hP h => hP.mul _ _ (Or.inr h)
theorem shows_mul_left (c x : Num F) : Reveals x (x * c) := shows_absorb fun _ hP h => hP.mul _ _ (Or.inl h)
theorem shows_sub_right (c x : Num F) : Reveals x (c - x) := shows_absorb fun _ hP h => hP.sub _ _ (Or.inr h)
theorem shows_sub_left (c x : Num F) : Reveals x (x - c) := shows_absorb fun _ hP h => hP.sub _ _ (Or.inl h)

theorem sumSq_ofFn (s : List Nat) (f : List Nat → Num F) :
    sp.sumSq (ofFn s f) = tf.Red.total ((indices s).map fun i => f i * f i) := by
  show tf.Red.total (((indices s).map f).map fun x => x * x) = _
  rw [List.map_map]; rfl

theorem fl_sumSq_ofFn {S : Arith} (s : List Nat) (f : List Nat → Fl S) :
    fl.sumSq (ofFn s f) = tf.Red.total ((indices s).map fun i => f i * f i) := by
  show tf.Red.total (((indices s).map f).map fun x => x * x) = _
  rw [List.map_map]; rfl

theorem shows_total {ι : Type} (l : List ι) (f : ι → Num F) {i : ι} (hi : i ∈ l) : Reveals (f i) (tf.Red.total (l.map f)) := by
  refine shows_absorb fun P hP h => ?_
  obtain ⟨k, hk, e⟩ := List.getElem_of_mem hi
  refine hP.eval (i := k) (f := fun i => (l.map f).getD i 0) ?_ (occ_sum _ (by simpa using hk))
  rw [List.getD_eq_getElem _ _ (by simpa using hk), List.getElem_map, e]
  exact h

theorem isNum_total {ι : Type} (l : List ι) (f : ι → Num F) (g : ι → Fl F.arith)
    (h : ∀ i ∈ l, (f i).Finite → IsNum (f i) (g i)) (hf : (tf.Red.total (l.map f)).Finite) :
    IsNum (tf.Red.total (l.map f)) (tf.Red.total (l.map g)) := by
  have := isNum_eval (f := fun i => (l.map f).getD i 0) (g := fun i => (l.map g).getD i 0) (fun i => ?_) _ hf
  · show IsNum _ (run (F.arith.sumTree (l.map g).length) _)
    rw [List.length_map, ← List.length_map (f := f)]
    exact this
  · simp only [List.getD_eq_getElem?_getD, List.getElem?_map]
    cases hi : l[i]? with
    | none => exact fun _ => isNum_zero
    | some x => exact h x (List.mem_of_getElem? hi)

theorem shows_sumSq (s : List Nat) (f : List Nat → Num F) {i : List Nat} (hi : InB s i) : Reveals (f i) (sp.sumSq (ofFn s f)) := by
  rw [sumSq_ofFn]
  exact (shows_mul_left (f i) (f i)).trans (shows_total _ (fun i => f i * f i) (mem_indices.2 hi))

theorem isNum_sumSq (s : List Nat) (f : List Nat → Num F) (g : List Nat → Fl F.arith)
    (h : ∀ i, InB s i → (f i).Finite → IsNum (f i) (g i)) (hf : (sp.sumSq (ofFn s f)).Finite) :
    IsNum (sp.sumSq (ofFn s f)) (fl.sumSq (ofFn s g)) := by
  rw [sumSq_ofFn] at hf ⊢
  rw [fl_sumSq_ofFn]
  exact isNum_total _ _ _ (fun i hi => isNum_mul (h i (mem_indices.1 hi)) (h i (mem_indices.1 hi))) hf

theorem isNum_sqrt {x : Num F} {y : Fl F.arith} (h : x.Finite → IsNum x y) (hf : x.sqrt.Finite) : IsNum x.sqrt (fsqrt y) := by
  have h1 : x.Finite := by by_contra hn; exact (shows_sqrt x).1 hn hf
  obtain ⟨p, e⟩ := h h1
  rw [e] at hf ⊢
  unfold Num.sqrt at hf ⊢
  by_cases h0 : y.val < 0
  · simp only [if_pos h0] at hf; exact hf.elim
  · simp only [if_neg h0] at hf ⊢
    exact isNum_round hf rfl

theorem isNum_div {x x' : Num F} {y y' : Fl F.arith} (h : x.Finite → IsNum x y) (h' : IsNum x' y') (hf : (x / x').Finite) :
    ∃ w, fdiv y y' = some w ∧ IsNum (x / x') w := by
  have h1 : x.Finite := by by_contra hn; exact (shows_div x x').1 hn hf
  obtain ⟨p, e⟩ := h h1
  obtain ⟨p', e'⟩ := h'
  rw [e, e', div_fin] at hf ⊢
  by_cases h0 : y'.val = 0
  · rw [if_pos h0] at hf
    split at hf <;> exact hf.elim
  · rw [if_neg h0] at hf ⊢
    exact ⟨_, by rw [fdiv, if_neg h0], isNum_round hf rfl⟩

theorem rnd_le_two (F : Fmt) {x : ℝ} (hx : x = 0 ∨ 1 / 2 ≤ x) : 0 ≤ F.arith.rnd x ∧ F.arith.rnd x ≤ 2 * x := by
  rcases hx with rfl | hx
  · rw [F.arith.rnd_zero]; simp
  have h := F.arith.rnd_err x
  rw [abs_of_nonneg (show 0 ≤ x by linarith)] at h
  have := abs_le.1 h
  have := F.u_le
  have := F.eta_le
  exact ⟨F.rnd_nonneg x (by linarith), by nlinarith⟩

theorem const_fin (F : Fmt) {x : ℝ} (hx : x = 0 ∨ 1 / 2 ≤ x) (hb : 2 * x ≤ F.big) : IsNum (sp.const F x) (fl.const F.arith x) := by
  obtain ⟨h1, h2⟩ := rnd_le_two F hx
  refine isNum_round ?_ rfl
  unfold Num.round
  rw [dif_pos (by rw [abs_of_nonneg h1]; linarith)]
  trivial

theorem nat_half (n : Nat) : (n : ℝ) = 0 ∨ 1 / 2 ≤ (n : ℝ) := by
  rcases Nat.eq_zero_or_pos n with rfl | h
  · simp
  · right
    have : (1 : ℝ) ≤ n := by exact_mod_cast h
    linarith

theorem half_fin (F : Fmt) : IsNum (sp.const F (1 / 2)) (fl.const F.arith (1 / 2)) :=
  const_fin F (Or.inr le_rfl) (by have := F.one_le_big; linarith)

theorem isNum_at (A : Tensor (Num F)) {i : List Nat} (hi : InB A.shape i) (h : (A.at_ i).Finite) : IsNum (A.at_ i) ((wides A).at_ i) := by
  rw [wides, at_map _ _ hi]
  exact (mark_input (P := fun x => x = .nan) (A.at_ i)).1 h

/-! ### Signs -/

/-- Not negative: NaN, plus infinity or a number at least 0. -/
def NotNeg : Num F → Prop
  | .fin v _ => 0 ≤ v
  | .inf s => s = false
  | .nan => True

theorem notNeg_round {x : ℝ} (h : 0 ≤ x) : NotNeg (Num.round F x) := by
  rcases round_cases (F := F) x with ⟨h', e⟩ | e <;> rw [e]
  · exact F.rnd_nonneg x h
  · simp [NotNeg, h]

theorem notNeg_sqrt (x : Num F) : NotNeg x.sqrt := by
  cases x with
  | fin v h =>
      unfold Num.sqrt
      by_cases h0 : v < 0
      · simp [h0, NotNeg]
      · simp only [h0, if_false]; exact notNeg_round (Real.sqrt_nonneg _)
  | inf s => cases s <;> simp [Num.sqrt, NotNeg]
  | nan => trivial

theorem notNeg_mul {x y : Num F} (hx : NotNeg x) (hy : NotNeg y) : NotNeg (x * y) := by
  cases x with
  | fin v h =>
      cases y with
      | fin w h' => exact notNeg_round (mul_nonneg hx hy)
      | inf t =>
          rw [mul_fin_inf]
          have hv : 0 ≤ v := hx
          split_ifs
          · trivial
          · cases hy; simp [NotNeg, hv]
      | nan => trivial
  | inf s =>
      cases y with
      | fin w h' =>
          rw [mul_inf_fin]
          have hw : 0 ≤ w := hy
          split_ifs
          · trivial
          · cases hx; simp [NotNeg, hw]
      | inf t => rw [mul_inf_inf]; cases hx; cases hy; rfl
      | nan => trivial
  | nan => rw [nan_mul]; trivial

theorem notNeg_add {x y : Num F} (hx : NotNeg x) (hy : NotNeg y) : NotNeg (x + y) := by
  cases x with
  | fin v h =>
      cases y with
      | fin w h' => exact notNeg_round (add_nonneg hx hy)
      | inf t => exact hy
      | nan => trivial
  | inf s =>
      cases y with
      | fin w h' => exact hx
      | inf t => rw [add_inf_inf]; cases hx; cases hy; rfl
      | nan => trivial
  | nan => rw [nan_add]; trivial

theorem notNeg_one : NotNeg (1 : Num F) := by rw [one_def]; exact zero_le_one

theorem notNeg_half : NotNeg (sp.const F (1 / 2)) := notNeg_round (by norm_num)

/-- A non-negative infinity or NaN is not below anything. -/
theorem lt_of_infinite {x : Num F} (h : NotNeg x) (hx : ¬ x.Finite) (t : Num F) : Num.lt x t = false := by
  unfold Num.lt
  cases x with
  | fin v hv => exact (hx trivial).elim
  | inf s =>
      cases h
      show (match some ⊤, t.val with | some a, some b => decide (a < b) | _, _ => false) = false
      cases t.val with
      | none => rfl
      | some b => simp
  | nan => rfl

theorem lt_nan (x : Num F) : Num.lt x .nan = false := by
  unfold Num.lt
  cases x with
  | fin v hv => rfl
  | inf s => cases s <;> rfl
  | nan => rfl

theorem notNeg_div {x y : Num F} (hx : NotNeg x) (hy : NotNeg y) : NotNeg (x / y) := by
  cases x with
  | fin v h =>
      cases y with
      | fin w h' =>
          have hv : 0 ≤ v := hx
          have hw : 0 ≤ w := hy
          rw [div_fin]
          split_ifs
          · trivial
          · simp [NotNeg, hv]
          · exact notNeg_round (div_nonneg hv hw)
      | inf t => rw [div_fin_inf, zero_def]; exact le_refl (0 : ℝ)
      | nan => trivial
  | inf s =>
      cases y with
      | fin w h' =>
          have hw : 0 ≤ w := hy
          rw [div_inf_fin]
          cases hx; simp [NotNeg, hw]
      | inf t => trivial
      | nan => trivial
  | nan => rw [nan_div]; trivial

theorem infinite_div {x y : Num F} (hx : ¬ x.Finite) (hy : ¬ y.Finite) : x / y = .nan := by
  cases x with
  | fin v h => exact (hx trivial).elim
  | inf s =>
      cases y with
      | fin w h => exact (hy trivial).elim
      | inf t => rfl
      | nan => rfl
  | nan => exact nan_div _

theorem notNeg_abs (x : Num F) : NotNeg x.abs := by
  cases x with
  | fin v h => exact notNeg_round (abs_nonneg v)
  | inf s => rfl
  | nan => trivial

theorem abs_infinite {x : Num F} (hx : ¬ x.Finite) : ¬ x.abs.Finite := by
  cases x with
  | fin v h => exact (hx trivial).elim
  | inf s => exact fun h => h
  | nan => exact fun h => h

end TD
