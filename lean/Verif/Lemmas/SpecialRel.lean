import Mathlib.Data.ENat.Basic
import Verif.Lemmas.Special
import Verif.Lemmas.Par
import Verif.Lemmas.Close
import Verif.Lemmas.Xcb
import Verif.Spec.Special

/-! # Three runs: with infinities, with unbounded exponents, and with marks -/
namespace TD
open Tensor fl Spec sp Num
variable {F : Fmt} {P : Num F → Prop}

/-! ### Marks: `⊤` for a spoiled number -/

theorem enat_mul_top {a b : ℕ∞} (h : a * b = ⊤) : a = ⊤ ∨ b = ⊤ := by
  rcases WithTop.mul_eq_top_iff.1 h with h | h
  exacts [Or.inr h.2, Or.inl h.1]

theorem enat_sum_top : ∀ {l : List ℕ∞}, l.sum = ⊤ → ∃ i, i < l.length ∧ l.getD i 0 = ⊤
  | [], h => by simp at h
  | a :: l, h => by
      rw [List.sum_cons] at h
      rcases WithTop.add_eq_top.1 h with h | h
      · exact ⟨0, by simp, h⟩
      · obtain ⟨i, hi, e⟩ := enat_sum_top h
        exact ⟨i + 1, by simpa using hi, by simpa using e⟩

theorem enat_prod_top : ∀ {l : List ℕ∞}, l.prod = ⊤ → ∃ i, i < l.length ∧ l.getD i 0 = ⊤
  | [], h => by simp at h
  | a :: l, h => by
      rw [List.prod_cons] at h
      rcases enat_mul_top h with h | h
      · exact ⟨0, by simp, h⟩
      · obtain ⟨i, hi, e⟩ := enat_prod_top h
        exact ⟨i + 1, by simpa using hi, by simpa using e⟩

/-- The relation between the three runs. -/
def Mark (P : Num F → Prop) (x : Num F) (y : Fl F.arith) (b : ℕ∞) : Prop := (x.Finite → IsNum x y) ∧ (b = ⊤ → P x)

theorem isNum_round {x : ℝ} {y : Fl F.arith} (h : (Num.round F x).Finite) (hy : y.val = F.arith.rnd x) :
    IsNum (Num.round F x) y := by
  rcases round_cases (F := F) x with ⟨h', e⟩ | e
  · exact ⟨by rw [hy]; exact h', by rw [e]; simp only [hy]⟩
  · rw [e] at h; exact False.elim h

theorem isNum_add {x x' : Num F} {y y' : Fl F.arith} (h : x.Finite → IsNum x y) (h' : x'.Finite → IsNum x' y')
    (hf : (x + x').Finite) : IsNum (x + x') (y + y') := by
  have h1 : x.Finite := by by_contra hn; exact absorbing_infinite.add _ _ (Or.inl hn) hf
  have h2 : x'.Finite := by by_contra hn; exact absorbing_infinite.add _ _ (Or.inr hn) hf
  obtain ⟨p, e⟩ := h h1
  obtain ⟨p', e'⟩ := h' h2
  rw [e, e', add_fin] at hf ⊢
  exact isNum_round hf rfl

theorem isNum_sub {x x' : Num F} {y y' : Fl F.arith} (h : x.Finite → IsNum x y) (h' : x'.Finite → IsNum x' y')
    (hf : (x - x').Finite) : IsNum (x - x') (y - y') := by
  have h1 : x.Finite := by by_contra hn; exact absorbing_infinite.sub _ _ (Or.inl hn) hf
  have h2 : x'.Finite := by by_contra hn; exact absorbing_infinite.sub _ _ (Or.inr hn) hf
  obtain ⟨p, e⟩ := h h1
  obtain ⟨p', e'⟩ := h' h2
  rw [e, e', sub_fin] at hf ⊢
  exact isNum_round hf rfl

theorem isNum_mul {x x' : Num F} {y y' : Fl F.arith} (h : x.Finite → IsNum x y) (h' : x'.Finite → IsNum x' y')
    (hf : (x * x').Finite) : IsNum (x * x') (y * y') := by
  have h1 : x.Finite := by by_contra hn; exact absorbing_infinite.mul _ _ (Or.inl hn) hf
  have h2 : x'.Finite := by by_contra hn; exact absorbing_infinite.mul _ _ (Or.inr hn) hf
  obtain ⟨p, e⟩ := h h1
  obtain ⟨p', e'⟩ := h' h2
  rw [e, e', mul_fin] at hf ⊢
  exact isNum_round hf rfl

theorem isNum_zero : IsNum (0 : Num F) (0 : Fl F.arith) := ⟨_, zero_def⟩
theorem isNum_one : IsNum (1 : Num F) (1 : Fl F.arith) := ⟨_, one_def⟩

theorem isNum_eval {ι : Type} {f : ι → Num F} {g : ι → Fl F.arith} (h : ∀ i, (f i).Finite → IsNum (f i) (g i)) :
    ∀ t : Expr ι, (eval f t).Finite → IsNum (eval f t) (run t g)
  | .leaf i, hf => h i hf
  | .zero, _ => isNum_zero
  | .one, _ => isNum_one
  | .add a b, hf => isNum_add (isNum_eval h a) (isNum_eval h b) hf
  | .mul a b, hf => isNum_mul (isNum_eval h a) (isNum_eval h b) hf
  | .fma a b c, hf => by
      have hi := absorbing_infinite.fma (eval f a) (eval f b) (eval f c)
      change (Num.fma (eval f a) (eval f b) (eval f c)).Finite at hf
      have h1 : (eval f a).Finite := by by_contra hn; exact hi (Or.inl hn) hf
      have h2 : (eval f b).Finite := by by_contra hn; exact hi (Or.inr (Or.inl hn)) hf
      have h3 : (eval f c).Finite := by by_contra hn; exact hi (Or.inr (Or.inr hn)) hf
      obtain ⟨p1, e1⟩ := isNum_eval h a h1
      obtain ⟨p2, e2⟩ := isNum_eval h b h2
      obtain ⟨p3, e3⟩ := isNum_eval h c h3
      show IsNum (Num.fma (eval f a) (eval f b) (eval f c)) _
      rw [e1, e2, e3] at hf ⊢
      exact isNum_round (x := (run a g).val * (run b g).val + (run c g).val) hf rfl

theorem par_mark (hP : Absorbing P) : Par (Mark P) where
  zero := ⟨fun _ => isNum_zero, fun h => by simp at h⟩
  mul := by
    intro x y a x' y' a' h h'
    refine ⟨isNum_mul h.1 h'.1, fun e => hP.mul _ _ ?_⟩
    exact (enat_mul_top e).imp h.2 h'.2
  total := by
    intro l m a h1 h2 h
    refine ⟨fun hf => ?_, fun e => ?_⟩
    · have := isNum_eval (g := fun i => m.getD i 0) (fun i => (h i).1) _ hf
      show IsNum _ (run (F.arith.sumTree m.length) _)
      rw [← h1]
      exact this
    · obtain ⟨i, hi, e⟩ := enat_sum_top e
      exact hP.eval (f := fun i => l.getD i 0) ((h i).2 e) (occ_sum _ (by omega))
  dot := by
    intro l m a h1 h2 h
    have hg : ∀ p : Nat × Bool, Mark P (if p.2 then (l.getD p.1 (0, 0)).2 else (l.getD p.1 (0, 0)).1)
        (if p.2 then (m.getD p.1 (0, 0)).2 else (m.getD p.1 (0, 0)).1)
        (if p.2 then (a.getD p.1 (0, 0)).2 else (a.getD p.1 (0, 0)).1) := by
      rintro ⟨i, b⟩
      cases b
      exacts [(h i).1, (h i).2]
    refine ⟨fun hf => ?_, fun e => ?_⟩
    · have := isNum_eval (g := fun p : Nat × Bool => if p.2 then (m.getD p.1 (0, 0)).2 else (m.getD p.1 (0, 0)).1)
        (fun p => (hg p).1) _ hf
      show IsNum _ (run (F.arith.dotTree m.length) _)
      rw [← h1]
      exact this
    · obtain ⟨i, hi, e⟩ := enat_sum_top e
      rw [List.length_map] at hi
      rw [List.getD_eq_getElem _ _ (by simpa using hi), List.getElem_map] at e
      rw [← List.getD_eq_getElem _ (0, 0) hi] at e
      rcases enat_mul_top e with e | e
      · exact hP.eval (i := (i, false)) (f := fun p : Nat × Bool => if p.2 then (l.getD p.1 (0, 0)).2 else (l.getD p.1 (0, 0)).1)
          ((hg (i, false)).2 e) (occ_dot _ (by omega) _)
      · exact hP.eval (i := (i, true)) (f := fun p : Nat × Bool => if p.2 then (l.getD p.1 (0, 0)).2 else (l.getD p.1 (0, 0)).1)
          ((hg (i, true)).2 e) (occ_dot _ (by omega) _)
  contract := by
    intro n dims f g a hf hg ha h
    refine ⟨fun hfin => isNum_eval (g := fun p : List Nat × Nat => (g p.1).getD p.2 0) (fun p => (h p.1 p.2).1) _ hfin, fun e => ?_⟩
    obtain ⟨j, hj, e⟩ := enat_sum_top e
    rw [List.length_map] at hj
    rw [List.getD_eq_getElem _ _ (by simpa using hj), List.getElem_map] at e
    obtain ⟨k, hk, e⟩ := enat_prod_top e
    rw [ha] at hk
    exact hP.eval (i := ((indices dims)[j], k)) (f := fun p : List Nat × Nat => (f p.1).getD p.2 0) ((h _ k).2 e)
      (occ_ein _ (List.getElem_mem _) hk)

/-! ### The inputs -/

open Classical in
/-- The mark of a number. -/
noncomputable def mark (P : Num F → Prop) (x : Num F) : ℕ∞ := if P x then ⊤ else 1

/-- The marks of a tensor. -/
noncomputable def marks (P : Num F → Prop) (A : Tensor (Num F)) : Tensor ℕ∞ := tf.map (mark P) A

theorem mark_ne_zero (x : Num F) : mark P x ≠ 0 := by unfold mark; split <;> simp

theorem mark_input (x : Num F) : Mark P x (wide x) (mark P x) := by
  refine ⟨fun h => ?_, fun h => ?_⟩
  · obtain ⟨v, hv, rfl⟩ := finite_elim h
    exact ⟨hv, rfl⟩
  · unfold mark at h
    split at h
    · assumption
    · simp at h

theorem marks_input (hP : Absorbing P) (A : Tensor (Num F)) : TRel (Mark P) A (wides A) (marks P A) := by
  refine ⟨rfl, rfl, fun i => ?_⟩
  show Mark P (A.data.getD i 0) ((A.data.map wide).getD i 0) ((A.data.map (mark P)).getD i 0)
  simp only [List.getD_eq_getElem?_getD, List.getElem?_map]
  cases A.data[i]? with
  | none => exact (par_mark hP).zero
  | some x => exact mark_input x

theorem at_marks (A : Tensor (Num F)) {i : List Nat} (hi : InB A.shape i) : (marks P A).at_ i = mark P (A.at_ i) :=
  at_map _ _ hi

/-- The three runs of a list of operands. -/
noncomputable def runs3 (P : Num F → Prop) (ms : List (Tensor (Num F))) : List (Tensor (Num F) × Tensor (Fl F.arith) × Tensor ℕ∞) :=
  ms.map fun A => (A, wides A, marks P A)

theorem runs3_maps (P : Num F → Prop) (ms : List (Tensor (Num F))) : ((runs3 P ms).map fun p => p.1) = ms ∧
    ((runs3 P ms).map fun p => p.2.1) = ms.map wides ∧ ((runs3 P ms).map fun p => p.2.2) = ms.map (marks P) := by
  simp [runs3, Function.comp_def]

theorem runs3_rel (hP : Absorbing P) (ms : List (Tensor (Num F))) : ∀ p ∈ runs3 P ms, TRel (Mark P) p.1 p.2.1 p.2.2 := by
  intro p hp
  obtain ⟨A, -, rfl⟩ := List.mem_map.1 hp
  exact marks_input hP A

theorem agrees_of {R : Res (Tensor (Num F))} {W : Res (Tensor (Fl F.arith))} {M : Res (Tensor ℕ∞)}
    (h : RelR (TRel (Mark P)) R W M) : Agrees R W := by
  cases R with
  | error e =>
      cases W with
      | error e' =>
          cases M with
          | error e'' => exact h.1
          | ok M => exact h.elim
      | ok W => exact h.elim
  | ok R =>
      cases W with
      | error e' => exact h.elim
      | ok W =>
          cases M with
          | error e => exact h.elim
          | ok M => exact ⟨h.1, fun i _ hf => (h.at_ i).1 hf⟩

/-- If the exact operation on the marks gives `⊤`, the computed entry is spoiled. -/
theorem spoiled_of {R : Res (Tensor (Num F))} {W : Res (Tensor (Fl F.arith))} {M : Res (Tensor ℕ∞)}
    (h : RelR (TRel (Mark P)) R W M) {T : Tensor ℕ∞} (hM : M = .ok T) :
    ∃ R', R = .ok R' ∧ R'.shape = T.shape ∧ ∀ i, T.at_ i = ⊤ → P (R'.at_ i) := by
  subst hM
  cases R with
  | error e => cases W <;> exact h.elim
  | ok R =>
      cases W with
      | error e' => exact h.elim
      | ok W => exact ⟨R, rfl, h.2.1, fun i hi => (h.at_ i).2 hi⟩

end TD
