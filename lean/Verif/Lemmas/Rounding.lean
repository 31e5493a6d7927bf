import Mathlib.Tactic.Linarith
import Mathlib.Tactic.Ring
import Mathlib.Tactic.Positivity
import Mathlib.Algebra.Order.Ring.Abs
import Mathlib.Algebra.Order.BigOperators.Ring.List
import Verif.Lemmas.Sim

/-! # Relations between a rounded, an exact and a magnitude run, through the reductions -/
namespace TD
open Tensor fl
variable {S : Arith}

/-- A family of relations carried along evaluation trees. -/
structure Graded (S : Arith) (G : Nat → Fl S → ℝ → ℝ → Prop) : Prop where
  mono : ∀ {d d' : Nat} {x : Fl S} {y a : ℝ}, d ≤ d' → G d x y a → G d' x y a
  tree : ∀ {ι : Type} (t : Expr ι) (x : ι → Fl S) (y a : ι → ℝ) (e : ι → Nat), (∀ i, G (e i) (x i) (y i) (a i)) →
    G (t.passes e) (run t x) (t.exact y) (t.exact a)

namespace Graded
variable {G : Nat → Fl S → ℝ → ℝ → Prop} (hG : Graded S G)
include hG

theorem zero (d : Nat) : G d 0 0 0 :=
  hG.mono (Nat.zero_le _) (hG.tree (ι := Empty) .zero (fun i => i.elim) (fun i => i.elim) (fun i => i.elim) (fun i => i.elim)
    fun i => i.elim)

theorem one (d : Nat) : G d 1 1 1 :=
  hG.mono (Nat.zero_le _) (hG.tree (ι := Empty) .one (fun i => i.elim) (fun i => i.elim) (fun i => i.elim) (fun i => i.elim)
    fun i => i.elim)

theorem mul {d e : Nat} {x x' : Fl S} {y y' a a' : ℝ} (h : G d x y a) (h' : G e x' y' a') :
    G (d + e + 1) (x * x') (y * y') (a * a') :=
  hG.tree (ι := Bool) (.mul (.leaf false) (.leaf true)) (fun b => if b then x' else x) (fun b => if b then y' else y)
    (fun b => if b then a' else a) (fun b => if b then e else d) (by intro b; cases b <;> simpa)

theorem add {d : Nat} {x x' : Fl S} {y y' a a' : ℝ} (h : G d x y a) (h' : G d x' y' a') :
    G (d + 1) (x + x') (y + y') (a + a') := by
  have := hG.tree (ι := Bool) (.add (.leaf false) (.leaf true)) (fun b => if b then x' else x) (fun b => if b then y' else y)
    (fun b => if b then a' else a) (fun b => if b then d else d) (by intro b; cases b <;> simpa)
  rw [show Expr.passes _ _ = d + 1 by simp [Expr.passes]] at this
  exact this

omit hG in
theorem _root_.TD.map_getD_list {β γ : Type} (l : List β) (d0 : β) (g : β → γ) :
    (List.range l.length).map (fun i => g (l.getD i d0)) = l.map g := by
  apply List.ext_getElem
  · simp
  · intro i h1 h2
    simp only [List.length_map, List.length_range] at h1
    simp [h1]

theorem total {d : Nat} {l : List (Fl S)} {m a : List ℝ} (h1 : l.length = m.length) (h2 : l.length = a.length)
    (h : ∀ i, G d (l.getD i 0) (m.getD i 0) (a.getD i 0)) :
    G (d + (l.length - 1)) (tf.Red.total l) (tf.Red.total m) (tf.Red.total a) := by
  have := hG.tree (S.sumTree l.length) (fun i => l.getD i 0) (fun i => m.getD i 0) (fun i => a.getD i 0) (fun _ => d) h
  rw [S.sum_exact, S.sum_exact] at this
  nth_rewrite 3 [h1] at this
  nth_rewrite 3 [h2] at this
  rw [map_getD_list m 0 (fun x => x), map_getD_list a 0 (fun x => x), List.map_id', List.map_id'] at this
  exact hG.mono (S.sum_passes _ _ _ fun _ _ => le_rfl) this

theorem dot {d e : Nat} {l : List (Fl S × Fl S)} {m a : List (ℝ × ℝ)} (h1 : l.length = m.length) (h2 : l.length = a.length)
    (h : ∀ i, G d (l.getD i (0, 0)).1 (m.getD i (0, 0)).1 (a.getD i (0, 0)).1 ∧
      G e (l.getD i (0, 0)).2 (m.getD i (0, 0)).2 (a.getD i (0, 0)).2) :
    G (d + e + l.length) (tf.Red.dot l) (tf.Red.dot m) (tf.Red.dot a) := by
  have := hG.tree (S.dotTree l.length) (fun p => if p.2 then (l.getD p.1 (0, 0)).2 else (l.getD p.1 (0, 0)).1)
    (fun p => if p.2 then (m.getD p.1 (0, 0)).2 else (m.getD p.1 (0, 0)).1)
    (fun p => if p.2 then (a.getD p.1 (0, 0)).2 else (a.getD p.1 (0, 0)).1) (fun p => if p.2 then e else d)
    (by rintro ⟨i, b⟩; cases b
        · exact (h i).1
        · exact (h i).2)
  rw [S.dot_exact, S.dot_exact] at this
  simp only [Bool.false_eq_true, if_false, if_true] at this
  nth_rewrite 3 [h1] at this
  nth_rewrite 3 [h2] at this
  rw [map_getD_list m (0, 0) (fun p => p.1 * p.2), map_getD_list a (0, 0) (fun p => p.1 * p.2)] at this
  exact hG.mono (S.dot_passes _ _ _ _ fun _ _ => ⟨le_rfl, le_rfl⟩) this

theorem contract {d n : Nat} (dims : List Nat) {f : List Nat → List (Fl S)} {g a : List Nat → List ℝ}
    (h1 : ∀ v, (g v).length = n) (h2 : ∀ v, (a v).length = n)
    (h : ∀ v k, G d ((f v).getD k 0) ((g v).getD k 0) ((a v).getD k 0)) :
    G (n * d + (n - 1) + (dims.prod - 1)) (tf.Ein.contract n dims f) (tf.Ein.contract n dims g) (tf.Ein.contract n dims a) := by
  have := hG.tree (S.einTree n dims) (fun p => (f p.1).getD p.2 0) (fun p => (g p.1).getD p.2 0)
    (fun p => (a p.1).getD p.2 0) (fun _ => d) (fun p => h p.1 p.2)
  rw [S.ein_exact, S.ein_exact] at this
  have e1 : ∀ v, (List.range n).map (fun k => (g v).getD k 0) = g v := fun v => by
    have := map_getD_list (g v) 0 (fun x => x)
    rwa [h1, List.map_id'] at this
  have e2 : ∀ v, (List.range n).map (fun k => (a v).getD k 0) = a v := fun v => by
    have := map_getD_list (a v) 0 (fun x => x)
    rwa [h2, List.map_id'] at this
  simp only [e1, e2] at this
  have hp := S.ein_passes n dims (fun _ => d) (fun _ => d) (fun _ _ _ _ => le_rfl)
  have hs : ((List.range n).map fun _ => d).sum = n * d := by simp
  rw [hs] at hp
  exact hG.mono hp this

theorem matmul {d e K : Nat} {A A' : Tensor (Fl S)} {B B' C C' : Tensor ℝ} (h : TRel (G d) A B C) (h' : TRel (G e) A' B' C')
    {ta tb : Bool} (hK : ∀ a0 a1, A.shape = [a0, a1] → (if ta then a0 else a1) ≤ K) :
    RelR (TRel (G (d + e + K))) (tf.matmul A A' ta tb) (tf.matmul B B' ta tb) (tf.matmul C C' ta tb) := by
  unfold tf.matmul
  rw [← h.1, ← h.2.1, ← h'.1, ← h'.2.1]
  split
  · rename_i a0 a1 b0 b1 hA hB
    have := hK _ _ hA
    dsimp only
    by_cases hk : (if ta = true then a0 else a1) = if tb = true then b1 else b0
    · rw [if_pos hk, if_pos hk, if_pos hk]
      refine TRel.mat (hG.zero _) _ _ fun i j => ?_
      generalize (if ta = true then a0 else a1) = k at this
      refine hG.mono (Nat.add_le_add_left this (d + e)) ?_
      have := hG.dot (d := d) (e := e) (l := (List.range k).map fun l =>
          (A.at_ (if ta = true then [l, i] else [i, l]), A'.at_ (if tb = true then [j, l] else [l, j])))
        (m := (List.range k).map fun l =>
          (B.at_ (if ta = true then [l, i] else [i, l]), B'.at_ (if tb = true then [j, l] else [l, j])))
        (a := (List.range k).map fun l =>
          (C.at_ (if ta = true then [l, i] else [i, l]), C'.at_ (if tb = true then [j, l] else [l, j])))
        (by simp) (by simp) (by
          intro l
          simp only [List.getD_eq_getElem?_getD, List.getElem?_map]
          cases (List.range k)[l]? with
          | none => exact ⟨hG.zero _, hG.zero _⟩
          | some l => exact ⟨h.at_ _, h'.at_ _⟩)
      simpa using this
    · rw [if_neg hk, if_neg hk, if_neg hk]; exact ⟨rfl, rfl⟩
  · exact ⟨rfl, rfl⟩

/-- Entries of a triple of tensors. -/
abbrev _root_.TD.Triple (S : Arith) := Tensor (Fl S) × Tensor ℝ × Tensor ℝ

omit hG in
theorem shapes_eq {d : Nat} {L : List (Triple S)} (h : ∀ p ∈ L, TRel (G d) p.1 p.2.1 p.2.2) :
    (L.map fun p => p.2.1).map Tensor.shape = (L.map fun p => p.1).map Tensor.shape ∧
      (L.map fun p => p.2.2).map Tensor.shape = (L.map fun p => p.1).map Tensor.shape := by
  constructor
  · simp only [List.map_map]; exact List.map_congr_left fun p hp => (h p hp).1.symm
  · simp only [List.map_map]; exact List.map_congr_left fun p hp => (h p hp).2.1.symm

theorem einsumL {d K : Nat} {ins : List (List Char)} {out : List Char} {L : List (Triple S)}
    (h : ∀ p ∈ L, TRel (G d) p.1 p.2.1 p.2.2)
    (hK : tf.einsumOk ins out ((L.map fun p => p.1).map Tensor.shape) →
      ((ins.flatten.dedup.filter (· ∉ out)).map (tf.labelDim ins ((L.map fun p => p.1).map Tensor.shape))).prod ≤ K) :
    RelR (TRel (G (L.length * d + (L.length - 1) + (K - 1)))) (tf.einsumL ins out (L.map fun p => p.1))
      (tf.einsumL ins out (L.map fun p => p.2.1)) (tf.einsumL ins out (L.map fun p => p.2.2)) := by
  unfold tf.einsumL
  rw [(shapes_eq h).1, (shapes_eq h).2]
  dsimp only
  by_cases hok : tf.einsumOk ins out ((L.map fun p => p.1).map Tensor.shape)
  · rw [if_pos hok, if_pos hok, if_pos hok]
    have hlen : ins.length = L.length := by simpa using hok.1
    refine TRel.ofFn (hG.zero _) _ fun i _ => ?_
    have := hK hok
    refine hG.mono (d := L.length * d + (L.length - 1) +
      (((ins.flatten.dedup.filter (· ∉ out)).map (tf.labelDim ins ((L.map fun p => p.1).map Tensor.shape))).prod - 1))
      (by omega) ?_
    simp only [List.length_map]
    refine hG.contract _ (fun v => by simp [hlen]) (fun v => by simp [hlen]) fun v k => ?_
    simp only [List.getD_eq_getElem?_getD, List.getElem?_zipWith, List.getElem?_map]
    cases ins[k]? with
    | none => exact hG.zero _
    | some w =>
        cases hk : L[k]? with
        | none => exact hG.zero _
        | some p => exact (h p (List.mem_of_getElem? hk)).at_ _
  · rw [if_neg hok, if_neg hok, if_neg hok]; exact ⟨rfl, rfl⟩

theorem einsum {d K : Nat} {eqn : List Char} {L : List (Triple S)} (h : ∀ p ∈ L, TRel (G d) p.1 p.2.1 p.2.2)
    (hK : ∀ ins out, tf.parseEq eqn = some (ins, out) → tf.einsumOk ins out ((L.map fun p => p.1).map Tensor.shape) →
      ((ins.flatten.dedup.filter (· ∉ out)).map (tf.labelDim ins ((L.map fun p => p.1).map Tensor.shape))).prod ≤ K) :
    RelR (TRel (G (L.length * d + (L.length - 1) + (K - 1)))) (tf.einsum eqn (L.map fun p => p.1))
      (tf.einsum eqn (L.map fun p => p.2.1)) (tf.einsum eqn (L.map fun p => p.2.2)) := by
  unfold tf.einsum
  split
  · exact ⟨rfl, rfl⟩
  · rename_i ins out hp
    exact hG.einsumL h (hK _ _ hp)

end Graded
end TD
