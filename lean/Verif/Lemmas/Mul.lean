import Verif.Lemmas.Contract
import Verif.Lemmas.Exact

namespace TD
open Spec Tensor
variable {α : Type}

namespace tf
variable [NonUnitalNonAssocSemiring α]

theorem matmul_nn {A B : Tensor α} {m k n : Nat} (hA : A.shape = [m, k]) (hB : B.shape = [k, n]) :
    matmul A B = .ok (mat m n fun i j => ∑ l ∈ Finset.range k, A.at_ [i, l] * B.at_ [l, j]) := by
  unfold matmul; rw [hA, hB]; simp [dot_range]

theorem matmul_tn {A B : Tensor α} {m k n : Nat} (hA : A.shape = [k, m]) (hB : B.shape = [k, n]) :
    matmul A B true false = .ok (mat m n fun i j => ∑ l ∈ Finset.range k, A.at_ [l, i] * B.at_ [l, j]) := by
  unfold matmul; rw [hA, hB]; simp [dot_range]

theorem matmul_nt {A B : Tensor α} {m k n : Nat} (hA : A.shape = [m, k]) (hB : B.shape = [n, k]) :
    matmul A B false true = .ok (mat m n fun i j => ∑ l ∈ Finset.range k, A.at_ [i, l] * B.at_ [j, l]) := by
  unfold matmul; rw [hA, hB]; simp [dot_range]

theorem matmul_tn_error {A B : Tensor α} {m k k' n : Nat} (hA : A.shape = [k, m])
    (hB : B.shape = [k', n]) (h : k ≠ k') : matmul A B true false = .error .invalidArgument := by
  unfold matmul; rw [hA, hB]; simp [h]

end tf

theorem freeAxes_mem {N k : Nat} {l : List Nat} : k ∈ freeAxes N l ↔ k < N ∧ k ∉ l := by
  simp [freeAxes]

theorem getD_map_range_lt {N k : Nat} (f : Nat → Nat) (h : k < N) :
    ((List.range N).map f).getD k 0 = f k := by
  rw [List.getD_eq_getElem _ _ (by simpa using h)]; simp

theorem place_axes {N : Nat} {axes vals free : List Nat} (hnd : axes.Nodup) (hlt : ∀ i ∈ axes, i < N)
    (hv : vals.length = axes.length) :
    axes.map (fun k => (place N axes vals free).getD k 0) = vals := by
  have h1 : ∀ k ∈ axes, (place N axes vals free).getD k 0 = vals.getD (axes.idxOf k) 0 := by
    intro k hk
    unfold place
    rw [getD_map_range_lt _ (hlt k hk), if_pos hk]
  rw [List.map_congr_left h1]
  calc axes.map (fun k => vals.getD (axes.idxOf k) 0)
      = (axes.map fun k => axes.idxOf k).map (fun k => vals.getD k 0) := by rw [List.map_map]; rfl
    _ = vals := by rw [map_idxOf_self hnd]; exact map_getD_range _ _ hv

theorem place_free {N : Nat} {axes vals free : List Nat}
    (hf : free.length = (freeAxes N axes).length) :
    (freeAxes N axes).map (fun k => (place N axes vals free).getD k 0) = free := by
  have hnd : (freeAxes N axes).Nodup := List.nodup_range.filter _
  have h1 : ∀ k ∈ freeAxes N axes, (place N axes vals free).getD k 0 =
      free.getD ((freeAxes N axes).idxOf k) 0 := by
    intro k hk
    rw [freeAxes_mem] at hk
    unfold place
    rw [getD_map_range_lt _ hk.1, if_neg hk.2]
  rw [List.map_congr_left h1]
  calc (freeAxes N axes).map (fun k => free.getD ((freeAxes N axes).idxOf k) 0)
      = ((freeAxes N axes).map fun k => (freeAxes N axes).idxOf k).map (fun k => free.getD k 0) := by
        rw [List.map_map]; rfl
    _ = free := by rw [map_idxOf_self hnd]; exact map_getD_range _ _ hf

theorem place_inB {shape axes vals free : List Nat} (hnd : axes.Nodup)
    (hlt : ∀ i ∈ axes, i < shape.length)
    (hv : InB (axes.map fun k => shape.getD k 0) vals)
    (hf : InB ((freeAxes shape.length axes).map fun k => shape.getD k 0) free) :
    InB shape (place shape.length axes vals free) := by
  have hv' := hv; have hf' := hf
  rw [← place_axes (vals := vals) hnd hlt (free := free) (by simpa using hv.length), InB_map] at hv'
  rw [← place_free (vals := vals) (free := free) (by simpa using hf.length), InB_map] at hf'
  rw [InB_iff_getD]
  refine ⟨by simp [place], fun k hk => ?_⟩
  by_cases h : k ∈ axes
  · exact hv' k h
  · exact hf' k (freeAxes_mem.2 ⟨hk, h⟩)

namespace ops

/-- The matricization used by `mul`. -/
theorem t2mat_rest_spec [Zero α] (X : Tensor α) {a : List Nat} (hnd : a.Nodup)
    (hlt : ∀ i ∈ a, i < X.order) :
    ∃ M, t2mat X (.list a) .rest = .ok M ∧
      M.shape = [axesSize X.shape a, axesSize X.shape (freeAxes X.order a)] ∧
      ∀ c f, InB (a.map fun k => X.shape.getD k 0) c →
        InB ((freeAxes X.order a).map fun k => X.shape.getD k 0) f →
        M.at_ [ravel (a.map fun k => X.shape.getD k 0) c,
          ravel ((freeAxes X.order a).map fun k => X.shape.getD k 0) f] =
          X.at_ (place X.order a c f) := by
  have hp := freeAxes_perm hnd hlt
  obtain ⟨M, hM, hMs, hMa⟩ := t2mat_core X a (freeAxes X.order a) hp
  refine ⟨M, ?_, hMs, ?_⟩
  · rw [t2mat_rest_eq, t2mat_list_eq _ _ _ hlt]; exact hM
  · intro c f hc hf
    have hB := place_inB hnd hlt hc hf
    obtain ⟨-, -, h⟩ := hMa _ hB
    rw [show place X.order a c f = place X.shape.length a c f from rfl]
    rw [← h, ← ravel_map, ← ravel_map, place_axes (N := X.shape.length) hnd hlt (by simpa using hc.length),
      show freeAxes X.order a = freeAxes X.shape.length a from rfl,
      place_free (N := X.shape.length) (by have := hf.length; rw [List.length_map] at this; exact this)]

theorem mul_list_spec [NonUnitalNonAssocSemiring α] (A B : Tensor α) {a b : List Nat}
    (ha : a.Nodup) (ha' : ∀ i ∈ a, i < A.order) (hb : b.Nodup) (hb' : ∀ i ∈ b, i < B.order) :
    (axesSize A.shape a ≠ axesSize B.shape b →
      mul A B (.list a) (.list b) = .error .invalidArgument) ∧
    (axesSize A.shape a = axesSize B.shape b → ∃ C, mul A B (.list a) (.list b) = .ok C ∧
      C.shape = ((freeAxes A.order a).map fun k => A.shape.getD k 0) ++
        ((freeAxes B.order b).map fun k => B.shape.getD k 0) ∧
      ∀ fa fb, InB ((freeAxes A.order a).map fun k => A.shape.getD k 0) fa →
        InB ((freeAxes B.order b).map fun k => B.shape.getD k 0) fb →
        C.at_ (fa ++ fb) = ∑ l ∈ Finset.range (axesSize A.shape a),
          A.at_ (place A.order a (unravel (a.map fun k => A.shape.getD k 0) l) fa) *
          B.at_ (place B.order b (unravel (b.map fun k => B.shape.getD k 0) l) fb)) := by
  obtain ⟨MA, hMA, hMAs, hMAa⟩ := t2mat_rest_spec A ha ha'
  obtain ⟨MB, hMB, hMBs, hMBa⟩ := t2mat_rest_spec B hb hb'
  have hmul : mul A B (.list a) (.list b) = (tf.matmul MA MB true false >>= fun d => tf.reshape d
      (((freeAxes A.order a).map fun k => ((A.shape.getD k 0 : Nat) : Int)) ++
    ((freeAxes B.order b).map fun k => ((B.shape.getD k 0 : Nat) : Int)))) := by
    unfold mul
    simp only [normAxis, hMA, hMB, Axis.elems]
    rfl
  constructor
  · intro h
    rw [hmul, tf.matmul_tn_error hMAs hMBs h]; rfl
  · intro h
    rw [hmul, tf.matmul_tn hMAs (by rw [h]; exact hMBs)]
    set D := mat (axesSize A.shape (freeAxes A.order a)) (axesSize B.shape (freeAxes B.order b))
      (fun i j => ∑ l ∈ Finset.range (axesSize A.shape a), MA.at_ [l, i] * MB.at_ [l, j]) with hD
    have hback : ((freeAxes A.order a).map fun k => ((A.shape.getD k 0 : Nat) : Int)) ++
        ((freeAxes B.order b).map fun k => ((B.shape.getD k 0 : Nat) : Int)) =
        (((freeAxes A.order a).map fun k => A.shape.getD k 0) ++
        ((freeAxes B.order b).map fun k => B.shape.getD k 0)).map (fun k : Nat => (k : Int)) := by
      rw [List.map_append, List.map_map, List.map_map]; rfl
    have hlen : D.data.length = (((freeAxes A.order a).map fun k => A.shape.getD k 0) ++
        ((freeAxes B.order b).map fun k => B.shape.getD k 0)).prod := by
      rw [D.wf, hD, shape_mat, List.prod_append]; simp [axesSize]
    change ∃ C, tf.reshape D _ = .ok C ∧ _
    rw [hback, tf.reshape_nat hlen]
    refine ⟨_, rfl, rfl, ?_⟩
    intro fa fb hfa hfb
    rw [tf.at_reshaped D hlen (idx := [ravel ((freeAxes A.order a).map fun k => A.shape.getD k 0) fa,
      ravel ((freeAxes B.order b).map fun k => B.shape.getD k 0) fb])]
    · rw [hD, at_mat _ (by exact ravel_lt hfa) (by exact ravel_lt hfb)]
      apply Finset.sum_congr rfl
      intro l hl
      have hl : l < axesSize A.shape a := by simpa using hl
      rw [← hMAa _ _ (unravel_inB hl) hfa, ← hMBa _ _ (unravel_inB (by
        change l < axesSize B.shape b; rw [← h]; exact hl)) hfb]
      rw [ravel_unravel hl, ravel_unravel (by change l < axesSize B.shape b; rw [← h]; exact hl)]
    · rw [hD, shape_mat, ravel_pair, ravel_append (by simpa using hfa.length)]
      rfl

end ops
end TD
