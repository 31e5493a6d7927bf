import Verif.Props.KruskalAlgebra

/-! # C174 : multiplying a Kruskal or Tucker tensor along its modes is multiplying its factors -/
namespace TD.Props
open TD Spec Tensor ops
variable {α : Type}

/-- `V` holds the matrix products `M U`, as `mul(M, U, 1, 0)` computes them, of conformable matrices. -/
def Multiplied [CommSemiring α] (Ms U V : List (Tensor α)) : Prop :=
  Ms.length = U.length ∧ V.length = U.length ∧ ∀ (k : Nat) (M A B : Tensor α), Ms[k]? = some M → U[k]? = some A → V[k]? = some B →
    (∃ p q g, M.shape = [p, q] ∧ A.shape = [q, g]) ∧ mul M A (.int 1) (.int 0) = .ok B

theorem ttm_none_eq [CommSemiring α] (X : Tensor α) (ms : List (Tensor α)) : ttm X ms = ttm X ms (some (List.range ms.length)) := by
  unfold ttm
  simp

theorem Multiplied.shape [CommSemiring α] {Ms U V : List (Tensor α)} (h : Multiplied Ms U V) {k : Nat} {A B : Tensor α}
    (hA : U[k]? = some A) (hB : V[k]? = some B) : ∃ M p q g, Ms[k]? = some M ∧ M.shape = [p, q] ∧ A.shape = [q, g] ∧ B.shape = [p, g] := by
  obtain ⟨hk, -⟩ := List.getElem?_eq_some_iff.1 hA
  have hM := List.getElem?_eq_getElem (l := Ms) (i := k) (by rw [h.1]; exact hk)
  obtain ⟨⟨p, q, g, h1, h2⟩, h3⟩ := h.2.2 k _ A B hM hA hB
  obtain ⟨C, c1, c2, -⟩ := C08_mul_matrices _ A p q g h1 h2
  rw [h3] at c1; cases c1
  exact ⟨_, p, q, g, hM, h1, h2, c2⟩

theorem Multiplied.mat [CommSemiring α] {Ms U V : List (Tensor α)} (h : Multiplied Ms U V) : AllMat U ∧ AllMat V ∧ colDims V = colDims U := by
  refine ⟨fun M hM => ?_, fun M hM => ?_, ?_⟩
  · obtain ⟨k, hk⟩ := List.mem_iff_getElem?.1 hM
    obtain ⟨hk', -⟩ := List.getElem?_eq_some_iff.1 hk
    obtain ⟨_, p, q, g, -, -, e, -⟩ := h.shape hk (List.getElem?_eq_getElem (by rw [h.2.1]; exact hk'))
    rw [e]; rfl
  · obtain ⟨k, hk⟩ := List.mem_iff_getElem?.1 hM
    obtain ⟨hk', -⟩ := List.getElem?_eq_some_iff.1 hk
    obtain ⟨_, p, q, g, -, -, -, e⟩ := h.shape (List.getElem?_eq_getElem (by rw [← h.2.1]; exact hk')) hk
    rw [e]; rfl
  · refine List.ext_getElem (by simp [colDims, h.2.1]) fun k h1 h2 => ?_
    simp only [colDims, List.length_map] at h1 h2
    obtain ⟨_, p, q, g, -, -, e1, e2⟩ := h.shape (List.getElem?_eq_getElem h2) (List.getElem?_eq_getElem h1)
    simp [colDims, e1, e2]

/-- **C174** (Tucker): multiplying the tensor extracted from a `TTensor` by matrices along all modes gives what the `TTensor` with the
same core and the multiplied factors extracts to. -/
theorem C174_tucker [CommSemiring α] (G : Tensor α) (dt : DType) (U Ms V : List (Tensor α)) (hne : U ≠ []) (hN : U.length ≤ 13)
    (hV : Multiplied Ms U V) (hG : G.shape = colDims U) :
    ∃ t t' T Z, TTensor.init G dt U dt = .ok t ∧ TTensor.init G dt V dt = .ok t' ∧ t.extract = .ok T ∧ t'.extract = .ok Z ∧
      ttm T Ms = .ok Z := by
  obtain ⟨mU, mV, hc⟩ := hV.mat
  have ho : G.order = U.length := by rw [Tensor.order, hG, length_colDims]
  have hvne : V ≠ [] := fun e => hne (List.length_eq_zero_iff.1 (by rw [← hV.2.1, e]; rfl))
  have ex : ∀ W : List (Tensor α), W ≠ [] → ∃ t, TTensor.init G dt W dt = .ok t ∧ t.extract = ttm G W := by
    intro W hW
    cases W with
    | nil => exact absurd rfl hW
    | cons M W => exact ⟨_, rfl, if_pos rfl⟩
  obtain ⟨t, h1, h2⟩ := ex U hne
  obtain ⟨t', h1', h2'⟩ := ex V hvne
  obtain ⟨T, Z, a1, a2, a3⟩ := C130_compose G U Ms V (List.range U.length) (by rw [ho]; exact hN)
    (fun e => hne (List.length_eq_zero_iff.1 (List.range_eq_nil.1 e))) List.nodup_range
    (fun i hi => by rw [ho]; exact List.mem_range.1 hi) (by simp) (by simp [hV.1]) (by simp [hV.2.1]) (by
      intro k n A M B hk hA hM hB
      obtain ⟨⟨p, q, g, e1, e2⟩, e3⟩ := hV.2.2 k M A B hM hA hB
      refine ⟨⟨p, q, ?_, e1⟩, e3⟩
      obtain ⟨hk', e⟩ := List.getElem?_eq_some_iff.1 hk
      simp only [List.getElem_range] at e
      subst e
      rw [hG, colDims, List.getD_eq_getElem?_getD, List.getElem?_map, hA]
      simp [e2])
  refine ⟨t, t', T, Z, h1, h1', ?_, ?_, ?_⟩
  · rw [h2, ttm_none_eq, a1]
  · rw [h2', ttm_none_eq, hV.2.1, a3]
  · rw [ttm_none_eq, hV.1, a2]

open Classical in
theorem superdiagonal_exists [CommSemiring α] (N R : Nat) (hN : 0 < N) (w : Nat → α) : ∃ G : Tensor α, IsSuperdiagonal G N R w := by
  refine ⟨ofFn (List.replicate N R) fun j => if ∃ r < R, j = List.replicate N r then w (j.headD 0) else 0, rfl, fun j hj => ⟨?_, ?_⟩⟩
  · rintro r hr rfl
    rw [at_ofFn _ hj, if_pos ⟨r, hr, rfl⟩]
    cases N with
    | zero => omega
    | succ N => rfl
  · intro h
    rw [at_ofFn _ hj, if_neg]
    rintro ⟨r, hr, e⟩
    exact h r hr e

/-- **C174** (Kruskal): multiplying the tensor extracted from a `KTensor` by matrices along all modes gives what the `KTensor` with the
same weights and the multiplied factors extracts to. -/
theorem C174_kruskal [CommSemiring α] (src : Src) (dt : DType) (U Ms V : List (Tensor α)) (lam : Option (KTensor.Arr α)) (R : Nat)
    (hU : Factors U R) (h13 : U.length ≤ 13) (hV : Multiplied Ms U V) (hw : WeightShape R lam)
    (hd : storedDtype src dt = weightDtype lam) :
    ∃ k k' X Z, KTensor.init src dt U lam = .ok k ∧ KTensor.init src dt V lam = .ok k' ∧ k.extract = .ok X ∧ k'.extract = .ok Z ∧
      ttm X Ms = .ok Z := by
  obtain ⟨mU, mV, hc⟩ := hV.mat
  have hcU : colDims U = List.replicate U.length R := by
    rw [colDims, List.eq_replicate_iff]
    refine ⟨by simp, fun b hb => ?_⟩
    obtain ⟨M, hM, rfl⟩ := List.mem_map.1 hb
    exact hU.2.2.2 M hM
  have hVF : Factors V R := by
    refine ⟨fun e => hU.1 (List.length_eq_zero_iff.1 (by rw [← hV.2.1, e]; rfl)), by rw [hV.2.1]; exact hU.2.1, mV, fun M hM => ?_⟩
    have : M.shape.getD 1 0 ∈ colDims V := List.mem_map.2 ⟨M, hM, rfl⟩
    rw [hc, hcU] at this
    exact List.eq_of_mem_replicate this
  obtain ⟨G, hG⟩ := superdiagonal_exists U.length R (List.length_pos_iff.2 hU.1) (weight lam)
  obtain ⟨k, t, X, a1, a2, a3, a4⟩ := C132_superdiagonal src dt dt U lam R G hU h13 hw hd hG
  obtain ⟨k', t', Z, b1, b2, b3, b4⟩ := C132_superdiagonal src dt dt V lam R G hVF (by rw [hV.2.1]; exact h13) hw hd (by rw [hV.2.1]; exact hG)
  obtain ⟨s, s', T, W, c1, c2, c3, c4, c5⟩ := C174_tucker G dt U Ms V hU.1 h13 hV (hG.1.trans hcU.symm)
  rw [a2] at c1; cases c1
  rw [b2] at c2; cases c2
  rw [a4] at c3; cases c3
  rw [b4] at c4; cases c4
  exact ⟨k, k', X, Z, a1, b1, a3, b3, c5⟩

/-- Hypotheses of C174 on concrete data, and the result computed. -/
example : Multiplied [mat 3 2 fun i j => (i : Int) + j, mat 1 3 fun _ j => (j : Int) + 1] exU
    [mat 3 2 fun i j => (2 * i + 1) * (2 * (j : Int) + 1) + 1 + i, mat 1 2 fun _ j => 8 - 6 * (j : Int)] := by
  refine ⟨rfl, rfl, fun k M A B h1 h2 h3 => ?_⟩
  match k, h1, h2, h3 with
  | 0, h1, h2, h3 => cases h1; cases h2; cases h3; exact ⟨⟨3, 2, 2, rfl, rfl⟩, by decide +kernel⟩
  | 1, h1, h2, h3 => cases h1; cases h2; cases h3; exact ⟨⟨1, 3, 2, rfl, rfl⟩, by decide +kernel⟩

end TD.Props
