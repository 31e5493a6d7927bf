import Verif.Props.Ttm
import Verif.Lemmas.Unfolding

/-!
# C27, C28 : `TTensor`
-/
namespace TD.Props
open TD Tensor Spec ops
variable {α : Type}

theorem conformable_all {G : Tensor α} {U : List (Tensor α)} (hm : AllMat U) (hG : G.shape = colDims U) :
    Conformable G (List.range U.length) U false := by
  refine ⟨by simp, fun p hp => ?_⟩
  obtain ⟨k, hk, rfl⟩ := List.getElem_of_mem hp
  have hk' : k < U.length := by simpa using hk
  simp only [List.getElem_zip, List.getElem_range, Bool.false_eq_true, if_false]
  refine ⟨U[k].shape.getD 0 0, ?_⟩
  have h1 := hm.shape_eq (M := U[k]) (by simp)
  have h2 : G.shape.getD k 0 = U[k].shape.getD 1 0 := by
    rw [hG, colDims, List.getD_eq_getElem _ _ (by simpa using hk')]
    simp
  rw [h2]; exact h1

/-- **C27**: `TTensor(G, U).extract()[i] = ∑_j G[j] ∏_k U_k[i_k, j_k]`, of shape the row counts of the
factors. -/
theorem C27_extract_entry [CommSemiring α] (G : Tensor α) (dt : DType) (U : List (Tensor α)) (hne : U ≠ [])
    (hN : U.length ≤ 13) (hm : AllMat U) (hG : G.shape = colDims U) :
    ∃ t X, TTensor.init G dt U dt = .ok t ∧ t.extract = .ok X ∧ X.shape = rowDims U ∧
      ∀ i, InB (rowDims U) i → X.at_ i = boxSum G.shape fun j => G.at_ j * kronEntry U i j := by
  obtain ⟨hs, he⟩ := modeProds_all G U hG
  have ho : G.order = U.length := by rw [Tensor.order, hG, length_colDims]
  refine ⟨⟨G, dt, U, dt⟩, _, ?_, ?_, hs, fun i hi => ?_⟩
  · cases U with
    | nil => exact absurd rfl hne
    | cons => rfl
  · unfold TTensor.extract
    rw [if_pos rfl, C10_ttm_default_axis G U false (by omega) hne (by omega) (conformable_all hm hG)]
    rfl
  · rw [he i hi]
    exact boxSum_congr fun j _ => mul_comm _ _

/-- **C27**, as a sequence of mode products. -/
theorem C27_extract_mode_products [CommSemiring α] (G : Tensor α) (dt : DType) (U : List (Tensor α)) (hne : U ≠ [])
    (hN : U.length ≤ 13) (hm : AllMat U) (hG : G.shape = colDims U) :
    ∃ t, TTensor.init G dt U dt = .ok t ∧ t.extract = .ok (modeProds G ((List.range U.length).zip U)) := by
  have ho : G.order = U.length := by rw [Tensor.order, hG, length_colDims]
  refine ⟨⟨G, dt, U, dt⟩, ?_, ?_⟩
  · cases U with
    | nil => exact absurd rfl hne
    | cons => rfl
  · unfold TTensor.extract
    rw [if_pos rfl, C10_ttm_default_axis G U false (by omega) hne (by omega) (conformable_all hm hG)]
    rfl

def exG : Tensor Int := ofFn [2, 3] fun i => (i.getD 0 0 : Int) - 2 * i.getD 1 0
def exF : List (Tensor Int) := [mat 4 2 fun i j => (i : Int) + j, mat 2 3 fun i j => (i : Int) * j - 1]

/-- Hypotheses of C27 and C28 on concrete data. -/
example : exF ≠ [] ∧ exF.length ≤ 13 ∧ AllMat exF ∧ exG.shape = colDims exF := by
  refine ⟨by simp [exF], by simp [exF], ?_, rfl⟩
  intro M hM
  simp only [exF, List.mem_cons, List.not_mem_nil, or_false] at hM
  rcases hM with rfl | rfl <;> rfl

/-- **C27**: a core and factors of different element types are accepted by the constructor, and `extract` raises `TypeError`;
without factors the constructor raises. -/
theorem C27_element_types [CommSemiring α] (G : Tensor α) (gd ud : DType) (U : List (Tensor α)) :
    (U = [] → TTensor.init G gd U ud = .error .indexError) ∧
    (U ≠ [] → gd ≠ ud → ∃ t, TTensor.init G gd U ud = .ok t ∧ t.extract = .error .typeError) := by
  refine ⟨fun h => by subst h; rfl, fun h hd => ?_⟩
  cases U with
  | nil => exact absurd rfl h
  | cons A U => exact ⟨_, rfl, by unfold TTensor.extract; rw [if_neg hd]⟩

/-- **C28**: `unfold(TTensor(G, U).extract(), n) = U_n unfold(G, n) kron(U, skip n, reverse)ᵀ`. -/
theorem C28_unfold_tucker [CommSemiring α] (G : Tensor α) (dt : DType) (U : List (Tensor α)) (n : Nat)
    (A : Tensor α) (hN : U.length ≤ 13) (h2 : 2 ≤ U.length) (hm : AllMat U) (hG : G.shape = colDims U)
    (hA : U[n]? = some A) (hr : 0 < A.shape.getD 0 0) (hc : 0 < A.shape.getD 1 0) :
    ∃ t X M Gn K UG, TTensor.init G dt U dt = .ok t ∧ t.extract = .ok X ∧ unfold X n = .ok M ∧
      unfold G n = .ok Gn ∧ kron U (.int n) true = .ok K ∧ tf.matmul A Gn = .ok UG ∧
      tf.matmul UG K false true = .ok M := by
  have hn : n < U.length := (List.getElem?_eq_some_iff.1 hA).1
  have hAm : A ∈ U := List.mem_of_getElem? hA
  have hAs := hm.shape_eq hAm
  obtain ⟨t, X, ht, hX, hs, he⟩ := C27_extract_entry G dt U (by rintro rfl; simp at hn) hN hm hG
  have hGn : G.shape.getD n 0 = A.shape.getD 1 0 := by rw [hG]; simp [colDims, hA]
  have hXn : X.shape.getD n 0 = A.shape.getD 0 0 := by rw [hs]; simp [rowDims, hA]
  have hGo : n < G.order := by rw [Tensor.order, hG]; simpa using hn
  have hXo : n < X.order := by rw [Tensor.order, hs]; simpa using hn
  obtain ⟨K, hK, hKs, hKe⟩ := kron_skip_reverse hm (by omega) hn h2
  have hKs' : K.shape = [otherSize X.shape n, otherSize G.shape n] := by
    rw [hKs, hs, hG, otherSize_eq_prod, otherSize_eq_prod]
  have hGu := unfold_closed G hGo (by rw [hGn]; exact hc)
  rw [hGn] at hGu
  refine ⟨t, X, _, _, K, _, ht, hX, unfold_eq_mat X hXo (by rw [hXn]; exact hr)
    (fun i c => ∑ q ∈ Finset.range (otherSize G.shape n), (∑ p ∈ Finset.range (A.shape.getD 1 0),
      A.at_ [i, p] * G.at_ (unkolda G.shape n p q)) * K.at_ [c, q]) ?_, hGu, hK, tf.matmul_nn hAs rfl, ?_⟩
  · intro i hi
    have hi' : InB (rowDims U) i := hs ▸ hi
    rw [he i hi', boxSum_unkolda hGo, Finset.sum_comm, hGn]
    refine Finset.sum_congr rfl fun q hq => ?_
    rw [Finset.sum_mul]
    refine Finset.sum_congr rfl fun p hp => ?_
    rw [Finset.mem_range] at hp hq
    obtain ⟨h1, h2, h3⟩ := unkolda_spec hGo (i := p) (j := q) (by rw [hGn]; exact hp) hq
    have h1' : InB (colDims U) (unkolda G.shape n p q) := hG ▸ h1
    rw [kronEntry_eraseIdx (by simpa using hi'.length) (by simpa using h1'.length) hA, h2,
      ← hKe i _ hi' h1', koldaCol_eq_ravel n hi.length, hs]
    have h4 : ravel ((colDims U).eraseIdx n).reverse ((unkolda G.shape n p q).eraseIdx n).reverse = q := by
      rw [← hG, ← koldaCol_eq_ravel n h1.length, h3]
    rw [h4]
    ring
  · rw [tf.matmul_nt rfl hKs', hXn]
    congr 1
    refine ext_mat rfl rfl fun i hi j hj => ?_
    rw [at_mat _ hi hj, at_mat _ hi hj]
    refine Finset.sum_congr rfl fun q hq => ?_
    rw [at_mat _ hi (Finset.mem_range.1 hq)]
    congr 1
    refine Finset.sum_congr rfl fun p hp => ?_
    rw [at_mat _ (Finset.mem_range.1 hp) (Finset.mem_range.1 hq)]

end TD.Props
