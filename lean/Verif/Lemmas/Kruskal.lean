import Verif.Lemmas.Xcb
import Verif.Lemmas.ModeProd
import Verif.Model.Type

namespace TD
open Spec Tensor tf
variable {α : Type}

/-! ### Entries of products under reversal and deletion -/

theorem khatriEntry_append [CommSemiring α] (r : Nat) : ∀ {a b : List (Tensor α)} {i1 i2 : List Nat},
    i1.length = a.length → khatriEntry r (a ++ b) (i1 ++ i2) = khatriEntry r a i1 * khatriEntry r b i2
  | [], b, [], i2, _ => by simp [khatriEntry]
  | M :: a, b, i :: i1, i2, h => by
      simp only [List.cons_append, khatriEntry]
      rw [khatriEntry_append r (by simpa using h), mul_assoc]

theorem khatriEntry_reverse [CommSemiring α] (r : Nat) : ∀ {a : List (Tensor α)} {is : List Nat},
    is.length = a.length → khatriEntry r a.reverse is.reverse = khatriEntry r a is
  | [], [], _ => rfl
  | M :: a, i :: is, h => by
      rw [List.reverse_cons, List.reverse_cons, khatriEntry_append r (by simpa using h),
        khatriEntry_reverse r (by simpa using h)]
      simp only [khatriEntry, mul_one]
      rw [mul_comm]

theorem kronEntry_reverse [CommSemiring α] : ∀ {a : List (Tensor α)} {is js : List Nat},
    is.length = a.length → js.length = a.length →
    kronEntry a.reverse is.reverse js.reverse = kronEntry a is js
  | [], [], [], _, _ => rfl
  | M :: a, i :: is, j :: js, h, h' => by
      rw [List.reverse_cons, List.reverse_cons, List.reverse_cons,
        kronEntry_append (by simpa using h) (by simpa using h'),
        kronEntry_reverse (by simpa using h) (by simpa using h')]
      simp only [kronEntry, mul_one]
      rw [mul_comm]

theorem khatriEntry_eraseIdx [CommSemiring α] (r : Nat) : ∀ {a : List (Tensor α)} {is : List Nat} {n : Nat}
    {A : Tensor α}, is.length = a.length → a[n]? = some A →
    khatriEntry r a is = A.at_ [is.getD n 0, r] * khatriEntry r (a.eraseIdx n) (is.eraseIdx n)
  | [], _, n, A, _, h => by simp at h
  | M :: a, [], n, A, hl, h => by simp at hl
  | M :: a, i :: is, 0, A, hl, h => by
      simp only [List.getElem?_cons_zero, Option.some.injEq] at h
      subst h
      rfl
  | M :: a, i :: is, n + 1, A, hl, h => by
      simp only [List.getElem?_cons_succ] at h
      simp only [List.eraseIdx_cons_succ, khatriEntry, List.getD_cons_succ]
      rw [khatriEntry_eraseIdx r (n := n) (by simpa using hl) h]
      ring

theorem kronEntry_eraseIdx [CommSemiring α] : ∀ {a : List (Tensor α)} {is js : List Nat} {n : Nat}
    {A : Tensor α}, is.length = a.length → js.length = a.length → a[n]? = some A →
    kronEntry a is js = A.at_ [is.getD n 0, js.getD n 0] *
      kronEntry (a.eraseIdx n) (is.eraseIdx n) (js.eraseIdx n)
  | [], _, _, n, A, _, _, h => by simp at h
  | M :: a, [], _, n, A, hl, _, h => by simp at hl
  | M :: a, _, [], n, A, _, hl, h => by simp at hl
  | M :: a, i :: is, j :: js, 0, A, hl, _, h => by
      simp only [List.getElem?_cons_zero, Option.some.injEq] at h
      subst h
      rfl
  | M :: a, i :: is, j :: js, n + 1, A, hl, hl', h => by
      simp only [List.getElem?_cons_succ] at h
      simp only [List.eraseIdx_cons_succ, kronEntry, List.getD_cons_succ]
      rw [kronEntry_eraseIdx (n := n) (by simpa using hl) (by simpa using hl') h]
      ring

theorem filter_getD_eraseIdx {s : List Nat} {N n : Nat} (h : s.length = N) :
    ((List.range N).filter (· ≠ n)).map (fun k => s.getD k 0) = s.eraseIdx n := by
  rw [← kept_int]
  unfold kept
  rw [h]
  have : ∀ l : List Nat, (∀ k ∈ l, k < N) → l.map (fun k => s.getD k 0) = l.filterMap (s[·]?) := by
    intro l
    induction l with
    | nil => intro _; rfl
    | cons k l ih =>
        intro hl
        have hk : k < s.length := by rw [h]; exact hl k (by simp)
        rw [List.map_cons, List.filterMap_cons, List.getElem?_eq_getElem hk,
          ih (fun x hx => hl x (by simp [hx])), List.getD_eq_getElem _ _ hk]
  rw [this _ (fun k hk => by simpa using (List.mem_filter.1 hk).1)]
  congr 1
  apply List.filter_congr
  intro k _
  simp [keeps]

theorem koldaCol_eq_ravel {shape idx : List Nat} (n : Nat) (h : idx.length = shape.length) :
    koldaCol shape idx n = ravel (shape.eraseIdx n).reverse (idx.eraseIdx n).reverse := by
  rw [← filter_getD_eraseIdx (s := shape) rfl, ← filter_getD_eraseIdx (s := idx) h, ← List.map_reverse,
    ← List.map_reverse, ravel_map, restRank]
  rfl

theorem otherSize_eq_prod (shape : List Nat) (n : Nat) :
    otherSize shape n = (shape.eraseIdx n).reverse.prod := by
  rw [← filter_getD_eraseIdx (s := shape) rfl, ← List.map_reverse, restProd]
  rfl

theorem InB_eraseIdx {s i : List Nat} (h : InB s i) (n : Nat) : InB (s.eraseIdx n) (i.eraseIdx n) := by
  unfold InB at h ⊢
  induction h generalizing n with
  | nil => simp
  | cons hx _ ih =>
      cases n with
      | zero => simpa
      | succ n => simp only [List.eraseIdx_cons_succ]; exact List.Forall₂.cons hx (ih n)

theorem InB_reverse {s i : List Nat} (h : InB s i) : InB s.reverse i.reverse :=
  List.rel_reverse h

theorem rowDims_reverse (a : List (Tensor α)) : rowDims a.reverse = (rowDims a).reverse := by
  simp [rowDims]
theorem colDims_reverse (a : List (Tensor α)) : colDims a.reverse = (colDims a).reverse := by
  simp [colDims]
theorem rowDims_eraseIdx (a : List (Tensor α)) (n : Nat) : rowDims (a.eraseIdx n) = (rowDims a).eraseIdx n := by
  simp [rowDims, List.eraseIdx_map]
theorem colDims_eraseIdx (a : List (Tensor α)) (n : Nat) : colDims (a.eraseIdx n) = (colDims a).eraseIdx n := by
  simp [colDims, List.eraseIdx_map]

theorem AllMat_eraseIdx {a : List (Tensor α)} (h : AllMat a) (n : Nat) : AllMat (a.eraseIdx n) :=
  fun M hM => h M (List.mem_of_mem_eraseIdx hM)

/-! ### Kruskal tensors -/

namespace KTensor

theorem extract_core [CommSemiring α] (k : KTensor α) {R : Nat} (hm : AllMat k.U) (hne : k.U ≠ [])
    (hlen : k.U.length ≤ 25) (hR : ∀ M ∈ k.U, M.shape.getD 1 0 = R) (hd : k.udtype = k.ldtype)
    (hl : k.lam.shape = [R, 1]) :
    ∃ X, extract k = .ok X ∧ X.shape = rowDims k.U ∧
      ∀ i, InB (rowDims k.U) i → X.at_ i = ∑ r ∈ Finset.range R, khatriEntry r k.U i * k.lam.at_ [r, 0] := by
  obtain ⟨K, hK, hKs, hKe⟩ := ops.khatri_core hm hne hR hlen
  unfold extract
  rw [hK, ok_bind, ops.dimOfEach_ok (fun M hM => by rw [hm M hM]; omega), ok_bind, if_pos hd,
    tf.matmul_nn hKs hl, ok_bind]
  set Z : Tensor α := mat (rowDims k.U).prod 1 fun i j => ∑ l ∈ Finset.range R, K.at_ [i, l] * k.lam.at_ [l, j]
  have hz : Z.data.length = (rowDims k.U).prod := by rw [Z.wf]; simp [Z]
  refine ⟨_, tf.reshape_nat hz, rfl, fun i hi => ?_⟩
  rw [tf.at_reshaped Z (idx := [ravel (rowDims k.U) i, 0]) hz (by simp [Z, ravel]), at_mat _ (ravel_lt hi) (by omega)]
  apply Finset.sum_congr rfl
  intro r hr
  rw [hKe i r hi (Finset.mem_range.1 hr)]

theorem at_expandLast [Zero α] {t : Tensor α} {R r : Nat} (h : t.shape = [R]) :
    (expandLast t).shape = [R, 1] ∧ (expandLast t).at_ [r, 0] = t.at_ [r] := by
  refine ⟨by simp [expandLast, h], ?_⟩
  apply tf.at_reshaped
  rw [h]; simp [ravel]

end KTensor
end TD
