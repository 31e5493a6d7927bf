import Verif.Lemmas.Einsum
import Verif.Spec.Kron

namespace TD
open Spec Tensor tf
variable {α : Type}

theorem shape_of_len2 {s : List Nat} (h : s.length = 2) : s = [s.getD 0 0, s.getD 1 0] := by
  match s, h with
  | [a, b], _ => rfl

theorem Spec.AllMat.shape_eq {ms : List (Tensor α)} (h : AllMat ms) {M : Tensor α} (hM : M ∈ ms) :
    M.shape = [M.shape.getD 0 0, M.shape.getD 1 0] := shape_of_len2 (h M hM)

namespace ops

theorem dimOfEach_ok {ms : List (Tensor α)} {i : Nat} (h : ∀ M ∈ ms, i < M.shape.length) :
    dimOfEach ms i = .ok (ms.map fun M => M.shape.getD i 0) := by
  induction ms with
  | nil => rfl
  | cons M ms ih =>
      have hM := h M (by simp)
      have ih' := ih (fun N hN => h N (by simp [hN]))
      unfold dimOfEach at ih' ⊢
      rw [List.mapM_cons, ih', List.getElem?_eq_getElem hM]
      simp only [List.map_cons, List.getD_eq_getElem _ _ hM]
      rfl

theorem zipWith_kron [CommSemiring α] (env : Char → Nat) : ∀ (ms : List (Tensor α)) (rl cl : List Char),
    rl.length = ms.length → cl.length = ms.length →
    (List.zipWith (fun w t => t.at_ (w.map env)) (List.zipWith (fun a b => [a, b]) rl cl) ms).prod =
      kronEntry ms (rl.map env) (cl.map env)
  | [], [], [], _, _ => by simp [kronEntry]
  | M :: ms, a :: rl, b :: cl, h1, h2 => by
      simp only [List.zipWith_cons_cons, List.prod_cons, List.map_cons, kronEntry, List.map_nil]
      rw [zipWith_kron env ms rl cl (by simpa using h1) (by simpa using h2)]

theorem zipWith_khatri [CommSemiring α] (env : Char → Nat) (z : Char) :
    ∀ (ms : List (Tensor α)) (rl : List Char), rl.length = ms.length →
    (List.zipWith (fun w t => t.at_ (w.map env)) (rl.map fun c => [c, z]) ms).prod =
      khatriEntry (env z) ms (rl.map env)
  | [], [], _ => by simp [khatriEntry]
  | M :: ms, a :: rl, h1 => by
      simp only [List.map_cons, List.zipWith_cons_cons, List.prod_cons, khatriEntry, List.map_nil]
      rw [zipWith_khatri env z ms rl (by simpa using h1)]

theorem map_dims_kron {ms : List (Tensor α)} (h : AllMat ms) {D : Char → Nat} : ∀ {rl cl : List Char},
    rl.map D = rowDims ms → cl.map D = colDims ms →
    (List.zipWith (fun a b => [a, b]) rl cl).map (fun w => w.map D) = ms.map Tensor.shape := by
  induction ms with
  | nil =>
      intro rl cl h1 h2
      simp [rowDims] at h1; simp [h1]
  | cons M ms ih =>
      intro rl cl h1 h2
      cases rl with
      | nil => simp [rowDims] at h1
      | cons a rl =>
        cases cl with
        | nil => simp [colDims] at h2
        | cons b cl =>
          simp only [rowDims, colDims, List.map_cons, List.cons.injEq] at h1 h2
          simp only [List.zipWith_cons_cons, List.map_cons, List.cons.injEq, List.map_nil]
          refine ⟨?_, ih (fun N hN => h N (by simp [hN])) h1.2 h2.2⟩
          rw [h.shape_eq (M := M) (by simp), h1.1, h2.1]

theorem map_dims_khatri {ms : List (Tensor α)} {R : Nat} (h : AllMat ms)
    (hR : ∀ M ∈ ms, M.shape.getD 1 0 = R) {D : Char → Nat} {z : Char} (hz : D z = R) :
    ∀ {rl : List Char}, rl.map D = rowDims ms →
    (rl.map fun c => [c, z]).map (fun w => w.map D) = ms.map Tensor.shape := by
  induction ms with
  | nil =>
      intro rl h1
      simp [rowDims] at h1; simp [h1]
  | cons M ms ih =>
      intro rl h1
      cases rl with
      | nil => simp [rowDims] at h1
      | cons a rl =>
          simp only [rowDims, List.map_cons, List.cons.injEq] at h1
          simp only [List.map_cons, List.cons.injEq, List.map_nil]
          refine ⟨?_, ih (fun N hN => h N (by simp [hN])) (fun N hN => hR N (by simp [hN])) h1.2⟩
          rw [h.shape_eq (M := M) (by simp), h1.1, hz, hR M (by simp)]

theorem mem_zipWith_pair {rl cl : List Char} {w : List Char}
    (h : w ∈ List.zipWith (fun a b => [a, b]) rl cl) : ∃ a ∈ rl, ∃ b ∈ cl, w = [a, b] := by
  induction rl generalizing cl with
  | nil => simp at h
  | cons a rl ih =>
      cases cl with
      | nil => simp at h
      | cons b cl =>
          simp only [List.zipWith_cons_cons, List.mem_cons] at h
          rcases h with rfl | h
          · exact ⟨a, by simp, b, by simp, rfl⟩
          · obtain ⟨x, hx, y, hy, e⟩ := ih h
            exact ⟨x, by simp [hx], y, by simp [hy], e⟩

theorem mem_flatten_pair {rl cl : List Char} (hl : rl.length = cl.length) {c : Char} :
    c ∈ (List.zipWith (fun a b => [a, b]) rl cl).flatten ↔ c ∈ rl ∨ c ∈ cl := by
  induction rl generalizing cl with
  | nil => cases cl <;> simp_all
  | cons a rl ih =>
      cases cl with
      | nil => simp at hl
      | cons b cl =>
          simp only [List.zipWith_cons_cons, List.flatten_cons, List.mem_append,
            ih (by simpa using hl), List.mem_cons, List.not_mem_nil, or_false]
          tauto

/-- Working form of the einsum in `kron`. -/
theorem kron_einsum [CommSemiring α] {ms : List (Tensor α)} (h : AllMat ms) {rl cl : List Char}
    (hne : ms ≠ []) (hnd : (rl ++ cl).Nodup) (hr : rl.length = ms.length) (hc : cl.length = ms.length)
    (hlab : ∀ c ∈ rl ++ cl, isLabel c = true) :
    ∃ T, einsum (joinComma (List.zipWith (fun a b => [a, b]) rl cl) ++ '-' :: '>' :: (rl ++ cl)) ms = .ok T ∧
      T.shape = rowDims ms ++ colDims ms ∧
      ∀ rs cs, InB (rowDims ms) rs → InB (colDims ms) cs → T.at_ (rs ++ cs) = kronEntry ms rs cs := by
  set D := bindLabels (rl ++ cl) (rowDims ms ++ colDims ms) with hD
  obtain ⟨hDr, hDc⟩ := map_bindLabels_append hnd (us := rowDims ms) (vs := colDims ms)
    (by simp [rowDims, hr]) (by simp [colDims, hc])
  have hmem : ∀ c, c ∈ (List.zipWith (fun a b => [a, b]) rl cl).flatten ↔ c ∈ rl ++ cl := by
    intro c; rw [mem_flatten_pair (hr.trans hc.symm), List.mem_append]
  rw [einsum_eq (ins := List.zipWith (fun a b => [a, b]) rl cl)]
  · rw [einsumL_eq (D := D) (S := []) (map_dims_kron h hDr hDc)]
    · refine ⟨_, rfl, ?_, ?_⟩
      · rw [shape_ofFn, List.map_append, hDr, hDc]
      · intro rs cs hrs hcs
        rw [List.map_append, hDr, hDc, at_ofFn _ ((InB_append hrs.length).2 ⟨hrs, hcs⟩)]
        simp only [sumOver]
        rw [zipWith_kron _ _ _ _ hr hc]
        obtain ⟨e1, e2⟩ := map_bindLabels_append hnd (us := rs) (vs := cs)
          (by rw [hrs.length]; simp [rowDims, hr]) (by rw [hcs.length]; simp [colDims, hc])
        rw [e1, e2]
    · intro w hw
      obtain ⟨a, ha, b, hb, rfl⟩ := mem_zipWith_pair hw
      simp only [List.nodup_cons, List.mem_singleton, List.not_mem_nil, not_false_eq_true,
        List.nodup_nil, and_true]
      rintro rfl
      exact (List.nodup_append'.1 hnd).2.2 ha hb
    · exact hnd
    · intro c hc'; exact (hmem c).2 hc'
    · exact List.nodup_nil
    · intro c
      rw [hmem]
      simp only [List.not_mem_nil, false_iff, not_and, not_not, imp_self]
  · intro e
    have := congrArg List.length e
    simp only [List.length_zipWith, hr, hc, List.length_nil, Nat.min_self] at this
    exact hne (List.length_eq_zero_iff.1 this)
  · intro w hw
    obtain ⟨a, ha, b, hb, rfl⟩ := mem_zipWith_pair hw
    simp
  · intro w hw c hc'
    obtain ⟨a, ha, b, hb, rfl⟩ := mem_zipWith_pair hw
    simp only [List.mem_cons, List.not_mem_nil, or_false] at hc'
    rcases hc' with rfl | rfl
    · exact hlab _ (by simp [ha])
    · exact hlab _ (by simp [hb])
  · exact hlab

theorem kronEq_eq (n : Nat) : kronEq n =
    joinComma (List.zipWith (fun a b => [a, b]) ((List.range n).map fun i => letter (2 * i))
      ((List.range n).map fun i => letter (2 * i + 1))) ++ '-' :: '>' ::
      (((List.range n).map fun i => letter (2 * i)) ++ ((List.range n).map fun i => letter (2 * i + 1))) := by
  unfold kronEq
  simp only [List.zipWith_map, List.zipWith_self, letter]
  simp [List.append_assoc]

theorem kron_core [CommSemiring α] {ms : List (Tensor α)} (h : AllMat ms) (hne : ms ≠ [])
    (hlen : ms.length ≤ 13) :
    ∃ K, kron ms = .ok K ∧
      K.shape = [(rowDims ms).prod, (colDims ms).prod] ∧
      ∀ rs cs, InB (rowDims ms) rs → InB (colDims ms) cs →
        K.at_ [ravel (rowDims ms) rs, ravel (colDims ms) cs] = kronEntry ms rs cs := by
  have hnd : (((List.range ms.length).map fun i => letter (2 * i)) ++
      ((List.range ms.length).map fun i => letter (2 * i + 1))).Nodup := by
    have e : ((List.range ms.length).map fun i => letter (2 * i)) ++
        ((List.range ms.length).map fun i => letter (2 * i + 1)) =
        (((List.range ms.length).map fun i => 2 * i) ++
          ((List.range ms.length).map fun i => 2 * i + 1)).map letter := by
      rw [List.map_append, List.map_map, List.map_map]; rfl
    rw [e]
    apply nodup_letters
    · rw [List.nodup_append']
      refine ⟨List.nodup_range.map (fun a b => by simp), List.nodup_range.map (fun a b => by simp), ?_⟩
      intro a ha hb
      simp only [List.mem_map, List.mem_range] at ha hb
      obtain ⟨x, -, rfl⟩ := ha
      obtain ⟨y, -, hy⟩ := hb
      omega
    · intro i hi
      simp only [List.mem_append, List.mem_map, List.mem_range] at hi
      rcases hi with ⟨x, hx, rfl⟩ | ⟨x, hx, rfl⟩ <;> omega
  obtain ⟨T, hT, hTs, hTe⟩ := kron_einsum h hne hnd (by simp) (by simp) (by
    intro c hc
    simp only [List.mem_append, List.mem_map, List.mem_range] at hc
    rcases hc with ⟨x, hx, rfl⟩ | ⟨x, hx, rfl⟩ <;> exact letter_isLabel _ (by omega))
  simp only [kron, skip, Bool.false_eq_true, if_false]
  rw [kronEq_eq, hT, dimOfEach_ok (fun M hM => by rw [h M hM]; omega),
    dimOfEach_ok (fun M hM => by rw [h M hM]; omega)]
  simp only [ok_bind]
  have hl : T.data.length = [(rowDims ms).prod, (colDims ms).prod].prod := by
    rw [T.wf, hTs, List.prod_append]; simp
  refine ⟨_, tf.reshape_nat hl, rfl, fun rs cs hrs hcs => ?_⟩
  rw [← hTe rs cs hrs hcs]
  apply tf.at_reshaped
  rw [hTs, ravel_pair, ravel_append hrs.length]

theorem khatri_unfold [CommSemiring α] {ms : List (Tensor α)} {R : Nat} (h : AllMat ms) (hne : ms ≠ [])
    (hR : ∀ M ∈ ms, M.shape.getD 1 0 = R) :
    khatri ms = (do
      let tmp ← tf.einsum (khatriEq ms.length) ms
      let r ← dimOfEach ms 0
      tf.reshape tmp ([r.prod, R].map fun k : Nat => (k : Int)) : Res (Tensor α)) := by
  cases ms with
  | nil => exact absurd rfl hne
  | cons M ms =>
      have h1 : M.shape[(1 : Nat)]? = some R := by
        have := h.shape_eq (M := M) (by simp)
        rw [this, ← hR M (by simp)]
        rfl
      simp only [khatri, skip, Bool.false_eq_true, if_false, h1, List.map_cons, List.map_nil]

theorem kron_reduce [CommSemiring α] (ms : List (Tensor α)) (s : Skip) (rev : Bool) :
    kron ms s rev = kron (if rev then (skip ms s).reverse else skip ms s) := rfl

theorem khatri_reduce [CommSemiring α] (ms : List (Tensor α)) (s : Skip) (rev : Bool) :
    khatri ms s rev = khatri (if rev then (skip ms s).reverse else skip ms s) := rfl

theorem khatri_core [CommSemiring α] {ms : List (Tensor α)} {R : Nat} (h : AllMat ms) (hne : ms ≠ [])
    (hR : ∀ M ∈ ms, M.shape.getD 1 0 = R) (hlen : ms.length ≤ 25) :
    ∃ K, khatri ms = .ok K ∧
      K.shape = [(rowDims ms).prod, R] ∧
      ∀ is r, InB (rowDims ms) is → r < R →
        K.at_ [ravel (rowDims ms) is, r] = khatriEntry r ms is := by
  set rl := (List.range ms.length).map letter with hrl
  have hrlen : rl.length = ms.length := by simp [hrl]
  have hlab : ∀ c ∈ rl, isLabel c = true := by
    intro c hc
    simp only [hrl, List.mem_map, List.mem_range] at hc
    obtain ⟨x, hx, rfl⟩ := hc
    exact letter_isLabel _ (by omega)
  have hz : 'z' = letter 25 := by decide
  have hnd : (rl ++ ['z']).Nodup := by
    have e : rl ++ ['z'] = (List.range ms.length ++ [25]).map letter := by
      rw [List.map_append, hrl, hz]; rfl
    rw [e]
    apply nodup_letters
    · rw [List.nodup_append']
      refine ⟨List.nodup_range, by simp, ?_⟩
      intro a ha hb
      simp at ha hb; omega
    · intro i hi
      simp at hi; omega
  have hznot : 'z' ∉ rl := fun hc => (List.nodup_append'.1 hnd).2.2 hc (by simp)
  set D := bindLabels (rl ++ ['z']) (rowDims ms ++ [R]) with hD
  obtain ⟨hDr, hDz⟩ := map_bindLabels_append hnd (us := rowDims ms) (vs := [R])
    (by simp [rowDims, hrlen]) (by simp)
  simp only [List.map_cons, List.map_nil, List.cons.injEq, and_true] at hDz
  have hmem : ∀ c, c ∈ (rl.map fun c => [c, 'z']).flatten ↔ c ∈ rl ++ ['z'] := by
    intro c
    have hrl0 : rl ≠ [] := fun e => hne (List.length_eq_zero_iff.1 (by rw [← hrlen, e]; rfl))
    simp only [List.mem_flatten, List.mem_map, exists_exists_and_eq_and, List.mem_cons,
      List.not_mem_nil, or_false, List.mem_append]
    constructor
    · rintro ⟨a, ha, rfl | rfl⟩
      · exact Or.inl ha
      · exact Or.inr rfl
    · rintro (hc | rfl)
      · exact ⟨c, hc, Or.inl rfl⟩
      · obtain ⟨a, ha⟩ := List.exists_mem_of_ne_nil rl hrl0
        exact ⟨a, ha, Or.inr rfl⟩
  have heq : khatriEq ms.length = joinComma (rl.map fun c => [c, 'z']) ++ '-' :: '>' :: (rl ++ ['z']) := by
    unfold khatriEq
    simp only [hrl]
    rw [List.append_assoc]
    rfl
  have hT : einsum (khatriEq ms.length) ms = .ok (ofFn (rowDims ms ++ [R]) fun idx =>
      (List.zipWith (fun w t => t.at_ (w.map (bindLabels (rl ++ ['z']) idx))) (rl.map fun c => [c, 'z']) ms).prod) := by
    rw [heq, einsum_eq (ins := rl.map fun c => [c, 'z'])]
    · rw [einsumL_eq (D := D) (S := []) (map_dims_khatri h hR hDz hDr)]
      · simp only [sumOver, List.map_append, List.map_cons, List.map_nil]
        rw [show D 'z' = R from hDz, show rl.map D = rowDims ms from hDr]
      · intro w hw
        obtain ⟨a, ha, rfl⟩ := List.mem_map.1 hw
        simp only [List.nodup_cons, List.mem_singleton, List.not_mem_nil, not_false_eq_true,
          List.nodup_nil, and_true]
        rintro rfl; exact hznot ha
      · exact hnd
      · intro c hc; exact (hmem c).2 hc
      · exact List.nodup_nil
      · intro c; rw [hmem]; simp only [List.not_mem_nil, false_iff, not_and, not_not, imp_self]
    · intro e
      have := congrArg List.length e
      simp only [List.length_map, hrlen, List.length_nil] at this
      exact hne (List.length_eq_zero_iff.1 this)
    · intro w hw
      obtain ⟨a, ha, rfl⟩ := List.mem_map.1 hw
      simp
    · intro w hw c hc
      obtain ⟨a, ha, rfl⟩ := List.mem_map.1 hw
      simp only [List.mem_cons, List.not_mem_nil, or_false] at hc
      rcases hc with rfl | rfl
      · exact hlab _ ha
      · decide
    · intro c hc
      rcases List.mem_append.1 hc with hc | hc
      · exact hlab _ hc
      · simp at hc; subst hc; decide
  rw [khatri_unfold h hne hR, hT, dimOfEach_ok (fun M hM => by rw [h M hM]; omega)]
  simp only [ok_bind]
  set T : Tensor α := ofFn (rowDims ms ++ [R]) fun idx =>
      (List.zipWith (fun w t => t.at_ (w.map (bindLabels (rl ++ ['z']) idx))) (rl.map fun c => [c, 'z']) ms).prod with hTdef
  have hl : T.data.length = [(rowDims ms).prod, R].prod := by
    rw [T.wf, hTdef, shape_ofFn, List.prod_append]; simp
  have hval : ∀ is r, InB (rowDims ms) is → r < R → T.at_ (is ++ [r]) = khatriEntry r ms is := by
    intro is r his hr
    rw [hTdef, at_ofFn _ ((InB_append his.length).2 ⟨his, by simpa using hr⟩), zipWith_khatri _ _ _ _ hrlen]
    obtain ⟨e1, e2⟩ := map_bindLabels_append hnd (us := is) (vs := [r])
      (by rw [his.length]; simp [rowDims, hrlen]) (by simp)
    simp only [List.map_cons, List.map_nil, List.cons.injEq, and_true] at e2
    rw [e1, e2]
  refine ⟨_, tf.reshape_nat hl, rfl, fun is r his hr => ?_⟩
  rw [← hval is r his hr]
  apply tf.at_reshaped
  rw [hTdef, shape_ofFn, ravel_pair, ravel_append his.length]
  simp [ravel]

end ops
end TD
