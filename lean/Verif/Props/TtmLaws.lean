import Verif.Lemmas.TtmLaws
import Verif.Props.Ttm
import Verif.Props.Mul
import Verif.Props.Inner

/-! # C130 : the laws of `ttm` -/
namespace TD.Props
open TD Spec Tensor ops
variable {α : Type}

/-- After multiplying with `ms`, mode `axis[k]` has as many entries as `ms[k]` has rows, the others are unchanged. -/
theorem ttm_shape [CommSemiring α] {X : Tensor α} {ms : List (Tensor α)} {axis : List Nat} (hnd : axis.Nodup)
    (hlt : ∀ i ∈ axis, i < X.order) (hl : axis.length = ms.length) :
    (modeProds X (axis.zip ms)).order = X.order ∧
      (∀ k, k ∉ axis → (modeProds X (axis.zip ms)).shape.getD k 0 = X.shape.getD k 0) ∧
      ∀ p ∈ axis.zip ms, (modeProds X (axis.zip ms)).shape.getD p.1 0 = p.2.shape.getD 0 0 := by
  have h1 : (axis.zip ms).map Prod.fst = axis := List.map_fst_zip (by omega)
  refine ⟨modeProds_shape_length X _, fun k hk => modeProds_shape_out X (by rw [h1]; exact hk), fun p hp => ?_⟩
  exact modeProds_shape_in X (by rw [h1]; exact hnd) hp (hlt _ (List.of_mem_zip hp).1)

/-- **C130** (composition): multiplying along some modes by `As` and then by `Bs` is multiplying once by the matrix products
`mul(B, A, 1, 0)`. -/
theorem C130_compose [CommSemiring α] (X : Tensor α) (As Bs Cs : List (Tensor α)) (axis : List Nat) (hN : X.order ≤ 13)
    (hne : axis ≠ []) (hnd : axis.Nodup) (hlt : ∀ i ∈ axis, i < X.order)
    (hA : As.length = axis.length) (hB : Bs.length = axis.length) (hC : Cs.length = axis.length)
    (hs : ∀ (k n : Nat) (A B C : Tensor α), axis[k]? = some n → As[k]? = some A → Bs[k]? = some B → Cs[k]? = some C →
      (∃ p q, A.shape = [q, X.shape.getD n 0] ∧ B.shape = [p, q]) ∧ mul B A (.int 1) (.int 0) = .ok C) :
    ∃ Y Z, ttm X As (some axis) = .ok Y ∧ ttm Y Bs (some axis) = .ok Z ∧ ttm X Cs (some axis) = .ok Z := by
  set qs := axis.zip (Bs.zip (As.zip Cs)) with hqs
  have hq : ∀ q ∈ qs, ∃ k : Nat, axis[k]? = some q.1 ∧ Bs[k]? = some q.2.1 ∧ As[k]? = some q.2.2.1 ∧ Cs[k]? = some q.2.2.2 := by
    rintro ⟨n, B, A, C⟩ hq
    obtain ⟨k, hk, e⟩ := List.mem_iff_getElem.1 hq
    simp only [hqs, List.getElem_zip, Prod.mk.injEq] at e
    obtain ⟨e1, e2, e3, e4⟩ := e
    have hk' : k < axis.length := by simp only [hqs, List.length_zip] at hk; omega
    exact ⟨k, by rw [List.getElem?_eq_getElem hk', e1], by rw [List.getElem?_eq_getElem (by omega), e2], by rw [List.getElem?_eq_getElem (by omega), e3],
      by rw [List.getElem?_eq_getElem (by omega), e4]⟩
  have hlen : qs.length = axis.length := by simp [hqs, hA, hB, hC]
  have m1 : qs.map Prod.fst = axis := List.map_fst_zip (by simp [hA, hB, hC])
  have m2 : (qs.map fun q => (q.1, q.2.2.1)) = axis.zip As := by
    refine List.ext_getElem (by simp [hlen, hA]) fun k h1 h2 => by simp [hqs]
  have m3 : (qs.map fun q => (q.1, q.2.1)) = axis.zip Bs := by
    refine List.ext_getElem (by simp [hlen, hB]) fun k h1 h2 => by simp [hqs]
  have m4 : (qs.map fun q => (q.1, q.2.2.2)) = axis.zip Cs := by
    refine List.ext_getElem (by simp [hlen, hC]) fun k h1 h2 => by simp [hqs]
  have hfit : ∀ q ∈ qs, q.1 < X.order ∧ IsProd q.2.1 q.2.2.1 q.2.2.2 ∧ q.2.2.1.shape.getD 1 0 = X.shape.getD q.1 0 := by
    intro q hqm
    obtain ⟨k, k1, k2, k3, k4⟩ := hq q hqm
    obtain ⟨⟨a, b, hA', hB'⟩, hm⟩ := hs k _ _ _ _ k1 k3 k2 k4
    obtain ⟨C, c1, c2, c3⟩ := C08_mul_matrices q.2.1 q.2.2.1 a b (X.shape.getD q.1 0) hB' hA'
    rw [hm] at c1; cases c1
    exact ⟨hlt _ (List.mem_of_getElem? k1), ⟨a, b, _, hB', hA', c2, c3⟩, by rw [hA']; rfl⟩
  have key := modeProds_twice qs X (by rw [m1]; exact hnd) hfit
  rw [m2, m3, m4] at key
  obtain ⟨o1, o2, o3⟩ := ttm_shape (ms := As) hnd hlt hA.symm
  refine ⟨modeProds X (axis.zip As), modeProds X (axis.zip Cs), ?_, ?_, ?_⟩
  · refine C10_ttm_mode_products X As axis false hN hne hnd hlt ⟨hA.symm, fun p hp => ?_⟩
    rw [← m2] at hp
    obtain ⟨q, hqm, rfl⟩ := List.mem_map.1 hp
    obtain ⟨k, k1, k2, k3, k4⟩ := hq q hqm
    obtain ⟨⟨a, b, hA', -⟩, -⟩ := hs k _ _ _ _ k1 k3 k2 k4
    exact ⟨b, hA'⟩
  · rw [← key]
    refine C10_ttm_mode_products _ Bs axis false (by rw [o1]; exact hN) hne hnd (by rw [o1]; exact hlt) ⟨hB.symm, fun p hp => ?_⟩
    rw [← m3] at hp
    obtain ⟨q, hqm, rfl⟩ := List.mem_map.1 hp
    obtain ⟨k, k1, k2, k3, k4⟩ := hq q hqm
    obtain ⟨⟨a, b, hA', hB'⟩, -⟩ := hs k _ _ _ _ k1 k3 k2 k4
    refine ⟨a, ?_⟩
    rw [o3 (q.1, q.2.2.1) (by rw [← m2]; exact List.mem_map.2 ⟨q, hqm, rfl⟩), hA', hB']
    rfl
  · refine C10_ttm_mode_products X Cs axis false hN hne hnd hlt ⟨hC.symm, fun p hp => ?_⟩
    rw [← m4] at hp
    obtain ⟨q, hqm, rfl⟩ := List.mem_map.1 hp
    obtain ⟨-, ⟨a, b, c, hB', hA', hC', -⟩, e⟩ := hfit q hqm
    refine ⟨a, ?_⟩
    rw [← e, hA', hC']
    rfl

/-- **C130** (several calls): products along different modes may be done in one call or in two. -/
theorem C130_split [CommSemiring α] (X : Tensor α) (As Bs : List (Tensor α)) (a b : List Nat) (tr : Bool) (hN : X.order ≤ 13)
    (ha : a ≠ []) (hb : b ≠ []) (hnd : (a ++ b).Nodup) (hlt : ∀ i ∈ a ++ b, i < X.order)
    (hA : Conformable X a As tr) (hB : Conformable X b Bs tr) :
    ∃ Y Z, ttm X As (some a) tr = .ok Y ∧ ttm Y Bs (some b) tr = .ok Z ∧ ttm X (As ++ Bs) (some (a ++ b)) tr = .ok Z := by
  obtain ⟨n1, n2, n3⟩ := List.nodup_append.1 hnd
  set f : List (Tensor α) → List (Tensor α) := fun ms => if tr then ms.map matT else ms with hf
  have hfl : ∀ ms, (f ms).length = ms.length := fun ms => by simp only [hf]; split <;> simp
  have hfa : f (As ++ Bs) = f As ++ f Bs := by simp only [hf]; split <;> simp
  obtain ⟨o1, o2, -⟩ := ttm_shape (X := X) (ms := f As) n1 (fun i hi => hlt i (by simp [hi])) (by rw [hfl]; exact hA.1)
  refine ⟨modeProds X (a.zip (f As)), modeProds X ((a ++ b).zip (f (As ++ Bs))), ?_, ?_, ?_⟩
  · exact C10_ttm_mode_products X As a tr hN ha n1 (fun i hi => hlt i (by simp [hi])) hA
  · rw [hfa, List.zip_append (by rw [hfl]; exact hA.1), modeProds_append]
    refine C10_ttm_mode_products _ Bs b tr (by rw [o1]; exact hN) hb n2 (fun i hi => by rw [o1]; exact hlt i (by simp [hi])) ⟨hB.1, fun p hp => ?_⟩
    rw [o2 p.1 fun h => n3 _ h _ (List.of_mem_zip hp).1 rfl]
    exact hB.2 p hp
  · refine C10_ttm_mode_products X (As ++ Bs) (a ++ b) tr hN (by simp [ha]) hnd hlt ⟨by simp [hA.1, hB.1], fun p hp => ?_⟩
    rw [List.zip_append hA.1] at hp
    rcases List.mem_append.1 hp with hp | hp
    · exact hA.2 p hp
    · exact hB.2 p hp

/-- **C130** (identity). -/
theorem C130_identity [CommSemiring α] (X : Tensor α) (ms : List (Tensor α)) (axis : List Nat) (tr : Bool) (hN : X.order ≤ 13)
    (hne : axis ≠ []) (hnd : axis.Nodup) (hlt : ∀ i ∈ axis, i < X.order) (hl : axis.length = ms.length)
    (hI : ∀ p ∈ axis.zip ms, IsEye p.2 (X.shape.getD p.1 0)) :
    ttm X ms (some axis) tr = .ok X := by
  rw [C10_ttm_mode_products X ms axis tr hN hne hnd hlt ⟨hl, fun p hp => ⟨X.shape.getD p.1 0, by rw [(hI p hp).1]; split <;> rfl⟩⟩]
  congr 1
  cases tr
  · exact modeProds_id _ fun p hp => ⟨hlt _ (List.of_mem_zip hp).1, hI p hp⟩
  · simp only [if_true]
    refine modeProds_id _ fun p hp => ?_
    rw [List.zip_map_right] at hp
    obtain ⟨q, hq, rfl⟩ := List.mem_map.1 hp
    refine ⟨hlt _ (List.of_mem_zip hq).1, ?_⟩
    obtain ⟨e1, e2⟩ := hI q hq
    simp only [Prod.map_fst, Prod.map_snd, id_eq]
    refine ⟨by rw [matT, e1]; rfl, fun i hi j hj => ?_⟩
    rw [matT, e1, List.getD_cons_succ, List.getD_cons_zero, List.getD_cons_zero, at_mat _ hi hj, e2 j hj i hi]
    simp only [eq_comm]

/-- **C130** (linearity). -/
theorem C130_linear [CommSemiring α] (X Y D : Tensor α) (x y : α) (h : IsComb x y X Y D) (ms : List (Tensor α)) (axis : List Nat)
    (tr : Bool) (hN : D.order ≤ 13) (hne : axis ≠ []) (hnd : axis.Nodup) (hlt : ∀ i ∈ axis, i < D.order)
    (hc : Conformable D axis ms tr) :
    ∃ X' Y' D', ttm X ms (some axis) tr = .ok X' ∧ ttm Y ms (some axis) tr = .ok Y' ∧ ttm D ms (some axis) tr = .ok D' ∧
      IsComb x y X' Y' D' := by
  have hX : X.order = D.order := by unfold order; rw [h.1]
  have hY : Y.order = D.order := by unfold order; rw [h.2.1]
  refine ⟨_, _, _, C10_ttm_mode_products X ms axis tr (by rw [hX]; exact hN) hne hnd (by rw [hX]; exact hlt)
      (by unfold Conformable; rw [h.1]; exact hc),
    C10_ttm_mode_products Y ms axis tr (by rw [hY]; exact hN) hne hnd (by rw [hY]; exact hlt)
      (by unfold Conformable; rw [h.2.1]; exact hc),
    C10_ttm_mode_products D ms axis tr hN hne hnd hlt hc, IsComb.modeProds _ h⟩

/-- **C130** (adjoint): `⟨ttm(X, ms), Y⟩ = ⟨X, ttm(Y, ms, transpose=True)⟩` for every `Y` of the shape of `ttm(X, ms)`. -/
theorem C130_adjoint [CommSemiring α] (X Y X' : Tensor α) (ms : List (Tensor α)) (axis : List Nat) (hN : X.order ≤ 13)
    (hne : axis ≠ []) (hnd : axis.Nodup) (hlt : ∀ i ∈ axis, i < X.order) (hc : Conformable X axis ms false)
    (hX : ttm X ms (some axis) = .ok X') (hY : Y.shape = X'.shape) :
    ∃ Y' v, ttm Y ms (some axis) true = .ok Y' ∧ inner X' Y = .ok v ∧ inner X Y' = .ok v := by
  rw [C10_ttm_mode_products X ms axis false hN hne hnd hlt hc] at hX
  cases hX
  have h1 : (axis.zip ms).map Prod.fst = axis := List.map_fst_zip (by rw [hc.1])
  have hz : (axis.zip ms).map (fun p => (p.1, matT p.2)) = axis.zip (ms.map matT) := by
    rw [List.zip_map_right]; rfl
  obtain ⟨a1, a2⟩ := modeProds_adjoint (axis.zip ms) (X := X) (Y := Y) (by rw [h1]; exact hnd)
    (fun p hp => ⟨hlt _ (List.of_mem_zip hp).1, hc.2 p hp⟩) hY
  rw [hz] at a1 a2
  obtain ⟨o1, o2, o3⟩ := ttm_shape (X := X) (ms := ms) hnd hlt hc.1
  have ho : Y.order = X.order := by unfold order at o1 ⊢; rw [hY]; exact o1
  refine ⟨_, _, C10_ttm_mode_products Y ms axis true (by rw [ho]; exact hN) hne hnd (by rw [ho]; exact hlt) ⟨hc.1, fun p hp => ?_⟩,
    inner_same hY.symm, ?_⟩
  · obtain ⟨J, hJ⟩ := hc.2 p hp
    refine ⟨X.shape.getD p.1 0, ?_⟩
    have := o3 p hp
    rw [hY]
    change p.2.shape = [(modeProds X (axis.zip ms)).shape.getD p.1 0, _]
    rw [this, hJ]
    rfl
  · refine (inner_same a1.symm).trans ?_
    rw [← a2, hY]
    rfl

/-- **C130** (isometry): matrices with orthonormal columns keep all inner products. -/
theorem C130_isometry [CommSemiring α] (X Y : Tensor α) (hXY : X.shape = Y.shape) (ms : List (Tensor α)) (axis : List Nat)
    (hN : X.order ≤ 13) (hne : axis ≠ []) (hnd : axis.Nodup) (hlt : ∀ i ∈ axis, i < X.order) (hl : axis.length = ms.length)
    (ho : ∀ p ∈ axis.zip ms, Spec.Orthonormal p.2 (X.shape.getD p.1 0)) :
    ∃ X' Y' v, ttm X ms (some axis) = .ok X' ∧ ttm Y ms (some axis) = .ok Y' ∧ inner X' Y' = .ok v ∧ inner X Y = .ok v := by
  have hc : Conformable X axis ms false := ⟨hl, fun p hp => by
    obtain ⟨m, hm, -⟩ := ho p hp
    exact ⟨m, hm⟩⟩
  have hYo : Y.order = X.order := by unfold order; rw [hXY]
  have hcY : Conformable Y axis ms false := by unfold Conformable; rw [← hXY]; exact hc
  have eX := C10_ttm_mode_products X ms axis false hN hne hnd hlt hc
  have eY := C10_ttm_mode_products Y ms axis false (by rw [hYo]; exact hN) hne hnd (by rw [hYo]; exact hlt) hcY
  simp only [Bool.false_eq_true, if_false] at eX eY
  have hsh : ∀ Z : Tensor α, Z.shape = X.shape → (modeProds Z (axis.zip ms)).shape = (modeProds X (axis.zip ms)).shape := by
    intro Z hZ
    obtain ⟨a, -⟩ := IsComb.modeProds (x := (0 : α)) (y := 0) (axis.zip ms)
      (show IsComb 0 0 Z X (ofFn X.shape fun _ => 0) from ⟨hZ, rfl, fun i hi => by rw [at_ofFn (s := X.shape) _ hi]; simp⟩)
    obtain ⟨b, -⟩ := IsComb.modeProds (x := (0 : α)) (y := 0) (axis.zip ms)
      (show IsComb 0 0 X X (ofFn X.shape fun _ => 0) from ⟨rfl, rfl, fun i hi => by rw [at_ofFn (s := X.shape) _ hi]; simp⟩)
    rw [a, b]
  obtain ⟨Y', v, b1, b2, b3⟩ := C130_adjoint X (modeProds Y (axis.zip ms)) _ ms axis hN hne hnd hlt hc eX (hsh Y hXY.symm)
  refine ⟨_, _, v, eX, eY, b2, ?_⟩
  -- `ttm(ttm(Y, ms), ms, transpose=True) = Y`
  have hYY : Y' = Y := by
    obtain ⟨o1, o2, o3⟩ := ttm_shape (X := Y) (ms := ms) hnd (by rw [hYo]; exact hlt) hl
    have eY' := C10_ttm_mode_products (modeProds Y (axis.zip ms)) ms axis true (by rw [o1, hYo]; exact hN) hne hnd
      (by rw [o1, hYo]; exact hlt) ⟨hl, fun p hp => by
        obtain ⟨m, hm, -⟩ := ho p hp
        refine ⟨X.shape.getD p.1 0, ?_⟩
        rw [o3 p hp, hm]; rfl⟩
    rw [b1] at eY'
    have eY' := Except.ok.inj eY'
    rw [eY']
    simp only [if_true]
    have key := modeProds_twice ((axis.zip ms).map fun p => (p.1, matT p.2, p.2,
      (mat (p.2.shape.getD 1 0) (p.2.shape.getD 1 0) fun i j => ∑ l ∈ Finset.range (p.2.shape.getD 0 0), p.2.at_ [l, i] * p.2.at_ [l, j] : Tensor α))) Y
      (by rw [List.map_map]; simpa [Function.comp_def] using (List.map_fst_zip (l₁ := axis) (l₂ := ms) (by omega)).symm ▸ hnd) (by
        intro q hq
        obtain ⟨p, hp, rfl⟩ := List.mem_map.1 hq
        obtain ⟨m, hm, hon⟩ := ho p hp
        refine ⟨by rw [hYo]; exact hlt _ (List.of_mem_zip hp).1, ⟨X.shape.getD p.1 0, m, X.shape.getD p.1 0, ?_, hm, ?_, ?_⟩, ?_⟩
        · simp only [matT, hm]; rfl
        · simp only [hm]; rfl
        · intro i hi j hj
          simp only [hm, List.getD_cons_succ, List.getD_cons_zero, matT]
          rw [at_mat _ hi hj]
          refine Finset.sum_congr rfl fun l hl => ?_
          rw [at_mat _ hi (Finset.mem_range.1 hl)]
        · simp only [hm, hXY]; rfl)
    simp only [List.map_map, Function.comp_def] at key
    have z1 : ((axis.zip ms).map fun p => (p.1, p.2)) = axis.zip ms := by simp
    have z2 : ((axis.zip ms).map fun p => (p.1, matT p.2)) = axis.zip (ms.map matT) := by rw [List.zip_map_right]; rfl
    rw [z1, z2] at key
    rw [key]
    refine modeProds_id _ fun q hq => ?_
    obtain ⟨p, hp, rfl⟩ := List.mem_map.1 hq
    obtain ⟨m, hm, hon⟩ := ho p hp
    refine ⟨by rw [hYo]; exact hlt _ (List.of_mem_zip hp).1, ?_⟩
    simp only [hm, ← hXY, List.getD_cons_succ, List.getD_cons_zero]
    refine ⟨rfl, fun i hi j hj => ?_⟩
    rw [at_mat _ hi hj]
    exact hon i hi j hj
  rw [hYY] at b3
  exact b3

/-! A 2 × 3 tensor, a 2 × 3 matrix for its second mode, then a 3 × 2 matrix; a swap of rows has orthonormal columns. -/
example : ∃ Y Z, ttm (⟨[2, 3], [1, 2, 3, 4, 5, 6], rfl⟩ : Tensor ℤ) [⟨[2, 3], [1, 0, 2, 0, 1, -1], rfl⟩] (some [1]) = .ok Y ∧
    ttm Y [⟨[3, 2], [1, 1, 2, 0, 0, 3], rfl⟩] (some [1]) = .ok Z ∧
    ttm (⟨[2, 3], [1, 2, 3, 4, 5, 6], rfl⟩ : Tensor ℤ) [⟨[3, 3], [1, 1, 1, 2, 0, 4, 0, 3, -3], rfl⟩] (some [1]) = .ok Z := by
  refine C130_compose _ _ _ _ _ (by decide) (by decide) (by decide) (by decide) rfl rfl rfl ?_
  intro k n A B C h1 h2 h3 h4
  match k with
  | 0 =>
    simp only [List.getElem?_cons_zero, Option.some.injEq] at h1 h2 h3 h4
    subst h1 h2 h3 h4
    exact ⟨⟨3, 2, rfl, rfl⟩, by rfl⟩
  | k + 1 => simp at h1

example : ttm (⟨[2, 3], [1, 2, 3, 4, 5, 6], rfl⟩ : Tensor ℤ) [⟨[3, 2], [1, 1, 2, 0, 0, 3], rfl⟩, ⟨[1, 3], [1, 0, -1], rfl⟩] (some [0, 1])
    = .ok ⟨[3, 1], [-4, -4, -6], rfl⟩ := by rfl

example : Spec.Orthonormal (⟨[3, 2], [0, 1, 0, 0, -1, 0], rfl⟩ : Tensor ℤ) 2 ∧ IsEye (⟨[2, 2], [1, 0, 0, 1], rfl⟩ : Tensor ℤ) 2 ∧
    IsComb (2 : ℤ) 3 ⟨[2], [1, 2], rfl⟩ ⟨[2], [0, -1], rfl⟩ ⟨[2], [2, 1], rfl⟩ := by
  refine ⟨⟨3, rfl, by decide⟩, ⟨rfl, by decide⟩, rfl, rfl, fun i hi => ?_⟩
  obtain ⟨a, rfl⟩ : ∃ a, i = [a] := by
    match i, hi with
    | [a], _ => exact ⟨a, rfl⟩
  have : a < 2 := ((InB_cons _ _ _ _).1 hi).1
  interval_cases a <;> rfl

example (X Y : Tensor ℤ) (h : X.shape = [2, 3]) (hy : Y.shape = [2, 3]) :
    ∃ X' Y' v, ttm X [⟨[3, 2], [0, 1, 0, 0, -1, 0], rfl⟩] (some [0]) = .ok X' ∧ ttm Y [⟨[3, 2], [0, 1, 0, 0, -1, 0], rfl⟩] (some [0]) = .ok Y' ∧
      inner X' Y' = .ok v ∧ inner X Y = .ok v := by
  refine C130_isometry X Y (h.trans hy.symm) _ _ (by rw [order, h]; decide) (by decide) (by decide) (by rw [order, h]; decide) rfl ?_
  intro p hp
  simp only [List.zip_cons_cons, List.zip_nil_right, List.mem_singleton] at hp
  subst hp
  rw [h]
  exact ⟨3, rfl, by decide⟩

end TD.Props
