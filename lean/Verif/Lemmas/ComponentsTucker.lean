import Verif.Lemmas.ComponentsBcu

/-! # Renumbered components in `NTUCKER_BCU` -/
namespace TD
open Spec Tensor tf ops Matrix

/-- A mode product cancels the renumbering of that mode. -/
theorem modeProd_cols {X A : Tensor ℝ} {n m : Nat} {τ : Nat → Nat → Nat} (hτ : Renumbering X.shape τ)
    (hA : A.shape = [m, X.shape.getD n 0]) (hn : n < X.shape.length) :
    modeProd (renum τ X) n (renumCols (τ n) A) = renum (Function.update τ n id) (modeProd X n A) ∧
      Renumbering (modeProd X n A).shape (Function.update τ n id) := by
  have hsh : (modeProd X n A).shape = X.shape.set n m := modeProd_shape hA
  have hren : Renumbering (X.shape.set n m) (Function.update τ n id) := by
    intro k hk
    rw [List.length_set] at hk
    by_cases e : k = n
    · subst e
      rw [Function.update_self]
      exact Set.bijOn_id _
    · rw [Function.update_of_ne e, getD_set_ne (Ne.symm e)]
      exact hτ k hk
  refine ⟨?_, by rw [hsh]; exact hren⟩
  refine ext_at (by exact hsh.trans hsh.symm) fun i hi => ?_
  have hi' : InB (X.shape.set n m) i := by
    have e : (modeProd (renum τ X) n (renumCols (τ n) A)).shape = X.shape.set n m := hsh
    rwa [e] at hi
  have hlen : i.length = X.shape.length := by rw [hi'.length, List.length_set]
  have hnl : n < i.length := by rw [hlen]; exact hn
  have him : i.getD n 0 < m := by
    have := (InB_iff_getD.1 hi').2 n (by rw [List.length_set]; exact hn)
    have e : (X.shape.set n m).getD n 0 = m := by
      rw [List.getD_eq_getElem _ _ (by rw [List.length_set]; exact hn), List.getElem_set_self]
    rwa [e] at this
  rw [at_renum _ (by rw [hsh]; exact hi')]
  have h1 : (modeProd (renum τ X) n (renumCols (τ n) A)).at_ i = ∑ k ∈ Finset.range (X.shape.getD n 0),
      (renumCols (τ n) A).at_ [i.getD n 0, k] * (renum τ X).at_ (i.set n k) := at_ofFn _ hi
  have h2 : (modeProd X n A).at_ (i.mapIdx (Function.update τ n id)) = ∑ k ∈ Finset.range (X.shape.getD n 0),
      A.at_ [(i.mapIdx (Function.update τ n id)).getD n 0, k] * X.at_ ((i.mapIdx (Function.update τ n id)).set n k) :=
    at_ofFn _ (by
      have := hren.inB hi'
      rw [← hsh] at this
      exact this)
  rw [h1, h2, ← sum_renum (hτ n hn) fun k => A.at_ [(i.mapIdx (Function.update τ n id)).getD n 0, k] *
    X.at_ ((i.mapIdx (Function.update τ n id)).set n k)]
  refine Finset.sum_congr rfl fun k hk => ?_
  rw [Finset.mem_range] at hk
  have hik : InB X.shape (i.set n k) := InB_set hi' hk
  rw [at_renumCols hA him hk, at_renum τ hik, mapIdx_getD _ hnl, Function.update_self]
  congr 2
  refine List.ext_getElem (by simp) fun p h1 h2 => ?_
  rw [List.getElem_mapIdx, List.getElem_set, List.getElem_set]
  split
  · rename_i e; subst e; rfl
  · rename_i e
    rw [List.getElem_mapIdx, Function.update_of_ne (Ne.symm e)]

theorem modeProds_cols {σ : Nat → Nat → Nat} : ∀ {ps : List (Nat × Tensor ℝ)} {X : Tensor ℝ} {τ : Nat → Nat → Nat},
    Renumbering X.shape τ → (ps.map Prod.fst).Nodup →
    (∀ p ∈ ps, p.1 < X.shape.length ∧ τ p.1 = σ p.1 ∧ ∃ m, p.2.shape = [m, X.shape.getD p.1 0]) →
    modeProds (renum τ X) (ps.map fun p => (p.1, renumCols (σ p.1) p.2)) =
        renum (fun k => if k ∈ ps.map Prod.fst then id else τ k) (modeProds X ps) ∧
      Renumbering (modeProds X ps).shape fun k => if k ∈ ps.map Prod.fst then id else τ k
  | [], X, τ, hτ, _, _ => by
      simp only [List.map_nil, List.not_mem_nil, if_false]
      exact ⟨rfl, hτ⟩
  | p :: ps, X, τ, hτ, hnd, h => by
      obtain ⟨p1, p2, m, p3⟩ := h p (by simp)
      obtain ⟨e1, e2⟩ := modeProd_cols hτ p3 p1
      rw [List.map_cons, List.nodup_cons] at hnd
      obtain ⟨f1, f2⟩ := modeProds_cols (σ := σ) (ps := ps) (X := modeProd X p.1 p.2) e2 hnd.2 fun q hq => by
        obtain ⟨q1, q2, m', q3⟩ := h q (by simp [hq])
        have hne : q.1 ≠ p.1 := fun e => hnd.1 (by rw [← e]; exact List.mem_map.2 ⟨q, hq, rfl⟩)
        rw [modeProd_shape p3, List.length_set, getD_set_ne (Ne.symm hne), Function.update_of_ne hne]
        exact ⟨q1, q2, m', q3⟩
      have hfun : (fun k => if k ∈ ps.map Prod.fst then id else Function.update τ p.1 id k) =
          fun k => if k ∈ (p :: ps).map Prod.fst then id else τ k := by
        funext k
        simp only [List.map_cons, List.mem_cons]
        by_cases e : k = p.1
        · subst e; simp
        · rw [Function.update_of_ne e]
          simp only [e, false_or]
      rw [hfun] at f1 f2
      refine ⟨?_, f2⟩
      rw [← show modeProds (modeProd X p.1 p.2) ps = modeProds X (p :: ps) from rfl, ← f1, ← e1, p2]
      rfl

theorem zip_renumModes (τ : Nat → Nat → Nat) (N : Nat) (A : List (Tensor ℝ)) :
    (List.range N).zip (renumModes τ A) = ((List.range N).zip A).map fun p => (p.1, renumCols (τ p.1) p.2) := by
  refine List.ext_getElem (by simp [bcu.length_renumModes]) fun k h1 h2 => ?_
  simp [renumModes]

theorem Spec.TuckerShapes.modes {shape ranks : List Nat} {A : List (Tensor ℝ)} (h : TuckerShapes shape ranks A)
    (τ : Nat → Nat → Nat) : TuckerShapes shape ranks (renumModes τ A) := by
  rw [← tuckerShapes_iff, bcu.map_shape_renumModes]
  exact tuckerShapes_iff.2 h

/-- The unfolding of the core times the renumbered factors of the other modes has renumbered rows. -/
theorem tk_unfold_modes {shape ranks : List Nat} {g : Tensor ℝ} {A : List (Tensor ℝ)} {τ : Nat → Nat → Nat}
    (hτ : Renumbering ranks τ) (h2 : 2 ≤ shape.length) (h13 : shape.length ≤ 13) (hA : TuckerShapes shape ranks A)
    (hr : ranks.length = shape.length) (hg : g.shape = ranks) {n : Nat} (hn : n < shape.length) (hrp : 0 < ranks.getD n 0) :
    ∃ Y Y' B B', ttm g A none false (.int n) = .ok Y ∧ ttm (renum τ g) (renumModes τ A) none false (.int n) = .ok Y' ∧
      unfold Y n = .ok B ∧ unfold Y' n = .ok B' ∧ B.shape = [ranks.getD n 0, otherSize shape n] ∧
      B'.shape = [ranks.getD n 0, otherSize shape n] ∧
      ∀ r < ranks.getD n 0, ∀ j < otherSize shape n, B'.at_ [r, j] = B.at_ [τ n r, j] := by
  have hl : A.length = shape.length := hA.1
  have hfst : (((List.range shape.length).zip A).eraseIdx n).map Prod.fst = (List.range shape.length).eraseIdx n := by
    rw [← zip_eraseIdx _ _ _ (by simp [hl]), List.map_fst_zip]
    rw [List.length_eraseIdx, List.length_eraseIdx]; simp [hl]
  have hnd : ((List.range shape.length).eraseIdx n).Nodup := List.nodup_range.eraseIdx n
  have hmem : ∀ k, k ∈ (List.range shape.length).eraseIdx n ↔ k < shape.length ∧ k ≠ n := fun k => by
    rw [List.mem_eraseIdx_iff_getElem]
    constructor
    · rintro ⟨i, hi, hne, rfl⟩
      simp at hi ⊢
      omega
    · rintro ⟨h1, h2⟩
      exact ⟨k, by simpa using h1, h2, by simp⟩
  obtain ⟨e1, e2⟩ := modeProds_cols (σ := τ) (ps := ((List.range shape.length).zip A).eraseIdx n) (X := g)
    (τ := τ) (by rw [hg]; exact hτ) (by rw [hfst]; exact hnd) fun p hp => by
      have hp1 : p.1 ∈ (List.range shape.length).eraseIdx n := by rw [← hfst]; exact List.mem_map.2 ⟨p, hp, rfl⟩
      obtain ⟨h1, -⟩ := (hmem p.1).1 hp1
      have hp2 := List.mem_of_mem_eraseIdx hp
      obtain ⟨k, hk, hk'⟩ := List.mem_iff_getElem.1 hp2
      simp only [List.getElem_zip, List.getElem_range] at hk'
      have hkA : k < A.length := by simp at hk; omega
      subst hk'
      refine ⟨by rw [hg, hr]; exact h1, rfl, shape.getD k 0, ?_⟩
      rw [hg]
      exact hA.2 k _ (List.getElem?_eq_getElem hkA)
  rw [hfst] at e1
  rw [hfst] at e2
  have hY := tk_Y h2 h13 hA hr hg hn
  have hY' := tk_Y h2 h13 (hA.modes τ) hr (g := renum τ g) hg hn
  rw [zip_renumModes, List.eraseIdx_map, e1] at hY'
  obtain ⟨y1, y2, y3⟩ := tk_Y_shape hA hr hg (n := n)
  set Y := modeProds g (((List.range shape.length).zip A).eraseIdx n) with hYd
  have hnY : n < Y.order := by rw [y1]; exact hn
  obtain ⟨B, B', hB, hB', hBs, hBs', eB⟩ := unfold_renum e2 hnY (by rw [y2]; exact hrp)
  rw [y2, y3] at hBs hBs' eB
  refine ⟨_, _, B, B', hY, hY', hB, hB', hBs, hBs', fun r hr' j hj => ?_⟩
  rw [eB r hr' j hj, if_neg (by rw [hmem]; simp)]
  congr 3
  rw [colPerm_congr hnY rfl (fun _ _ => rfl) (σ' := fun _ => id) fun k hks hk => if_pos ((hmem k).2 ⟨by rw [← y1]; exact hks, hk⟩)]
  have hid : (unkolda Y.shape n 0 j).mapIdx (fun _ => id) = unkolda Y.shape n 0 j :=
    List.ext_getElem (by simp) fun k _ _ => by simp
  unfold colPerm
  rw [hid]
  exact (unkolda_spec hnY (by rw [y2]; exact hrp) (by rw [y3]; exact hj)).2.2

theorem matmul_nt_rows {M B B' : Tensor ℝ} {I J R : Nat} {π : Nat → Nat} (h : Set.BijOn π (Set.Iio R) (Set.Iio R))
    (hM : M.shape = [I, J]) (hB : B.shape = [R, J]) (hB' : B'.shape = [R, J])
    (e : ∀ r < R, ∀ j < J, B'.at_ [r, j] = B.at_ [π r, j]) :
    matmul M B' false true = renumCols π <$> matmul M B false true ∧
      matmul B' B' false true = renumBoth π <$> matmul B B false true := by
  rw [matmul_nt hM hB', matmul_nt hM hB, matmul_nt hB' hB', matmul_nt hB hB]
  refine ⟨congrArg Except.ok (ext_mat rfl rfl fun p hp q hq => ?_), congrArg Except.ok (ext_mat rfl rfl fun p hp q hq => ?_)⟩
  · rw [at_mat _ hp hq, at_renumCols (shape_mat _ _ _) hp hq, at_mat _ hp (h.mapsTo hq)]
    refine Finset.sum_congr rfl fun j hj => ?_
    rw [e q hq j (Finset.mem_range.1 hj)]
  · rw [at_mat _ hp hq, at_renumBoth (shape_mat _ _ _) hp hq, at_mat _ (h.mapsTo hp) (h.mapsTo hq)]
    refine Finset.sum_congr rfl fun j hj => ?_
    rw [e q hq j (Finset.mem_range.1 hj), e p hp j (Finset.mem_range.1 hj)]

theorem kronEntry_modes : ∀ {U : List (Tensor ℝ)} {τ : Nat → Nat → Nat} {i j : List Nat}, AllMat U → InB (rowDims U) i →
    InB (colDims U) j → kronEntry (renumModes τ U) i j = kronEntry U i (j.mapIdx τ)
  | [], _, _, _, _, _, _ => by simp [renumModes, kronEntry]
  | A :: U, τ, i, j, hm, hi, hj => by
      cases i with
      | nil => rw [bcu.renumModes_cons]; cases j <;> simp [kronEntry]
      | cons a i =>
          cases j with
          | nil => rw [bcu.renumModes_cons]; rfl
          | cons b j =>
              have hi2 : InB (A.shape.getD 0 0 :: rowDims U) (a :: i) := hi
              have hj2 : InB (A.shape.getD 1 0 :: colDims U) (b :: j) := hj
              rw [InB_cons] at hi2 hj2
              rw [bcu.renumModes_cons, List.mapIdx_cons, kronEntry, kronEntry,
                at_renumCols (hm.shape_eq (M := A) (by simp)) hi2.1 hj2.1,
                kronEntry_modes (fun M hM => hm M (by simp [hM])) hi2.2 hj2.2]

theorem rowDims_modes (τ : Nat → Nat → Nat) (A : List (Tensor ℝ)) : rowDims (renumModes τ A) = rowDims A := by
  have := congrArg (List.map fun s : List Nat => s.getD 0 0) (bcu.map_shape_renumModes τ A)
  rw [List.map_map, List.map_map] at this
  exact this

theorem colDims_modes (τ : Nat → Nat → Nat) (A : List (Tensor ℝ)) : colDims (renumModes τ A) = colDims A := by
  have := congrArg (List.map fun s : List Nat => s.getD 1 0) (bcu.map_shape_renumModes τ A)
  rw [List.map_map, List.map_map] at this
  exact this

namespace bcu
open fact

theorem colsOk_tucker {τ : Nat → Nat → Nat} {ranks : List Nat} (hrp : ∀ d ∈ ranks, 0 < d) (hτ : Renumbering ranks τ)
    {shape : List Nat} (hr : ranks.length = shape.length) : ColsOk τ (tuckerShapes shape ranks) := by
  intro k s h
  unfold tuckerShapes at h
  rw [List.getElem?_map, Option.map_eq_some_iff] at h
  obtain ⟨d, h1, rfl⟩ := h
  obtain ⟨hk, rfl⟩ := List.getElem?_eq_some_iff.1 h1
  rw [List.getElem_range]
  have hk' : k < ranks.length := by rw [hr]; simpa using hk
  refine ⟨_, _, rfl, ?_, hτ k hk'⟩
  rw [List.getD_eq_getElem _ _ hk']
  exact hrp _ (List.getElem_mem hk')

/-- The variables with renumbered columns and renumbered cores. -/
noncomputable def colTState (τ : Nat → Nat → Nat) (s : TState) : TState :=
  { toState := colState τ s.toState, g := renum τ s.g, g0 := renum τ s.g0, gm := renum τ s.gm }

theorem assignCore_gen (σ : Nat → Nat → Nat) (old v : Tensor ℝ) :
    assignCore (renum σ old) (renum σ v) = renum σ <$> assignCore old v := by
  unfold assignCore
  rw [shape_renum, shape_renum]
  split <;> rfl

theorem NTUCKER.modeUpdate_modes {topSv : Tensor ℝ → Res ℝ} (ht : TopSvOk topSv) {X g : Tensor ℝ} {ranks : List Nat}
    {τ : Nat → Nat → Nat} (hτ : Renumbering ranks τ) {n : Nat} {s : State} (hs : FactorsOk (tuckerShapes X.shape ranks) s)
    (hr : ranks.length = X.shape.length) (hg : g.shape = ranks) (h2 : 2 ≤ X.order) (h13 : X.order ≤ 13) (hn : n < X.order)
    (hpos : 0 < X.shape.getD n 0) (hrp : 0 < ranks.getD n 0) :
    NTUCKER.modeUpdate topSv X (renum τ g) (colState τ s) n = colState τ <$> NTUCKER.modeUpdate topSv X g s n := by
  have hA := tuckerShapes_iff.1 hs.A
  have hn' : n < ranks.length := by rw [hr]; exact hn
  have hπ := hτ n hn'
  obtain ⟨M, hM⟩ : ∃ M, unfold X n = .ok M := ⟨_, unfold_closed X hn hpos⟩
  obtain ⟨hMs, -⟩ := toMat_unfold hn hpos hM
  obtain ⟨Y, Y', B, B', hY, hY', hB, hB', hBs, hBs', eB⟩ := tk_unfold_modes hτ h2 h13 hA hr hg hn hrp
  obtain ⟨hXB, hV⟩ := matmul_nt_rows hπ hMs hBs hBs' eB
  obtain ⟨XB, hXB0⟩ : ∃ XB, matmul M B false true = .ok XB := ⟨_, matmul_nt hMs hBs⟩
  obtain ⟨hXBs, -⟩ := toMat_matmul_nt hMs hBs hXB0
  obtain ⟨V, hV0⟩ : ∃ V, matmul B B false true = .ok V := ⟨_, matmul_nt hBs hBs⟩
  obtain ⟨hVs, -⟩ := toMat_matmul_nt hBs hBs hV0
  unfold NTUCKER.modeUpdate
  rw [show (colState τ s).A = renumModes τ s.A from rfl, hM, ok_bind, ok_bind, hY', hY, ok_bind, ok_bind, hB', hB,
    ok_bind, ok_bind, hXB, hXB0, ok_bind]
  change (do let XA ← (Except.ok (renumCols (τ n) XB) : Res (Tensor ℝ)); _) = _
  rw [ok_bind, hV, hV0, ok_bind]
  change (do let XA ← (Except.ok (renumBoth (τ n) V) : Res (Tensor ℝ)); _) = _
  rw [ok_bind]
  refine factorStep_modes ht hrp hπ (fun m hm => ?_) hVs hXBs
  exact (tuckerShapes_iff.1 hs.Am).2 n m hm

theorem NTUCKER.sweep_modes {topSv : Tensor ℝ → Res ℝ} (ht : TopSvOk topSv) {X g : Tensor ℝ} {ranks : List Nat}
    {τ : Nat → Nat → Nat} (hτ : Renumbering ranks τ) (hr : ranks.length = X.shape.length) (hg : g.shape = ranks)
    (h2 : 2 ≤ X.order) (h13 : X.order ≤ 13) (hpos : ∀ d ∈ X.shape, 0 < d) (hrp : ∀ d ∈ ranks, 0 < d) :
    ∀ (l : List Nat) {s : State}, (∀ n ∈ l, n < X.order) → FactorsOk (tuckerShapes X.shape ranks) s →
    l.foldlM (NTUCKER.modeUpdate topSv X (renum τ g)) (colState τ s) =
      colState τ <$> l.foldlM (NTUCKER.modeUpdate topSv X g) s
  | [], _, _, _ => rfl
  | n :: l, s, hl, hs => by
      have hn := hl n (by simp)
      have hn' : n < ranks.length := by rw [hr]; exact hn
      have hrn : 0 < ranks.getD n 0 := by
        rw [List.getD_eq_getElem _ _ hn']; exact hrp _ (List.getElem_mem hn')
      rw [List.foldlM_cons, List.foldlM_cons,
        NTUCKER.modeUpdate_modes ht hτ hs hr hg h2 h13 hn (cp.getD_pos hpos hn) hrn]
      cases he : NTUCKER.modeUpdate topSv X g s n with
      | error e => rfl
      | ok s' =>
          obtain ⟨V, XA, hf⟩ := NTUCKER.modeUpdate_inv he
          exact NTUCKER.sweep_modes ht hτ hr hg h2 h13 hpos hrp l (fun m hm => hl m (by simp [hm])) (hs.factorStep hf)

theorem NTUCKER.fullOf_modes {shape ranks : List Nat} {g : Tensor ℝ} {A : List (Tensor ℝ)} {τ : Nat → Nat → Nat}
    (hτ : Renumbering ranks τ) (h1 : 1 ≤ shape.length) (h13 : shape.length ≤ 13) (hA : TuckerShapes shape ranks A)
    (hr : ranks.length = shape.length) (hg : g.shape = ranks) :
    NTUCKER.fullOf (renum τ g) (renumModes τ A) = NTUCKER.fullOf g A := by
  obtain ⟨a1, a2, a3⟩ := tk_full h1 h13 hA hr hg
  obtain ⟨b1, b2, b3⟩ := tk_full h1 h13 (hA.modes τ) hr (g := renum τ g) hg
  rw [a1, b1]
  congr 1
  refine ext_at (b2.trans a2.symm) fun i hi => ?_
  rw [b2] at hi
  rw [b3 i hi, a3 i hi, shape_renum, ← boxSum_renum (hg ▸ hτ) fun j => g.at_ j * kronEntry A i j]
  refine boxSum_congr fun j hj => ?_
  rw [at_renum τ hj, kronEntry_modes hA.allMat (by rw [hA.rowDims]; exact hi) (by rw [hA.colDims hr, ← hg]; exact hj)]

theorem NTUCKER.main_modes {topSv : Tensor ℝ → Res ℝ} (ht : TopSvOk topSv) {X : Tensor ℝ} {ranks : List Nat}
    {τ : Nat → Nat → Nat} (hτ : Renumbering ranks τ) (hr : ranks.length = X.shape.length) (h2 : 2 ≤ X.order)
    (h13 : X.order ≤ 13) (hpos : ∀ d ∈ X.shape, 0 < d) (hrp : ∀ d ∈ ranks, 0 < d) {s : TState}
    (hs : TkOk X.shape ranks s) :
    NTUCKER.main topSv X (colTState τ s) =
      (fun r => (colTState τ r.1, (r.2.mapAux (renum τ)).mapOut (renumModes τ) id)) <$> NTUCKER.main topSv X s := by
  unfold NTUCKER.main
  rw [show (colTState τ s).toState = colState τ s.toState from rfl, show (colTState τ s).g = renum τ s.g from rfl,
    NTUCKER.sweep_modes ht hτ hr hs.g h2 h13 hpos hrp _ (fun n hn => by simpa using hn) hs.factors]
  cases he : (List.range X.order).foldlM (NTUCKER.modeUpdate topSv X s.g) s.toState with
  | error e => rfl
  | ok s' =>
  obtain ⟨f1, -⟩ := NTUCKER.sweep_inv hs.factors he
  have hA := tuckerShapes_iff.1 f1.A
  have h1 : 1 ≤ X.shape.length := by unfold order at h2; omega
  rw [ok_bind]
  change (do let st ← (Except.ok (colState τ s') : Res _); _) = _
  rw [ok_bind, show (colState τ s').A = renumModes τ s'.A from rfl, NTUCKER.fullOf_modes hτ h1 h13 hA hr hs.g]
  cases NTUCKER.fullOf s.g s'.A with
  | error e => rfl
  | ok Y => cases h : cp.scalars X Y <;> simp only [ok_bind, h] <;> rfl

theorem gramOf_cols {π : Nat → Nat} {M : Tensor ℝ} {I R : Nat} (h : Set.BijOn π (Set.Iio R) (Set.Iio R))
    (hM : M.shape = [I, R]) : gramOf (renumCols π M) = renumBoth π (gramOf M) := by
  have h1 := gramOf_ok (M := renumCols π M) (by rw [show (renumCols π M).shape = [I, R] from hM]; rfl)
  rw [matmul_tn_cols h hM hM, gramOf_ok (by rw [hM]; rfl)] at h1
  exact (Except.ok.inj h1).symm

theorem maxSv_modes {topSv : Tensor ℝ → Res ℝ} (ht : TopSvOk topSv) {τ : Nat → Nat → Nat} {A : List (Tensor ℝ)}
    (h : ColsOk τ (A.map Tensor.shape)) :
    maxSingleValueMul topSv ((renumModes τ A).map gramOf) = maxSingleValueMul topSv (A.map gramOf) := by
  have key : ∀ (l : List (Tensor ℝ)) (τ : Nat → Nat → Nat), ColsOk τ (l.map Tensor.shape) →
      ((renumModes τ l).map gramOf).mapM topSv = (l.map gramOf).mapM topSv := by
    intro l
    induction l with
    | nil => intro _ _; rfl
    | cons d l ih =>
        intro τ h
        obtain ⟨I, R, h1, hR, h2⟩ := h 0 d.shape rfl
        rw [renumModes_cons, List.map_cons, List.map_cons, List.mapM_cons, List.mapM_cons, gramOf_cols h2 h1,
          topSv_both ht hR h2 (by rw [gramOf_shape, h1]; rfl), ih (fun k => τ (k + 1)) fun k s hk => h (k + 1) s hk]
  unfold maxSingleValueMul
  change (do let vs ← ((renumModes τ A).map gramOf).mapM topSv; _) = (do let vs ← (A.map gramOf).mapM topSv; _)
  rw [key A τ h]

theorem ttm_gram_modes {g : Tensor ℝ} {A : List (Tensor ℝ)} {shape ranks : List Nat} {τ : Nat → Nat → Nat}
    (hτ : Renumbering ranks τ) (h1 : 1 ≤ shape.length) (h13 : shape.length ≤ 13) (hA : TuckerShapes shape ranks A)
    (hr : ranks.length = shape.length) (hg : g.shape = ranks) :
    ttm (renum τ g) ((renumModes τ A).map gramOf) = renum τ <$> ttm g (A.map gramOf) := by
  have hl : A.length = shape.length := hA.1
  have hne : A ≠ [] := by intro e; rw [e] at hl; simp at hl; omega
  have hc : colDims A = ranks := hA.colDims hr
  have hl' := length_renumModes τ A
  obtain ⟨B, hB, hBs, hBe⟩ := ttm_gram hne (by omega) (g := g) (by rw [hc, hg])
  obtain ⟨B', hB', hBs', hBe'⟩ := ttm_gram (g := renum τ g) (A := renumModes τ A)
    (by intro e; rw [e] at hl'; simp at hl'; omega) (by omega) (by rw [colDims_modes, hc]; exact hg)
  rw [hB, hB']
  refine congrArg Except.ok (ext_at (hBs'.trans hBs.symm) fun j hj => ?_)
  rw [hBs', shape_renum, hg] at hj
  have hj' := hτ.inB hj
  rw [hBe' j (by rw [shape_renum, hg]; exact hj), at_renum τ (by rw [hBs, hg]; exact hj), hBe _ (by rw [hg]; exact hj'),
    colDims_modes, hc, ← boxSum_renum hτ fun j' => kronEntry (A.map gramOf) (j.mapIdx τ) j' * g.at_ j']
  refine boxSum_congr fun k hk => ?_
  have hk' := hτ.inB hk
  rw [at_renum τ (by rw [hg]; exact hk), kronEntry_gramOf (by rw [colDims_modes, hc]; exact hj) (by rw [colDims_modes, hc]; exact hk),
    kronEntry_gramOf (by rw [hc]; exact hj') (by rw [hc]; exact hk'), rowDims_modes]
  congr 1
  refine boxSum_congr fun i hi => ?_
  rw [kronEntry_modes hA.allMat hi (by rw [hc]; exact hj), kronEntry_modes hA.allMat hi (by rw [hc]; exact hk)]

theorem ttm_modes {X : Tensor ℝ} {A : List (Tensor ℝ)} {ranks : List Nat} {τ : Nat → Nat → Nat}
    (hτ : Renumbering ranks τ) (h1 : 1 ≤ X.order) (h13 : X.order ≤ 13) (hA : TuckerShapes X.shape ranks A)
    (hr : ranks.length = X.shape.length) :
    ttm X (renumModes τ A) none true = renum τ <$> ttm X A none true := by
  have hXne : X.shape ≠ [] := by intro e; unfold order at h1; rw [e] at h1; simp at h1
  obtain ⟨g, -, a1, -, a2, -, a3, -⟩ := tucker_entries hXne h13 hA.allMat hA.rowDims
  obtain ⟨g', -, b1, -, b2, -, b3, -⟩ := tucker_entries (X := X) hXne h13 (hA.modes τ).allMat (hA.modes τ).rowDims
  have hc : colDims A = ranks := hA.colDims hr
  rw [colDims_modes, hc] at b2
  rw [hc] at a2
  rw [a1, b1]
  refine congrArg Except.ok (ext_at (b2.trans a2.symm) fun j hj => ?_)
  rw [b2] at hj
  rw [b3 j (by rw [b2]; exact hj), at_renum τ (by rw [a2]; exact hj), a3 _ (by rw [a2]; exact hτ.inB hj)]
  refine boxSum_congr fun i hi => ?_
  rw [kronEntry_modes hA.allMat (by rw [hA.rowDims]; exact hi) (by rw [hc]; exact hj)]

theorem NTUCKER.core_modes {topSv : Tensor ℝ → Res ℝ} (ht : TopSvOk topSv) {X : Tensor ℝ} {ranks : List Nat}
    {τ : Nat → Nat → Nat} (hτ : Renumbering ranks τ) (hr : ranks.length = X.shape.length) (h1 : 1 ≤ X.order)
    (h13 : X.order ≤ 13) (hrp : ∀ d ∈ ranks, 0 < d) {s : TState} (hs : TkOk X.shape ranks s) :
    NTUCKER.core topSv X (colTState τ s) = (fun r => (colTState τ r.1, renum τ r.2)) <$> NTUCKER.core topSv X s := by
  have hA := hs.shapes
  have hl : s.A.length = X.order := hA.1
  have hne : s.A ≠ [] := by intro e; rw [e] at hl; simp at hl; omega
  have hXne : X.shape ≠ [] := by intro e; unfold order at h1; rw [e] at h1; simp at h1
  have hc : colDims s.A = ranks := hA.colDims hr
  unfold NTUCKER.core
  rw [show (colTState τ s).A = renumModes τ s.A from rfl, grams_ok hA.allMat, grams_ok (hA.modes τ).allMat, ok_bind, ok_bind,
    maxSv_modes ht (by rw [hs.factors.A]; exact colsOk_tucker hrp hτ hr),
    show (colTState τ s).gm = renum τ s.gm from rfl, ttm_gram_modes hτ h1 h13 hA hr hs.gm, ttm_modes hτ h1 h13 hA hr,
    show (colTState τ s).g = renum τ s.g from rfl]
  obtain ⟨B, hB, hBs, -⟩ := ttm_gram hne (by omega) (g := s.gm) (by rw [hc, hs.gm])
  obtain ⟨XA, -, hXA, -, hXAs, -⟩ := tucker_entries hXne h13 hA.allMat hA.rowDims
  rw [hc] at hXAs
  rw [hs.gm] at hBs
  rw [map_bind]; congr 1; funext l
  rw [hB, hXA, ok_bind]
  change (do let B ← (Except.ok (renum τ B) : Res (Tensor ℝ)); _) = _
  rw [ok_bind, assignCore_gen]
  unfold assignCore
  rw [if_pos (by rw [hBs, hs.g]), ok_bind]
  change (do let B ← (Except.ok (renum τ B) : Res (Tensor ℝ)); _) = _
  rw [ok_bind, ok_bind]
  change (do let B ← (Except.ok (renum τ XA) : Res (Tensor ℝ)); _) = _
  rw [ok_bind, ewise_renum (X := B) (hBs ▸ hτ) (hBs.trans hXAs.symm), ewise_same (A := B) (B := XA) _ (hBs.trans hXAs.symm),
    ok_bind]
  change (do let B ← (Except.ok (renum τ _) : Res (Tensor ℝ)); _) = _
  rw [ok_bind, if_pos (by rw [shape_renum, shape_renum, hs.g]; exact hBs), ok_bind, if_pos (by rw [hs.g]; exact hBs), ok_bind,
    proxStep_gen (s := ranks) (G := ofFn B.shape _) hs.gm hBs hτ]
  cases proxStep s.gm _ l with
  | error e => rfl
  | ok v =>
  rw [ok_bind]
  change (do let B ← (Except.ok (renum τ v) : Res (Tensor ℝ)); _) = _
  rw [ok_bind, shape_renum, shape_renum]
  split <;> rfl

theorem NTUCKER.op1_modes {shape ranks : List Nat} {τ : Nat → Nat → Nat} (hτ : Renumbering ranks τ)
    (hr : ranks.length = shape.length) (hrp : ∀ d ∈ ranks, 0 < d) {s : TState} (hs : TkOk shape ranks s) (N : Nat) :
    NTUCKER.op1 N (colTState τ s) = colTState τ <$> NTUCKER.op1 N s := by
  unfold NTUCKER.op1
  rw [show weight (colTState τ s).toState = weight s.toState from rfl]
  cases weight s.toState with
  | error e => rfl
  | ok w =>
  rw [ok_bind, ok_bind, show (colTState τ s).toState = colState τ s.toState from rfl,
    extrapolates_modes (colsOk_tucker hrp hτ hr) w _ hs.factors]
  cases (List.range N).foldlM (extrapolateMode w) s.toState with
  | error e => rfl
  | ok s' =>
  rw [ok_bind]
  change (do let r ← (Except.ok (colState τ s') : Res _); _) = _
  rw [ok_bind, show cappedWeight (colState τ s') w N = cappedWeight s' w N from rfl]
  rw [map_bind]; congr 1; funext wk
  rw [show extrapolate wk (colTState τ s).g (colTState τ s).g0 = renum τ <$> extrapolate wk s.g s.g0 from
    extrapolate_gen hs.g hs.g0 hτ wk]
  cases extrapolate wk s.g s.g0 with
  | error e => rfl
  | ok m =>
  rw [ok_bind]
  change (do let r ← (Except.ok (renum τ m) : Res _); _) = _
  rw [ok_bind, show (colTState τ s).gm = renum τ s.gm from rfl, assignCore_gen]
  cases assignCore s.gm m <;> rfl

theorem NTUCKER.init_modes {X gdraw : Tensor ℝ} {draws : List (Tensor ℝ)} {ranks : List Nat} {τ : Nat → Nat → Nat}
    (hτ : Renumbering ranks τ) (hr : ranks.length = X.shape.length) (hrp : ∀ d ∈ ranks, 0 < d)
    (hd : TuckerShapes X.shape ranks draws) (hg : gdraw.shape = ranks) :
    NTUCKER.init X (renumModes τ draws) (renum τ gdraw) = colTState τ <$> NTUCKER.init X draws gdraw := by
  unfold NTUCKER.init
  rw [bcu.init_modes _ (colsOk_tucker hrp hτ hr) (tuckerShapes_iff.2 hd), normInit_gen (by rw [hg]; exact hτ)]
  cases bcu.init X (X.order + 1) draws with
  | error e => rfl
  | ok s =>
  rw [ok_bind]
  change (do let r ← (Except.ok (colState τ s) : Res _); _) = _
  rw [ok_bind]
  cases normInit X (X.order + 1) (relu gdraw) <;> rfl

end bcu
end TD
