import Verif.Lemmas.RenumberBcu

/-! # Renumbering in `NTUCKER_BCU` -/
namespace TD
open Spec Tensor tf ops Matrix

theorem renum_id (X : Tensor ℝ) : renum (fun _ => id) X = X := by
  refine ext_at rfl fun i hi => ?_
  rw [at_renum _ (show InB X.shape i from hi)]
  congr 1
  refine List.ext_getElem (by simp) fun k _ _ => by simp

theorem colPerm_congr {s s' : List Nat} {n : Nat} {σ σ' : Nat → Nat → Nat} (hn : n < s.length) (hl : s.length = s'.length)
    (hs : ∀ m, m ≠ n → s.getD m 0 = s'.getD m 0) (hσ : ∀ k < s.length, k ≠ n → σ k = σ' k) (j : Nat) :
    colPerm s n σ j = colPerm s' n σ' j := by
  have he : s.eraseIdx n = s'.eraseIdx n := by
    refine List.ext_getElem (by rw [List.length_eraseIdx, List.length_eraseIdx, if_pos hn, if_pos (hl ▸ hn), hl]) fun k h1 h2 => ?_
    rw [List.length_eraseIdx, if_pos hn] at h1
    rw [List.getElem_eraseIdx, List.getElem_eraseIdx]
    split
    · have := hs k (by omega)
      rwa [List.getD_eq_getElem _ _ (by omega), List.getD_eq_getElem _ _ (by omega)] at this
    · have := hs (k + 1) (by omega)
      rwa [List.getD_eq_getElem _ _ (by omega), List.getD_eq_getElem _ _ (by omega)] at this
  have hu : unkolda s n 0 j = unkolda s' n 0 j := by unfold unkolda; rw [he]
  unfold colPerm koldaCol
  rw [← hu, ← hl]
  refine Finset.sum_congr rfl fun k hk => ?_
  rw [Finset.mem_erase, Finset.mem_range] at hk
  have l0 : k < (unkolda s n 0 j).length := by rw [(unkolda_facts hn 0 j).1]; exact hk.2
  rw [mapIdx_getD σ l0, mapIdx_getD σ' l0, hσ k hk.2 hk.1]
  congr 1
  refine Finset.prod_congr rfl fun m hm => ?_
  rw [Finset.mem_erase] at hm
  rw [hs m hm.1]

theorem modeProd_renum {X A : Tensor ℝ} {n m : Nat} {τ : Nat → Nat → Nat} {π : Nat → Nat} (hτ : Renumbering X.shape τ)
    (hid : τ n = id) (hA : A.shape = [m, X.shape.getD n 0]) (hn : n < X.shape.length)
    (hπ : Set.BijOn π (Set.Iio m) (Set.Iio m)) :
    modeProd (renum τ X) n (renumRows π A) = renum (Function.update τ n π) (modeProd X n A) ∧
      Renumbering (modeProd X n A).shape (Function.update τ n π) := by
  have hsh : (modeProd X n A).shape = X.shape.set n m := modeProd_shape hA
  have hren : Renumbering (X.shape.set n m) (Function.update τ n π) := by
    intro k hk
    rw [List.length_set] at hk
    by_cases e : k = n
    · subst e
      rw [Function.update_self, List.getD_eq_getElem _ _ (by simpa using hk), List.getElem_set_self]
      exact hπ
    · rw [Function.update_of_ne e, getD_set_ne (Ne.symm e)]
      exact hτ k hk
  refine ⟨?_, by rw [hsh]; exact hren⟩
  refine ext_at (by exact hsh.trans hsh.symm) fun i hi => ?_
  have hi' : InB (X.shape.set n m) i := by
    have e : (modeProd (renum τ X) n (renumRows π A)).shape = X.shape.set n m := hsh
    rwa [e] at hi
  have hlen : i.length = X.shape.length := by rw [hi'.length, List.length_set]
  have hnl : n < i.length := by rw [hlen]; exact hn
  have him : i.getD n 0 < m := by
    have := (InB_iff_getD.1 hi').2 n (by rw [List.length_set]; exact hn)
    have e : (X.shape.set n m).getD n 0 = m := by
      rw [List.getD_eq_getElem _ _ (by rw [List.length_set]; exact hn), List.getElem_set_self]
    rwa [e] at this
  rw [at_renum _ (by rw [hsh]; exact hi')]
  have h1 : (modeProd (renum τ X) n (renumRows π A)).at_ i = ∑ k ∈ Finset.range (X.shape.getD n 0),
      (renumRows π A).at_ [i.getD n 0, k] * (renum τ X).at_ (i.set n k) := at_ofFn _ hi
  have h2 : (modeProd X n A).at_ (i.mapIdx (Function.update τ n π)) = ∑ k ∈ Finset.range (X.shape.getD n 0),
      A.at_ [(i.mapIdx (Function.update τ n π)).getD n 0, k] * X.at_ ((i.mapIdx (Function.update τ n π)).set n k) :=
    at_ofFn _ (by
      have := hren.inB hi'
      rw [← hsh] at this
      exact this)
  rw [h1, h2]
  refine Finset.sum_congr rfl fun k hk => ?_
  rw [Finset.mem_range] at hk
  have hik : InB X.shape (i.set n k) := InB_set hi' hk
  rw [at_renumRows π hA him hk, at_renum τ hik, mapIdx_getD _ hnl, Function.update_self]
  congr 2
  refine List.ext_getElem (by simp) fun p h1 h2 => ?_
  rw [List.getElem_mapIdx, List.getElem_set, List.getElem_set]
  split
  · rename_i e; subst e; rw [hid]; rfl
  · rename_i e
    rw [List.getElem_mapIdx, Function.update_of_ne (Ne.symm e)]

theorem modeProds_renum {σ : Nat → Nat → Nat} : ∀ {ps : List (Nat × Tensor ℝ)} {X : Tensor ℝ} {τ : Nat → Nat → Nat},
    Renumbering X.shape τ → (ps.map Prod.fst).Nodup →
    (∀ p ∈ ps, p.1 < X.shape.length ∧ τ p.1 = id ∧ ∃ m, p.2.shape = [m, X.shape.getD p.1 0] ∧
      Set.BijOn (σ p.1) (Set.Iio m) (Set.Iio m)) →
    modeProds (renum τ X) (ps.map fun p => (p.1, renumRows (σ p.1) p.2)) =
        renum (fun k => if k ∈ ps.map Prod.fst then σ k else τ k) (modeProds X ps) ∧
      Renumbering (modeProds X ps).shape fun k => if k ∈ ps.map Prod.fst then σ k else τ k
  | [], X, τ, hτ, _, _ => by
      simp only [List.map_nil, List.not_mem_nil, if_false]
      exact ⟨rfl, hτ⟩
  | p :: ps, X, τ, hτ, hnd, h => by
      obtain ⟨p1, p2, m, p3, p4⟩ := h p (by simp)
      obtain ⟨e1, e2⟩ := modeProd_renum hτ p2 p3 p1 p4
      rw [List.map_cons, List.nodup_cons] at hnd
      obtain ⟨f1, f2⟩ := modeProds_renum (σ := σ) (ps := ps) (X := modeProd X p.1 p.2) e2 hnd.2 fun q hq => by
        obtain ⟨q1, q2, m', q3, q4⟩ := h q (by simp [hq])
        have hne : q.1 ≠ p.1 := fun e => hnd.1 (by rw [← e]; exact List.mem_map.2 ⟨q, hq, rfl⟩)
        rw [modeProd_shape p3, List.length_set, getD_set_ne (Ne.symm hne), Function.update_of_ne hne]
        exact ⟨q1, q2, m', q3, q4⟩
      have hfun : (fun k => if k ∈ ps.map Prod.fst then σ k else Function.update τ p.1 (σ p.1) k) =
          fun k => if k ∈ (p :: ps).map Prod.fst then σ k else τ k := by
        funext k
        simp only [List.map_cons, List.mem_cons]
        by_cases e : k = p.1
        · subst e; simp
        · rw [Function.update_of_ne e]
          simp only [e, false_or]
      rw [hfun] at f1 f2
      refine ⟨?_, f2⟩
      rw [← show modeProds (modeProd X p.1 p.2) ps = modeProds X (p :: ps) from rfl, ← f1, ← e1]
      rfl

theorem zip_renumFactors (σ : Nat → Nat → Nat) (N : Nat) (A : List (Tensor ℝ)) :
    (List.range N).zip (renumFactors σ A) = ((List.range N).zip A).map fun p => (p.1, renumRows (σ p.1) p.2) := by
  refine List.ext_getElem (by simp [length_renumFactors]) fun k h1 h2 => ?_
  simp [renumFactors]

theorem Spec.TuckerShapes.renum {shape ranks : List Nat} {A : List (Tensor ℝ)} (h : TuckerShapes shape ranks A)
    (σ : Nat → Nat → Nat) : TuckerShapes shape ranks (renumFactors σ A) := by
  rw [← tuckerShapes_iff, map_shape_renumFactors]
  exact tuckerShapes_iff.2 h

/-- The unfolding of the core times the renumbered factors of the other modes has renumbered columns. -/
theorem tk_unfold_renum {shape ranks : List Nat} {g : Tensor ℝ} {A : List (Tensor ℝ)} {σ : Nat → Nat → Nat}
    (hσ : Renumbering shape σ) (h2 : 2 ≤ shape.length) (h13 : shape.length ≤ 13) (hA : TuckerShapes shape ranks A)
    (hr : ranks.length = shape.length) (hg : g.shape = ranks) {n : Nat} (hn : n < shape.length) (hrp : 0 < ranks.getD n 0) :
    ∃ Y Y' B B', ttm g A none false (.int n) = .ok Y ∧ ttm g (renumFactors σ A) none false (.int n) = .ok Y' ∧
      unfold Y n = .ok B ∧ unfold Y' n = .ok B' ∧ B.shape = [ranks.getD n 0, otherSize shape n] ∧
      B'.shape = [ranks.getD n 0, otherSize shape n] ∧
      ∀ r < ranks.getD n 0, ∀ j < otherSize shape n, B'.at_ [r, j] = B.at_ [r, colPerm shape n σ j] := by
  have hl : A.length = shape.length := hA.1
  have hfst : (((List.range shape.length).zip A).eraseIdx n).map Prod.fst = (List.range shape.length).eraseIdx n := by
    rw [← zip_eraseIdx _ _ _ (by simp [hl]), List.map_fst_zip]
    rw [List.length_eraseIdx, List.length_eraseIdx]; simp [hl]
  have hnd : ((List.range shape.length).eraseIdx n).Nodup := List.nodup_range.eraseIdx n
  have hmem : ∀ k, k ∈ (List.range shape.length).eraseIdx n ↔ k < shape.length ∧ k ≠ n := fun k => by
    rw [List.mem_eraseIdx_iff_getElem]
    constructor
    · rintro ⟨i, hi, hne, rfl⟩
      simp at hi ⊢
      omega
    · rintro ⟨h1, h2⟩
      exact ⟨k, by simpa using h1, h2, by simp⟩
  obtain ⟨e1, e2⟩ := modeProds_renum (σ := σ) (ps := ((List.range shape.length).zip A).eraseIdx n) (X := g)
    (τ := fun _ => id) (fun k _ => Set.bijOn_id _) (by rw [hfst]; exact hnd) fun p hp => by
      have hp1 : p.1 ∈ (List.range shape.length).eraseIdx n := by rw [← hfst]; exact List.mem_map.2 ⟨p, hp, rfl⟩
      obtain ⟨h1, -⟩ := (hmem p.1).1 hp1
      have hp2 := List.mem_of_mem_eraseIdx hp
      obtain ⟨k, hk, hk'⟩ := List.mem_iff_getElem.1 hp2
      simp only [List.getElem_zip, List.getElem_range] at hk'
      have hkA : k < A.length := by simp at hk; omega
      subst hk'
      refine ⟨by rw [hg, hr]; exact h1, rfl, shape.getD k 0, ?_, hσ k h1⟩
      rw [hg]
      exact hA.2 k _ (List.getElem?_eq_getElem hkA)
  rw [renum_id, hfst] at e1
  rw [hfst] at e2
  have hY := tk_Y h2 h13 hA hr hg hn
  have hY' := tk_Y h2 h13 (hA.renum σ) hr hg hn
  rw [zip_renumFactors, List.eraseIdx_map, e1] at hY'
  obtain ⟨y1, y2, y3⟩ := tk_Y_shape hA hr hg (n := n)
  have hout : ∀ m, m ≠ n → (modeProds g (((List.range shape.length).zip A).eraseIdx n)).shape.getD m 0 = shape.getD m 0 := by
    intro m hm
    by_cases hms : m < shape.length
    · have hmi : (m, A[m]'(by omega)) ∈ ((List.range shape.length).zip A).eraseIdx n := by
        rw [List.mem_eraseIdx_iff_getElem]
        exact ⟨m, by simp [hl, hms], hm, by simp⟩
      have := modeProds_shape_in g (by rw [hfst]; exact hnd) hmi (by rw [hg, hr]; exact hms)
      rw [this]
      simp only
      rw [hA.2 m _ (List.getElem?_eq_getElem (by omega))]
      rfl
    · rw [List.getD_eq_default _ _ (by rw [modeProds_shape_length, hg, hr]; omega), List.getD_eq_default _ _ (by omega)]
  set Y := modeProds g (((List.range shape.length).zip A).eraseIdx n) with hYd
  have hnY : n < Y.order := by rw [y1]; exact hn
  obtain ⟨B, B', hB, hB', hBs, hBs', eB⟩ := unfold_renum e2 hnY (by rw [y2]; exact hrp)
  rw [y2, y3] at hBs hBs' eB
  refine ⟨_, _, B, B', hY, hY', hB, hB', hBs, hBs', fun r hr' j hj => ?_⟩
  rw [eB r hr' j hj, if_neg (by rw [hmem]; simp), colPerm_congr hnY y1 hout fun k hks hk => ?_]
  · rfl
  · rw [if_pos ((hmem k).2 ⟨by rw [← y1]; exact hks, hk⟩)]

namespace bcu
open fact

theorem rowsOk_tucker (shape ranks : List Nat) : RowsOk shape (tuckerShapes shape ranks) := by
  intro k s h
  unfold tuckerShapes at h
  rw [List.getElem?_map, Option.map_eq_some_iff] at h
  obtain ⟨d, h1, rfl⟩ := h
  obtain ⟨hk, rfl⟩ := List.getElem?_eq_some_iff.1 h1
  rw [List.getElem_range]
  exact ⟨by simpa using hk, _, rfl⟩

/-- The variables with renumbered factors; the core as it is. -/
noncomputable def renTState (σ : Nat → Nat → Nat) (s : TState) : TState := { s with toState := renState σ s.toState }

theorem NTUCKER.modeUpdate_renum {topSv : Tensor ℝ → Res ℝ} {X g : Tensor ℝ} {ranks : List Nat} {σ : Nat → Nat → Nat}
    (hσ : Renumbering X.shape σ) {n : Nat} {s : State} (hs : FactorsOk (tuckerShapes X.shape ranks) s)
    (hr : ranks.length = X.shape.length) (hg : g.shape = ranks) (h2 : 2 ≤ X.order) (h13 : X.order ≤ 13) (hn : n < X.order)
    (hpos : 0 < X.shape.getD n 0) (hrp : 0 < ranks.getD n 0) :
    NTUCKER.modeUpdate topSv (renum σ X) g (renState σ s) n = renState σ <$> NTUCKER.modeUpdate topSv X g s n := by
  have hA := tuckerShapes_iff.1 hs.A
  have hπ := hσ n hn
  obtain ⟨M, M', hM, hM', hMs, hMs', eM⟩ := unfold_renum hσ hn hpos
  obtain ⟨Y, Y', B, B', hY, hY', hB, hB', hBs, hBs', eB⟩ := tk_unfold_renum hσ h2 h13 hA hr hg hn hrp
  have hbij := colPerm_bij hσ hn hpos
  have hXB := matmul_nt_cancel hMs hBs hMs' hBs' hπ hbij eM eB
  have hV := matmul_nt_cancel hBs hBs hBs' hBs' (Set.bijOn_id _) hbij eB eB
  obtain ⟨XB, hXB0⟩ : ∃ XB, matmul M B false true = .ok XB := ⟨_, matmul_nt hMs hBs⟩
  obtain ⟨hXBs, -⟩ := toMat_matmul_nt hMs hBs hXB0
  obtain ⟨V, hV0⟩ : ∃ V, matmul B B false true = .ok V := ⟨_, matmul_nt hBs hBs⟩
  obtain ⟨hVs, -⟩ := toMat_matmul_nt hBs hBs hV0
  have hV1 : matmul B' B' false true = .ok V := by
    rw [hV, hV0]
    exact congrArg Except.ok (renumRows_id hVs)
  unfold NTUCKER.modeUpdate
  rw [show (renState σ s).A = renumFactors σ s.A from rfl, hM', hM, ok_bind, ok_bind, hY', hY, ok_bind, ok_bind, hB', hB,
    ok_bind, ok_bind, hXB, hXB0, ok_bind]
  change (do let XA ← (Except.ok (renumRows (σ n) XB) : Res (Tensor ℝ)); _) = _
  rw [ok_bind, hV0, hV1, ok_bind, ok_bind, factorStep_renum hπ (fun m hm => ?_) hVs hXBs]
  exact (tuckerShapes_iff.1 hs.Am).2 n m hm

theorem NTUCKER.sweep_renum {topSv : Tensor ℝ → Res ℝ} {X g : Tensor ℝ} {ranks : List Nat} {σ : Nat → Nat → Nat}
    (hσ : Renumbering X.shape σ) (hr : ranks.length = X.shape.length) (hg : g.shape = ranks) (h2 : 2 ≤ X.order)
    (h13 : X.order ≤ 13) (hpos : ∀ d ∈ X.shape, 0 < d) (hrp : ∀ d ∈ ranks, 0 < d) :
    ∀ (l : List Nat) {s : State}, (∀ n ∈ l, n < X.order) → FactorsOk (tuckerShapes X.shape ranks) s →
    l.foldlM (NTUCKER.modeUpdate topSv (renum σ X) g) (renState σ s) =
      renState σ <$> l.foldlM (NTUCKER.modeUpdate topSv X g) s
  | [], _, _, _ => rfl
  | n :: l, s, hl, hs => by
      have hn := hl n (by simp)
      have hpn : 0 < X.shape.getD n 0 := by
        rw [List.getD_eq_getElem _ _ hn]; exact hpos _ (List.getElem_mem hn)
      have hn' : n < ranks.length := by rw [hr]; exact hn
      have hrn : 0 < ranks.getD n 0 := by
        rw [List.getD_eq_getElem _ _ hn']; exact hrp _ (List.getElem_mem hn')
      rw [List.foldlM_cons, List.foldlM_cons, NTUCKER.modeUpdate_renum hσ hs hr hg h2 h13 hn hpn hrn]
      cases he : NTUCKER.modeUpdate topSv X g s n with
      | error e => rfl
      | ok s' =>
          obtain ⟨V, XA, hf⟩ := NTUCKER.modeUpdate_inv he
          exact NTUCKER.sweep_renum hσ hr hg h2 h13 hpos hrp l (fun m hm => hl m (by simp [hm])) (hs.factorStep hf)

theorem NTUCKER.fullOf_renum {shape ranks : List Nat} {g : Tensor ℝ} {A : List (Tensor ℝ)} {σ : Nat → Nat → Nat}
    (hσ : Renumbering shape σ) (h1 : 1 ≤ shape.length) (h13 : shape.length ≤ 13) (hA : TuckerShapes shape ranks A)
    (hr : ranks.length = shape.length) (hg : g.shape = ranks) :
    NTUCKER.fullOf g (renumFactors σ A) = renum σ <$> NTUCKER.fullOf g A := by
  obtain ⟨a1, a2, a3⟩ := tk_full h1 h13 hA hr hg
  obtain ⟨b1, b2, b3⟩ := tk_full h1 h13 (hA.renum σ) hr hg
  rw [a1, b1]
  show Except.ok _ = Except.ok _
  congr 1
  refine ext_at (b2.trans a2.symm) fun i hi => ?_
  rw [b2] at hi
  rw [b3 i hi, at_renum σ (by rw [a2]; exact hi), a3 _ (hσ.inB hi)]
  refine boxSum_congr fun j hj => ?_
  rw [kronEntry_renum hA.allMat (by rw [hA.rowDims]; exact hi) (by rw [hA.colDims hr, ← hg]; exact hj)]

theorem NTUCKER.main_renum {topSv : Tensor ℝ → Res ℝ} {X : Tensor ℝ} {ranks : List Nat} {σ : Nat → Nat → Nat}
    (hσ : Renumbering X.shape σ) (hr : ranks.length = X.shape.length) (h2 : 2 ≤ X.order)
    (h13 : X.order ≤ 13) (hpos : ∀ d ∈ X.shape, 0 < d) (hrp : ∀ d ∈ ranks, 0 < d) {s : TState}
    (hs : TkOk X.shape ranks s) :
    NTUCKER.main topSv (renum σ X) (renTState σ s) =
      (fun r => (renTState σ r.1, r.2.mapOut (renumFactors σ) (renum σ))) <$> NTUCKER.main topSv X s := by
  unfold NTUCKER.main
  rw [show (renum σ X).order = X.order from rfl, show (renTState σ s).toState = renState σ s.toState from rfl,
    show (renTState σ s).g = s.g from rfl,
    NTUCKER.sweep_renum hσ hr hs.g h2 h13 hpos hrp _ (fun n hn => by simpa using hn) hs.factors]
  cases he : (List.range X.order).foldlM (NTUCKER.modeUpdate topSv X s.g) s.toState with
  | error e => rfl
  | ok s' =>
  obtain ⟨f1, -⟩ := NTUCKER.sweep_inv hs.factors he
  have hA := tuckerShapes_iff.1 f1.A
  have h1 : 1 ≤ X.shape.length := by unfold order at h2; omega
  rw [ok_bind]
  change (do let st ← (Except.ok (renState σ s') : Res _); _) = _
  rw [ok_bind]
  rw [show (renState σ s').A = renumFactors σ s'.A from rfl, NTUCKER.fullOf_renum hσ h1 h13 hA hr hs.g]
  obtain ⟨y1, y2, -⟩ := tk_full h1 h13 hA hr hs.g
  rw [y1, ok_bind]
  change (do let r ← (Except.ok (renum σ _) : Res _); _) = _
  rw [ok_bind, scalars_renum hσ y2]
  cases cp.scalars X _ <;> rfl

theorem grams_renum_rows {shape : List Nat} {sh : List (List Nat)} (hsh : RowsOk shape sh) {σ : Nat → Nat → Nat}
    (hσ : Renumbering shape σ) {U : List (Tensor ℝ)} (hU : U.map Tensor.shape = sh) :
    ((renumFactors σ U).mapM fun a => tf.matmul a a true false) =
      (U.mapM fun a => tf.matmul a a true false : Res (List (Tensor ℝ))) := by
  have key : ∀ (k : Nat) (l : List (Tensor ℝ)), (∀ j m, l[j]? = some m → k + j < shape.length ∧ ∃ c, m.shape = [shape.getD (k + j) 0, c]) →
      ((renumFactors (fun j => σ (k + j)) l).mapM fun a => tf.matmul a a true false) =
        (l.mapM fun a => tf.matmul a a true false : Res (List (Tensor ℝ))) := by
    intro k l
    induction l generalizing k with
    | nil => intro _; rfl
    | cons d l ih =>
        intro h
        obtain ⟨h1, c, h2⟩ := h 0 d rfl
        rw [renumFactors_cons, List.mapM_cons, List.mapM_cons]
        simp only [Nat.add_zero] at h1 h2 ⊢
        rw [matmul_tn_renum h2 h2 (hσ k h1)]
        have := ih (k + 1) fun j m hm => by
          have := h (j + 1) m (by simpa using hm)
          rwa [show k + (j + 1) = k + 1 + j by omega] at this
        simp only [show ∀ j, k + 1 + j = k + (j + 1) from fun j => by omega] at this
        rw [this]
  have := key 0 U fun j m hm => by
    have hj : j < U.length := (List.getElem?_eq_some_iff.1 hm).1
    obtain ⟨a, c, -, b⟩ := hsh.get hU hj
    rw [Nat.zero_add]
    exact ⟨a, c, b m hm⟩
  simp only [Nat.zero_add] at this
  exact this

theorem ttm_renum {X : Tensor ℝ} {A : List (Tensor ℝ)} {ranks : List Nat} {σ : Nat → Nat → Nat}
    (hσ : Renumbering X.shape σ) (h1 : 1 ≤ X.order) (h13 : X.order ≤ 13) (hA : TuckerShapes X.shape ranks A) :
    ttm (renum σ X) (renumFactors σ A) none true = ttm X A none true := by
  have hXne : X.shape ≠ [] := by intro e; unfold order at h1; rw [e] at h1; simp at h1
  obtain ⟨g, -, a1, -, a2, -, a3, -⟩ := tucker_entries hXne h13 hA.allMat hA.rowDims
  obtain ⟨g', -, b1, -, b2, -, b3, -⟩ := tucker_entries (X := renum σ X) hXne h13 (hA.renum σ).allMat (hA.renum σ).rowDims
  have hc : colDims (renumFactors σ A) = colDims A := by
    have := congrArg (List.map fun s : List Nat => s.getD 1 0) (map_shape_renumFactors σ A)
    rw [List.map_map, List.map_map] at this
    exact this
  rw [a1, b1]
  congr 1
  refine ext_at (by rw [a2, b2, hc]) fun j hj => ?_
  have hj' : InB g.shape j := by rw [a2, ← hc, ← b2]; exact hj
  rw [b3 j hj, a3 j hj', shape_renum, ← boxSum_renum hσ fun i => kronEntry A i j * X.at_ i]
  refine boxSum_congr fun i hi => ?_
  rw [at_renum σ hi, kronEntry_renum hA.allMat (by rw [hA.rowDims]; exact hi) (by rw [← a2]; exact hj')]

theorem NTUCKER.core_renum {topSv : Tensor ℝ → Res ℝ} {X : Tensor ℝ} {ranks : List Nat} {σ : Nat → Nat → Nat}
    (hσ : Renumbering X.shape σ) (h1 : 1 ≤ X.order) (h13 : X.order ≤ 13) {s : TState} (hs : TkOk X.shape ranks s) :
    NTUCKER.core topSv (renum σ X) (renTState σ s) = (fun r => (renTState σ r.1, r.2)) <$> NTUCKER.core topSv X s := by
  unfold NTUCKER.core
  rw [show (renTState σ s).A = renumFactors σ s.A from rfl,
    grams_renum_rows (rowsOk_tucker X.shape ranks) hσ hs.factors.A, ttm_renum hσ h1 h13 hs.shapes]
  rw [map_bind]; congr 1; funext AtA
  rw [map_bind]; congr 1; funext l
  rw [map_bind]; congr 1; funext B
  rw [map_bind]; congr 1; funext B'
  rw [map_bind]; congr 1; funext XA
  rw [map_bind]; congr 1; funext G
  rw [map_bind]; congr 1; funext G'
  rw [map_bind]; congr 1; funext v
  rw [map_bind]; congr 1

theorem NTUCKER.op1_renum {shape ranks : List Nat} {σ : Nat → Nat → Nat}
    (hσ : Renumbering shape σ) {s : TState} (hs : TkOk shape ranks s) (N : Nat) :
    NTUCKER.op1 N (renTState σ s) = renTState σ <$> NTUCKER.op1 N s := by
  unfold NTUCKER.op1
  rw [show weight (renTState σ s).toState = weight s.toState from rfl]
  cases weight s.toState with
  | error e => rfl
  | ok w =>
  rw [ok_bind, ok_bind, show (renTState σ s).toState = renState σ s.toState from rfl,
    extrapolates_renum (rowsOk_tucker shape ranks) hσ w _ (fun _ _ => Nat.zero_le _) hs.factors]
  cases (List.range N).foldlM (extrapolateMode w) s.toState with
  | error e => rfl
  | ok s' =>
  rw [ok_bind]
  change (do let r ← (Except.ok (renState σ s') : Res _); _) = _
  rw [ok_bind, show cappedWeight (renState σ s') w N = cappedWeight s' w N from rfl]
  rw [map_bind]; congr 1; funext wk
  rw [map_bind]; congr 1; funext m
  rw [map_bind]; congr 1

theorem NTUCKER.init_renum {X gdraw : Tensor ℝ} {draws : List (Tensor ℝ)} {ranks : List Nat} {σ : Nat → Nat → Nat}
    (hσ : Renumbering X.shape σ) (hd : TuckerShapes X.shape ranks draws) :
    NTUCKER.init (renum σ X) (renumFactors σ draws) gdraw = renTState σ <$> NTUCKER.init X draws gdraw := by
  unfold NTUCKER.init
  rw [show (renum σ X).order = X.order from rfl, bcu.init_renum hσ _ (rowsOk_tucker X.shape ranks) (tuckerShapes_iff.2 hd)]
  have e : normInit (renum σ X) (X.order + 1) (relu gdraw) = normInit X (X.order + 1) (relu gdraw) := by
    unfold normInit
    rw [norm_renum hσ]
  rw [e]
  cases bcu.init X (X.order + 1) draws with
  | error e => rfl
  | ok s =>
  rw [ok_bind]
  change (do let r ← (Except.ok (renState σ s) : Res _); _) = _
  rw [ok_bind, map_bind]
  congr 1

end bcu
end TD
