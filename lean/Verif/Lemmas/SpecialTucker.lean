import Verif.Spec.SpecialTucker
import Verif.Lemmas.SpecialBcu
import Verif.Lemmas.Hooi
import Verif.Lemmas.TrainErr

/-! # Lemmas for C139 -/
namespace TD.sp
open TD Spec Tensor ops
variable {F : Fmt}

theorem leading_cases {svd : Svd F} (hs : SvdSize svd) {X : Tensor (Num F)} {ranks : List Nat} {n : Nat} (hn : n < X.order)
    (hpos : 0 < X.shape.getD n 0) (hr : n < ranks.length) :
    (∃ M e, svd M = .error e ∧ tucker.leading svd X ranks n = .error e) ∨
    ∃ v, tucker.leading svd X ranks n = .ok v ∧
      v.shape = [X.shape.getD n 0, min (ranks.getD n 0) (min (X.shape.getD n 0) (otherSize X.shape n))] := by
  have hu := unfold_closed X hn hpos
  generalize hM : (mat (X.shape.getD n 0) (otherSize X.shape n) fun i j => X.at_ (unkolda X.shape n i j)) = M at hu
  have hMs : M.shape = [X.shape.getD n 0, otherSize X.shape n] := by rw [← hM]; rfl
  have hrn : ranks[n]? = some (ranks.getD n 0) := by
    rw [List.getD_eq_getElem _ _ hr]; exact List.getElem?_eq_getElem _
  unfold tucker.leading
  rw [hu, ok_bind]
  cases h : svd M with
  | error e => exact Or.inl ⟨M, e, h, rfl⟩
  | ok q =>
      obtain ⟨s, U, V⟩ := q
      right
      have hU := hs M s U V _ _ hMs h
      simp only [ok_bind, tucker.rankAt, hrn, tucker.firstCols, hU]
      exact ⟨_, rfl, rfl⟩

/-- The rank of mode `n` fits. -/
def Fits (shape ranks : List Nat) (n : Nat) : Prop :=
  ranks.getD n 0 ≤ shape.getD n 0 ∧ ranks.getD n 0 ≤ ∏ m ∈ (Finset.range shape.length).erase n, ranks.getD m 0

/-- Where the exceptions of HOOI come from. -/
def HErr (svd : Svd F) (shape ranks : List Nat) (e : PyErr) : Prop :=
  (∃ M, svd M = .error e) ∨ (e = .invalidArgument ∧ ¬ Admissible shape ranks)

theorem HOOI.modeUpdate_cases {svd : Svd F} (hs : SvdSize svd) {X : Tensor (Num F)} {ranks : List Nat}
    (hr : ranks.length = X.shape.length) (h2 : 2 ≤ X.order) (h13 : X.order ≤ 13) (hpos : ∀ d ∈ X.shape, 0 < d)
    {A : List (Tensor (Num F))} (hA : A.map shape = tuckerShapes X.shape ranks) {n : Nat} (hn : n < X.order) :
    (∃ e, HOOI.modeUpdate svd X ranks A n = .error e ∧ HErr svd X.shape ranks e) ∨
    ∃ B, HOOI.modeUpdate svd X ranks A n = .ok B ∧ B.map shape = tuckerShapes X.shape ranks ∧ Fits X.shape ranks n := by
  have hA' := tuckerShapes_iff.1 ((shadow_shapes A).trans hA)
  obtain ⟨Y0, hY0, eY0⟩ := hooi_Y (X := shadow X) h2 h13 hA' hn
  obtain ⟨Y, hY, hYs, -⟩ := ttm_ok (kept_true (F := F)) (allQ_true X) (fun M _ => allQ_true M) hY0
  obtain ⟨y1, y2, y3⟩ := hooi_Y_shape (X := shadow X) hA' (n := n)
  rw [← eY0] at y1 y2 y3
  have hn' : n < X.shape.length := hn
  have y1' : Y.order = X.order := by unfold order; rw [hYs]; exact y1
  have y2' : Y.shape.getD n 0 = X.shape.getD n 0 := by rw [hYs]; exact y2
  have y3' : otherSize Y.shape n = ∏ m ∈ (Finset.range X.shape.length).erase n, ranks.getD m 0 := by rw [hYs]; exact y3
  unfold HOOI.modeUpdate
  rw [hY, ok_bind]
  rcases leading_cases hs (X := Y) (ranks := ranks) (n := n) (by omega) (by rw [y2']; exact getD_pos_of hpos hn) (by omega) with
    ⟨M, e, h1, h2⟩ | ⟨v, h1, hv⟩
  · left
    rw [h2]
    exact ⟨e, rfl, Or.inl ⟨M, h1⟩⟩
  · rw [h1, ok_bind]
    rw [y2', y3'] at hv
    have hk : n < (tuckerShapes X.shape ranks).length := by unfold tuckerShapes; simpa using hn'
    have hg : (tuckerShapes X.shape ranks).getD n [] = [X.shape.getD n 0, ranks.getD n 0] := by
      rw [List.getD_eq_getElem _ _ hk]; simp [tuckerShapes]
    by_cases hf : Fits X.shape ranks n
    · right
      have hv' : v.shape = (tuckerShapes X.shape ranks).getD n [] := by
        rw [hv, hg, Nat.min_eq_left (Nat.le_min.2 hf)]
      refine ⟨A.set n v, assign_ok hA hk hv', map_shape_set hA hv', hf⟩
    · left
      refine ⟨.invalidArgument, ?_, Or.inr ⟨rfl, fun h => hf (h n hn')⟩⟩
      obtain ⟨a, e, ha⟩ := get_shape hA hk
      unfold tf.assign
      simp only [e]
      rw [if_neg]
      intro h
      rw [ha, hv, hg] at h
      have h : min (ranks.getD n 0) (min (X.shape.getD n 0) (∏ m ∈ (Finset.range X.shape.length).erase n, ranks.getD m 0)) = ranks.getD n 0 := by
        injection h with _ h; injection h
      exact hf (Nat.le_min.1 (min_eq_left_iff.1 h))

theorem HOOI.sweep_cases {svd : Svd F} (hs : SvdSize svd) {X : Tensor (Num F)} {ranks : List Nat}
    (hr : ranks.length = X.shape.length) (h2 : 2 ≤ X.order) (h13 : X.order ≤ 13) (hpos : ∀ d ∈ X.shape, 0 < d) :
    ∀ (l : List Nat), (∀ n ∈ l, n < X.order) → ∀ {A : List (Tensor (Num F))}, A.map shape = tuckerShapes X.shape ranks →
    (∃ e, l.foldlM (HOOI.modeUpdate svd X ranks) A = .error e ∧ HErr svd X.shape ranks e) ∨
    ∃ B, l.foldlM (HOOI.modeUpdate svd X ranks) A = .ok B ∧ B.map shape = tuckerShapes X.shape ranks ∧ ∀ n ∈ l, Fits X.shape ranks n
  | [], _, A, hA => Or.inr ⟨A, rfl, hA, by simp⟩
  | n :: l, hl, A, hA => by
      rw [List.foldlM_cons]
      rcases HOOI.modeUpdate_cases hs hr h2 h13 hpos hA (hl n (by simp)) with ⟨e, h, he⟩ | ⟨B, h, hB, hf⟩
      · left; rw [h]; exact ⟨e, rfl, he⟩
      · rw [h, ok_bind]
        rcases HOOI.sweep_cases hs hr h2 h13 hpos l (fun m hm => hl m (by simp [hm])) hB with ⟨e, h, he⟩ | ⟨C, h, hC, hf'⟩
        · exact Or.inl ⟨e, h, he⟩
        · exact Or.inr ⟨C, h, hC, fun m hm => by
            rcases List.mem_cons.1 hm with rfl | hm
            · exact hf
            · exact hf' m hm⟩

/-- One run of the fetch list: an exception, or values of the expected shapes that belong together. -/
theorem HOOI.main_cases {svd : Svd F} (hs : SvdSize svd) {X : Tensor (Num F)} {ranks : List Nat}
    (hr : ranks.length = X.shape.length) (h2 : 2 ≤ X.order) (h13 : X.order ≤ 13) (hpos : ∀ d ∈ X.shape, 0 < d)
    {A : List (Tensor (Num F))} (hA : A.map shape = tuckerShapes X.shape ranks) :
    (∃ e, HOOI.main svd X ranks A = .error e ∧ HErr svd X.shape ranks e) ∨
    ∃ B g o, HOOI.main svd X ranks A = .ok (B, o) ∧ B.map shape = tuckerShapes X.shape ranks ∧ Admissible X.shape ranks ∧
      o.factors = B ∧ o.aux = some g ∧ g.shape = ranks ∧ ttm X B none true = .ok g ∧
      TTensor.extract ⟨g, .float32, B, .float32⟩ = .ok o.full ∧ o.full.shape = X.shape := by
  have hXne : X.shape ≠ [] := by intro e; unfold order at h2; rw [e] at h2; simp at h2
  unfold HOOI.main
  rcases HOOI.sweep_cases hs hr h2 h13 hpos (List.range X.order) (fun n hn => List.mem_range.1 hn) hA with ⟨e, h, he⟩ | ⟨B, h, hB, hf⟩
  · left; rw [h]; exact ⟨e, rfl, he⟩
  · right
    have hA' := tuckerShapes_iff.1 ((shadow_shapes B).trans hB)
    obtain ⟨g0, -, hg0, -, hgs0, -⟩ := tucker_entries (X := shadow X) hXne h13 hA'.allMat hA'.rowDims
    obtain ⟨g, hg, hgs, -⟩ := ttm_ok (kept_true (F := F)) (allQ_true X) (fun M _ => allQ_true M) hg0
    have hgr : g.shape = ranks := by rw [hgs, hgs0, hA'.colDims hr]
    obtain ⟨Y, eY, hY, -⟩ := NTUCKER.full_ok (kept_true (F := F)) (allQ_true g) (fun M _ => allQ_true M) (shape := X.shape)
      (ranks := ranks) hB hr hgr (by unfold order at h2; omega) h13
    obtain ⟨⟨l, obj, rel⟩, er⟩ := scalars_ok hY
    refine ⟨B, g, ⟨B, some g, Y, l, obj, rel⟩, ?_, hB, fun n hn => hf n (List.mem_range.2 hn), rfl, rfl, hgr, hg, ?_, hY⟩
    · rw [h, ok_bind, hg, ok_bind, eY, ok_bind, er, ok_bind]
      rfl
    · unfold NTUCKER.fullOf at eY
      obtain ⟨t, ht, eY⟩ := bind_ok_of eY
      unfold TTensor.init at ht
      cases B with
      | nil => cases ht
      | cons b bs => cases ht; exact eY

/-- The variables after `init_op`: an exception, or matrices of the declared shapes. -/
theorem HOOI.init_cases {svd : Svd F} (hs : SvdSize svd) {X : Tensor (Num F)} {ranks : List Nat}
    (hr : ranks.length = X.shape.length) (hpos : ∀ d ∈ X.shape, 0 < d) :
    (∃ e, tucker.HOOI.init svd X ranks = .error e ∧ HErr svd X.shape ranks e) ∨
    ∃ A, tucker.HOOI.init svd X ranks = .ok A ∧ A.map shape = tuckerShapes X.shape ranks := by
  unfold tucker.HOOI.init tuckerShapes
  suffices h : ∀ l : List Nat, (∀ n ∈ l, n < X.shape.length) →
      (∃ e, l.mapM (fun mode => (do
        let v ← tucker.leading svd X ranks mode
        let r ← tucker.rankAt ranks mode
        if v.shape = [X.shape.getD mode 0, r] then .ok v else .error .invalidArgument : Res (Tensor (Num F)))) = .error e ∧
          HErr svd X.shape ranks e) ∨
      ∃ A, l.mapM (fun mode => (do
        let v ← tucker.leading svd X ranks mode
        let r ← tucker.rankAt ranks mode
        if v.shape = [X.shape.getD mode 0, r] then .ok v else .error .invalidArgument : Res (Tensor (Num F)))) = .ok A ∧
          A.map shape = l.map fun k => [X.shape.getD k 0, ranks.getD k 0] from
    h (List.range X.shape.length) fun n hn => List.mem_range.1 hn
  intro l
  induction l with
  | nil => exact fun _ => Or.inr ⟨[], rfl, rfl⟩
  | cons n l ih =>
      intro hl
      have hn := hl n (by simp)
      have hrn : ranks[n]? = some (ranks.getD n 0) := by
        rw [List.getD_eq_getElem _ _ (by omega)]; exact List.getElem?_eq_getElem _
      rw [List.mapM_cons]
      rcases leading_cases hs (X := X) (ranks := ranks) (n := n) hn (getD_pos_of hpos hn) (by omega) with ⟨M, e, h1, h2⟩ | ⟨v, h1, hv⟩
      · left; rw [h2]; exact ⟨e, rfl, Or.inl ⟨M, h1⟩⟩
      · rw [h1, ok_bind, tucker.rankAt, hrn, ok_bind]
        by_cases hf : v.shape = [X.shape.getD n 0, ranks.getD n 0]
        · rw [if_pos hf, ok_bind]
          rcases ih fun m hm => hl m (by simp [hm]) with ⟨e, h, he⟩ | ⟨A, h, hA⟩
          · left; rw [h]; exact ⟨e, rfl, he⟩
          · right; rw [h]; exact ⟨v :: A, rfl, by rw [List.map_cons, hf, hA]; rfl⟩
        · left
          rw [if_neg hf]
          refine ⟨_, rfl, Or.inr ⟨rfl, fun hadm => hf ?_⟩⟩
          rw [hv, Nat.min_eq_left]
          exact Nat.le_min.2 ⟨(hadm n hn).1, le_trans (hadm n hn).2 (prod_le_otherSize (fun m hm => (hadm m hm).1) n)⟩

end TD.sp
