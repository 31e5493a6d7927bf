import Verif.Lemmas.SpecialTucker
import Verif.Lemmas.SpecialStop

/-!
# C139: `HOSVD` and `HOOI` in rounded arithmetic, and C138 for `HOOI`
-/
namespace TD.Props
open TD Spec Tensor fact sp Num
variable {F : Fmt}

theorem hooi_reach_fl {svd : Svd F} (hs : SvdSize svd) {X : Tensor (Num F)} {ranks : List Nat}
    (hr : ranks.length = X.shape.length) (h2 : 2 ≤ X.order) (h13 : X.order ≤ 13) (hpos : ∀ d ∈ X.shape, 0 < d)
    {A : List (Tensor (Num F))}
    (h : Reach (HOOI.cls svd X ranks) (fun s => s.map shape = tuckerShapes X.shape ranks) A) :
    A.map shape = tuckerShapes X.shape ranks := by
  induction h with
  | fresh hi => exact hi
  | core _ hc _ _ => cases hc
  | main _ hm ih =>
      rcases HOOI.main_cases hs hr h2 h13 hpos ih with ⟨e, h, -⟩ | ⟨B, g, o, h, hB, -⟩
      · cases h.symm.trans hm
      · cases h.symm.trans hm
        exact hB
  | op1 _ hu _ _ => cases hu
  | op2 _ hu _ _ => cases hu

theorem hooi_reports (svd : Svd F) (X : Tensor (Num F)) (ranks : List Nat) : ReportsOf (HOOI.cls svd X ranks) X := by
  intro s s' o h
  change HOOI.main svd X ranks s = .ok (s', o) at h
  unfold HOOI.main at h
  obtain ⟨st, -, h⟩ := bind_ok_of h
  obtain ⟨g, -, h⟩ := bind_ok_of h
  obtain ⟨full, -, h⟩ := bind_ok_of h
  obtain ⟨⟨l, obj, rel⟩, h3, h⟩ := bind_ok_of h
  cases h
  exact scalars_fl_reports h3

/-- **C139.** Whatever happens in the arithmetic, a `HOOI` training either returns or raises an exception of the singular value
decomposition, provided that the ranks are admissible; if they are not, the exception may also be the one for assigning a matrix of
another shape, and the training never returns. -/
theorem C139_hooi_raises (F : Fmt) (svd : Svd F) (hs : SvdSize svd) (X : Tensor (Num F)) (ranks : List Nat)
    (hr : ranks.length = X.shape.length) (h2 : 2 ≤ X.order) (h13 : X.order ≤ 13) (hpos : ∀ d ∈ X.shape, 0 < d)
    (Ar : fact.Arith (Num F)) (args : Args (Num F)) (hv : args.validationInternal ≠ 0 ∨ args.verbose = true) (steps : Int)
    (h1 : 1 ≤ steps) (self : Self (List (Tensor (Num F))) (Tensor (Num F)) (Tensor (Num F))) :
    (Admissible X.shape ranks ∧
      ∃ hist, (train Ar (HOOI.cls svd X ranks) args steps (tucker.HOOI.init svd X ranks) self).2.2 = .ok hist) ∨
    ∃ e, (train Ar (HOOI.cls svd X ranks) args steps (tucker.HOOI.init svd X ranks) self).2.2 = .error e ∧
      ((∃ M, svd M = .error e) ∨ (e = .invalidArgument ∧ ¬ Admissible X.shape ranks)) := by
  rcases HOOI.init_cases hs hr hpos with ⟨e, h, he⟩ | ⟨A, h, hA⟩
  · right
    rw [h]
    exact ⟨e, rfl, he⟩
  · rw [h]
    rcases train_err (A := Ar) (c := HOOI.cls svd X ranks) (I := fun s => s.map shape = tuckerShapes X.shape ranks)
      (E := HErr svd X.shape ranks) (args := args) rfl rfl (fun s hs' => by
        rcases HOOI.main_cases hs hr h2 h13 hpos hs' with ⟨e, h, he⟩ | ⟨B, g, o, h, hB, -⟩
        · exact Or.inr ⟨e, h, he⟩
        · exact Or.inl ⟨B, o, h, hB⟩) hA (hv.imp_right Or.inl) h1 self with ⟨hist, e⟩ | ⟨e, h, he⟩
    · left
      refine ⟨?_, hist, e⟩
      obtain ⟨s0, n, o, kc, hs0, h1, -, hrun, -⟩ := train_ok (Prod.ext rfl (Prod.ext rfl e))
      cases hs0
      obtain ⟨σ, hσ0, hσ⟩ := hrun.ran
      obtain ⟨s, hr', -⟩ := hσ 0 (by omega)
      have hm : HOOI.main svd X ranks (σ 0) = .ok (s, o 0) := hr'.2
      rw [hσ0] at hm
      rcases HOOI.main_cases hs hr h2 h13 hpos hA with ⟨e, h, -⟩ | ⟨B, g, o, h, -, hadm, -⟩
      · cases h.symm.trans hm
      · exact hadm
    · exact Or.inr ⟨e, h, he⟩

/-- **C139.** With a singular value decomposition that returns for every matrix, a `HOOI` training returns exactly when the ranks are
admissible: no rounding, overflow, division by zero or NaN makes it raise, and none makes inadmissible ranks pass. -/
theorem C139_hooi_returns (F : Fmt) (svd : Svd F) (hs : SvdSize svd) (ht : ∀ M, ∃ q, svd M = .ok q) (X : Tensor (Num F))
    (ranks : List Nat) (hr : ranks.length = X.shape.length) (h2 : 2 ≤ X.order) (h13 : X.order ≤ 13) (hpos : ∀ d ∈ X.shape, 0 < d)
    (Ar : fact.Arith (Num F)) (args : Args (Num F)) (hv : args.validationInternal ≠ 0 ∨ args.verbose = true) (steps : Int)
    (h1 : 1 ≤ steps) (self : Self (List (Tensor (Num F))) (Tensor (Num F)) (Tensor (Num F))) :
    (∃ hist, (train Ar (HOOI.cls svd X ranks) args steps (tucker.HOOI.init svd X ranks) self).2.2 = .ok hist) ↔
      Admissible X.shape ranks := by
  rcases C139_hooi_raises F svd hs X ranks hr h2 h13 hpos Ar args hv steps h1 self with ⟨h, hist, e⟩ | ⟨e, h, he⟩
  · exact ⟨fun _ => h, fun _ => ⟨hist, e⟩⟩
  · constructor
    · rintro ⟨hist, h'⟩
      cases h.symm.trans h'
    · intro hadm
      rcases he with ⟨M, hM⟩ | ⟨-, hn⟩
      · obtain ⟨q, hq⟩ := ht M
        cases hM.symm.trans hq
      · exact absurd hadm hn

/-- **C139.** A training that returns exposes factors and a core of the sizes asked for, and the exposed core is, to the last bit, the
tensor times the transposed exposed factors as computed in this arithmetic. -/
theorem C139_hooi_exposes (F : Fmt) (svd : Svd F) (hs : SvdSize svd) (X : Tensor (Num F)) (ranks : List Nat)
    (hr : ranks.length = X.shape.length) (h2 : 2 ≤ X.order) (h13 : X.order ≤ 13) (hpos : ∀ d ∈ X.shape, 0 < d)
    (Ar : fact.Arith (Num F)) (args : Args (Num F)) (steps : Int)
    (self self' : Self (List (Tensor (Num F))) (Tensor (Num F)) (Tensor (Num F))) (ev : List Int) (hist : List (Num F × Num F))
    (ht : train Ar (HOOI.cls svd X ranks) args steps (tucker.HOOI.init svd X ranks) self = (self', ev, .ok hist)) :
    ∃ f g Y, self'.factors = some f ∧ self'.aux = some g ∧ self'.full = some Y ∧
      f.map shape = tuckerShapes X.shape ranks ∧ g.shape = ranks ∧ Y.shape = X.shape ∧ ops.ttm X f none true = .ok g ∧
      (args.verbose = true → TTensor.extract ⟨g, .float32, f, .float32⟩ = .ok Y) := by
  obtain ⟨s0, n, o, kc, hs0, h1, -, hrun, -, -, -, ⟨p, hp, hrep, hlast, hfull⟩, hfac, haux, -⟩ := train_ok ht
  have hA : s0.map shape = tuckerShapes X.shape ranks := by
    rcases HOOI.init_cases hs hr hpos with ⟨e, h, -⟩ | ⟨A, h, hA⟩
    · cases h.symm.trans hs0
    · cases h.symm.trans hs0
      exact hA
  obtain ⟨σ, -, hσ⟩ := run_reach (init := fun s => s.map shape = tuckerShapes X.shape ranks) hA hrun
  have key : ∀ j < n, ∃ g, (o j).factors.map shape = tuckerShapes X.shape ranks ∧ (o j).aux = some g ∧ g.shape = ranks ∧
      ops.ttm X (o j).factors none true = .ok g ∧ TTensor.extract ⟨g, .float32, (o j).factors, .float32⟩ = .ok (o j).full ∧
      (o j).full.shape = X.shape := by
    intro j hj
    obtain ⟨hre, s, -, hruns, -⟩ := hσ j hj
    have hm : HOOI.main svd X ranks (σ j) = .ok (s, o j) := hruns.2
    rcases HOOI.main_cases hs hr h2 h13 hpos (hooi_reach_fl hs hr h2 h13 hpos hre) with ⟨e, h, -⟩ | ⟨B, g, o', h, hB, -, a, b, c, d, e, f⟩
    · cases h.symm.trans hm
    · cases h.symm.trans hm
      rw [a]
      exact ⟨g, hB, b, c, d, e, f⟩
  obtain ⟨g, a, b, c, d, e, -⟩ := key (n - 1) (by omega)
  obtain ⟨-, -, -, -, -, -, f'⟩ := key p hp
  refine ⟨_, g, _, hfac, haux g (by rw [b]; rfl), hfull, a, c, f', d, fun hv => ?_⟩
  have hpn : p = n - 1 := by
    by_contra hne
    exact hlast (n - 1) (by omega) (by omega) (Or.inr (Or.inl hv))
  rw [hpn]
  exact e

/-- **C139.** `HOSVD` in this arithmetic: it returns or raises what the singular value decomposition raised; factor `n` keeps as many
columns as there are, `min(r_n, I_n, ∏ other dimensions)`, and core and full tensor have the sizes that belong to it. -/
theorem C139_hosvd (F : Fmt) (svd : Svd F) (hs : SvdSize svd) (X : Tensor (Num F)) (ranks : List Nat)
    (hr : X.order ≤ ranks.length) (h1 : 1 ≤ X.order) (h13 : X.order ≤ 13) (hpos : ∀ d ∈ X.shape, 0 < d) :
    (∃ M e, svd M = .error e ∧ HOSVD.run svd X ranks = .error e) ∨
    ∃ A g Y, HOSVD.run svd X ranks = .ok (A, g, Y) ∧
      A.map shape = (List.range X.order).map (fun n =>
        [X.shape.getD n 0, min (ranks.getD n 0) (min (X.shape.getD n 0) (otherSize X.shape n))]) ∧
      g.shape = colDims A ∧ Y.shape = X.shape ∧ ops.ttm X A none true = .ok g ∧
      TTensor.extract ⟨g, .float32, A, .float32⟩ = .ok Y := by
  have hmap : (∃ M e, svd M = .error e ∧ (List.range X.order).mapM (fun n => tucker.leading svd X ranks n) = .error e) ∨
      ∃ A, (List.range X.order).mapM (fun n => tucker.leading svd X ranks n) = .ok A ∧ A.map shape = (List.range X.order).map (fun n =>
        [X.shape.getD n 0, min (ranks.getD n 0) (min (X.shape.getD n 0) (otherSize X.shape n))]) := by
    suffices h : ∀ l : List Nat, (∀ n ∈ l, n < X.order) →
        (∃ M e, svd M = .error e ∧ l.mapM (fun n => tucker.leading svd X ranks n) = .error e) ∨
        ∃ A, l.mapM (fun n => tucker.leading svd X ranks n) = .ok A ∧ A.map shape = l.map (fun n =>
          [X.shape.getD n 0, min (ranks.getD n 0) (min (X.shape.getD n 0) (otherSize X.shape n))]) from
      h _ fun n hn => List.mem_range.1 hn
    intro l
    induction l with
    | nil => exact fun _ => Or.inr ⟨[], rfl, rfl⟩
    | cons n l ih =>
        intro hl
        have hn := hl n (by simp)
        rw [List.mapM_cons]
        rcases leading_cases hs (X := X) (ranks := ranks) (n := n) hn (getD_pos_of hpos hn) (by omega) with
          ⟨M, e, h1, h2⟩ | ⟨v, h1, hv⟩
        · left; rw [h2]; exact ⟨M, e, h1, rfl⟩
        · rw [h1, ok_bind]
          rcases ih fun m hm => hl m (by simp [hm]) with ⟨M, e, h, he⟩ | ⟨A, h, hA⟩
          · left; rw [he]; exact ⟨M, e, h, rfl⟩
          · right; rw [h]; exact ⟨v :: A, rfl, by rw [List.map_cons, hv, hA]; rfl⟩
  unfold HOSVD.run
  rcases hmap with ⟨M, e, h, he⟩ | ⟨A, h, hA⟩
  · left; rw [he]; exact ⟨M, e, h, rfl⟩
  · right
    rw [h, ok_bind]
    have hXne : X.shape ≠ [] := by intro e; unfold order at h1; rw [e] at h1; simp at h1
    have hsh := (shadow_shapes A).trans hA
    have hT : A.map shape = tuckerShapes X.shape ((List.range X.order).map fun n =>
        min (ranks.getD n 0) (min (X.shape.getD n 0) (otherSize X.shape n))) := by
      rw [hA]
      unfold tuckerShapes
      refine List.map_congr_left fun k hk => ?_
      have hk : k < X.order := List.mem_range.1 hk
      have hg : ((List.range X.order).map fun n =>
          min (ranks.getD n 0) (min (X.shape.getD n 0) (otherSize X.shape n))).getD k 0 =
          min (ranks.getD k 0) (min (X.shape.getD k 0) (otherSize X.shape k)) := by
        rw [List.getD_eq_getElem _ _ (by simpa using hk), List.getElem_map, List.getElem_range]
      rw [hg]
    have hA' := tuckerShapes_iff.1 ((shadow_shapes A).trans hT)
    have hcr : ∀ B : List (Tensor (Num F)), colDims B = colDims (B.map shadow) := fun B => by
      unfold colDims; rw [List.map_map]; rfl
    obtain ⟨g0, -, hg0, -, hgs0, -⟩ := tucker_entries (X := shadow X) hXne h13 hA'.allMat hA'.rowDims
    obtain ⟨g, hg, hgs, -⟩ := ttm_ok (kept_true (F := F)) (allQ_true X) (fun M _ => allQ_true M) hg0
    obtain ⟨Y, eY, hY, -⟩ := NTUCKER.full_ok (kept_true (F := F)) (allQ_true g) (fun M _ => allQ_true M) hT (by simp [order])
      (by rw [hgs, hgs0, hA'.colDims (by simp [order])]) h1 h13
    refine ⟨A, g, Y, ?_, hA, by rw [hgs, hgs0, hcr], hY, hg, ?_⟩
    · rw [hg, ok_bind, eY, ok_bind]; rfl
    · unfold NTUCKER.fullOf at eY
      obtain ⟨t, ht, eY⟩ := bind_ok_of eY
      unfold TTensor.init at ht
      cases A with
      | nil => cases ht
      | cons b bs => cases ht; exact eY

/-- **C138** (`HOOI`): a training that returns before its last step exposes factors and a core that consist of numbers. -/
theorem C138_hooi (F : Fmt) (svd : Svd F) (hs : SvdSize svd) (X : Tensor (Num F)) (ranks : List Nat)
    (hr : ranks.length = X.shape.length) (h2 : 2 ≤ X.order) (h13 : X.order ≤ 13) (hpos : ∀ d ∈ X.shape, 0 < d)
    (hrp : ∀ d ∈ ranks, 0 < d) (args : Args (Num F)) (steps : Int)
    (self self' : Self (List (Tensor (Num F))) (Tensor (Num F)) (Tensor (Num F))) (ev : List Int) (hist : List (Num F × Num F))
    (ht : train (loopArith F) (HOOI.cls svd X ranks) args steps (tucker.HOOI.init svd X ranks) self = (self', ev, .ok hist))
    (hlt : (hist.length : Int) < steps) :
    AllFinite X ∧ ∃ f g, self'.factors = some f ∧ self'.aux = some g ∧ f.map shape = tuckerShapes X.shape ranks ∧ g.shape = ranks ∧
      (∀ M ∈ f, AllFinite M) ∧ AllFinite g := by
  obtain ⟨s0, n, o, kc, hs0, h1, -, hrun, hstop, hhist, -, -, hfac, haux, -⟩ := train_ok ht
  have hlen : hist.length = n := by rw [hhist]; simp
  obtain ⟨hX, hfull⟩ := stop_numbers (hooi_reports svd X ranks) h1 hrun (hstop.resolve_left (by omega))
  have hA : s0.map shape = tuckerShapes X.shape ranks := by
    rcases HOOI.init_cases hs hr hpos with ⟨e, h, -⟩ | ⟨A, h, hA⟩
    · cases h.symm.trans hs0
    · cases h.symm.trans hs0
      exact hA
  obtain ⟨σ, -, hσ⟩ := run_reach (init := fun s => s.map shape = tuckerShapes X.shape ranks) hA hrun
  obtain ⟨hre, s, -, hruns, -⟩ := hσ (n - 1) (by omega)
  have hm : HOOI.main svd X ranks (σ (n - 1)) = .ok (s, o (n - 1)) := hruns.2
  rcases HOOI.main_cases hs hr h2 h13 hpos (hooi_reach_fl hs hr h2 h13 hpos hre) with ⟨e, h, -⟩ | ⟨B, g, o', h, hB, -, a, b, c, -, e, -⟩
  · cases h.symm.trans hm
  · cases h.symm.trans hm
    have hA' := tuckerShapes_iff.1 ((shadow_shapes s).trans hB)
    have hrow : rowDims s = X.shape := by
      rw [← hA'.rowDims]; unfold rowDims; rw [List.map_map]; rfl
    have hcol : colDims s = ranks := by
      rw [← hA'.colDims hr]; unfold colDims; rw [List.map_map]; rfl
    have hlB : s.length = X.order := by have := hA'.1; rw [List.length_map] at this; exact this
    obtain ⟨hfin, hg⟩ := tucker_numbers (by intro e; rw [e] at hlB; simp at hlB; omega) (by rw [hlB]; exact h13)
      (fun M hM => hA'.allMat (shadow M) (List.mem_map.2 ⟨M, hM, rfl⟩)) (by rw [c, hcol]) (by rw [hrow]; exact hpos)
      (by rw [hcol]; exact hrp) e hfull
    exact ⟨hX, s, g, by rw [hfac, a], haux g (by rw [b]; rfl), hB, c, hfin, hg⟩

/-- The hypotheses are met, and training returns, for instance here: float32, a tensor that holds a NaN and an infinity, and a
decomposition that gives up on everything but sizes. -/
noncomputable def svdEx (M : Tensor (Num f32)) : Res (Tensor (Num f32) × Tensor (Num f32) × Tensor (Num f32)) :=
  let m := M.shape.getD 0 0
  let n := M.shape.getD 1 0
  .ok (ofFn [min m n] fun _ => .nan, mat m (min m n) fun _ _ => .nan, mat n (min m n) fun _ _ => .nan)

theorem svdEx_size : SvdSize svdEx := by
  intro M s U V m n hM h
  unfold svdEx at h
  rw [hM] at h
  cases h
  rfl

example : ∃ X : Tensor (Num f32), X.at_ [0, 0] = .nan ∧ X.at_ [1, 1] = .inf true ∧ SvdSize svdEx ∧ Admissible X.shape [2, 2] ∧
    ¬ Admissible X.shape [1, 2] ∧
    (∃ hist, (train (Num.loopArith f32) (HOOI.cls svdEx X [2, 2]) { tol := 0 } 7 (tucker.HOOI.init svdEx X [2, 2]) {}).2.2 = .ok hist) ∧
    ∃ A g Y, HOSVD.run svdEx X [1, 2] = .ok (A, g, Y) := by
  have h1 : Admissible [2, 2] [2, 2] := by
    intro n hn
    have : n = 0 ∨ n = 1 := by simp at hn; omega
    rcases this with rfl | rfl <;> decide
  refine ⟨⟨[2, 2], [.nan, 1, 0, .inf true], rfl⟩, rfl, rfl, svdEx_size, h1, ?_, ?_, ?_⟩
  · intro h
    have := (h 1 (by decide)).2
    revert this
    decide
  · exact (C139_hooi_returns f32 svdEx svdEx_size (fun M => ⟨_, rfl⟩) _ [2, 2] rfl (le_refl 2) (by show 2 ≤ 13; omega) (by simp) _ _
      (Or.inl (by decide)) 7 (by decide) _).2 h1
  · rcases C139_hosvd f32 svdEx svdEx_size ⟨[2, 2], [.nan, 1, 0, .inf true], rfl⟩ [1, 2] (le_refl 2) (by show 1 ≤ 2; omega)
      (by show 2 ≤ 13; omega) (by simp) with ⟨M, e, h, -⟩ | ⟨A, g, Y, h, -⟩
    · cases h
    · exact ⟨A, g, Y, h⟩

end TD.Props
