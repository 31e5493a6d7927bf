import Verif.Lemmas.SpecialBcu
import Verif.Lemmas.RenumberCp
import Verif.Props.Special
import Verif.Spec.SpecialCp

/-! # `CP_ALS` in rounded arithmetic -/
namespace TD.sp
open TD Tensor Spec Num fl
variable {F : Fmt}

theorem matmul_entry {A B : Tensor (Num F)} {m k n : Nat} (hA : A.shape = [m, k]) (hB : B.shape = [k, n]) :
    tf.matmul A B = .ok (mat m n fun i j => tf.Red.dot ((List.range k).map fun l => (A.at_ [i, l], B.at_ [l, j]))) := by
  unfold tf.matmul
  rw [hA, hB]
  simp

theorem gram_entry {A : Tensor (Num F)} {m n : Nat} (hA : A.shape = [m, n]) :
    tf.matmul A A true false = .ok (mat n n fun i j => tf.Red.dot ((List.range m).map fun l => (A.at_ [l, i], A.at_ [l, j]))) := by
  unfold tf.matmul
  rw [hA]
  simp

theorem dot_spoiled {P : Num F → Prop} (hP : Absorbing P) {k : Nat} {f : Nat → Num F × Num F} {l : Nat} (hl : l < k)
    (h : P (f l).1 ∨ P (f l).2) : P (tf.Red.dot ((List.range k).map f)) := by
  have hd : ((List.range k).map f).getD l (0, 0) = f l := by
    rw [List.getD_eq_getElem _ _ (by simpa using hl)]; simp
  have hlen : ((List.range k).map f).length = k := by simp
  show P (Num.eval _ (F.arith.dotTree _))
  rw [hlen]
  rcases h with h | h
  · exact hP.eval (i := (l, false)) (by simp only [hd]; exact h) (occ_dot _ hl _)
  · exact hP.eval (i := (l, true)) (by simp only [hd]; exact h) (occ_dot _ hl _)

theorem grams_get {A : List (Tensor (Num F))} {gs : List (Tensor (Num F))}
    (h : A.mapM (fun a => tf.matmul a a true false) = .ok gs) {k : Nat} {M : Tensor (Num F)} (hk : A[k]? = some M) :
    ∃ G, gs[k]? = some G ∧ tf.matmul M M true false = .ok G := by
  induction A generalizing gs k with
  | nil => simp at hk
  | cons a A ih =>
      rw [List.mapM_cons] at h
      cases ha : tf.matmul a a true false with
      | error e => rw [ha] at h; cases h
      | ok g =>
          rw [ha, ok_bind] at h
          cases hr : A.mapM (fun a => tf.matmul a a true false) with
          | error e => rw [hr] at h; cases h
          | ok gs' =>
              rw [hr, ok_bind] at h
              cases h
              cases k with
              | zero =>
                  simp only [List.getElem?_cons_zero, Option.some.injEq] at hk
                  subst hk
                  exact ⟨g, rfl, ha⟩
              | succ k => exact ih hr (k := k) (by simpa using hk)

theorem div_rows {N lam : Tensor (Num F)} {m n : Nat} (hN : N.shape = [m, n]) (hl : lam.shape = [n]) :
    tf.ewise (· / ·) N lam = .ok (mat m n fun i r => N.at_ [i, r] / lam.at_ [r]) := by
  unfold tf.ewise
  rw [hN, hl, cp.bcast_row]
  simp only
  congr 1
  refine ext_mat rfl rfl fun i hi j hj => ?_
  rw [at_ofFn _ (InB_pair.2 ⟨i, j, rfl, hi, hj⟩), at_mat _ hi hj]
  have e1 : (if m = 1 then 0 else i) = i := by split_ifs <;> omega
  have e2 : (if n = 1 then 0 else j) = j := by split_ifs <;> omega
  simp [tf.bcastIdx, e1, e2]

/-- What one pass of the loop does. -/
theorem CP.modeUpdate_cases {pinv : Tensor (Num F) → Res (Tensor (Num F))} (hp : PinvSize pinv) {X : Tensor (Num F)} {R : Nat}
    (h2 : 2 ≤ X.order) (h25 : X.order ≤ 25) (hpos : ∀ d ∈ X.shape, 0 < d) {A : List (Tensor (Num F))}
    (hA : FactorsFor X.shape R A) {n : Nat} (hn : n < X.order) :
    ∃ V, V.shape = [R, R] ∧
      (AllFinite V → ∀ k M, k ≠ n → A[k]? = some M → AllFinite M) ∧
      ((∃ e, pinv V = .error e ∧ CP.modeUpdate pinv X R A n = .error e) ∨
        ∃ P K XA N lam, pinv V = .ok P ∧ K.shape = [otherSize X.shape n, R] ∧ P.shape = [R, R] ∧
          N.shape = [X.shape.getD n 0, R] ∧ lam.shape = [R] ∧ reduceMax0 N = .ok lam ∧ XA.shape = [X.shape.getD n 0, R] ∧
          tf.matmul (mat (X.shape.getD n 0) (otherSize X.shape n) fun i j => X.at_ (unkolda X.shape n i j)) K = .ok XA ∧
          tf.matmul XA P = .ok N ∧
          CP.modeUpdate pinv X R A n =
            .ok ⟨A.set n (mat (X.shape.getD n 0) R fun i r => N.at_ [i, r] / lam.at_ [r]), lam, N⟩) := by
  have hA' : FactorsFor X.shape R (A.map shadow) := (shadow_shapes A).trans hA
  have hn' : n < X.shape.length := hn
  have hlen : A.length = X.shape.length := hA.length
  have hlen' : (A.map shadow).length = X.shape.length := by rw [List.length_map, hlen]
  have hnp : 0 < X.shape.getD n 0 := by
    rw [List.getD_eq_getElem _ _ hn']; exact hpos _ (List.getElem_mem _)
  have hke : kept (A.map shadow) (.int n) ≠ [] := by
    rw [kept_int]; intro e
    have := congrArg List.length e
    rw [List.length_eraseIdx, if_pos (by omega), hlen'] at this
    unfold order at h2
    simp at this; omega
  obtain ⟨K, G, grams, hK, hG, hgr, hhad⟩ := Props.C19_gram (A.map shadow) (.int n) true R hA'.allMat hA'.cols hke (by
    rw [kept_int, List.length_eraseIdx, if_pos (by omega), hlen']; unfold order at h25; omega)
  have hget' : (A.map shadow)[n]? = some (A.map shadow)[n] := List.getElem?_eq_getElem (by omega)
  have hget : A[n]? = some A[n] := List.getElem?_eq_getElem (by omega)
  obtain ⟨hKs, -⟩ := cpErr_frob (X := shadow X) (fun _ => 1) hA' h2 h25 hn (hA'.get hget') hK
  obtain ⟨K', hK', hKs', -⟩ := khatri_ok (kept_true (F := F)) (fun M _ => allQ_true M) hK
  obtain ⟨gs, hgs, hgss⟩ := grams_ok hA.allMat
  have hgss' : ∀ M ∈ gs, M.shape = [R, R] := by
    intro M hM
    have : M.shape ∈ gs.map Tensor.shape := List.mem_map.2 ⟨M, hM, rfl⟩
    rw [hgss] at this
    obtain ⟨N, hN, e⟩ := List.mem_map.1 this
    rw [← e, hA.cols N hN]
  have hglen : gs.length = A.length := by
    have := congrArg List.length hgss
    simpa using this
  obtain ⟨V, hV, hVs, hVr⟩ := Props.C124_hadamard_shows gs (.int n) [R, R] (by
      rw [kept_int]; intro e
      have := congrArg List.length e
      rw [List.length_eraseIdx, if_pos (by omega)] at this
      unfold order at h2
      simp at this; omega) (fun M hM => hgss' M (kept_sub hM))
  obtain ⟨XA, hXA, hXAs⟩ := matmul_shape (A := mat (X.shape.getD n 0) (otherSize X.shape n) fun i j => X.at_ (unkolda X.shape n i j))
    (B := K') (m := X.shape.getD n 0) (k := otherSize X.shape n) (n := R) (ta := false) (tb := false) rfl (hKs'.trans hKs)
  refine ⟨V, hVs, fun hf k M hkn hkM i hi => ?_, ?_⟩
  · rw [hA.get hkM] at hi
    obtain ⟨a, r, rfl, ha, hr⟩ := InB_pair.1 hi
    obtain ⟨G', hG', hGM⟩ := grams_get hgs hkM
    rw [gram_entry (hA.get hkM)] at hGM
    have hGe := Except.ok.inj hGM
    by_contra hn'
    have h1 : ¬ (V.at_ [r, r]).Finite := by
      refine (hVr [r, r] (InB_pair.2 ⟨r, r, rfl, hr, hr⟩) G' ?_).1 ?_
      · rw [kept_int, List.mem_eraseIdx_iff_getElem?]
        exact ⟨k, hkn, hG'⟩
      · rw [← hGe, at_mat _ hr hr]
        exact dot_spoiled absorbing_infinite ha (Or.inl hn')
    exact h1 (hf _ (by rw [hVs]; exact InB_pair.2 ⟨r, r, rfl, hr, hr⟩))
  · have e0 : CP.modeUpdate pinv X R A n = (do
        let P ← pinv V
        let nonNorm ← tf.matmul XA P
        let N ← tf.reshape nonNorm [(X.shape.getD n 0 : Nat), (R : Nat)]
        let lam ← reduceMax0 N
        let A' ← tf.ewise (· / ·) nonNorm lam
        let A ← tf.assign A n A'
        return ⟨A, lam, nonNorm⟩) := by
      unfold CP.modeUpdate
      rw [unfold_closed X hn hnp, ok_bind, hgs, ok_bind, hK', ok_bind, hXA, ok_bind, hV, ok_bind]
    cases hP : pinv V with
    | error e =>
        refine Or.inl ⟨e, rfl, ?_⟩
        rw [e0, hP]; rfl
    | ok P =>
        have hPs := hp V P R hVs hP
        obtain ⟨N, hN, hNs⟩ := matmul_shape (A := XA) (B := P) (m := X.shape.getD n 0) (k := R) (n := R) (ta := false) (tb := false)
          hXAs hPs
        have hre : tf.reshape N [(X.shape.getD n 0 : Nat), (R : Nat)] = .ok N := by
          have := tf.reshape_nat (t := N) (s := [X.shape.getD n 0, R]) (by rw [N.wf, hNs])
          simp only [List.map_cons, List.map_nil] at this
          rw [this]
          congr 1
          cases N with
          | mk s d wf => simp only at hNs; subst hNs; rfl
        obtain ⟨lam, hlam, hls⟩ : ∃ lam, reduceMax0 N = .ok lam ∧ lam.shape = [R] := by
          unfold reduceMax0
          rw [hNs]
          exact ⟨_, rfl, rfl⟩
        refine Or.inr ⟨P, K', XA, N, lam, rfl, hKs'.trans hKs, hPs, hNs, hls, hlam, hXAs, hXA, hN, ?_⟩
        rw [e0, hP, ok_bind, hN, ok_bind, hre, ok_bind, hlam, ok_bind, div_rows hNs hls, ok_bind]
        unfold tf.assign
        simp only [hget]
        rw [if_pos (by rw [hA.get hget]; rfl)]
        rfl

/-! ### The columns -/

theorem not_finite_div {x y : Num F} (h : ¬ x.Finite) : ¬ (x / y).Finite := by
  cases x with
  | fin x hx => exact absurd finite_fin h
  | nan => rw [nan_div]; exact id
  | inf s =>
      cases y with
      | fin y hy => rw [div_inf_fin]; exact id
      | inf t => rw [div_inf_inf]; exact id
      | nan => rw [div_nan]; exact id

theorem lt_fin {x y : ℝ} {hx hy} : (.fin x hx : Num F).lt (.fin y hy) = true ↔ x < y := by
  unfold Num.lt
  simp only [Num.val]
  rw [decide_eq_true_eq]
  exact EReal.coe_lt_coe_iff

theorem bot_lt_fin {y : ℝ} {hy} : (.inf true : Num F).lt (.fin y hy) = true := by
  unfold Num.lt
  simp only [Num.val]
  rw [decide_eq_true_eq]
  exact EReal.bot_lt_coe y

theorem maximum_fin {x y : ℝ} {hx hy} (h : x ≤ y) : maximum (.fin x hx) (.fin y hy) = (.fin y hy : Num F) := by
  unfold maximum
  split
  · rfl
  · rename_i h'
    rw [lt_fin, not_lt] at h'
    obtain rfl := le_antisymm h h'
    rfl

theorem maximum_fin' {x y : ℝ} {hx hy} (h : y ≤ x) : maximum (.fin x hx) (.fin y hy) = (.fin x hx : Num F) := by
  unfold maximum
  rw [if_neg]
  rw [lt_fin]
  exact not_lt.2 h

theorem maximum_bot {y : ℝ} {hy} : maximum (.inf true) (.fin y hy) = (.fin y hy : Num F) := by
  unfold maximum
  rw [if_pos bot_lt_fin]

/-- The maximum of a column of numbers is one of them and not below the others. -/
theorem fold_max {f : Nat → Num F} {m : Nat} (hm : 0 < m) (hf : ∀ i < m, (f i).Finite) :
    ∃ (x : ℝ) (hx : _), (List.range m).foldl (fun acc i => maximum acc (f i)) (.inf true) = .fin x hx ∧
      (∃ i < m, f i = .fin x hx) ∧ ∀ i < m, ∀ (y : ℝ) (hy : _), f i = .fin y hy → y ≤ x := by
  induction m with
  | zero => omega
  | succ m ih =>
      obtain ⟨z, hz, ez⟩ := finite_elim (hf m (by omega))
      rw [List.range_succ, List.foldl_append, List.foldl_cons, List.foldl_nil, ez]
      by_cases hm0 : m = 0
      · subst hm0
        refine ⟨z, hz, by simp [maximum_bot], ⟨0, by omega, ez⟩, fun i hi y hy e => ?_⟩
        obtain rfl : i = 0 := by omega
        rw [ez] at e
        simp only [Num.fin.injEq] at e
        exact e ▸ le_rfl
      · obtain ⟨x, hx, e, ⟨i, hi, ei⟩, hmax⟩ := ih (by omega) fun i hi => hf i (by omega)
        rw [e]
        rcases le_total x z with h | h
        · refine ⟨z, hz, maximum_fin h, ⟨m, by omega, ez⟩, fun j hj y hy ej => ?_⟩
          by_cases hjm : j = m
          · subst hjm
            rw [ez] at ej
            simp only [Num.fin.injEq] at ej
            exact ej ▸ le_rfl
          · exact (hmax j (by omega) y hy ej).trans h
        · refine ⟨x, hx, maximum_fin' h, ⟨i, by omega, ei⟩, fun j hj y hy ej => ?_⟩
          by_cases hjm : j = m
          · subst hjm
            rw [ez] at ej
            simp only [Num.fin.injEq] at ej
            exact ej ▸ h
          · exact hmax j (by omega) y hy ej

theorem reduceMax0_at {N lam : Tensor (Num F)} {m n : Nat} (hN : N.shape = [m, n]) (h : reduceMax0 N = .ok lam) {r : Nat} (hr : r < n) :
    lam.at_ [r] = (List.range m).foldl (fun acc i => maximum acc (N.at_ [i, r])) (.inf true) := by
  unfold reduceMax0 at h
  rw [hN] at h
  cases h
  rw [at_ofFn (s := [n]) _ ((InB_cons n r [] []).2 ⟨hr, (InB_nil _).2 rfl⟩)]
  rfl

theorem round_one : Num.round F 1 = 1 := by
  have h : |F.arith.rnd 1| ≤ F.big := by rw [F.arith.rnd_one, abs_one]; exact F.one_le_big
  rw [one_def]
  unfold Num.round
  rw [dif_pos h]
  simp only [F.arith.rnd_one]

theorem one_lt_round {x : ℝ} (hm : Monotone F.arith.rnd) (h : x ≤ 1) (hf : (Num.round F x).Finite) :
    (1 : Num F).lt (Num.round F x) = false := by
  rcases round_cases (F := F) x with ⟨h', e⟩ | e
  · rw [e, one_def]
    unfold Num.lt
    simp only [Num.val]
    rw [decide_eq_false_iff_not, not_lt]
    refine EReal.coe_le_coe_iff.2 ?_
    have := hm h
    rwa [F.arith.rnd_one] at this
  · rw [e] at hf; exact hf.elim

theorem round_lt_one {x : ℝ} (hm : Monotone F.arith.rnd) (h : 1 ≤ x) (hf : (Num.round F x).Finite) :
    (Num.round F x).lt (1 : Num F) = false := by
  rcases round_cases (F := F) x with ⟨h', e⟩ | e
  · rw [e, one_def]
    unfold Num.lt
    simp only [Num.val]
    rw [decide_eq_false_iff_not, not_lt]
    refine EReal.coe_le_coe_iff.2 ?_
    have := hm h
    rwa [F.arith.rnd_one] at this
  · rw [e] at hf; exact hf.elim

/-- A column of numbers after the normalisation. -/
theorem column_norm {N lam : Tensor (Num F)} {m n : Nat} (hm : 0 < m) (hN : N.shape = [m, n]) (h : reduceMax0 N = .ok lam)
    {r : Nat} (hr : r < n) (hf : ColumnFinite (mat m n fun i r => N.at_ [i, r] / lam.at_ [r]) m r) :
    (∃ (x : ℝ) (hx : _), x ≠ 0 ∧ lam.at_ [r] = .fin x hx) ∧
    ColumnHasOne (mat m n fun i r => N.at_ [i, r] / lam.at_ [r]) m r ∧
      (Monotone F.arith.rnd → ColumnOneSided (mat m n fun i r => N.at_ [i, r] / lam.at_ [r]) m r) := by
  have hf' : ∀ i < m, (N.at_ [i, r] / lam.at_ [r]).Finite := fun i hi => by
    have := hf i hi
    rwa [at_mat _ hi hr] at this
  have hNf : ∀ i < m, (N.at_ [i, r]).Finite := fun i hi => by
    by_contra hn
    exact not_finite_div hn (hf' i hi)
  obtain ⟨x, hx, e, ⟨i, hi, ei⟩, hmax⟩ := fold_max hm hNf
  rw [← reduceMax0_at hN h hr] at e
  have hx0 : x ≠ 0 := by
    rintro rfl
    have := hf' i hi
    rw [e, ei, div_fin, if_pos rfl, if_pos rfl] at this
    exact this
  refine ⟨⟨x, hx, hx0, e⟩, ⟨i, hi, ?_⟩, fun hmono => ?_⟩
  · rw [at_mat _ hi hr, e, ei, div_fin, if_neg hx0, div_self hx0, round_one]
  · rcases lt_or_gt_of_ne hx0 with hneg | hposx
    · right
      intro j hj
      obtain ⟨y, hy, ey⟩ := finite_elim (hNf j hj)
      have hfj := hf' j hj
      rw [at_mat _ hj hr, e, ey, div_fin, if_neg hx0]
      rw [e, ey, div_fin, if_neg hx0] at hfj
      refine round_lt_one hmono ?_ hfj
      rw [le_div_iff_of_neg hneg, one_mul]
      exact hmax j hj y hy ey
    · left
      intro j hj
      obtain ⟨y, hy, ey⟩ := finite_elim (hNf j hj)
      have hfj := hf' j hj
      rw [at_mat _ hj hr, e, ey, div_fin, if_neg hx0]
      rw [e, ey, div_fin, if_neg hx0] at hfj
      refine one_lt_round hmono ?_ hfj
      rw [div_le_one hposx]
      exact hmax j hj y hy ey

/-! ### The zero tensor -/

/-- A rounded sum of zero terms is zero, whatever its order. -/
theorem rounded_zero (S : fl.Arith) {ι : Type} (x : ι → ℝ) : ∀ t : Expr ι, 0 ≤ t.exact (fun i => |x i|) ∧
    (t.exact (fun i => |x i|) = 0 → t.rounded S.rnd x = 0)
  | .leaf i => ⟨abs_nonneg _, abs_eq_zero.1⟩
  | .zero => ⟨le_rfl, fun _ => rfl⟩
  | .one => ⟨zero_le_one, fun h => absurd h one_ne_zero⟩
  | .add a b => by
      obtain ⟨a1, a2⟩ := rounded_zero S x a
      obtain ⟨b1, b2⟩ := rounded_zero S x b
      refine ⟨add_nonneg a1 b1, fun h => ?_⟩
      have h' : a.exact (fun i => |x i|) + b.exact (fun i => |x i|) = 0 := h
      show S.rnd (a.rounded S.rnd x + b.rounded S.rnd x) = 0
      rw [a2 (by linarith), b2 (by linarith), add_zero, S.rnd_zero]
  | .mul a b => by
      obtain ⟨a1, a2⟩ := rounded_zero S x a
      obtain ⟨b1, b2⟩ := rounded_zero S x b
      refine ⟨mul_nonneg a1 b1, fun h => ?_⟩
      show S.rnd (a.rounded S.rnd x * b.rounded S.rnd x) = 0
      rcases mul_eq_zero.1 (show a.exact (fun i => |x i|) * b.exact (fun i => |x i|) = 0 from h) with h | h
      · rw [a2 h, zero_mul, S.rnd_zero]
      · rw [b2 h, mul_zero, S.rnd_zero]
  | .fma a b c => by
      obtain ⟨a1, a2⟩ := rounded_zero S x a
      obtain ⟨b1, b2⟩ := rounded_zero S x b
      obtain ⟨c1, c2⟩ := rounded_zero S x c
      have hab := mul_nonneg a1 b1
      refine ⟨add_nonneg hab c1, fun h => ?_⟩
      have h' : a.exact (fun i => |x i|) * b.exact (fun i => |x i|) + c.exact (fun i => |x i|) = 0 := h
      show S.rnd (a.rounded S.rnd x * b.rounded S.rnd x + c.rounded S.rnd x) = 0
      rw [c2 (by linarith)]
      rcases mul_eq_zero.1 (show a.exact (fun i => |x i|) * b.exact (fun i => |x i|) = 0 by linarith) with h | h
      · rw [a2 h, zero_mul, add_zero, S.rnd_zero]
      · rw [b2 h, mul_zero, add_zero, S.rnd_zero]

theorem dot_zero {k : Nat} {f : Nat → Num F × Num F} (h : ∀ l < k, (f l).1 = 0)
    (hf : (tf.Red.dot ((List.range k).map f)).Finite) : tf.Red.dot ((List.range k).map f) = 0 := by
  have hlen : ((List.range k).map f).length = k := by simp
  let g : Nat × Bool → Num F := fun p => if p.2 then (((List.range k).map f).getD p.1 (0, 0)).2 else (((List.range k).map f).getD p.1 (0, 0)).1
  have hdef : tf.Red.dot ((List.range k).map f) = Num.eval g (F.arith.dotTree k) := by
    show Num.eval _ (F.arith.dotTree ((List.range k).map f).length) = _
    rw [hlen]
  rw [hdef] at hf ⊢
  have hg : ∀ l, g (l, false) = 0 := by
    intro l
    show (((List.range k).map f).getD l (0, 0)).1 = 0
    by_cases hl : l < k
    · rw [List.getD_eq_getElem _ _ (by simpa using hl)]
      simpa using h l hl
    · rw [List.getD_eq_default _ _ (by simp; omega)]
  obtain ⟨hx, e⟩ := isNum_eval (f := g) (g := fun p => wide (g p)) (fun p hp => (mark_input (P := fun x => x = .nan) (g p)).1 hp) _ hf
  have hz : ∀ φ : Fl F.arith → ℝ, φ 0 = 0 → (F.arith.dotTree k).exact (fun p => φ (wide (g p))) = 0 := by
    intro φ hφ
    rw [F.arith.dot_exact]
    refine List.sum_eq_zero fun y hy => ?_
    obtain ⟨l, -, rfl⟩ := List.mem_map.1 hy
    have : wide (0 : Num F) = 0 := rfl
    rw [hg, this, hφ, zero_mul]
  have h2 : (run (F.arith.dotTree k) fun p => wide (g p)).val = 0 :=
    (rounded_zero F.arith (fun p => (wide (g p)).val) (F.arith.dotTree k)).2 (hz (fun x => |x.val|) (by show |(0 : ℝ)| = 0; simp))
  rw [e, zero_def]
  simp only [h2]

/-- Every entry that is a number is zero. -/
def ZeroOrBad (T : Tensor (Num F)) (m n : Nat) : Prop := ∀ i < m, ∀ j < n, (T.at_ [i, j]).Finite → T.at_ [i, j] = 0

theorem matmul_zero {A B C : Tensor (Num F)} {m k n : Nat} (hA : A.shape = [m, k]) (hB : B.shape = [k, n])
    (hC : tf.matmul A B = .ok C) (h : ZeroOrBad A m k) : ZeroOrBad C m n := by
  rw [matmul_entry hA hB] at hC
  cases hC
  intro i hi j hj hf
  rw [at_mat _ hi hj] at hf ⊢
  refine dot_zero (fun l hl => h i hi l hl ?_) hf
  by_contra hn
  exact dot_spoiled absorbing_infinite hl (f := fun l => (A.at_ [i, l], B.at_ [l, j])) (Or.inl hn) hf

/-- All entries are zero. -/
theorem column_zero {N lam : Tensor (Num F)} {m n : Nat} (hm : 0 < m) (hN : N.shape = [m, n]) (h : reduceMax0 N = .ok lam)
    {r : Nat} (hr : r < n) (hz : ZeroOrBad N m n) : ¬ ColumnFinite (mat m n fun i r => N.at_ [i, r] / lam.at_ [r]) m r := by
  intro hf
  have hNf : ∀ i < m, (N.at_ [i, r]).Finite := fun i hi => by
    by_contra hn
    have := hf i hi
    rw [at_mat _ hi hr] at this
    exact not_finite_div hn this
  obtain ⟨x, hx, e, ⟨i, hi, ei⟩, -⟩ := fold_max hm hNf
  rw [← reduceMax0_at hN h hr] at e
  have h0 := hz i hi r hr (hNf i hi)
  have := hf i hi
  rw [at_mat _ hi hr, e, ← ei, h0, zero_def, div_fin, if_pos rfl, if_pos rfl] at this
  exact this

theorem unfold_zero {X : Tensor (Num F)} (hX : ∀ x ∈ X.data, x = 0) (m k n : Nat) :
    ZeroOrBad (mat m k fun i j => X.at_ (unkolda X.shape n i j)) m k := by
  intro i hi j hj _
  rw [at_mat _ hi hj]
  exact AllQ.getD (Q := fun x => x = 0) rfl hX _

/-! ### The loop over the modes -/

/-- After the modes below `k`, from the variables `A0`. -/
structure SwOk (pinv : Tensor (Num F) → Res (Tensor (Num F))) (X : Tensor (Num F)) (R : Nat) (A0 : List (Tensor (Num F))) (k : Nat)
    (A : List (Tensor (Num F))) (lam : Option (Tensor (Num F))) : Prop where
  fac : FactorsFor X.shape R A
  cols : ∀ j < k, ∀ M, A[j]? = some M → ∀ r < R, ColumnFinite M (X.shape.getD j 0) r →
    ColumnHasOne M (X.shape.getD j 0) r ∧ (Monotone F.arith.rnd → ColumnOneSided M (X.shape.getD j 0) r)
  fin : 0 < k → PinvRejects pinv → ∀ j M, j ≠ k - 1 → A[j]? = some M → AllFinite M
  start : 0 < k → PinvRejects pinv → ∀ j M, 0 < j → A0[j]? = some M → AllFinite M
  zero : (∀ x ∈ X.data, x = 0) → ∀ j < k, ∀ M, A[j]? = some M → ∀ r < R, ¬ ColumnFinite M (X.shape.getD j 0) r
  lam : 0 < k → ∃ l, lam = some l ∧ l.shape = [R] ∧ ∀ M, A[k - 1]? = some M → ∀ r < R, ColumnFinite M (X.shape.getD (k - 1) 0) r →
    ∃ (x : ℝ) (hx : _), x ≠ 0 ∧ l.at_ [r] = .fin x hx

theorem CP.fold_cases {pinv : Tensor (Num F) → Res (Tensor (Num F))} (hp : PinvSize pinv) {X : Tensor (Num F)} {R : Nat}
    (h2 : 2 ≤ X.order) (h25 : X.order ≤ 25) (hpos : ∀ d ∈ X.shape, 0 < d) {A : List (Tensor (Num F))}
    (hA : FactorsFor X.shape R A) {k : Nat} (hk : k ≤ X.order) :
    (∃ V e, pinv V = .error e ∧ ((List.range k).foldlM (init := (A, (none : Option (Tensor (Num F))))) fun st mode => do
        let u ← CP.modeUpdate pinv X R st.1 mode
        return (u.A, some u.lam)) = .error e) ∨
    ∃ B lam, ((List.range k).foldlM (init := (A, (none : Option (Tensor (Num F))))) fun st mode => do
        let u ← CP.modeUpdate pinv X R st.1 mode
        return (u.A, some u.lam)) = .ok (B, lam) ∧ SwOk pinv X R A k B lam := by
  induction k with
  | zero => exact Or.inr ⟨A, none, rfl, ⟨hA, fun j hj => by omega, fun h => by omega, fun h => by omega, fun _ j hj => by omega, fun h => by omega⟩⟩
  | succ k ih =>
      rw [List.range_succ, List.foldlM_append]
      rcases ih (by omega) with ⟨V, e, h1, h2⟩ | ⟨B, lam, hB, hsw⟩
      · left
        exact ⟨V, e, h1, by rw [h2]; rfl⟩
      · rw [hB, ok_bind, List.foldlM_cons]
        simp only [List.foldlM_nil]
        have hkl : k < X.shape.length := by unfold order at hk; omega
        have hkp : 0 < X.shape.getD k 0 := by
          rw [List.getD_eq_getElem _ _ hkl]; exact hpos _ (List.getElem_mem _)
        obtain ⟨V, hVs, hVf, ⟨e, h3, h4⟩ | ⟨P, K, XA, N, l, hP, hKs, hPs, hNs, hls, hl, hXAs, hXA, hN, e⟩⟩ :=
          CP.modeUpdate_cases hp h2 h25 hpos hsw.fac (n := k) (by omega)
        · left
          exact ⟨V, e, h3, by rw [h4]; rfl⟩
        · right
          refine ⟨_, some l, by rw [e]; rfl, ?_⟩
          have hlenB : B.length = X.shape.length := hsw.fac.length
          have hset : ∀ M, (B.set k (mat (X.shape.getD k 0) R fun i r => N.at_ [i, r] / l.at_ [r]))[k]? = some M →
              M = mat (X.shape.getD k 0) R fun i r => N.at_ [i, r] / l.at_ [r] := by
            intro M hM
            rw [List.getElem?_set_self (by omega)] at hM
            exact (Option.some.inj hM).symm
          refine ⟨hsw.fac.set rfl, fun j hj M hM r hr hc => ?_, fun _ hrej j M hjk hM => ?_, fun _ hrej j M hj hM => ?_,
            fun hX j hj M hM r hr => ?_, fun _ => ⟨l, rfl, hls, fun M hM r hr hc => ?_⟩⟩
          · by_cases hjk : j = k
            · subst hjk
              obtain rfl := hset M hM
              exact (column_norm hkp hNs hl hr hc).2
            · rw [List.getElem?_set_ne (by omega)] at hM
              exact hsw.cols j (by omega) M hM r hr hc
          · have hjk : j ≠ k := by omega
            rw [List.getElem?_set_ne (by omega)] at hM
            exact hVf (hrej V P hP) j M hjk hM
          · by_cases hk0 : k = 0
            · subst hk0
              simp only [List.range_zero, List.foldlM_nil] at hB
              cases hB
              exact hVf (hrej V P hP) j M (by omega) hM
            · exact hsw.start (by omega) hrej j M hj hM
          · by_cases hjk : j = k
            · subst hjk
              obtain rfl := hset M hM
              exact column_zero hkp hNs hl hr (matmul_zero hXAs hPs hN (matmul_zero rfl hKs hXA (unfold_zero hX _ _ _)))
            · rw [List.getElem?_set_ne (by omega)] at hM
              exact hsw.zero hX j (by omega) M hM r hr
          · simp only [Nat.add_sub_cancel] at hM hc
            obtain rfl := hset M hM
            exact (column_norm hkp hNs hl hr hc).1

theorem CP.full_ok {A : List (Tensor (Num F))} {lam : Tensor (Num F)} {shape : List Nat} {R : Nat}
    (hA : FactorsFor shape R A) (hl : lam.shape = [R]) (hne : shape ≠ []) (h25 : shape.length ≤ 25) :
    ∃ Y, CP.fullOf A lam = .ok Y ∧ Y.shape = shape := by
  obtain ⟨Y, e, hs, -⟩ := cp.fullOf_spec (A := A.map shadow) (lam := shadow lam) (R := R) ((shadow_shapes A).trans hA) hne h25 hl
  have hrel : RelR (TRel (Has fun _ => True)) (CP.fullOf A lam) (cp.fullOf (A.map shadow) (shadow lam))
      (cp.fullOf (A.map shadow) (shadow lam)) := by
    unfold CP.fullOf cp.fullOf
    cases A with
    | nil => exact ⟨rfl, rfl⟩
    | cons a A =>
        unfold KTensor.init
        simp only [List.map_cons]
        have hQ := kept_true (F := F)
        have := hQ.par.kextract (trip_rel hQ (ms := a :: A) fun M _ => allQ_true M)
          ((allQ_true (F := F) (if lam.order = 1 then KTensor.expandLast lam else lam)).rel hQ) .float32 .float32
        rw [(trip_maps (a :: A)).1, (trip_maps (a :: A)).2.1, (trip_maps (a :: A)).2.2] at this
        have ho : (shadow lam).order = lam.order := rfl
        simp only [ho]
        by_cases h1 : lam.order = 1
        · simp only [h1, if_true] at this ⊢
          exact this
        · simp only [h1, if_false] at this ⊢
          exact this
  obtain ⟨Y', c, e', -, hr⟩ := hrel.of_ok e
  exact ⟨Y', e', hr.1.trans hs⟩

/-- One step of training. -/
theorem CP.main_cases {pinv : Tensor (Num F) → Res (Tensor (Num F))} (hp : PinvSize pinv) {X : Tensor (Num F)} {R : Nat}
    (h2 : 2 ≤ X.order) (h25 : X.order ≤ 25) (hpos : ∀ d ∈ X.shape, 0 < d) {A : List (Tensor (Num F))}
    (hA : FactorsFor X.shape R A) :
    (∃ V e, pinv V = .error e ∧ CP.main pinv X R A = .error e) ∨
    ∃ B lam full l obj rel, CP.main pinv X R A = .ok (B, ⟨B, some lam, full, l, obj, rel⟩) ∧
      SwOk pinv X R A X.order B (some lam) ∧ full.shape = X.shape := by
  rcases CP.fold_cases hp h2 h25 hpos hA (le_refl X.order) with ⟨V, e, h3, h4⟩ | ⟨B, lam, hB, hsw⟩
  · left
    refine ⟨V, e, h3, ?_⟩
    unfold CP.main CP.sweep
    rw [h4]; rfl
  · right
    obtain ⟨l, rfl, hls, hl⟩ := hsw.lam (by omega)
    obtain ⟨Y, eY, hY⟩ := CP.full_ok (shape := X.shape) hsw.fac hls (by
      intro e; unfold order at h2; rw [e] at h2; simp at h2) h25
    obtain ⟨⟨ls, obj, rel⟩, er⟩ := scalars_ok hY
    refine ⟨B, l, Y, ls, obj, rel, ?_, hsw, hY⟩
    unfold CP.main CP.sweep
    rw [hB, ok_bind]
    simp only
    rw [ok_bind]
    simp only
    rw [eY, ok_bind, er, ok_bind]
    rfl

end TD.sp
