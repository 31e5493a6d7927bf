import Verif.Props.Slices
import Verif.Props.Reader
import Verif.Props.LowRank
import Verif.Props.Progress

/-!
# C105, C106 : from the file to the decomposition
-/
namespace TD.Props
open TD Spec Tensor fact reader

/-- The index `p` of mode `k` occurs in no entry. -/
theorem unnamed_slice {entries : List (List Nat × ℝ)} {T : Tensor ℝ} {s : List Nat} {k p : Nat} (hT : T.shape = s)
    (he : ∀ i, InB s i → T.at_ i = lastValue entries i) (hp : p < s.getD k 0) (hu : ∀ e ∈ entries, e.1.getD k 0 ≠ p) :
    SliceRel T k (fun i => if i = p then 1 else 0) := by
  rw [C103_empty T k p (by rw [hT]; exact hp), hT]
  intro idx hi
  have hk : k < s.length := by
    by_contra hc
    rw [List.getD_eq_default _ _ (by omega)] at hp
    omega
  have hb : InB s (idx.set k p) := InB_set (d := s.getD k 0) (by rwa [set_getD_self]) hp
  rw [he _ hb, lastValue, List.filter_eq_nil_iff.2]
  · rfl
  · intro e he'
    rw [decide_eq_true_eq]
    intro h
    refine hu e he' ?_
    rw [h, List.getD_eq_getElem?_getD, List.getElem?_set_self (by rw [hi.length]; exact hk)]
    rfl

theorem slice_zero {Y : Tensor ℝ} {s : List Nat} {k p : Nat} (hY : Y.shape = s) (hp : p < s.getD k 0)
    (h : SliceRel Y k (fun i => if i = p then 1 else 0)) : ∀ i, InB s i → i.getD k 0 = p → Y.at_ i = 0 := by
  intro i hi hip
  rw [C103_empty Y k p (by rw [hY]; exact hp), hY] at h
  have := h i hi
  rwa [← hip, set_getD_self] at this

/-- **C105** for `CP_ALS`: data read from a file in which no line names the index `p` of mode `k` (a user without ratings).
After every successful training on it, whatever the random initial factors, all entries of `full` at this index are 0. -/
theorem C105_cp (pinv : Tensor ℝ → Res (Tensor ℝ)) (hp : PinvOk pinv) (pyFloat : List Char → Option ℝ) (N : Nat)
    (path content : List Char) (entries : List (List Nat × ℝ)) (s : List Nat) (hsup : Supported path)
    (hf : FileOf pyFloat N content entries) (hs : s.length = N) (hb : ∀ e ∈ entries, InB s e.1)
    (h2 : 2 ≤ N) (h25 : N ≤ 25) (hpos : ∀ d ∈ s, 0 < d) (k p : Nat) (hk : k < N) (hpk : p < s.getD k 0)
    (hu : ∀ e ∈ entries, e.1.getD k 0 ≠ p) :
    ∃ T, fullData pyFloat path content (some s) = .ok T ∧
      ∀ (R : Nat) (A0 : List (Tensor ℝ)), FactorsFor s R A0 →
      ∀ (Ar : Arith ℝ) (args : Args ℝ) (steps : Int) (self self' : Self (List (Tensor ℝ)) (Tensor ℝ) (Tensor ℝ))
        (ev : List Int) (hist : List (ℝ × ℝ)),
        train Ar (CP_ALS.cls (cp.main pinv T R)) args steps (.ok A0) self = (self', ev, .ok hist) →
        ∃ Y, self'.full = some Y ∧ Y.shape = s ∧ ∀ i, InB s i → i.getD k 0 = p → Y.at_ i = 0 := by
  obtain ⟨T, hT, hTs, he⟩ := C35_read_shape pyFloat N path content entries s hsup hf hs hb
  have hrel := unnamed_slice hTs he hpk hu
  subst hTs
  refine ⟨T, hT, fun R A0 hA Ar args steps self self' ev hist h => ?_⟩
  obtain ⟨-, Y, h1, h2', h3⟩ := C103_cp pinv hp T R A0 hA (by rw [order, hs]; exact h2) (by rw [order, hs]; exact h25) hpos Ar args
    steps self self' ev hist h k (by rw [order, hs]; exact hk) _ hrel
  exact ⟨Y, h1, h2', slice_zero h2' hpk h3⟩

/-- **C105** for `HOSVD`. -/
theorem C105_hosvd (svd : Tensor ℝ → Res (Tensor ℝ × Tensor ℝ × Tensor ℝ)) (hsv : SvdOk svd)
    (pyFloat : List Char → Option ℝ) (N : Nat) (path content : List Char) (entries : List (List Nat × ℝ)) (s : List Nat)
    (hsup : Supported path) (hf : FileOf pyFloat N content entries) (hs : s.length = N)
    (hb : ∀ e ∈ entries, InB s e.1) (h13 : N ≤ 13) (hpos : ∀ d ∈ s, 0 < d) (ranks : List Nat) (hr : N ≤ ranks.length)
    (k p : Nat) (hk : k < N) (hpk : p < s.getD k 0) (hu : ∀ e ∈ entries, e.1.getD k 0 ≠ p) :
    ∃ T A g Y, fullData pyFloat path content (some s) = .ok T ∧ tucker.HOSVD.run svd T ranks = .ok (A, g, Y) ∧
      Y.shape = s ∧ ∀ i, InB s i → i.getD k 0 = p → Y.at_ i = 0 := by
  obtain ⟨T, hT, hTs, he⟩ := C35_read_shape pyFloat N path content entries s hsup hf hs hb
  have hrel := unnamed_slice hTs he hpk hu
  subst hTs
  obtain ⟨A, g, Y, e1, e2⟩ := C103_hosvd svd hsv T ranks (by rw [order, hs]; omega) (by rw [order, hs]; exact h13) hpos
    (by rw [order, hs]; exact hr) k (by rw [order, hs]; exact hk) _ hrel
  have hYs : Y.shape = T.shape := by
    obtain ⟨A', g', Y', f1, f2, f3, ho, -⟩ := hosvd_ok hsv (X := T) (ranks := ranks) (by rw [order, hs]; omega)
      (by rw [order, hs]; exact h13) hpos (by rw [order, hs]; exact hr)
    rw [e1] at f1; cases f1
    have hne : T.shape ≠ [] := by intro e; rw [e] at hs; simp at hs; omega
    obtain ⟨g', Y', a1, a2, a3, a4, -⟩ := tucker_entries hne (by rw [order, hs]; exact h13) ho.allMat ho.rowDims
    rw [f2] at a1; cases a1
    rw [f3] at a2; cases a2
    exact a4
  exact ⟨T, A, g, Y, hT, e1, hYs, slice_zero hYs hpk e2⟩

/-- **C106**: `HOOI` on data read from a file (`ex/ml_tucker.py`): if some entry of the described tensor is not zero and the
ranks are admissible, reading and training both succeed; the residuals of the history lie in `[0, 1]`, never increase and are within the factor `√order` of the best approximation with these ranks. -/
theorem C106_file_hooi (svd : Tensor ℝ → Res (Tensor ℝ × Tensor ℝ × Tensor ℝ)) (hsv : SvdOk svd)
    (pyFloat : List Char → Option ℝ) (N : Nat) (path content : List Char) (entries : List (List Nat × ℝ)) (s : List Nat)
    (hsup : Supported path) (hf : FileOf pyFloat N content entries) (hs : s.length = N)
    (hb : ∀ e ∈ entries, InB s e.1) (h2 : 2 ≤ N) (h13 : N ≤ 13) (hpos : ∀ d ∈ s, 0 < d)
    (hnz : ∃ i, InB s i ∧ lastValue entries i ≠ 0) (ranks : List Nat) (hr : N ≤ ranks.length) (ha : Admissible s ranks)
    (Ar : Arith ℝ) (args : Args ℝ) (hv : args.validationInternal ≠ 0) (steps : Int) (hst : 1 ≤ steps)
    (self : Self (List (Tensor ℝ)) (Tensor ℝ) (Tensor ℝ)) :
    ∃ T self' ev hist, fullData pyFloat path content (some s) = .ok T ∧
      train Ar (HOOI.cls (tucker.HOOI.main svd T ranks)) args steps (tucker.HOOI.init svd T ranks) self =
        (self', ev, .ok hist) ∧
      1 ≤ hist.length ∧ (hist.map Prod.snd).Pairwise (· ≥ ·) ∧ (∀ p ∈ hist, 0 ≤ p.2 ∧ p.2 ≤ 1) ∧
      ∀ Y, TuckerRankLe s ranks Y → ∀ p ∈ hist,
        p.2 ^ 2 * (boxSum s fun i => lastValue entries i ^ 2) ≤ N * boxSum s fun i => (lastValue entries i - Y.at_ i) ^ 2 := by
  obtain ⟨T, hT, hTs, he⟩ := C35_read_shape pyFloat N path content entries s hsup hf hs hb
  subst hTs
  have hoT : T.order = N := hs
  obtain ⟨hist, hh⟩ := (C74_hooi_admissible svd hsv T ranks (by omega) (by omega) hpos
    (by obtain ⟨i, hi, hi0⟩ := hnz; exact ⟨i, hi, by rw [he i hi]; exact hi0⟩) (by omega) Ar args hv steps hst self).2 ha
  have h : train Ar (HOOI.cls (tucker.HOOI.main svd T ranks)) args steps (tucker.HOOI.init svd T ranks) self =
      (_, _, .ok hist) := Prod.ext rfl (Prod.ext rfl hh)
  refine ⟨T, _, _, hist, hT, h, ?_, (C58_hooi_nonincreasing svd hsv T ranks (by omega) (by omega) hpos (by omega) Ar args
    steps self _ _ hist h).1, C75_hooi_residual_at_most_one svd hsv T ranks (by omega) (by omega) hpos (by omega) Ar args
    steps self _ _ hist h, fun Y hY p hp => ?_⟩
  · obtain ⟨s0, o, k, -, h1, -⟩ := C43_history Ar _ args steps _ self _ _ hist h
    omega
  · have := C90_hooi_quasi_optimal svd hsv T ranks (by omega) (by omega) hpos (by omega) Y hY Ar args steps self _ _ hist h
      p hp
    rw [hoT] at this
    unfold normSqT distSqT at this
    rw [boxSum_congr (fun i hi => by rw [he i hi]), boxSum_congr (f := fun i => (T.at_ i - Y.at_ i) ^ 2)
      (fun i hi => by rw [he i hi])] at this
    exact this

/-- The hypotheses about the file are met: user 1 of three has no rating, the tensor is not zero, ranks (2, 2) are
admissible. -/
example : let f := fun s => (pyInt s).map fun z : Int => (z : ℝ)
    let entries : List (List Nat × ℝ) := [([0, 1], 5), ([2, 0], 7)]
    FileOf f 2 "0,1,5\n2,0,7".toList entries ∧ Supported "ratings.csv".toList ∧ (∀ e ∈ entries, InB [3, 2] e.1) ∧
      (∀ e ∈ entries, e.1.getD 0 0 ≠ 1) ∧ (∃ i, InB [3, 2] i ∧ lastValue entries i ≠ 0) ∧ Admissible [3, 2] [2, 2] := by
  intro f entries
  have p5 : pyInt "5".toList = some 5 := by decide +kernel
  have p7 : pyInt "7".toList = some 7 := by decide +kernel
  refine ⟨⟨by norm_num, by simp [entries], _, csvOf_plain (lines := ["0,1,5".toList, "2,0,7".toList])
    (lines_unlines (ls := ["0,1,5".toList, "2,0,7".toList]) (by decide) (by decide)) (by decide) (by decide), ?_⟩, ⟨"ratings".toList, Or.inl rfl⟩, ?_, ?_, ⟨[0, 1], by decide, ?_⟩, ?_⟩
  · have hfil : (["0,1,5".toList, "2,0,7".toList] : List (List Char)).filter (· ≠ []) = ["0,1,5".toList, "2,0,7".toList] := rfl
    rw [hfil]
    refine List.Forall₂.cons ⟨["0".toList, "1".toList], "5".toList, rfl, rfl, ints_iff.1 (by decide +kernel), ?_⟩
      (List.Forall₂.cons ⟨["2".toList, "0".toList], "7".toList, rfl, rfl, ints_iff.1 (by decide +kernel), ?_⟩ List.Forall₂.nil)
    · show (pyInt "5".toList).map _ = _
      rw [p5]; simp
    · show (pyInt "7".toList).map _ = _
      rw [p7]; simp
  · intro e he
    simp only [entries, List.mem_cons, List.not_mem_nil, or_false] at he
    rcases he with rfl | rfl <;> decide
  · intro e he
    simp only [entries, List.mem_cons, List.not_mem_nil, or_false] at he
    rcases he with rfl | rfl <;> decide
  · simp [entries, lastValue]
  · change ∀ n < 2, _
    decide

end TD.Props
