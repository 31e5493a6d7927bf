import Mathlib.Data.Fintype.Fin
import Verif.Props.PitfShrink

/-! # The truncated shrinkage of the numpy version -/
namespace TD.Props
open TD TD.pitf Matrix Spec

/-- Number of singular values that reach the threshold. -/
noncomputable def reaching {k : Nat} (s : Fin k → ℝ) (tao : ℝ) : Nat := by
  classical exact (Finset.univ.filter fun i => tao ≤ s i).card

/-- Number of singular values above the threshold. -/
noncomputable def above {k : Nat} (s : Fin k → ℝ) (tao : ℝ) : Nat := by
  classical exact (Finset.univ.filter fun i => tao < s i).card

theorem card_prefix {k : Nat} (P : Fin k → Prop) [DecidablePred P] (hP : ∀ i j, i ≤ j → P j → P i) (i : Fin k) :
    P i ↔ i.val < (Finset.univ.filter P).card := by
  classical
  let p := if h : ∃ j, ∃ hj : j < k, ¬ P ⟨j, hj⟩ then Nat.find h else k
  have hp : ∀ i : Fin k, P i ↔ i.val < p := by
    intro i
    by_cases h : ∃ j, ∃ hj : j < k, ¬ P ⟨j, hj⟩
    · have : p = Nat.find h := dif_pos h
      rw [this, Nat.lt_find_iff]
      constructor
      · rintro hi m hm ⟨hmk, hn⟩
        exact hn (hP _ i hm hi)
      · intro hi
        by_contra hn
        exact hi i.val le_rfl ⟨i.isLt, hn⟩
    · have : p = k := dif_neg h
      rw [this]
      push Not at h
      exact ⟨fun _ => i.isLt, fun _ => h i.val i.isLt⟩
  have hc : (Finset.univ.filter P).card = min k p := by
    rw [← Fin.card_filter_val_lt]
    congr 1
    ext j
    simp [hp j]
  rw [hc, hp i]
  have := i.isLt
  omega

theorem lt_reaching {k : Nat} {s : Fin k → ℝ} (hs : ∀ i j, i ≤ j → s j ≤ s i) (tao : ℝ) (i : Fin k) :
    tao ≤ s i ↔ i.val < reaching s tao := by
  classical
  unfold reaching
  convert card_prefix (fun i => tao ≤ s i) (fun i j hij h => h.trans (hs i j hij)) i

theorem lt_above {k : Nat} {s : Fin k → ℝ} (hs : ∀ i j, i ≤ j → s j ≤ s i) (tao : ℝ) (i : Fin k) :
    tao < s i ↔ i.val < above s tao := by
  classical
  unfold above
  convert card_prefix (fun i => tao < s i) (fun i j hij h => h.trans_le (hs i j hij)) i

theorem above_le {k : Nat} (s : Fin k → ℝ) (tao : ℝ) : above s tao ≤ k := by
  classical
  unfold above
  exact (Finset.card_filter_le _ _).trans (by simp)

theorem getD_ofFn {k : Nat} (s : Fin k → ℝ) (i : Nat) (hi : i < k) : (List.ofFn s).getD i 0 = s ⟨i, hi⟩ := by
  rw [List.getD_eq_getElem?_getD, List.getElem?_ofFn, dif_pos hi]; rfl

theorem searchRank_eq {k : Nat} {s : Fin k → ℝ} (hs : ∀ i j, i ≤ j → s j ≤ s i) (tao : ℝ) (r : Nat) :
    np.searchRank (List.ofFn s) tao r
      = if max (reaching s tao) (r + 1) < k then max (reaching s tao - 1) r else r := by
  unfold np.searchRank
  have hlt : ∀ i (hi : i < k), (List.ofFn s).getD i 0 < tao ↔ reaching s tao ≤ i := by
    intro i hi
    rw [getD_ofFn s i hi, ← not_le, lt_reaching hs tao ⟨i, hi⟩]
    simp
  by_cases hm : max (reaching s tao) (r + 1) < k
  · rw [if_pos hm]
    have : (List.range' (r + 1) ((List.ofFn s).length - (r + 1))).find? (fun i => decide ((List.ofFn s).getD i 0 < tao))
        = some (max (reaching s tao) (r + 1)) := by
      rw [List.find?_range'_eq_some]
      refine ⟨?_, ?_, ?_⟩
      · exact decide_eq_true ((hlt _ hm).2 (le_max_left _ _))
      · rw [List.mem_range'_1, List.length_ofFn]
        omega
      · intro j hj1 hj2
        have hjk : j < k := hj2.trans hm
        have : ¬ (List.ofFn s).getD j 0 < tao := by
          rw [hlt j hjk]
          omega
        rw [decide_eq_false this]
        rfl
    rw [this]
    show max (reaching s tao) (r + 1) - 1 = _
    omega
  · rw [if_neg hm]
    have : (List.range' (r + 1) ((List.ofFn s).length - (r + 1))).find? (fun i => decide ((List.ofFn s).getD i 0 < tao))
        = none := by
      rw [List.find?_range'_eq_none]
      intro j hj1 hj2
      rw [List.length_ofFn] at hj2
      have hjk : j < k := by omega
      have : ¬ (List.ofFn s).getD j 0 < tao := by
        rw [hlt j hjk]
        omega
      rw [decide_eq_false this]
      rfl
    rw [this]

/-- The sum of the terms is `Uᵀ diag(t) V`. -/
theorem terms_eq {p q : Nat} (u : Mat p p) (vh : Mat q q) (s : Fin (min p q) → ℝ) (tao : ℝ) (r : Nat)
    (hr : r ≤ min p q) :
    ∑ j : Fin r, ((List.ofFn s).getD j 0 - tao) • vecMulVec (u ⟨j, by omega⟩) (vh ⟨j, by omega⟩)
      = uᵀ * (diagRect fun j => if j.val < r then s j - tao else 0) * vh := by
  ext i k
  rw [Matrix.sum_apply, Matrix.mul_apply]
  simp only [mul_diagRect_apply, Matrix.smul_apply, vecMulVec_apply, smul_eq_mul, transpose_apply]
  let g : Nat → ℝ := fun j => if h : j < min p q then (s ⟨j, h⟩ - tao) * (u ⟨j, by omega⟩ i * vh ⟨j, by omega⟩ k) else 0
  have h1 : ∀ j : Fin r, ((List.ofFn s).getD j 0 - tao) * (u ⟨j, by omega⟩ i * vh ⟨j, by omega⟩ k) = g j := by
    intro j
    have hj : j.val < min p q := by omega
    simp only [g]
    rw [dif_pos hj, getD_ofFn s _ hj]
  have h2 : ∀ j : Fin q, (if h : j.val < p then u ⟨j, h⟩ i * (if j.val < r then s ⟨j, by omega⟩ - tao else 0) else 0)
      * vh j k = (fun j : Nat => if j < r then g j else 0) j := by
    intro j
    by_cases hj : j.val < r
    · have hj' : j.val < min p q := by omega
      have hp : j.val < p := by omega
      simp only [g]
      rw [dif_pos hp, if_pos hj, if_pos hj, dif_pos hj']
      ring
    · simp only [if_neg hj, mul_zero]
      split <;> simp
  rw [Finset.sum_congr rfl fun j _ => h1 j, Finset.sum_congr rfl fun j _ => h2 j,
    Fin.sum_univ_eq_sum_range (fun j => g j) r, Fin.sum_univ_eq_sum_range (fun j : Nat => if j < r then g j else 0) q]
  rw [← Finset.sum_filter]
  congr 1
  ext j
  simp only [Finset.mem_range, Finset.mem_filter]
  omega

/-! ## C98 -/

/-- The rank returned: with `c` the number of singular values reaching the threshold, `r` is raised to `c - 1` (one
less than one would expect) if some later singular value falls below the threshold, and kept otherwise; the matrix
has the singular values `|s_j - tao|`, `j < r'`.  The call fails only if `r` exceeds the number of singular values. -/
theorem C98_rank {p q : Nat} (svd : np.Svd) (hs : NpSvdOk svd) (M : Mat p q) (tao : ℝ) (r : Nat) (hr : r ≤ min p q) :
    ∃ N r', np.shrinkageBorC svd M tao r = .ok (N, r')
      ∧ r' = (if max (reaching (svd (np.centralization M)).2.1 tao) (r + 1) < min p q
          then max (reaching (svd (np.centralization M)).2.1 tao - 1) r else r)
      ∧ r ≤ r' ∧ r' ≤ min p q
      ∧ (∃ (U : Mat p p) (V : Mat q q), Uᵀ * U = 1 ∧ Vᵀ * V = 1
          ∧ N = U * (diagRect fun j => if j.val < r' then (svd (np.centralization M)).2.1 j - tao else 0) * Vᵀ)
      ∧ frobSq N = ∑ j, if j.val < r' then ((svd (np.centralization M)).2.1 j - tao) ^ 2 else 0 := by
  have h := hs (np.centralization M)
  have he := searchRank_eq h.anti tao r
  have hr' : np.searchRank (List.ofFn (svd (np.centralization M)).2.1) tao r ≤ min p q := by
    rw [he]; split <;> omega
  have hrr : r ≤ np.searchRank (List.ofFn (svd (np.centralization M)).2.1) tao r := by
    rw [he]; split <;> omega
  refine ⟨_, _, by unfold np.shrinkageBorC; exact dif_pos hr', he, hrr, hr', ?_⟩
  rw [terms_eq _ _ _ _ _ hr']
  have hv : (svd (np.centralization M)).2.2ᵀ * (svd (np.centralization M)).2.2 = 1 := by
    have := h.orthV
    rw [transpose_transpose] at this
    exact mul_eq_one_comm.1 this
  have hu : (svd (np.centralization M)).1ᵀᵀ * (svd (np.centralization M)).1ᵀ = 1 := by
    rw [transpose_transpose]; exact mul_eq_one_comm.1 h.orthU
  refine ⟨⟨_, (svd (np.centralization M)).2.2ᵀ, hu, h.orthV, by rw [transpose_transpose]⟩, ?_⟩
  rw [frobSq_mul_orth' _ hv, frobSq_orth_mul hu, frobSq_diagRect]
  refine Finset.sum_congr rfl fun j _ => ?_
  split <;> simp

theorem C98_fails {p q : Nat} (svd : np.Svd) (hs : NpSvdOk svd) (M : Mat p q) (tao : ℝ) (r : Nat) (hr : min p q < r) :
    np.shrinkageBorC svd M tao r = .error .indexError ∧ np.shrinkageA svd M tao r = .error .indexError := by
  have h := hs (np.centralization M)
  have he := searchRank_eq h.anti tao r
  have hr' : ¬ np.searchRank (List.ofFn (svd (np.centralization M)).2.1) tao r ≤ min p q := by
    rw [he]; split <;> omega
  have h1 : np.shrinkageBorC svd M tao r = .error .indexError := by unfold np.shrinkageBorC; exact dif_neg hr'
  refine ⟨h1, ?_⟩
  unfold np.shrinkageA
  rw [h1]
  rfl

/-- `shrinkageA` adds the soft-thresholded total, spread evenly. -/
theorem C98_total {p q : Nat} (hp : 0 < p) (hq : 0 < q) (svd : np.Svd) (M : Mat p q) (tao : ℝ) (ht : 0 ≤ tao) (r : Nat)
    (N : Mat p q) (r' : Nat) (h : np.shrinkageBorC svd M tao r = .ok (N, r')) :
    ∃ N', np.shrinkageA svd M tao r = .ok (N', r') ∧ (∀ i j, N' i j = N i j + soft (total M) tao / (p * q))
      ∧ total N' = total N + soft (total M) tao := by
  unfold np.shrinkageA
  rw [h]
  have hent : ∀ i j, (N + ((max 0 (total M - tao) + min 0 (total M + tao)) / ((p : ℝ) * q)) • (ones p 1 * ones 1 q)) i j
      = N i j + soft (total M) tao / (p * q) := by
    intro i j
    simp [ones, Matrix.mul_apply, max_min_soft ht]
  refine ⟨_, rfl, hent, ?_⟩
  have hpq : (p : ℝ) * q ≠ 0 := (mul_pos (Nat.cast_pos.2 hp) (Nat.cast_pos.2 hq)).ne'
  refine (Finset.sum_congr rfl fun i _ => Finset.sum_congr rfl fun j _ => hent i j).trans ?_
  simp only [Finset.sum_add_distrib, Finset.sum_const, Finset.card_univ, Fintype.card_fin, nsmul_eq_mul]
  unfold total
  congr 1
  field_simp

/-- It is the singular value thresholding if the left factor is symmetric and `r` is already the right rank. -/
theorem C98_thresholds_partial {p q : Nat} (svd : np.Svd) (hs : NpSvdOk svd) (M : Mat p q) (tao : ℝ)
    (hsym : (svd (np.centralization M)).1ᵀ = (svd (np.centralization M)).1)
    (htie : reaching (svd (np.centralization M)).2.1 tao ≤ above (svd (np.centralization M)).2.1 tao + 1) :
    ∃ S, np.shrink svd M tao "normal" = some S
      ∧ np.shrinkageBorC svd M tao (above (svd (np.centralization M)).2.1 tao)
        = .ok (S, above (svd (np.centralization M)).2.1 tao) := by
  have h := hs (np.centralization M)
  have he := searchRank_eq h.anti tao (above (svd (np.centralization M)).2.1 tao)
  beta_reduce at he
  have hr' : np.searchRank (List.ofFn (svd (np.centralization M)).2.1) tao (above (svd (np.centralization M)).2.1 tao)
      = above (svd (np.centralization M)).2.1 tao := by
    rw [he]; split <;> omega
  have hle := above_le (svd (np.centralization M)).2.1 tao
  refine ⟨(svd (np.centralization M)).1 * (diagRect fun i => max 0 ((svd (np.centralization M)).2.1 i - tao))
    * (svd (np.centralization M)).2.2, by simp [np.shrink, np.SVT], ?_⟩
  unfold np.shrinkageBorC
  refine (dif_pos (hr'.symm ▸ hle)).trans ?_
  congr 1
  refine Prod.ext ?_ hr'
  show ∑ j : Fin _, _ = _
  rw [terms_eq _ _ _ _ _ (hr'.symm ▸ hle), hr', hsym]
  congr 2
  congr 1
  funext j
  by_cases hj : j.val < above (svd (np.centralization M)).2.1 tao
  · rw [if_pos hj, max_eq_right]
    have := (lt_above h.anti tao j).2 hj
    linarith
  · rw [if_neg hj, max_eq_left]
    have := mt (lt_above h.anti tao j).1 hj
    linarith [not_lt.1 this]

/-- A solver that returns a symmetric left factor when there is one. -/
theorem exists_symSvd : ∃ svd : np.Svd, NpSvdOk svd ∧ ∀ {m n : Nat} (M : Mat m n),
    (∃ u s v, IsSVD M u s v ∧ uᵀ = u) → (svd M).1ᵀ = (svd M).1 := by
  classical
  have hex : ∀ {m n : Nat} (M : Mat m n), ∃ t : Mat m m × (Fin (min m n) → ℝ) × Mat n n,
      IsSVD M t.1 t.2.1 t.2.2ᵀ ∧ ((∃ u s v, IsSVD M u s v ∧ uᵀ = u) → t.1ᵀ = t.1) := by
    intro m n M
    by_cases h : ∃ u s v, IsSVD M u s v ∧ uᵀ = u
    · obtain ⟨u, s, v, h1, h2⟩ := h
      exact ⟨(u, s, vᵀ), by rw [transpose_transpose]; exact h1, fun _ => h2⟩
    · obtain ⟨svd, hs⟩ := exists_npSvd
      exact ⟨svd M, hs M, fun h' => absurd h' h⟩
  exact ⟨fun {m n} M => (hex M).choose, fun {m n} M => (hex M).choose_spec.1, fun {m n} M => (hex M).choose_spec.2⟩

example : ∃ (svd : np.Svd) (M : Mat 2 2), NpSvdOk svd ∧ np.centralization M = M ∧ M ≠ 0
    ∧ (svd (np.centralization M)).1ᵀ = (svd (np.centralization M)).1
    ∧ reaching (svd (np.centralization M)).2.1 0 ≤ above (svd (np.centralization M)).2.1 0 + 1 := by
  obtain ⟨svd, hs, hsym⟩ := exists_symSvd
  let M : Mat 2 2 := !![2, 0; -2, 0]
  have hcen : np.centralization M = M := C61_fixed _ (by intro j; fin_cases j <;> simp [M])
  have hM : M ≠ 0 := fun e => by have := congrFun (congrFun e 0) 0; simp [M] at this
  have hq : √2 * √2 = (2 : ℝ) := Real.mul_self_sqrt (by norm_num)
  have h : IsSVD M ((√2 / 2) • !![1, -1; -1, -1]) (fun i => if i.val = 0 then 2 * √2 else 0) 1 := by
    refine ⟨?_, by simp, ?_, ?_, ?_⟩
    · ext i j
      fin_cases i <;> fin_cases j <;> simp [Matrix.mul_apply, Fin.sum_univ_two] <;> ring_nf <;> norm_num
    · intro i; split <;> positivity
    · intro i j hij
      beta_reduce
      by_cases hj : j.val = 0
      · rw [if_pos hj, if_pos (Nat.le_zero.1 (hj ▸ hij))]
      · rw [if_neg hj]; split <;> positivity
    · have hd : (diagRect (fun i => if i.val = 0 then 2 * √2 else 0) : Mat 2 2) = !![2 * √2, 0; 0, 0] := by
        ext i j
        fin_cases i <;> fin_cases j <;> simp [diagRect]
      rw [hd]
      ext i j
      fin_cases i <;> fin_cases j <;> simp [M, Matrix.mul_apply, Fin.sum_univ_two] <;> nlinarith
  refine ⟨svd, M, hs, hcen, hM, hsym _ ⟨_, _, _, hcen.symm ▸ h, by ext i j; fin_cases i <;> fin_cases j <;> simp⟩, ?_⟩
  rw [hcen]
  have h' := hs M
  beta_reduce at h'
  have hpos : 0 < (svd M).2.1 (0 : Fin 2) := by
    refine lt_of_le_of_ne (h'.nonneg _) fun e => hM ?_
    have hz : ∀ i, (svd M).2.1 i = 0 := fun i => le_antisymm (e.symm ▸ h'.anti _ i (Nat.zero_le _)) (h'.nonneg i)
    have hd : (diagRect (svd M).2.1 : Mat 2 2) = 0 := by
      ext i j; simp only [diagRect, hz]; split <;> rfl
    rw [h'.eq, hd]; simp
  have h0 : 0 < above (svd M).2.1 0 := (lt_above h'.anti 0 (0 : Fin 2)).1 hpos
  have h2 : reaching (svd M).2.1 0 ≤ 2 := by
    classical
    unfold reaching
    exact (Finset.card_filter_le _ _).trans (by simp)
  beta_reduce
  omega

/-- The singular values of `badMat`. -/
theorem badMat_sv {u : Mat 3 3} {s : Fin (min 3 3) → ℝ} {v : Mat 3 3} (h : IsSVD badMat u s v) :
    s (0 : Fin 3) * s (0 : Fin 3) = 8 ∧ s (1 : Fin 3) * s (1 : Fin 3) = 6 ∧ s (2 : Fin 3) = 0 := by
  have hvv : v * vᵀ = 1 := mul_eq_one_comm.1 h.orthV
  let d : Fin 3 → ℝ := s
  have hd : (diagRect s : Mat 3 3) = diagonal d := by
    ext i j
    by_cases hij : i = j
    · subst hij; simp [diagRect, d]
    · rw [diagonal_apply_ne _ hij, diagRect, dif_neg (fun e => hij (Fin.ext e))]
  have hnn : ∀ i, 0 ≤ d i := fun i => h.nonneg _
  have han : ∀ i j : Fin 3, i ≤ j → d j ≤ d i := fun i j hij => h.anti _ _ hij
  have h2 : (badMatᵀ * badMat) * v = v * (diagonal d * diagonal d) := by
    rw [h.eq, hd]
    simp only [transpose_mul, transpose_transpose, diagonal_transpose]
    calc v * (diagonal d * uᵀ) * (u * diagonal d * vᵀ) * v
        = v * (diagonal d * (uᵀ * u) * diagonal d) * (vᵀ * v) := by simp only [Matrix.mul_assoc]
      _ = _ := by rw [h.orthU, h.orthV, Matrix.mul_one, Matrix.mul_one]
  have hM : badMatᵀ * badMat = diagonal ![0, 8, 6] := by
    ext i j
    fin_cases i <;> fin_cases j <;> simp [badMat, Matrix.mul_apply, Fin.sum_univ_three] <;> norm_num
  have hev : ∀ i j, ![(0:ℝ), 8, 6] i * v i j = v i j * (d j * d j) := fun i j => by
    have := congrFun (congrFun h2 i) j
    rwa [hM, diagonal_mul, diagonal_mul_diagonal, mul_diagonal] at this
  have hrow : ∀ i, ∃ j, v i j ≠ 0 := by
    intro i
    by_contra hcon
    push Not at hcon
    have := congrFun (congrFun hvv i) i
    rw [Matrix.mul_apply, Finset.sum_eq_zero (fun j _ => by rw [hcon j, zero_mul]), one_apply_eq] at this
    exact zero_ne_one this
  have hex : ∀ i, ∃ j, d j * d j = ![(0:ℝ), 8, 6] i := fun i => by
    obtain ⟨j, hj⟩ := hrow i
    exact ⟨j, (mul_left_cancel₀ hj ((mul_comm _ _).trans (hev i j))).symm⟩
  obtain ⟨j0, hd0⟩ := hex 0
  obtain ⟨j1, hd1⟩ := hex 1
  obtain ⟨j2, hd2⟩ := hex 2
  simp at hd0 hd1 hd2
  have hsq : ∀ i j : Fin 3, i ≤ j → d j * d j ≤ d i * d i := fun i j hij =>
    mul_self_le_mul_self (hnn j) (han i j hij)
  have q01 := hsq 0 1 (by decide)
  have q12 := hsq 1 2 (by decide)
  have m2 : d 2 = 0 := by
    have := han j0 2 (Fin.le_last j0)
    have := hnn 2
    linarith
  have a0 : d 0 * d 0 = 8 ∧ d 1 * d 1 = 6 := by
    rw [m2] at q12
    fin_cases j1 <;> fin_cases j2 <;> simp [m2] at hd1 hd2 <;> constructor <;> linarith
  exact ⟨a0.1, a0.2, m2⟩

/-- The column space of `badMat` fixes the left factor up to signs. -/
theorem badMat_left {u : Mat 3 3} {s : Fin (min 3 3) → ℝ} {v : Mat 3 3} (h : IsSVD badMat u s v) :
    u 1 0 * u 1 0 = 1 / 2 ∧ u 0 1 * u 0 1 = 1 / 6 := by
  obtain ⟨s0, s1, s2⟩ := badMat_sv h
  let d : Fin 3 → ℝ := s
  have hd : (diagRect s : Mat 3 3) = diagonal d := by
    ext i j
    by_cases hij : i = j
    · subst hij; simp [diagRect, d]
    · rw [diagonal_apply_ne _ hij, diagRect, dif_neg (fun e => hij (Fin.ext e))]
  have h2 : (badMat * badMatᵀ) * u = u * (diagonal d * diagonal d) := by
    rw [h.eq, hd]
    simp only [transpose_mul, transpose_transpose, diagonal_transpose]
    calc u * diagonal d * vᵀ * (v * (diagonal d * uᵀ)) * u
        = u * (diagonal d * (vᵀ * v) * diagonal d) * (uᵀ * u) := by simp only [Matrix.mul_assoc]
      _ = _ := by rw [h.orthU, h.orthV, Matrix.mul_one, Matrix.mul_one]
  have hM : badMat * badMatᵀ = !![5, -3, -2; -3, 5, -2; -2, -2, 4] := by
    ext i j
    fin_cases i <;> fin_cases j <;> simp [badMat, Matrix.mul_apply, Fin.sum_univ_three] <;> norm_num
  rw [hM, diagonal_mul_diagonal] at h2
  have e : ∀ i j, _ := fun i j => congrFun (congrFun h2 i) j
  have o : ∀ i j, _ := fun i j => congrFun (congrFun h.orthU i) j
  have d0 : d 0 * d 0 = 8 := s0
  have d1 : d 1 * d 1 = 6 := s1
  have e00 := e 0 0
  have e10 := e 1 0
  have e20 := e 2 0
  have e01 := e 0 1
  have e11 := e 1 1
  have e21 := e 2 1
  have o0 := o 0 0
  have o1 := o 1 1
  simp [Matrix.mul_apply, Fin.sum_univ_three, d0, d1] at e00 e10 e20 e01 e11 e21 o0 o1
  have c0 : u 2 0 = 0 := by linarith
  have a0 : u 0 0 = - u 1 0 := by linarith
  have c1 : u 2 1 = - 2 * u 0 1 := by linarith
  have a1 : u 1 1 = u 0 1 := by linarith
  rw [c0, a0] at o0
  rw [c1, a1] at o1
  constructor <;> linarith

/-- Not the thresholding of `shrink`: the rank search stops one short, so a singular value above the threshold is
dropped. -/
theorem C98_drops_false (svd : np.Svd) (hs : NpSvdOk svd) :
    ∃ (M N S : Mat 3 3) (r : Nat), np.shrinkageBorC svd M 1 0 = .ok (N, r) ∧ np.shrink svd M 1 "normal" = some S
      ∧ r < above (svd (np.centralization M)).2.1 1 ∧ frobSq N < frobSq S := by
  have hcen : np.centralization badMat = badMat := C61_fixed _ badMat_zero
  have h := hs badMat
  beta_reduce at h
  obtain ⟨s0, s1, s2⟩ := badMat_sv h
  obtain ⟨N, r, e1, e2, -, -, -, e3⟩ := C98_rank svd hs badMat 1 0 (by decide)
  rw [hcen] at e2 e3
  have hv : (svd badMat).2.2ᵀ * (svd badMat).2.2 = 1 := by
    have := h.orthV
    rw [transpose_transpose] at this
    exact mul_eq_one_comm.1 this
  have hS : np.shrink svd badMat 1 "normal" = some ((svd badMat).1 * (diagRect fun i => max 0 ((svd badMat).2.1 i - 1))
      * (svd badMat).2.2) := by simp [np.shrink, np.SVT, hcen]
  have hf : frobSq ((svd badMat).1 * (diagRect fun i => max 0 ((svd badMat).2.1 i - 1)) * (svd badMat).2.2)
      = ∑ i, max 0 ((svd badMat).2.1 i - 1) ^ 2 := by
    rw [frobSq_mul_orth' _ hv, frobSq_orth_mul h.orthU, frobSq_diagRect]
  have key : ∀ s : Fin 3 → ℝ, (∀ i, 0 ≤ s i) → (∀ i j, i ≤ j → s j ≤ s i) → s 0 * s 0 = 8 → s 1 * s 1 = 6 → s 2 = 0 →
      reaching s 1 = 2 ∧ 1 < above s 1 ∧ (∑ j : Fin 3, if j.val < 1 then (s j - 1) ^ 2 else 0)
        < ∑ j : Fin 3, max 0 (s j - 1) ^ 2 := by
    intro s hnn han s0 s1 s2
    have p0 : 1 < s 0 := by
      by_contra hc
      have : s 0 * s 0 ≤ 1 * 1 := mul_le_mul (not_lt.1 hc) (not_lt.1 hc) (hnn 0) zero_le_one
      linarith
    have p1 : 1 < s 1 := by
      by_contra hc
      have : s 1 * s 1 ≤ 1 * 1 := mul_le_mul (not_lt.1 hc) (not_lt.1 hc) (hnn 1) zero_le_one
      linarith
    refine ⟨?_, (lt_above han 1 1).1 p1, ?_⟩
    · have l1 : 1 < reaching s 1 := (lt_reaching han 1 1).1 p1.le
      have l2 : ¬ 2 < reaching s 1 := mt (lt_reaching han 1 2).2 (by rw [s2]; norm_num)
      omega
    · simp only [Fin.sum_univ_three]
      rw [if_pos (by decide), if_neg (by decide), if_neg (by decide), max_eq_right (by linarith), max_eq_right (by linarith)]
      have h2 := sq_nonneg (max 0 (s 2 - 1))
      have h3 : 0 < s 1 - 1 := by linarith
      have h4 : 0 < (s 1 - 1) ^ 2 := by positivity
      linarith
  obtain ⟨k1, k2, k3⟩ := key (svd badMat).2.1 h.nonneg h.anti s0 s1 s2
  have k1' : reaching (svd badMat).2.1 1 = 2 := k1
  rw [k1'] at e2
  have hr : r = 1 := e2.trans (by decide)
  subst hr
  refine ⟨badMat, N, _, 1, e1, hS, by rw [hcen]; exact k2, ?_⟩
  rw [e3, hf]
  exact k3

/-- Nor with the right rank: the rows of the left factor are used in place of its columns. -/
theorem C98_rows_false (svd : np.Svd) (hs : NpSvdOk svd) :
    ∃ M N : Mat 3 3, np.shrinkageBorC svd M 0 2 = .ok (N, 2) ∧ np.shrink svd M 0 "normal" = some M ∧ N ≠ M := by
  have hcen : np.centralization badMat = badMat := C61_fixed _ badMat_zero
  have h := hs badMat
  obtain ⟨s0, s1, s2⟩ := badMat_sv h
  obtain ⟨u10, u01⟩ := badMat_left h
  beta_reduce at h s0 s1 s2 u10 u01
  have he := searchRank_eq h.anti 0 2
  have hr : np.searchRank (List.ofFn (svd badMat).2.1) 0 2 = 2 := by
    rw [he, if_neg]
    have : ((3 : Nat) ⊓ 3) = 3 := rfl
    omega
  have hok : np.shrinkageBorC svd badMat 0 2
      = .ok ((svd badMat).1ᵀ * (diagRect fun j => if j.val < 2 then (svd badMat).2.1 j - 0 else 0) * (svd badMat).2.2, 2) := by
    unfold np.shrinkageBorC
    rw [hcen]
    refine (dif_pos (hr.symm ▸ (by decide))).trans ?_
    congr 1
    refine Prod.ext ?_ hr
    show ∑ j : Fin _, _ = _
    rw [terms_eq _ _ _ _ _ (hr.symm ▸ (by decide)), hr]
  refine ⟨badMat, _, hok, by rw [C66_numpy_shrink_zero_partial svd hs, hcen], ?_⟩
  have ht : (diagRect fun j => if j.val < 2 then (svd badMat).2.1 j - 0 else 0 : Mat 3 3) = diagRect (svd badMat).2.1 := by
    ext i j
    simp only [diagRect]
    by_cases hij : i.val = j.val
    · rw [dif_pos hij, dif_pos hij]
      by_cases hi : i.val < 2
      · rw [if_pos hi, sub_zero]
      · rw [if_neg hi]
        have : (⟨i.val, by omega⟩ : Fin (min 3 3)) = (2 : Fin 3) := Fin.ext (by show i.val = 2; omega)
        rw [this, s2]
    · rw [dif_neg hij, dif_neg hij]
  rw [ht]
  intro heq
  have h1 : (svd badMat).1ᵀ * diagRect (svd badMat).2.1 = (svd badMat).1 * diagRect (svd badMat).2.1 := by
    have := heq.trans h.eq
    rw [transpose_transpose] at this
    have := congrArg (fun X : Mat 3 3 => X * (svd badMat).2.2ᵀ) this
    have hv := h.orthV
    rw [transpose_transpose] at hv
    simpa [Matrix.mul_assoc, hv] using this
  have h2 := congrFun (congrFun h1 1) 0
  rw [mul_diagRect_apply, mul_diagRect_apply, dif_pos (by decide), dif_pos (by decide)] at h2
  have hs0 : (svd badMat).2.1 (0 : Fin 3) ≠ 0 := fun e => by rw [e] at s0; norm_num at s0
  have h3 : (svd badMat).1ᵀ 1 0 = (svd badMat).1 1 0 := mul_right_cancel₀ hs0 h2
  rw [transpose_apply] at h3
  rw [h3, u10] at u01
  norm_num at u01

/-- The TensorFlow versions: `shrinkageA` raises in every call, `shrinkageBorC` in every call that asks for a rank or passes a matrix of more than
one singular value or row; what it returns in the remaining ones is the number 0. -/
theorem C98_tensorflow_false {p q : Nat} (session : Bool) (M : Mat p q) (tao : ℝ) (r : Nat) :
    (∃ e, tfl.shrinkageA session M tao r = .error e) ∧
    ((∃ x, tfl.shrinkageBorC session M tao r = .ok x) → r = 0 ∧ p * min p q ≤ 1 ∧ tfl.shrinkageBorC session M tao r = .ok (0, 0)) := by
  unfold tfl.shrinkageA tfl.shrinkageBorC
  split_ifs with h1 h2 h3 h4
  · exact ⟨⟨_, rfl⟩, fun ⟨x, hx⟩ => by cases hx⟩
  · exact ⟨⟨_, rfl⟩, fun ⟨x, hx⟩ => by cases hx⟩
  · exact ⟨⟨_, rfl⟩, fun ⟨x, hx⟩ => by cases hx⟩
  · exact ⟨⟨_, rfl⟩, fun ⟨x, hx⟩ => by cases hx⟩
  · obtain rfl : r = 0 := by omega
    exact ⟨⟨_, rfl⟩, fun _ => ⟨rfl, by omega, rfl⟩⟩

end TD.Props
