import Verif.Lemmas.MatrixBest
import Verif.Props.LowerBound
import Verif.Props.Rotate

/-!
# C167 : HOOI and HOSVD on matrices
-/
namespace TD.Props
open TD Spec Tensor ops fact Matrix

theorem hosvd_at {X : Tensor ℝ} {ranks : List Nat} {A : List (Tensor ℝ)}
    (h : ∀ n < X.order, ∃ M U s V,
        ∃ h : min (ranks.getD n 0) (min (X.shape.getD n 0) (otherSize X.shape n)) ≤
          min (X.shape.getD n 0) (otherSize X.shape n),
        A[n]? = some M ∧ M.shape = [X.shape.getD n 0, min (ranks.getD n 0) (min (X.shape.getD n 0) (otherSize X.shape n))] ∧
        IsThinSVD (unfM X n (X.shape.getD n 0) (otherSize X.shape n)) U s V ∧
        toMat M (X.shape.getD n 0) (min (ranks.getD n 0) (min (X.shape.getD n 0) (otherSize X.shape n))) = cols U _ h)
    {k m J p : Nat} (hk : k < X.order) (hm : X.shape.getD k 0 = m) (hJ : otherSize X.shape k = J)
    (hp : min (ranks.getD k 0) (min m J) = p) :
    ∃ M U s V, ∃ h : p ≤ min m J, A[k]? = some M ∧ M.shape = [m, p] ∧ IsThinSVD (unfM X k m J) U s V ∧
      toMat M m p = cols U p h := by
  subst hm hJ hp
  exact h k hk

/-- The two factors of `HOSVD` on a matrix. -/
theorem hosvd_two {svd : Tensor ℝ → Res (Tensor ℝ × Tensor ℝ × Tensor ℝ)} (hs : SvdOk svd) {X : Tensor ℝ} {m n r r' p q : Nat}
    (hX : X.shape = [m, n]) (hm : 0 < m) (hn : 0 < n) (hp : min r (min m n) = p) (hq : min r' (min n m) = q) :
    ∃ B C g Y U s V U' s' V', ∃ (h : p ≤ min m n) (h' : q ≤ min n m), tucker.HOSVD.run svd X [r, r'] = .ok ([B, C], g, Y) ∧
      OrthoCols B m p ∧ OrthoCols C n q ∧ IsThinSVD (toMat X m n) U s V ∧ toMat B m p = cols U p h ∧
      IsThinSVD (toMat X m n)ᵀ U' s' V' ∧ toMat C n q = cols U' q h' ∧ Y.shape = [m, n] ∧ (toMat Y m n).rank ≤ min p q ∧
      distSqT X Y = frobSq (toMat X m n) - frobSq ((toMat B m p)ᵀ * (toMat X m n * toMat C n q)) := by
  have ho : X.order = 2 := by unfold order; rw [hX]; rfl
  have hJ0 : otherSize X.shape 0 = n := by rw [hX, otherSize_eq_prod]; simp
  have hJ1 : otherSize X.shape 1 = m := by rw [hX, otherSize_eq_prod]; simp
  obtain ⟨A, g, Y, e1, e2, e3, hO, -, hA⟩ := hosvd_ok hs (X := X) (ranks := [r, r']) (by omega) (by omega) (by
    rw [hX]; simp [hm, hn]) (by rw [ho]; simp)
  obtain ⟨B, U, s, V, h, a1, a2, a3, a4⟩ := hosvd_at hA (k := 0) (m := m) (J := n) (p := p) (by omega) (by rw [hX]; rfl) hJ0 hp
  obtain ⟨C, U', s', V', h', b1, b2, b3, b4⟩ := hosvd_at hA (k := 1) (m := n) (J := m) (p := q) (by omega) (by rw [hX]; rfl) hJ1 hq
  rw [unfM_two_zero hX] at a3
  rw [unfM_two_one hX] at b3
  have hAe : A = [B, C] := by
    have hl : A.length = 2 := by rw [hO.1, hX]; rfl
    match A, hl with
    | [B', C'], _ =>
        rw [List.getElem?_cons_zero] at a1
        rw [List.getElem?_cons_succ, List.getElem?_cons_zero] at b1
        cases a1; cases b1; rfl
  subst hAe
  have hB : OrthoCols B m p := ⟨a2, by rw [a4]; exact cols_orth a3.orthU h⟩
  have hC : OrthoCols C n q := ⟨b2, by rw [b4]; exact cols_orth b3.orthU h'⟩
  obtain ⟨g', Y', f1, f2, f3, f4, -, f5⟩ := tucker_two hX hB hC
  rw [e2] at f1; cases f1
  rw [e3] at f2; cases f2
  exact ⟨B, C, g, Y, U, s, V, U', s', V', h, h', e1, hB, hC, a3, a4, b3, b4, f3, f4, f5⟩

/-- **C167** for `HOSVD`: if the first `min r r'` singular values of a matrix are larger than the others, or the others are
zero, then `HOSVD` with ranks `r` and `r'` returns a best approximation of rank `min r r'`, whichever singular vectors the
routine answers. -/
theorem C167_hosvd (svd : Tensor ℝ → Res (Tensor ℝ × Tensor ℝ × Tensor ℝ)) (hs : SvdOk svd) (X : Tensor ℝ) (m n r r' : Nat)
    (hX : X.shape = [m, n]) (hm : 0 < m) (hn : 0 < n) (hgap : Gap (toMat X m n) (min r r')) :
    ∃ A g full, tucker.HOSVD.run svd X [r, r'] = .ok (A, g, full) ∧ BestOfRank X m n (min r r') full := by
  obtain ⟨B, C, g, Y, U, s, V, U', s', V', h, h', e1, hB, hC, hU, hBU, hU', hCU, hY, hYr, hd⟩ :=
    hosvd_two (r := r) (r' := r') hs hX hm hn rfl rfl
  refine ⟨_, g, Y, e1, bestOfRank hX hU hY (le_trans hYr (by omega)) ?_⟩
  obtain ⟨t, ⟨W, Z, ht⟩, hsep⟩ := hgap
  have hst : t = s := funext fun i => ht.values_unique hU i
  subst hst
  set M := toMat X m n with hM
  generalize hp : min r (min m n) = p at *
  generalize hq : min r' (min n m) = q at *
  by_cases hz : ∀ j : Fin (min m n), min r r' ≤ j.val → t j = 0
  · have t1 : M = cols U p h * (cols U p h)ᵀ * M := by
      have := hU.trunc h
      rw [Finset.sum_eq_zero fun i _ => by
        by_cases e : p ≤ i.val
        · rw [if_pos e, hz i (by have := i.isLt; omega)]; ring
        · rw [if_neg e]] at this
      exact sub_eq_zero.1 (frobSq_eq_zero this)
    have t2 : Mᵀ = cols U' q h' * (cols U' q h')ᵀ * Mᵀ := by
      have := hU'.trunc h'
      rw [Finset.sum_eq_zero fun i _ => by
        by_cases e : q ≤ i.val
        · rw [if_pos e, hU'.values_unique hU.transpose i, hz _ (by
            have := i.isLt
            rw [Fin.val_cast]; omega)]; ring
        · rw [if_neg e]] at this
      exact sub_eq_zero.1 (frobSq_eq_zero this)
    have t3 : M = M * (cols U' q h' * (cols U' q h')ᵀ) := by
      have := congrArg Matrix.transpose t2
      rw [transpose_transpose, transpose_mul, transpose_transpose, transpose_mul, transpose_transpose] at this
      exact this
    have : frobSq ((toMat B m p)ᵀ * (M * toMat C n q)) = frobSq M := by
      rw [hBU, hCU, ← frobSq_orth_mul (cols_orth hU.orthU h), ← Matrix.mul_assoc, ← Matrix.mul_assoc, ← t1,
        ← frobSq_mul_orth (cols_orth hU'.orthU h'), Matrix.mul_assoc, ← t3]
    rw [hd, this, sub_self]
    exact Finset.sum_nonneg fun i _ => by split <;> positivity
  · push Not at hz
    obtain ⟨j, hj, hj0⟩ := hz
    have hjl := j.isLt
    have hjp : 0 < t j := lt_of_le_of_ne (hU.nonneg j) (Ne.symm hj0)
    have hpos : ∀ i : Fin (min m n), i.val < min r r' → t j < t i := fun i hi => (hsep i j hi hj).resolve_right hj0
    have hsep' : ∀ i k : Fin (min m n), i.val < min r r' → min r r' ≤ k.val → t k < t i := by
      intro i k hi hk
      rcases hsep i k hi hk with e | e
      · exact e
      · rw [e]; exact lt_trans hjp (hpos i hi)
    rw [hd, ← hU.lead_tail]
    apply le_of_eq
    congr 1
    by_cases hpq : p ≤ q
    · have hk : min r r' = p := by omega
      rw [hk] at hpos hsep' ⊢
      rw [hBU, hCU]
      exact hU.two_sided hU'.transpose h (by omega) hpq (fun i hi => lt_trans hjp (hpos i hi)) hsep'
    · have hk : min r r' = q := by omega
      rw [hk] at hpos hsep' ⊢
      have hv : ∀ i, s' i = t (Fin.cast (Nat.min_comm n m) i) := hU'.values_unique hU.transpose
      have := hU'.two_sided (q := p) hU.transpose h' (by omega) (by omega)
        (fun i hi => by rw [hv]; exact lt_trans hjp (hpos _ hi)) (fun i k hi hk => by rw [hv, hv]; exact hsep' _ _ hi hk)
      rw [hBU, hCU, ← frobSq_transpose, transpose_mul, transpose_mul, transpose_transpose, Matrix.mul_assoc]
      refine Eq.trans this ?_
      rw [← (finCongr (Nat.min_comm n m)).sum_comp]
      exact Finset.sum_congr rfl fun i _ => by rw [hv]; rfl

/-- After the first step of `HOOI` on a matrix the error is that of the best approximation. -/
theorem hooi_first_two {svd : Tensor ℝ → Res (Tensor ℝ × Tensor ℝ × Tensor ℝ)} (hs : SvdOk svd) {X : Tensor ℝ} {m n r r' : Nat}
    (hX : X.shape = [m, n]) (hm : 0 < m) (hn : 0 < n) {A0 A1 : List (Tensor ℝ)}
    {o : Out (List (Tensor ℝ)) (Tensor ℝ) (Tensor ℝ) ℝ} (hi : tucker.HOOI.init svd X [r, r'] = .ok A0)
    (hmain : tucker.HOOI.main svd X [r, r'] A0 = .ok (A1, o)) {U s V} (hU : IsThinSVD (toMat X m n) U s V) :
    r = r' ∧ r ≤ min m n ∧ distSqT X o.full ≤ ∑ i : Fin (min m n), if r ≤ i.val then s i ^ 2 else 0 := by
  have ho : X.order = 2 := by unfold order; rw [hX]; rfl
  have hpos : ∀ d ∈ X.shape, 0 < d := by rw [hX]; simp [hm, hn]
  have hlen : X.order ≤ [r, r'].length := by rw [ho]; simp
  obtain ⟨i1, i2, -⟩ := hooi_init hs hpos hlen hi
  obtain ⟨p, hp⟩ : ∃ p, min r (min m n) = p := ⟨_, rfl⟩
  obtain ⟨q, hq⟩ : ∃ q, min r' (min n m) = q := ⟨_, rfl⟩
  obtain ⟨B, C, g, Y, U1, s1, V1, U', s', V', h, h', e1, hB, hC, hU1, hBU, hU', hCU, -⟩ :=
    hosvd_two (r := r) (r' := r') hs hX hm hn hp hq
  have hA := (C58_first_step svd hs X [r, r'] (by omega) (by omega) hpos hlen A0 A1 _ g Y o hi hmain e1).1
  subst hA
  obtain ⟨g1, a1, a2, adm, -, -, -, -, a7, a8, -, -, -, a9, -⟩ := hooi_main hs (by omega) (by omega) hpos hlen i1 hmain
  rw [hX] at adm
  have ad0 := adm 0 (by simp)
  have ad1 := adm 1 (by simp)
  change r ≤ m ∧ r ≤ ∏ k ∈ (Finset.range 2).erase 0, [r, r'].getD k 0 at ad0
  change r' ≤ n ∧ r' ≤ ∏ k ∈ (Finset.range 2).erase 1, [r, r'].getD k 0 at ad1
  have p0 : ∏ k ∈ (Finset.range 2).erase 0, [r, r'].getD k 0 = r' := Finset.prod_singleton _ _
  have p1 : ∏ k ∈ (Finset.range 2).erase 1, [r, r'].getD k 0 = r := Finset.prod_singleton _ _
  rw [p0] at ad0
  rw [p1] at ad1
  have hrr : r = r' := by omega
  subst hrr
  have hpr : r = p := by omega
  have hqr : r = q := by omega
  subst hpr hqr
  refine ⟨rfl, by omega, ?_⟩
  have hsw : tucker.HOOI.sweep svd X [r, r] [B, C] = .ok A1 := by
    unfold tucker.HOOI.main at hmain
    cases hsw : tucker.HOOI.sweep svd X [r, r] [B, C] with
    | error e => rw [hsw] at hmain; cases hmain
    | ok A' =>
    rw [hsw, ok_bind] at hmain
    cases h1 : ttm X A' none true with
    | error e => rw [h1] at hmain; cases hmain
    | ok g2 =>
    rw [h1, ok_bind] at hmain
    cases h2 : tucker.fullOf g2 A' with
    | error e => rw [h2] at hmain; cases hmain
    | ok Y2 =>
    rw [h2, ok_bind] at hmain
    cases h3 : cp.scalars X Y2 with
    | error e => rw [h3] at hmain; cases hmain
    | ok z => rw [h3, ok_bind] at hmain; cases hmain; rfl
  unfold tucker.HOOI.sweep at hsw
  rw [ho, show List.range 2 = [0, 1] from rfl, List.foldlM_cons] at hsw
  obtain ⟨B', b1, b2, b3⟩ := (hooi_update hs (n := 0) (by omega) (by omega) hpos hlen i1 (by omega)).1 (by
    rw [ho, hX, p0]; exact le_min ad0.1 le_rfl)
  rw [b1, ok_bind] at hsw
  have b2 : OrthoCols B' m r := by rw [hX] at b2; exact b2
  obtain ⟨-, -, -, c4⟩ := hooi_fold hs (by omega) (by omega) hpos hlen [1] _ A1 (by simp [ho]) (i1.set (by rw [hX]; exact b2.1)) hsw
  have c4 := c4 fun k M hM => by
    rw [hX]
    match k, hM with
    | 0, hM => cases hM; exact b2
    | 1, hM => cases hM; exact hC
  obtain ⟨Q, q1, q2⟩ := exists_range (toMat X m n * toMat C n r) ad0.1
  have hQ : OrthoCols (ofMat Q) m r := ⟨rfl, by rw [toMat_ofMat]; exact q1⟩
  have d1 := b3 (ofMat Q) (by rw [hX]; exact hQ)
  change coreSq X [ofMat Q, C] ≤ coreSq X [B', C] at d1
  change coreSq X [B', C] ≤ coreSq X A1 at c4
  rw [coreSq_two hX hQ.1 hC.1, toMat_ofMat, q2] at d1
  have d2 : frobSq (toMat X m n * toMat C n r) = ∑ i : Fin (min m n), if i.val < r then s i ^ 2 else 0 := by
    rw [← frobSq_transpose, transpose_mul, hCU, hU'.lead, ← (finCongr (Nat.min_comm n m)).sum_comp]
    exact Finset.sum_congr rfl fun i _ => by rw [hU'.values_unique hU.transpose]; rfl
  rw [a8, ← a9, normSqT_two hX, ← hU.lead_tail, ← d2]
  linarith

/-- **C167** for `HOOI`: training on a matrix succeeds only with two equal ranks; then every entry of the history, from the
first on, is the error of a best approximation of that rank, and the exposed factors and core make one, whichever singular
vectors the routine answers and however the singular values lie. -/
theorem C167_hooi (svd : Tensor ℝ → Res (Tensor ℝ × Tensor ℝ × Tensor ℝ)) (hs : SvdOk svd) (X : Tensor ℝ) (m n r r' : Nat)
    (hX : X.shape = [m, n]) (hm : 0 < m) (hn : 0 < n) (Ar : Arith ℝ) (args : Args ℝ) (steps : Int)
    (self self' : Self (List (Tensor ℝ)) (Tensor ℝ) (Tensor ℝ)) (ev : List Int) (hist : List (ℝ × ℝ))
    (h : train Ar (HOOI.cls (tucker.HOOI.main svd X [r, r'])) args steps (tucker.HOOI.init svd X [r, r']) self =
      (self', ev, .ok hist)) :
    r = r' ∧ r ≤ min m n ∧ ∃ F g Y, self'.factors = some F ∧ self'.aux = some g ∧ IsTucker [m, n] g F Y ∧
      BestOfRank X m n r Y ∧ (∃ Y', self'.full = some Y' ∧ BestOfRank X m n r Y') ∧
      ∀ p ∈ hist, p.2 = Real.sqrt (boxSum [m, n] fun i => (X.at_ i - Y.at_ i) ^ 2) / Real.sqrt (boxSum [m, n] fun i => X.at_ i ^ 2) := by
  have ho : X.order = 2 := by unfold order; rw [hX]; rfl
  have hpos : ∀ d ∈ X.shape, 0 < d := by rw [hX]; simp [hm, hn]
  have hlen : X.order ≤ [r, r'].length := by rw [ho]; simp
  obtain ⟨U, s, V, hU⟩ := exists_thinSvd (toMat X m n)
  have hmono := (C58_hooi_nonincreasing svd hs X [r, r'] (by omega) (by omega) hpos hlen Ar args steps self self' ev hist h).1
  obtain ⟨s0, N, o, k, hs0, hN, -, hrun, -, hh, -, ⟨q, hq, -, -, hfull⟩, hF, haux, -⟩ := train_ok h
  obtain ⟨i1, i2, -⟩ := hooi_init hs hpos hlen hs0
  obtain ⟨σ, h0, hσ⟩ := hooi_run hs (by omega) (by omega) hpos hlen i1 hrun
  obtain ⟨-, t, hm0, -⟩ := hσ 0 (by omega)
  rw [h0] at hm0
  obtain ⟨rfl, hr, hd0⟩ := hooi_first_two hs hX hm hn hs0 hm0 hU
  obtain ⟨g0, -, -, -, -, -, -, -, -, -, -, hrel0, hnz, -⟩ := hooi_main hs (by omega) (by omega) hpos hlen i1 hm0
  refine ⟨rfl, hr, ?_⟩
  have key : ∀ j < N, BestOfRank X m n r (o j).full ∧ (o j).rel = Real.sqrt (distSqT X (o j).full) / Real.sqrt (normSqT X) ∧
      ∃ g, (o j).aux = some g ∧ IsTucker [m, n] g (o j).factors (o j).full := by
    intro j hj
    obtain ⟨hf, s', hm', -⟩ := hσ j hj
    obtain ⟨g, a1, a2, -, a3, a4, a5, a6, a7, -, -, hrel, -, -⟩ := hooi_main hs (by omega) (by omega) hpos hlen hf hm'
    rw [hX] at a1 a2
    obtain ⟨B, C, rfl⟩ : ∃ B C, s' = [B, C] := by
      have := a1.1
      match s', this with
      | [B, C], _ => exact ⟨B, C, rfl⟩
    obtain ⟨g', Y', f1, f2, f3, f4, f5, -⟩ := tucker_two hX (a2 0 B rfl) (a2 1 C rfl)
    rw [a5] at f1; cases f1
    rw [a6] at f2; cases f2
    refine ⟨bestOfRank hX hU f3 (le_trans f4 (Nat.min_le_left _ _)) (le_trans ?_ hd0), hrel, g, a4, by rw [a3]; exact f5⟩
    have hle : (o j).rel ≤ (o 0).rel := by
      rcases Nat.eq_zero_or_pos j with rfl | hjp
      · exact le_rfl
      · have := List.pairwise_iff_getElem.1 hmono 0 j (by rw [hh]; simp; omega) (by rw [hh]; simpa using hj) hjp
        simpa [hh] using this
    rw [hrel, hrel0] at hle
    have := (div_le_div_iff_of_pos_right (Real.sqrt_pos.2 hnz)).1 hle
    exact (Real.sqrt_le_sqrt_iff (distSqT_nonneg _ _)).1 this
  obtain ⟨k1, -, g, k3, k4⟩ := key (N - 1) (by omega)
  refine ⟨_, g, _, hF, haux g (by rw [k3]; rfl), k4, k1, ⟨_, hfull, (key q hq).1⟩, fun p hp => ?_⟩
  rw [hh, List.mem_map] at hp
  obtain ⟨j, hj, rfl⟩ := hp
  obtain ⟨j1, j2, -⟩ := key j (List.mem_range.1 hj)
  have e : distSqT X (o j).full = boxSum [m, n] fun i => (X.at_ i - (o (N - 1)).full.at_ i) ^ 2 := by
    unfold distSqT
    rw [hX]
    exact le_antisymm (j1.best _ k1.shape k1.rank) (k1.best _ j1.shape j1.rank)
  change (o j).rel = _
  rw [j2, e]
  unfold normSqT
  rw [hX]

/-- **C167**, number of steps: although the first step is the best already, training on a matrix runs all the requested steps
unless it stops after the first, if the tolerance is not larger than `1 / (‖X‖² / 2 + 2)`. -/
theorem C167_hooi_steps (svd : Tensor ℝ → Res (Tensor ℝ × Tensor ℝ × Tensor ℝ)) (hs : SvdOk svd) (X : Tensor ℝ) (m n r r' : Nat)
    (hX : X.shape = [m, n]) (hm : 0 < m) (hn : 0 < n) (args : Args ℝ) (ht0 : 0 ≤ args.tol)
    (htol : args.tol * (normSqT X / 2 + 2) ≤ 1) (steps : Int)
    (self self' : Self (List (Tensor ℝ)) (Tensor ℝ) (Tensor ℝ)) (ev : List Int) (hist : List (ℝ × ℝ))
    (h : train (exactArith ℝ) (HOOI.cls (tucker.HOOI.main svd X [r, r'])) args steps (tucker.HOOI.init svd X [r, r']) self =
      (self', ev, .ok hist)) :
    (hist.length : Int) = steps ∨ hist.length = 1 := by
  have ho : X.order = 2 := by unfold order; rw [hX]; rfl
  have hpos : ∀ d ∈ X.shape, 0 < d := by rw [hX]; simp [hm, hn]
  have hlen : X.order ≤ [r, r'].length := by rw [ho]; simp
  obtain ⟨-, -, F, g, Y, -, -, -, -, -, hall⟩ := C167_hooi svd hs X m n r r' hX hm hn _ args steps self self' ev hist h
  obtain ⟨-, -, h3, -⟩ := C88_hooi_stop svd X [r, r'] _ _ args steps self self' ev hist h
  obtain ⟨-, -, -, -, h1, -⟩ := C43_history _ _ args steps _ self self' ev hist h
  rcases C89_hooi_never_stalls svd hs X [r, r'] (by omega) (by omega) hpos hlen args ht0 htol steps self self' ev hist h with
    e | ⟨p, hp, hlt⟩
  · exact Or.inl e
  · right
    by_contra hne
    refine h3 0 (by omega) (Or.inl ?_)
    change decide (histRel hist 0 < args.tol) = true
    unfold histRel
    rw [List.getElem?_eq_getElem (by omega), Option.getD_some, hall _ (List.getElem_mem _), ← hall p (List.mem_of_getLast? hp)]
    exact decide_eq_true hlt

/-! ### Equal singular values -/

/-- A quarter turn of the plane. -/
noncomputable def turn : Tensor ℝ := ofMat !![0, -1; 1, 0]

theorem toMat_turn : toMat turn 2 2 = !![0, -1; 1, 0] := toMat_ofMat _

open Classical in
/-- A routine that answers the identity as left vectors of all orthogonal 2 by 2 matrices. -/
noncomputable def svdTurn (base : Tensor ℝ → Res (Tensor ℝ × Tensor ℝ × Tensor ℝ)) (M : Tensor ℝ) :
    Res (Tensor ℝ × Tensor ℝ × Tensor ℝ) :=
  if OrthoCols M 2 2 then .ok (ofFn [2] fun _ => 1, eyeT 2, matT M) else base M

theorem svdTurn_ok {base : Tensor ℝ → Res (Tensor ℝ × Tensor ℝ × Tensor ℝ)} (hb : SvdOk base) : SvdOk (svdTurn base) := by
  intro M m n hM
  unfold svdTurn
  by_cases e : OrthoCols M 2 2
  · rw [if_pos e]
    rw [e.1] at hM
    simp only [List.cons.injEq, and_true] at hM
    obtain ⟨rfl, rfl⟩ := hM
    obtain ⟨t1, t2⟩ := toMat_matT e.1
    refine ⟨_, eyeT 2, matT M, rfl, rfl, rfl, t1, (OrthoCols_eyeT 2).2, ?_, ?_, ?_, ?_⟩
    · change (toMat (matT M) 2 2)ᵀ * toMat (matT M) 2 2 = 1
      rw [t2, transpose_transpose]
      exact mul_eq_one_comm.1 e.2
    · intro i
      rw [at_ofFn _ (by rw [InB_cons]; exact ⟨i.isLt, (InB_nil _).2 rfl⟩)]
      norm_num
    · intro i j _
      rw [at_ofFn _ (by rw [InB_cons]; exact ⟨j.isLt, (InB_nil _).2 rfl⟩),
        at_ofFn _ (by rw [InB_cons]; exact ⟨i.isLt, (InB_nil _).2 rfl⟩)]
    · have hd : (fun i : Fin (min 2 2) => (ofFn [2] fun _ => (1 : ℝ)).at_ [(i : Nat)]) = fun _ => 1 := by
        funext i
        rw [at_ofFn _ (by rw [InB_cons]; exact ⟨i.isLt, (InB_nil _).2 rfl⟩)]
      rw [hd, Matrix.diagonal_one, Matrix.mul_one]
      change toMat M 2 2 = toMat (eyeT 2) 2 2 * (toMat (matT M) 2 2)ᵀ
      rw [t2, transpose_transpose, toMat_eyeT, Matrix.one_mul]
  · rw [if_neg e]
    exact hb M m n hM

theorem turn_svd : IsThinSVD (toMat turn 2 2) (1 : Mat 2 2) (fun _ => 1) (!![0, 1; -1, 0] : Mat 2 2) := by
  rw [toMat_turn]
  refine ⟨by simp, ?_, fun _ => by norm_num, fun _ _ _ => le_refl _, ?_⟩
  · ext i j
    fin_cases i <;> fin_cases j <;> simp [Matrix.mul_apply, Fin.sum_univ_two]
  · ext i j
    fin_cases i <;> fin_cases j <;> simp [Matrix.mul_apply, Fin.sum_univ_two]

theorem leading_turn {base : Tensor ℝ → Res (Tensor ℝ × Tensor ℝ × Tensor ℝ)} {n : Nat} (hn : n < 2) :
    tucker.leading (svdTurn base) turn [1, 1] n = .ok (mat 2 1 fun i j => (eyeT 2).at_ [i, j]) := by
  have hd : turn.shape.getD n 0 = 2 := by
    match n, hn with
    | 0, _ => rfl
    | 1, _ => rfl
  have hJ : otherSize turn.shape n = 2 := by
    match n, hn with
    | 0, _ => exact (by decide : otherSize [2, 2] 0 = 2)
    | 1, _ => exact (by decide : otherSize [2, 2] 1 = 2)
  have hu := unfold_closed turn (n := n) hn (by rw [hd]; norm_num)
  rw [hd, hJ] at hu
  have hO : OrthoCols (mat 2 2 fun i j => turn.at_ (unkolda turn.shape n i j)) 2 2 := by
    refine ⟨rfl, ?_⟩
    rw [toMat_mat]
    change (unfM turn n 2 2)ᵀ * unfM turn n 2 2 = 1
    match n, hn with
    | 0, _ =>
        rw [unfM_two_zero (X := turn) rfl, toMat_turn]
        ext i j
        fin_cases i <;> fin_cases j <;> simp [Matrix.mul_apply, Fin.sum_univ_two]
    | 1, _ =>
        rw [unfM_two_one (X := turn) rfl, toMat_turn]
        ext i j
        fin_cases i <;> fin_cases j <;> simp [Matrix.mul_apply, Fin.sum_univ_two]
  have hr : tucker.rankAt [1, 1] n = .ok 1 := by
    match n, hn with
    | 0, _ => rfl
    | 1, _ => rfl
  unfold tucker.leading
  rw [hu, ok_bind]
  unfold svdTurn
  rw [if_pos hO]
  simp only [ok_bind, hr, tucker.firstCols]
  rfl

/-- The best approximations of the quarter turn by matrices of rank one have error one. -/
theorem turn_best : BestOfRank turn 2 2 1 (ofMat !![0, -1; 0, 0]) ∧ distSqT turn (ofMat !![0, -1; 0, 0]) = 1 := by
  have hd : distSqT turn (ofMat !![0, -1; 0, 0]) = 1 := by
    rw [distSqT_two (X := turn) (m := 2) (n := 2) rfl rfl, toMat_turn, toMat_ofMat]
    unfold frobSq
    simp [Fin.sum_univ_two]
  refine ⟨bestOfRank rfl turn_svd rfl ?_ ?_, hd⟩
  · rw [toMat_ofMat]
    have : (!![0, -1; 0, 0] : Mat 2 2) = (!![1; 0] : Mat 2 1) * (!![0, -1] : Mat 1 2) := by
      ext i j
      fin_cases i <;> fin_cases j <;> simp [Matrix.mul_apply]
    rw [this]
    exact rank_mul_le_mid _ _
  · rw [hd]
    change _ ≤ ∑ i : Fin 2, _
    rw [Fin.sum_univ_two]
    norm_num

/-- **C167** fails for `HOSVD` without a gap: on a quarter turn, with ranks one and a correct routine, it may return the zero
matrix, at twice the least squared error.  So the factor `X.order` of C90 cannot be lowered, and one step of `HOOI` can halve
the error of its starting point. -/
theorem C167_hosvd_needs_gap : ∃ svd, SvdOk svd ∧ ∃ A g full Z, tucker.HOSVD.run svd turn [1, 1] = .ok (A, g, full) ∧
    BestOfRank turn 2 2 1 Z ∧ distSqT turn full = turn.order * distSqT turn Z ∧ 0 < distSqT turn Z := by
  obtain ⟨base, hb⟩ := exists_svdOk
  have hs := svdTurn_ok hb
  set C : Tensor ℝ := mat 2 1 fun i j => (eyeT 2).at_ [i, j] with hC
  have hCm : toMat C 2 1 = !![1; 0] := by
    rw [hC, toMat_mat]
    ext i j
    unfold eyeT
    rw [of_apply, at_mat _ i.isLt (by have := j.isLt; omega)]
    have hj : j = 0 := Subsingleton.elim _ _
    subst hj
    fin_cases i <;> simp
  have hO : OrthoCols C 2 1 := by
    refine ⟨rfl, ?_⟩
    rw [hCm]
    ext i j
    fin_cases i <;> fin_cases j <;> simp [Matrix.mul_apply, Fin.sum_univ_two]
  obtain ⟨g, Y, f1, f2, f3, -, -, f4⟩ := tucker_two (X := turn) rfl hO hO
  have hrun : tucker.HOSVD.run (svdTurn base) turn [1, 1] = .ok ([C, C], g, Y) := by
    unfold tucker.HOSVD.run
    have hm : ((List.range turn.order).mapM fun n => tucker.leading (svdTurn base) turn [1, 1] n) = .ok [C, C] := by
      change [0, 1].mapM _ = _
      rw [List.mapM_cons, leading_turn (by norm_num), ok_bind, List.mapM_cons, leading_turn (by norm_num), ok_bind]
      rfl
    rw [hm, ok_bind, f1, ok_bind, f2, ok_bind]
    rfl
  refine ⟨_, hs, _, g, Y, _, hrun, turn_best.1, ?_, by rw [turn_best.2]; norm_num⟩
  rw [turn_best.2, f4, hCm, toMat_turn]
  change _ = ((2 : Nat) : ℝ) * 1
  unfold frobSq
  simp [Fin.sum_univ_two, Matrix.mul_apply]
  norm_num

/-- The gap in `C167_hosvd`, on `diag(2, 1)` with ranks one. -/
example : diag21.shape = [2, 2] ∧ Gap (toMat diag21 2 2) (min 1 1) := by
  refine ⟨rfl, ![2, 1], ⟨(1 : Mat 2 2), (1 : Mat 2 2), ?_⟩, fun i j hi hj => Or.inl ?_⟩
  · rw [← unfM_two_zero (X := diag21) rfl, diag21_unfM (by norm_num)]
    exact diag21_svd
  · have hi : i = (0 : Fin 2) := Fin.ext (by simpa using hi)
    have hj : j = (1 : Fin 2) := Fin.ext (by have := j.isLt; simp at this hj ⊢; omega)
    subst hi hj; norm_num

/-- `C167_hooi` applies to the quarter turn: training with ranks one succeeds, whatever the routine. -/
example (svd : Tensor ℝ → Res (Tensor ℝ × Tensor ℝ × Tensor ℝ)) (hs : SvdOk svd) : ∃ self' ev hist,
    train (exactArith ℝ) (HOOI.cls (tucker.HOOI.main svd turn [1, 1])) { tol := 0 } 3 (tucker.HOOI.init svd turn [1, 1]) {} =
      (self', ev, .ok hist) := by
  obtain ⟨hist, hh⟩ := (C74_hooi_admissible svd hs turn [1, 1] (by decide) (by decide) (by decide) ⟨[1, 0], by decide, by
    change toMat turn 2 2 1 0 ≠ 0
    rw [toMat_turn]; simp⟩ (by decide) (exactArith ℝ) { tol := 0 } (by decide) 3 (by decide) {}).2 (by
      intro n hn
      match n, hn with
      | 0, _ => decide
      | 1, _ => decide)
  exact ⟨_, _, hist, Prod.ext rfl (Prod.ext rfl hh)⟩

end TD.Props
