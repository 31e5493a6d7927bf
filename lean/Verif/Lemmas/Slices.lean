import Verif.Spec.Slices
import Verif.Lemmas.Hooi

namespace TD
open Spec Tensor tf ops Matrix

theorem foldlM_range_inv {σ : Type} {f : σ → Nat → Res σ} {P : Nat → σ → Prop} {s : σ} :
    ∀ {N : Nat} {s' : σ}, (∀ n < N, ∀ s s', P n s → f s n = .ok s' → P (n + 1) s') → P 0 s →
      (List.range N).foldlM f s = .ok s' → P N s'
  | 0, s', _, h0, h => by cases h; exact h0
  | N + 1, s', hs, h0, h => by
      rw [List.range_succ, List.foldlM_append] at h
      cases e : (List.range N).foldlM f s with
      | error e' => rw [e] at h; cases h
      | ok t =>
          rw [e, ok_bind] at h
          simp only [List.foldlM_cons, List.foldlM_nil] at h
          cases e2 : f t N with
          | error e' => rw [e2] at h; cases h
          | ok t' =>
              rw [e2] at h; cases h
              exact hs N (by omega) t _ (foldlM_range_inv (fun n hn => hs n (by omega)) h0 e) e2

theorem Spec.SliceRel.column {X : Tensor ℝ} {k : Nat} {c : Nat → ℝ} (h : SliceRel X k c) (hk : k < X.order) {j : Nat}
    (hj : j < otherSize X.shape k) :
    ∑ i ∈ Finset.range (X.shape.getD k 0), c i * X.at_ (unkolda X.shape k i j) = 0 := by
  rcases Nat.eq_zero_or_pos (X.shape.getD k 0) with h0 | h0
  · rw [h0]; rfl
  · have := h _ (unkolda_spec hk h0 hj).1
    simpa only [unkolda_set_self (show k < X.shape.length from hk)] using this

theorem Spec.SliceRel.of_column {X : Tensor ℝ} {k : Nat} {c : Nat → ℝ} (hk : k < X.order)
    (h : ∀ j < otherSize X.shape k, ∑ i ∈ Finset.range (X.shape.getD k 0), c i * X.at_ (unkolda X.shape k i j) = 0) :
    SliceRel X k c := by
  intro idx hi
  have hlt : koldaCol X.shape idx k < otherSize X.shape k := by
    rw [koldaCol_eq_ravel k hi.length, otherSize_eq_prod]
    exact ravel_lt (InB_reverse (InB_eraseIdx hi k))
  have := h _ hlt
  refine Eq.trans (Finset.sum_congr rfl fun i _ => ?_) this
  rw [← unkolda_eq (show k < X.shape.length from hk) hi, unkolda_set_self (show k < X.shape.length from hk),
    unkolda_eq (show k < X.shape.length from hk) hi]

/-- Products along other modes keep the relation. -/
theorem Spec.SliceRel.modeProd {X : Tensor ℝ} {k n : Nat} {c : Nat → ℝ} (h : SliceRel X k c) (hne : n ≠ k) (A : Tensor ℝ)
    (hs : A.shape.getD 0 0 = X.shape.getD n 0) : SliceRel (Spec.modeProd X n A) k c := by
  have hsh : (Spec.modeProd X n A).shape = X.shape := by
    show X.shape.set n (A.shape.getD 0 0) = _
    rw [hs, set_getD_self]
  intro idx hi
  rw [hsh] at hi
  rw [hsh]
  have e : ∀ i ∈ Finset.range (X.shape.getD k 0), c i * (Spec.modeProd X n A).at_ (idx.set k i) =
      ∑ l ∈ Finset.range (X.shape.getD n 0), A.at_ [idx.getD n 0, l] * (c i * X.at_ ((idx.set n l).set k i)) := by
    intro i hi'
    have hb : InB X.shape (idx.set k i) := by
      have := InB_set (s := X.shape) (idx := idx) (n := k) (d := X.shape.getD k 0) (v := i) (by rwa [set_getD_self]) (Finset.mem_range.1 hi')
      exact this
    rw [modeProd_at (by rw [hsh]; exact hb), Finset.mul_sum]
    refine Finset.sum_congr rfl fun l _ => ?_
    rw [List.set_comm _ _ hne, List.getD_eq_getElem?_getD, List.getElem?_set_ne (Ne.symm hne), ← List.getD_eq_getElem?_getD]
    ring
  rw [Finset.sum_congr rfl e, Finset.sum_comm]
  refine Finset.sum_eq_zero fun l hl => ?_
  rw [← Finset.mul_sum, h (idx.set n l) (InB_set (by rwa [set_getD_self]) (Finset.mem_range.1 hl)), mul_zero]

/-- A projection along mode `k` itself keeps the relation if every column that is not orthogonal to `c` gives a relation
of its own. -/
theorem Spec.SliceRel.proj {X A : Tensor ℝ} {k m p : Nat} {c : Nat → ℝ} (hm : X.shape.getD k 0 = m) (hA : A.shape = [m, p])
    (hc : ∀ r < p, ∑ i ∈ Finset.range m, c i * A.at_ [i, r] = 0 ∨ SliceRel X k fun i => A.at_ [i, r]) (hk : k < X.order) :
    SliceRel (Spec.modeProd X k (projOf A)) k c := by
  have h0 : A.shape.getD 0 0 = m := by rw [hA]; rfl
  have h1 : A.shape.getD 1 0 = p := by rw [hA]; rfl
  have hsh : (Spec.modeProd X k (projOf A)).shape = X.shape := by
    show X.shape.set k (projOf A |>.shape.getD 0 0) = _
    rw [show (projOf A).shape.getD 0 0 = m from by show A.shape.getD 0 0 = m; exact h0, ← hm, set_getD_self]
  intro idx hi
  rw [hsh] at hi
  rw [hsh, hm]
  have e : ∀ i ∈ Finset.range m, c i * (Spec.modeProd X k (projOf A)).at_ (idx.set k i) =
      ∑ r ∈ Finset.range p, (c i * A.at_ [i, r]) * ∑ l ∈ Finset.range m, A.at_ [l, r] * X.at_ (idx.set k l) := by
    intro i hi'
    have hi' := Finset.mem_range.1 hi'
    have hb : InB X.shape (idx.set k i) :=
      InB_set (d := X.shape.getD k 0) (by rwa [set_getD_self]) (by rw [hm]; exact hi')
    rw [modeProd_at (by rw [hsh]; exact hb), Finset.mul_sum, hm]
    have hg : (idx.set k i).getD k 0 = i := by
      rw [List.getD_eq_getElem?_getD, List.getElem?_set_self (by rw [hi.length]; exact hk)]; rfl
    rw [hg]
    have e2 : ∀ l ∈ Finset.range m, c i * ((projOf A).at_ [i, l] * X.at_ ((idx.set k i).set k l)) =
        ∑ r ∈ Finset.range p, (c i * A.at_ [i, r]) * (A.at_ [l, r] * X.at_ (idx.set k l)) := by
      intro l hl
      rw [projOf, h0, h1, at_mat _ hi' (Finset.mem_range.1 hl), List.set_set, Finset.sum_mul, Finset.mul_sum]
      exact Finset.sum_congr rfl fun _ _ => by ring
    rw [Finset.sum_congr rfl e2, Finset.sum_comm]
    exact Finset.sum_congr rfl fun _ _ => (Finset.mul_sum _ _ _).symm
  rw [Finset.sum_congr rfl e, Finset.sum_comm]
  refine Finset.sum_eq_zero fun r hr => ?_
  rw [← Finset.sum_mul]
  rcases hc r (Finset.mem_range.1 hr) with h | h
  · rw [h, zero_mul]
  · have := h idx hi
    rw [hm] at this
    rw [this, mul_zero]

/-- A left singular vector is orthogonal to every vector the matrix maps to zero, or it is itself such a vector. -/
theorem Spec.IsThinSVD.orth_or_null {m n : Nat} {M : Mat m n} {U s V} (h : IsThinSVD M U s V) {c : Fin m → ℝ}
    (hc : c ᵥ* M = 0) (j : Fin (min m n)) : c ⬝ᵥ (fun i => U i j) = 0 ∨ (fun i => U i j) ᵥ* M = 0 := by
  have hMV : M * V = U * diagonal s := by rw [h.eq, Matrix.mul_assoc, h.orthV, Matrix.mul_one]
  by_cases hs : s j = 0
  · right
    have hU : Uᵀ * M = diagonal s * Vᵀ := by
      rw [h.eq, ← Matrix.mul_assoc, ← Matrix.mul_assoc, h.orthU, Matrix.one_mul]
    ext b
    have := congrFun (congrFun hU j) b
    rw [Matrix.diagonal_mul, hs, zero_mul] at this
    exact this
  · left
    have e : (c ᵥ* (M * V)) j = 0 := by rw [← Matrix.vecMul_vecMul, hc, Matrix.zero_vecMul]; rfl
    rw [hMV, ← Matrix.vecMul_vecMul, Matrix.vecMul_diagonal] at e
    exact (mul_eq_zero.1 e).resolve_right hs

theorem sliceRel_vecMul {X : Tensor ℝ} {k m J : Nat} (hk : k < X.order) (hm : X.shape.getD k 0 = m)
    (hJ : otherSize X.shape k = J) (c : Nat → ℝ) :
    SliceRel X k c ↔ (fun i : Fin m => c i) ᵥ* unfM X k m J = 0 := by
  subst hm hJ
  constructor
  · intro h
    ext j
    have := h.column hk j.isLt
    rw [Finset.sum_range] at this
    exact this
  · intro h
    refine Spec.SliceRel.of_column hk fun j hj => ?_
    rw [Finset.sum_range]
    exact congrFun h ⟨j, hj⟩

/-- Projecting along other modes keeps the relation. -/
theorem sliceRel_modeProds {k : Nat} {c : Nat → ℝ} : ∀ (ps : List (Nat × Tensor ℝ)) {Z : Tensor ℝ}, SliceRel Z k c →
    (∀ q ∈ ps, q.1 ≠ k ∧ q.2.shape.getD 0 0 = Z.shape.getD q.1 0) → SliceRel (modeProds Z ps) k c
  | [], _, h, _ => h
  | q :: ps, Z, h, hq => by
      obtain ⟨q1, q2⟩ := hq q (by simp)
      have hsh : (Spec.modeProd Z q.1 q.2).shape = Z.shape := by
        show Z.shape.set q.1 (q.2.shape.getD 0 0) = _
        rw [q2, set_getD_self]
      exact sliceRel_modeProds ps (h.modeProd q1 q.2 q2) fun q' hq' => by rw [hsh]; exact hq q' (by simp [hq'])

/-- Relations between slices of the data hold for the Tucker reconstruction of `HOSVD`. -/
theorem sliceRel_hosvd {X g Y A : Tensor ℝ} {U : List (Tensor ℝ)} {k p : Nat} {c : Nat → ℝ} (hk : k < X.order)
    (h13 : X.order ≤ 13) (ho : OrthoFactors X.shape U) (hg : ttm X U none true = .ok g) (hY : tucker.fullOf g U = .ok Y)
    (hA : U[k]? = some A) (hs : A.shape = [X.shape.getD k 0, p])
    (hc : ∀ r < p, ∑ i ∈ Finset.range (X.shape.getD k 0), c i * A.at_ [i, r] = 0 ∨ SliceRel X k fun i => A.at_ [i, r]) :
    SliceRel Y k c := by
  have hne : X.shape ≠ [] := by intro e; unfold order at hk; rw [e] at hk; simp at hk
  rw [tucker_full_proj hne h13 ho.allMat ho.rowDims hg hY]
  have hl : U.length = X.order := ho.1
  have hkU : k < U.length := by omega
  have hfst : (((List.range U.length).zip (U.map projOf)).map Prod.fst) = List.range U.length := by
    rw [List.map_fst_zip (by simp)]
  have hmem : (k, projOf A) ∈ (List.range U.length).zip (U.map projOf) := by
    rw [List.mem_iff_getElem]
    refine ⟨k, by simpa using hkU, ?_⟩
    rw [List.getElem?_eq_getElem hkU, Option.some.injEq] at hA
    simp [hA]
  rw [modeProds_perm (List.perm_cons_erase hmem) (by rw [hfst]; exact List.nodup_range)]
  have hnd : (((k, projOf A) :: ((List.range U.length).zip (U.map projOf)).erase (k, projOf A)).map Prod.fst).Nodup := by
    rw [← ((List.perm_cons_erase hmem).map Prod.fst).nodup_iff, hfst]; exact List.nodup_range
  rw [List.map_cons, List.nodup_cons] at hnd
  have h0 : (projOf A).shape.getD 0 0 = X.shape.getD k 0 := by
    show A.shape.getD 0 0 = _
    rw [hs]; rfl
  have hsh : (Spec.modeProd X k (projOf A)).shape = X.shape := by
    show X.shape.set k ((projOf A).shape.getD 0 0) = _
    rw [h0, set_getD_self]
  show SliceRel (modeProds (Spec.modeProd X k (projOf A)) _) k c
  refine sliceRel_modeProds _ (Spec.SliceRel.proj rfl hs hc hk) fun q hq => ⟨fun e => hnd.1 ?_, ?_⟩
  · have := List.mem_map_of_mem (f := Prod.fst) hq
    rw [e] at this
    exact this
  · rw [hsh]
    have hq := List.mem_of_mem_erase hq
    obtain ⟨n, hn, rfl⟩ := List.getElem_of_mem hq
    have hn' : n < U.length := by simpa using hn
    simp only [List.getElem_zip, List.getElem_range, List.getElem_map]
    show (U[n]).shape.getD 0 0 = _
    have := (ho.2 n U[n] (List.getElem?_eq_getElem hn')).1
    rw [this]; rfl

end TD

namespace TD.cp
open TD Spec Tensor tf ops Matrix

/-- A mode update carries relations between slices over to the rows of the new factor. -/
theorem modeUpdate_rows {pinv : Tensor ℝ → Res (Tensor ℝ)} (hp : PinvOk pinv) {X : Tensor ℝ} {R n : Nat}
    {A : List (Tensor ℝ)} (hA : FactorsFor X.shape R A) (h2 : 2 ≤ X.order) (h25 : X.order ≤ 25)
    (hn : n < X.order) (hpos : 0 < X.shape.getD n 0) {u : Upd ℝ} (h : modeUpdate pinv X R A n = .ok u) :
    (∃ M, u.A = A.set n M ∧ ∀ c, SliceRel X n c → RowRel M (X.shape.getD n 0) R c) := by
  obtain ⟨K, N, lam, P, hK, hKs, hNs, hls, hP, hN, -, he⟩ := modeUpdate_eq hp hA h2 h25 hn hpos
  rw [he] at h
  by_cases h0 : (0 : ℝ) ∈ lam.data
  · rw [if_pos h0] at h; cases h
  rw [if_neg h0] at h
  cases h
  refine ⟨_, rfl, fun c hc r hr => ?_⟩
  have e := (sliceRel_vecMul hn rfl rfl c).1 hc
  have hz : (fun i : Fin (X.shape.getD n 0) => c i) ᵥ* toMat N (X.shape.getD n 0) R = 0 := by
    rw [hN, ← Matrix.vecMul_vecMul, ← Matrix.vecMul_vecMul]
    unfold unfM at e
    rw [e, Matrix.zero_vecMul, Matrix.zero_vecMul]
  have hz := congrFun hz ⟨r, hr⟩
  have hz : ∑ i : Fin (X.shape.getD n 0), c i * N.at_ [(i : Nat), r] = 0 := hz
  rw [Finset.sum_range]
  rw [Finset.sum_congr rfl (g := fun i : Fin (X.shape.getD n 0) => c i * N.at_ [(i : Nat), r] / lam.at_ [r])
    fun i _ => by rw [at_mat _ i.isLt hr, mul_div_assoc], ← Finset.sum_div, hz, zero_div]

/-- After a sweep all factors satisfy the relations of the slices. -/
theorem sweep_rows {pinv : Tensor ℝ → Res (Tensor ℝ)} (hp : PinvOk pinv) {X : Tensor ℝ} {R : Nat}
    {A A' : List (Tensor ℝ)} {lam : Tensor ℝ} (hA : FactorsFor X.shape R A) (h2 : 2 ≤ X.order) (h25 : X.order ≤ 25)
    (hpos : ∀ d ∈ X.shape, 0 < d) (h : sweep pinv X R A = .ok (A', lam)) :
    ∀ k < X.order, ∃ M, A'[k]? = some M ∧ ∀ c, SliceRel X k c → RowRel M (X.shape.getD k 0) R c := by
  unfold sweep at h
  cases e : (List.range X.order).foldlM (init := (A, (none : Option (Tensor ℝ)))) (fun st mode => do
      let u ← modeUpdate pinv X R st.1 mode
      return (u.A, some u.lam)) with
  | error e' => rw [e] at h; cases h
  | ok st =>
  rw [e, ok_bind] at h
  have key := foldlM_range_inv (P := fun m (st : List (Tensor ℝ) × Option (Tensor ℝ)) => FactorsFor X.shape R st.1 ∧
    ∀ k < m, ∃ M, st.1[k]? = some M ∧ ∀ c, SliceRel X k c → RowRel M (X.shape.getD k 0) R c)
    (fun n hn s s' hs hf => by
      cases hu : modeUpdate pinv X R s.1 n with
      | error e' => rw [hu] at hf; cases hf
      | ok u =>
          rw [hu] at hf; cases hf
          have hpn := getD_pos hpos hn
          obtain ⟨M, m1, m2⟩ := modeUpdate_rows hp hs.1 h2 h25 hn hpn hu
          refine ⟨(modeUpdate_descends hp hs.1 h2 h25 hn hpn hu).1, fun k hk => ?_⟩
          show ∃ M, u.A[k]? = some M ∧ _
          rw [m1]
          by_cases hkn : k = n
          · subst hkn
            exact ⟨M, List.getElem?_set_self (by rw [hs.1.length]; exact hn), m2⟩
          · rw [List.getElem?_set_ne (Ne.symm hkn)]
            exact hs.2 k (by omega)) ⟨hA, fun k hk => absurd hk (by omega)⟩ e
  have hst : A' = st.1 := by
    revert h
    cases st.2 with
    | none => intro h; cases h
    | some l => intro h; cases h; rfl
  rw [hst]
  exact key.2

/-- Relations between rows of a factor are relations between slices of the Kruskal tensor. -/
theorem sliceRel_kruskal {Y M : Tensor ℝ} {A : List (Tensor ℝ)} {R k : Nat} {w : Nat → ℝ} {c : Nat → ℝ}
    (hl : A.length = Y.order) (hk : k < Y.order) (hM : A[k]? = some M) (hr : RowRel M (Y.shape.getD k 0) R c)
    (hY : ∀ i, InB Y.shape i → Y.at_ i = ∑ r ∈ Finset.range R, w r * khatriEntry r A i) : SliceRel Y k c := by
  intro idx hi
  have e : ∀ i ∈ Finset.range (Y.shape.getD k 0), c i * Y.at_ (idx.set k i) =
      ∑ r ∈ Finset.range R, (c i * M.at_ [i, r]) * (w r * khatriEntry r (A.eraseIdx k) (idx.eraseIdx k)) := by
    intro i hi'
    have hb : InB Y.shape (idx.set k i) := InB_set (d := Y.shape.getD k 0) (by rwa [set_getD_self]) (Finset.mem_range.1 hi')
    rw [hY _ hb, Finset.mul_sum]
    refine Finset.sum_congr rfl fun r _ => ?_
    have hlen : (idx.set k i).length = A.length := by rw [List.length_set, hi.length, hl]; rfl
    rw [khatriEntry_eraseIdx r hlen hM, List.eraseIdx_set_eq,
      show (idx.set k i).getD k 0 = i by
        rw [List.getD_eq_getElem?_getD, List.getElem?_set_self (by rw [hi.length]; exact hk)]; rfl]
    ring
  rw [Finset.sum_congr rfl e, Finset.sum_comm]
  refine Finset.sum_eq_zero fun r hr' => ?_
  rw [← Finset.sum_mul, hr r (Finset.mem_range.1 hr'), zero_mul]

end TD.cp
