import Verif.Spec.InitFactor
import Verif.Lemmas.ComponentsCp
import Verif.Lemmas.Sweep
import Mathlib.LinearAlgebra.Matrix.ToLinearEquiv
import Mathlib.LinearAlgebra.Matrix.DotProduct

/-! # Initial factors of `CP_ALS` -/
namespace TD
open Spec Tensor tf ops Matrix

/-- A training depends on its start only through the first run. -/
theorem fact.train_start {S F K X R : Type} {A : fact.Arith R} {c : fact.Cls S F K X R} (hc : c.core = none) {s s' : S}
    (h : c.main s = c.main s') (args : fact.Args R) (steps : Int) (self : fact.Self F K X) :
    fact.train A c args steps (.ok s) self = fact.train A c args steps (.ok s') self := by
  unfold fact.train
  simp only
  cases hk : steps.toNat with
  | zero => rfl
  | succ k =>
      have hb : ∀ self : fact.Self F K X, (fact.body A c args steps 1 { sess := s, self := self }).2 =
            (fact.body A c args steps 1 { sess := s', self := self }).2 ∧
          ((∃ b, (fact.body A c args steps 1 { sess := s, self := self }).2 = .ok b) →
            (fact.body A c args steps 1 { sess := s, self := self }).1 = (fact.body A c args steps 1 { sess := s', self := self }).1) ∧
          (fact.body A c args steps 1 { sess := s, self := self }).1.self =
            (fact.body A c args steps 1 { sess := s', self := self }).1.self ∧
          (fact.body A c args steps 1 { sess := s, self := self }).1.events =
            (fact.body A c args steps 1 { sess := s', self := self }).1.events := by
        intro self
        unfold fact.body fact.coreRun fact.mainRun
        rw [hc]
        simp only
        cases fact.reported args steps 1 with
        | error e => simp
        | ok rep =>
            simp only [h]
            cases c.main s' with
            | error e => simp
            | ok p => simp
      rw [fact.loop, fact.loop]
      obtain ⟨h1, h2, h3, h4⟩ := hb (if c.resets = true then { self with finish := false } else self)
      generalize fact.body A c args steps 1 { sess := s, self := if c.resets = true then { self with finish := false } else self } = x at *
      generalize fact.body A c args steps 1 { sess := s', self := if c.resets = true then { self with finish := false } else self } = y at *
      obtain ⟨x1, x2⟩ := x
      obtain ⟨y1, y2⟩ := y
      simp only at h1 h2 h3 h4
      subst h1
      cases x2 with
      | error e => simp only [h3, h4]
      | ok b =>
          obtain rfl := h2 ⟨b, rfl⟩
          rfl

theorem ScaledColumns.refl (A : Tensor ℝ) : ScaledColumns A A := ⟨fun _ => 1, by simp, rfl, by simp⟩

theorem khatriEntry_scaled {R : Nat} : ∀ {shape : List Nat} {U U' : List (Tensor ℝ)}, FactorsFor shape R U →
    List.Forall₂ ScaledColumns U U' → ∃ c : Nat → ℝ, (∀ r, 0 < c r) ∧
      ∀ r < R, ∀ i, InB shape i → khatriEntry r U' i = c r * khatriEntry r U i
  | _, [], [], _, _ => ⟨fun _ => 1, by simp, by simp [khatriEntry]⟩
  | [], _ :: _, _, h, _ => by cases h
  | d :: shape, A :: U, A' :: U', h, hs => by
      obtain ⟨⟨c, hc, hsh, he⟩, hU'⟩ := List.forall₂_cons.1 hs
      have hA : A.shape = [d, R] := (List.cons.inj h).1
      have hU : FactorsFor shape R U := (List.cons.inj h).2
      obtain ⟨c', hc', he'⟩ := khatriEntry_scaled hU hU'
      refine ⟨fun r => c r * c' r, fun r => mul_pos (hc r) (hc' r), fun r hr i hi => ?_⟩
      cases i with
      | nil => simp [InB] at hi
      | cons a i =>
          rw [InB_cons] at hi
          change A'.at_ [a, r] * khatriEntry r U' i = c r * c' r * (A.at_ [a, r] * khatriEntry r U i)
          rw [he a r (by rw [hA]; exact InB_pair.2 ⟨a, r, rfl, hi.1, hr⟩), he' r hr i hi.2]
          ring

theorem gram_det {m n : Nat} {K : Mat m n} (h : ∀ v, K *ᵥ v = 0 → v = 0) : (Kᵀ * K).det ≠ 0 := by
  intro h0
  obtain ⟨v, hv, e⟩ := Matrix.exists_mulVec_eq_zero_iff.2 h0
  refine hv (h v ?_)
  have : (K *ᵥ v) ⬝ᵥ (K *ᵥ v) = 0 := by
    rw [Matrix.dotProduct_mulVec, ← mulVec_transpose, mulVec_mulVec, e, zero_dotProduct]
  exact dotProduct_self_eq_zero.1 this

theorem pinv_left {n : Nat} {V P : Mat n n} (h : V * P * V = V) (hu : IsUnit V.det) : P * V = 1 :=
  calc P * V = V⁻¹ * (V * (P * V)) := (Matrix.nonsing_inv_mul_cancel_left _ _ hu).symm
    _ = V⁻¹ * V := by rw [← Matrix.mul_assoc V P V, h]
    _ = 1 := Matrix.nonsing_inv_mul _ hu

/-- An index of the other modes is an index with one mode left out. -/
theorem InB_of_eraseIdx : ∀ {shape i : List Nat} {n : Nat}, n < shape.length → 0 < shape.getD n 0 → InB (shape.eraseIdx n) i →
    ∃ j, InB shape j ∧ j.eraseIdx n = i
  | [], _, _, h, _, _ => by simp at h
  | d :: shape, i, 0, _, hd, hi => ⟨0 :: i, (InB_cons _ _ _ _).2 ⟨by simpa using hd, by simpa using hi⟩, by simp⟩
  | d :: shape, i, n + 1, h, hd, hi => by
      cases i with
      | nil => simp [InB] at hi
      | cons a i =>
          rw [List.eraseIdx_cons_succ, InB_cons] at hi
          obtain ⟨j, hj, e⟩ := InB_of_eraseIdx (by simpa using h) (by simpa using hd) hi.2
          exact ⟨a :: j, (InB_cons _ _ _ _).2 ⟨hi.1, hj⟩, by simp [e]⟩

namespace cp

theorem modeUpdate_congr {pinv : Tensor ℝ → Res (Tensor ℝ)} {X : Tensor ℝ} {R n : Nat}
    {A A' : List (Tensor ℝ)} (hA : FactorsFor X.shape R A) (hA' : FactorsFor X.shape R A') (he : A.eraseIdx n = A'.eraseIdx n)
    (h2 : 2 ≤ X.order) (h25 : X.order ≤ 25) (hn : n < X.order) :
    modeUpdate pinv X R A n = modeUpdate pinv X R A' n := by
  have hgram : ∀ {B : List (Tensor ℝ)}, FactorsFor X.shape R B → ∃ K G grams, khatri B (.int n) true = .ok K ∧
      matmul K K true false = .ok G ∧ (B.mapM fun a => tf.matmul a a true false) = .ok grams ∧
      hadamard grams (.int n) = .ok G := fun {B} hB => by
    have hn' : n < B.length := by rw [hB.length]; exact hn
    have hke : kept B (.int n) ≠ [] := by
      rw [kept_int]; intro e
      have := congrArg List.length e
      rw [List.length_eraseIdx, if_pos hn', hB.length] at this
      unfold order at h2
      simp at this; omega
    exact Props.C19_gram B (.int n) true R hB.allMat hB.cols hke (by
      rw [kept_int, List.length_eraseIdx, if_pos hn', hB.length]; unfold order at h25; omega)
  obtain ⟨K, G, grams, hK, hG, hgr, hhad⟩ := hgram hA
  obtain ⟨K', G', grams', hK', hG', hgr', hhad'⟩ := hgram hA'
  have hkk : khatri A (.int n) true = khatri A' (.int n) true := by rw [graph.khatri_skip, graph.khatri_skip, he]
  rw [hkk, hK'] at hK
  cases hK
  rw [hG'] at hG
  cases hG
  have has : ∀ B, tf.assign A n B = tf.assign A' n B := by
    intro B
    have hn1 : n < A.length := by rw [hA.length]; exact hn
    have hn2 : n < A'.length := by rw [hA'.length]; exact hn
    unfold tf.assign
    rw [List.getElem?_eq_getElem hn1, List.getElem?_eq_getElem hn2]
    simp only
    rw [hA.get (List.getElem?_eq_getElem hn1), hA'.get (List.getElem?_eq_getElem hn2)]
    have : A.set n B = A'.set n B := by
      rw [List.set_eq_take_append_cons_drop, List.set_eq_take_append_cons_drop, if_pos hn1, if_pos hn2]
      rw [List.eraseIdx_eq_take_drop_succ, List.eraseIdx_eq_take_drop_succ] at he
      obtain ⟨e1, e2⟩ := List.append_inj he (by simp; omega)
      rw [e1, e2]
    rw [this]
  unfold modeUpdate
  rw [hgr, hgr', hkk, hK']
  simp only [ok_bind, hhad, hhad', has]

/-- One mode update when the columns of the other factors are rescaled: the new factor is the same. -/
theorem modeUpdate_scaled {pinv : Tensor ℝ → Res (Tensor ℝ)} (hp : PinvOk pinv) {X : Tensor ℝ} {R n : Nat}
    {A A' : List (Tensor ℝ)} (hA : FactorsFor X.shape R A) (hA' : FactorsFor X.shape R A')
    (hs : List.Forall₂ ScaledColumns (A.eraseIdx n) (A'.eraseIdx n)) (hi : Independent (X.shape.eraseIdx n) R (A.eraseIdx n))
    (h2 : 2 ≤ X.order) (h25 : X.order ≤ 25) (hn : n < X.order) (hpos : 0 < X.shape.getD n 0) {u : Upd ℝ}
    (h : modeUpdate pinv X R A n = .ok u) :
    ∃ B u', modeUpdate pinv X R A' n = .ok u' ∧ u.A = A.set n B ∧ u'.A = A'.set n B := by
  obtain ⟨K, N, lam, P, hK, hKs, hNs, hls, hP, hN, hmax, he⟩ := modeUpdate_eq hp hA h2 h25 hn hpos
  obtain ⟨K', N', lam', P', hK', hKs', hNs', hls', hP', hN', hmax', he'⟩ := modeUpdate_eq hp hA' h2 h25 hn hpos
  obtain ⟨c, hc, hce⟩ := khatriEntry_scaled (eraseIdx_factorsFor hA n) hs
  -- entries of the Khatri-Rao products
  have entries : ∀ {U : List (Tensor ℝ)} {L : Tensor ℝ}, FactorsFor X.shape R U → khatri U (.int n) true = .ok L →
      ∀ i, InB X.shape i → ∀ r < R, L.at_ [koldaCol X.shape i n, r] = khatriEntry r (U.eraseIdx n) (i.eraseIdx n) := by
    intro U L hU hL i hi r hr
    obtain ⟨L', hL', -, hLe⟩ := khatri_skip_reverse (n := n) hU.allMat hU.cols (by rw [hU.length]; unfold order at h25; omega)
      (by rw [hU.length]; exact hn) (by rw [hU.length]; exact h2)
    rw [hL] at hL'
    cases hL'
    rw [hU.rowDims] at hLe
    rw [koldaCol_eq_ravel n hi.length]
    exact hLe i r hi hr
  have hKK : toMat K' (otherSize X.shape n) R = toMat K (otherSize X.shape n) R * Matrix.diagonal fun r : Fin R => c r := by
    ext j r
    rw [Matrix.mul_diagonal, toMat_apply, toMat_apply]
    obtain ⟨h1, -, h4⟩ := unkolda_spec hn hpos j.isLt
    have e1 := entries hA hK _ h1 r r.isLt
    have e2 := entries hA' hK' _ h1 r r.isLt
    rw [h4] at e1 e2
    rw [e1, e2, hce r r.isLt _ (InB_eraseIdx h1 n), mul_comm]
  set k := toMat K (otherSize X.shape n) R with hk
  set k' := toMat K' (otherSize X.shape n) R with hk'
  set D := Matrix.diagonal fun r : Fin R => c r with hD
  have hinj : ∀ v, k *ᵥ v = 0 → v = 0 := by
    intro v hv
    have := hi (fun r => if h : r < R then v ⟨r, h⟩ else 0) (fun i hib => ?_)
    · ext r
      have := this r r.isLt
      simpa using this
    · obtain ⟨j, hj, rfl⟩ := InB_of_eraseIdx hn hpos hib
      have hlt : koldaCol X.shape j n < otherSize X.shape n := koldaCol_lt hj
      have := congrFun hv ⟨_, hlt⟩
      rw [Matrix.mulVec, dotProduct, Pi.zero_apply] at this
      rw [← this, Finset.sum_range]
      refine Finset.sum_congr rfl fun r _ => ?_
      rw [hk, toMat_apply, entries hA hK j hj r r.isLt]
      simp [mul_comm]
  have hdet : (kᵀ * k).det ≠ 0 := gram_det hinj
  have hu : IsUnit (kᵀ * k).det := isUnit_iff_ne_zero.2 hdet
  have hDdet : IsUnit D.det := by
    rw [hD, Matrix.det_diagonal]
    exact isUnit_iff_ne_zero.2 (Finset.prod_ne_zero_iff.2 fun r _ => (hc r).ne')
  have hDT : Dᵀ = D := Matrix.diagonal_transpose _
  have hu' : IsUnit (k'ᵀ * k').det := by
    rw [hKK, transpose_mul, hDT]
    have : D * kᵀ * (k * D) = D * (kᵀ * k) * D := by simp only [Matrix.mul_assoc]
    rw [this, Matrix.det_mul, Matrix.det_mul]
    exact (hDdet.mul hu).mul hDdet
  have hone : P * (kᵀ * k) = 1 := pinv_left hP hu
  have hone' : P' * (k'ᵀ * k') = 1 := pinv_left hP' hu'
  set x : Mat (X.shape.getD n 0) (otherSize X.shape n) := Matrix.of fun i j => X.at_ (unkolda X.shape n i j) with hx
  have hNN : toMat N' (X.shape.getD n 0) R * D = toMat N (X.shape.getD n 0) R := by
    have e1 : toMat N (X.shape.getD n 0) R * (kᵀ * k) = x * k := by
      rw [hN, Matrix.mul_assoc, hone, Matrix.mul_one]
    have e2 : toMat N' (X.shape.getD n 0) R * (k'ᵀ * k') = x * k' := by
      rw [hN', Matrix.mul_assoc, hone', Matrix.mul_one]
    have e3 : toMat N' (X.shape.getD n 0) R * D * (kᵀ * k) * D = toMat N (X.shape.getD n 0) R * (kᵀ * k) * D := by
      rw [e1, Matrix.mul_assoc x, ← hKK, ← e2, hKK, transpose_mul, hDT]
      simp only [Matrix.mul_assoc]
    have e4 := congrArg (fun M => M * D⁻¹ * (kᵀ * k)⁻¹) e3
    simpa only [Matrix.mul_nonsing_inv_cancel_right _ _ hDdet, Matrix.mul_nonsing_inv_cancel_right _ _ hu] using e4
  have hent : ∀ i < X.shape.getD n 0, ∀ r < R, N.at_ [i, r] = N'.at_ [i, r] * c r := by
    intro i hi r hr
    have := congrFun (congrFun hNN ⟨i, hi⟩) ⟨r, hr⟩
    rw [hD, Matrix.mul_diagonal, toMat_apply, toMat_apply] at this
    exact this.symm
  have hlam : ∀ r < R, lam.at_ [r] = lam'.at_ [r] * c r := by
    intro r hr
    obtain ⟨a1, p, hp, a3⟩ := hmax r hr
    obtain ⟨b1, q, hq, b3⟩ := hmax' r hr
    refine le_antisymm ?_ ?_
    · rw [← a3, hent p hp r hr]
      exact mul_le_mul_of_nonneg_right (b1 p hp) (hc r).le
    · rw [← b3, ← hent q hq r hr]
      exact a1 q hq
  have hz : (0 : ℝ) ∉ lam.data := by
    intro h0
    rw [he, if_pos h0] at h
    cases h
  have hz' : (0 : ℝ) ∉ lam'.data := by
    intro h0
    rw [data_eq, List.mem_map] at h0
    obtain ⟨i, hi, e⟩ := h0
    rw [mem_indices, hls'] at hi
    match i, hi.length with
    | [r], _ =>
        have hr : r < R := by simpa using hi
        have := hlam r hr
        rw [e, zero_mul] at this
        exact at_ne_zero hz (i := [r]) (by rw [hls]; simpa using hr) this
  rw [he, if_neg hz] at h
  cases h
  refine ⟨_, _, by rw [he', if_neg hz'], rfl, ?_⟩
  simp only
  congr 1
  refine ext_mat rfl rfl fun i hi r hr => ?_
  rw [at_mat _ hi hr, at_mat _ hi hr, hent i hi r hr, hlam r hr, mul_div_mul_right _ _ (hc r).ne']

/-- The first `k` mode updates. -/
noncomputable def updates (pinv : Tensor ℝ → Res (Tensor ℝ)) (X : Tensor ℝ) (R : Nat) (U : List (Tensor ℝ)) (k : Nat) :
    Res (List (Tensor ℝ) × Option (Tensor ℝ)) :=
  (List.range k).foldlM (init := (U, (none : Option (Tensor ℝ)))) fun st mode => do
    let u ← modeUpdate pinv X R st.1 mode
    return (u.A, some u.lam)

theorem updates_succ (pinv : Tensor ℝ → Res (Tensor ℝ)) (X : Tensor ℝ) (R : Nat) (U : List (Tensor ℝ)) (k : Nat) :
    updates pinv X R U (k + 1) = updates pinv X R U k >>= fun st => do
      let u ← modeUpdate pinv X R st.1 k
      return (u.A, some u.lam) := by
  unfold updates
  rw [List.range_succ, List.foldlM_append]
  congr 1
  funext st
  simp [List.foldlM_cons]

theorem updates_succ_ok {pinv : Tensor ℝ → Res (Tensor ℝ)} {X : Tensor ℝ} {R : Nat} {U : List (Tensor ℝ)} {k : Nat}
    {A : List (Tensor ℝ)} {o : Option (Tensor ℝ)} (h : updates pinv X R U (k + 1) = .ok (A, o)) :
    ∃ A0 o0 u, updates pinv X R U k = .ok (A0, o0) ∧ modeUpdate pinv X R A0 k = .ok u ∧ A = u.A ∧ o = some u.lam := by
  rw [updates_succ] at h
  cases h0 : updates pinv X R U k with
  | error e => rw [h0] at h; cases h
  | ok st =>
      rw [h0, ok_bind] at h
      cases hu : modeUpdate pinv X R st.1 k with
      | error e => rw [hu] at h; cases h
      | ok u =>
          rw [hu, ok_bind] at h
          cases h
          exact ⟨st.1, st.2, u, rfl, hu, rfl, rfl⟩

theorem updates_step {pinv : Tensor ℝ → Res (Tensor ℝ)} {X : Tensor ℝ} {R : Nat} {U : List (Tensor ℝ)} {k : Nat}
    {A : List (Tensor ℝ)} {o : Option (Tensor ℝ)} {u : Upd ℝ} (h : updates pinv X R U k = .ok (A, o))
    (hu : modeUpdate pinv X R A k = .ok u) : updates pinv X R U (k + 1) = .ok (u.A, some u.lam) := by
  rw [updates_succ, h, ok_bind]
  simp only [hu]
  rfl

theorem modeUpdate_set {pinv : Tensor ℝ → Res (Tensor ℝ)} {X : Tensor ℝ} {R n : Nat} {A : List (Tensor ℝ)} {u : Upd ℝ}
    (h : modeUpdate pinv X R A n = .ok u) : ∃ B, u.A = A.set n B := by
  unfold modeUpdate at h
  simp only [bind, Except.bind] at h
  repeat' split at h
  all_goals first | (cases h; done) | skip
  rename_i A' hA'
  cases h
  unfold tf.assign at hA'
  split at hA'
  · cases hA'
  · split at hA'
    · cases hA'
      exact ⟨_, rfl⟩
    · cases hA'

theorem updates_rest {pinv : Tensor ℝ → Res (Tensor ℝ)} {X : Tensor ℝ} {R : Nat} {U : List (Tensor ℝ)} : ∀ {k : Nat}
    {A : List (Tensor ℝ)} {o : Option (Tensor ℝ)}, updates pinv X R U k = .ok (A, o) → A.drop k = U.drop k ∧ A.length = U.length
  | 0, A, o, h => by cases h; exact ⟨rfl, rfl⟩
  | k + 1, A, o, h => by
      obtain ⟨A0, o0, u, h1, h2, rfl, -⟩ := updates_succ_ok h
      obtain ⟨B, hB⟩ := modeUpdate_set h2
      obtain ⟨h3, h4⟩ := updates_rest h1
      rw [hB]
      refine ⟨?_, by simpa using h4⟩
      rw [List.drop_set_of_lt (by omega), ← List.tail_drop, h3, List.tail_drop]

theorem updates_earlier {pinv : Tensor ℝ → Res (Tensor ℝ)} {X : Tensor ℝ} {R : Nat} {U : List (Tensor ℝ)} {k : Nat} : ∀ {m : Nat}
    {F : List (Tensor ℝ)} {o : Option (Tensor ℝ)}, k ≤ m → updates pinv X R U m = .ok (F, o) →
    ∃ A o', updates pinv X R U k = .ok (A, o') ∧ A.take k = F.take k
  | 0, F, o, hk, h => by
      obtain rfl : k = 0 := by omega
      exact ⟨F, o, h, rfl⟩
  | m + 1, F, o, hk, h => by
      rcases Nat.lt_or_ge m k with hlt | hge
      · obtain rfl : k = m + 1 := by omega
        exact ⟨F, o, h, rfl⟩
      · obtain ⟨A0, o0, u, h1, h2, rfl, -⟩ := updates_succ_ok h
        obtain ⟨B, hB⟩ := modeUpdate_set h2
        obtain ⟨A, o', h3, h4⟩ := updates_earlier hge h1
        refine ⟨A, o', h3, ?_⟩
        rw [hB, List.take_set_of_le hge]
        exact h4

theorem sweep_updates {pinv : Tensor ℝ → Res (Tensor ℝ)} {X : Tensor ℝ} {R : Nat} {U : List (Tensor ℝ)} {F : List (Tensor ℝ)}
    {lam : Tensor ℝ} : sweep pinv X R U = .ok (F, lam) ↔ updates pinv X R U X.order = .ok (F, some lam) := by
  unfold sweep
  change (updates pinv X R U X.order >>= _) = _ ↔ _
  cases updates pinv X R U X.order with
  | error e => constructor <;> intro h <;> cases h
  | ok r =>
      obtain ⟨r1, r2⟩ := r
      rw [ok_bind]
      cases r2 with
      | none => simp
      | some l => simp

/-- The sweep from rescaled columns (and any first factor). -/
theorem sweep_scaled {pinv : Tensor ℝ → Res (Tensor ℝ)} (hp : PinvOk pinv) {X : Tensor ℝ} {R : Nat}
    {U U' : List (Tensor ℝ)} (hU : FactorsFor X.shape R U) (hU' : FactorsFor X.shape R U')
    (hs : List.Forall₂ ScaledColumns (U.drop 1) (U'.drop 1))
    (h2 : 2 ≤ X.order) (h25 : X.order ≤ 25) (hpos : ∀ d ∈ X.shape, 0 < d) {F : List (Tensor ℝ)} {lam : Tensor ℝ}
    (h : sweep pinv X R U = .ok (F, lam))
    (hi : ∀ n < X.order, Independent (X.shape.eraseIdx n) R ((F.take n ++ U.drop n).eraseIdx n)) :
    sweep pinv X R U' = .ok (F, lam) := by
  rw [sweep_updates] at h
  have key : ∀ k < X.order, ∃ A A' o o', updates pinv X R U k = .ok (A, o) ∧ updates pinv X R U' k = .ok (A', o') ∧
      FactorsFor X.shape R A ∧ FactorsFor X.shape R A' ∧ A'.take k = A.take k := by
    intro k
    induction k with
    | zero => intro _; exact ⟨U, U', none, none, rfl, rfl, hU, hU', rfl⟩
    | succ k ih =>
        intro hk
        obtain ⟨A, A', o, o', a1, a2, a3, a4, a5⟩ := ih (by omega)
        obtain ⟨A1, o1, b1, b2⟩ := updates_earlier (k := k) (by omega) h
        rw [a1] at b1
        cases b1
        obtain ⟨A2, o2, c1, -⟩ := updates_earlier (k := k + 1) (by omega) h
        obtain ⟨A3, o3, u, d1, d2, d3, d4⟩ := updates_succ_ok c1
        rw [a1] at d1
        cases d1
        obtain ⟨r1, -⟩ := updates_rest a1
        obtain ⟨r2, -⟩ := updates_rest a2
        have hsp : A = F.take k ++ U.drop k := by rw [← b2, ← r1, List.take_append_drop]
        have hscale : List.Forall₂ ScaledColumns (A.eraseIdx k) (A'.eraseIdx k) := by
          rw [List.eraseIdx_eq_take_drop_succ, List.eraseIdx_eq_take_drop_succ, a5]
          refine List.rel_append ?_ ?_
          · exact List.forall₂_same.2 fun x _ => ScaledColumns.refl x
          · rw [← List.tail_drop, ← List.tail_drop, r1, r2, List.tail_drop, List.tail_drop]
            have := List.forall₂_drop k hs
            rwa [List.drop_drop, List.drop_drop, Nat.add_comm 1 k] at this
        obtain ⟨B, u', e1, e2, e3⟩ := modeUpdate_scaled hp a3 a4 hscale (by rw [hsp]; exact hi k (by omega)) h2 h25 (by omega)
          (getD_pos hpos (by unfold order at hk; omega)) d2
        refine ⟨u.A, u'.A, _, _, updates_step a1 d2, updates_step a2 e1, modeUpdate_factors a3 d2, modeUpdate_factors a4 e1, ?_⟩
        rw [e2, e3]
        have l1 : A.length = X.order := a3.length
        have l2 : A'.length = X.order := a4.length
        rw [List.take_add_one, List.take_add_one, List.take_set_of_le (le_refl _), List.take_set_of_le (le_refl _), a5]
        simp [l1, l2, show k < X.order by omega]
  obtain ⟨m, hm⟩ : ∃ m, X.order = m + 1 := ⟨X.order - 1, by omega⟩
  obtain ⟨A, A', o, o', a1, a2, a3, a4, a5⟩ := key m (by omega)
  rw [sweep_updates, hm]
  rw [hm] at h
  obtain ⟨A3, o3, u, d1, d2, d3, d4⟩ := updates_succ_ok h
  rw [a1] at d1
  cases d1
  have hee : A.eraseIdx m = A'.eraseIdx m := by
    rw [List.eraseIdx_eq_take_drop_succ, List.eraseIdx_eq_take_drop_succ, a5,
      List.drop_eq_nil_of_le (by rw [a3.length]; unfold order at hm; omega),
      List.drop_eq_nil_of_le (by rw [a4.length]; unfold order at hm; omega)]
  have := modeUpdate_congr (pinv := pinv) a3 a4 hee h2 h25 (by omega)
  rw [d2] at this
  rw [updates_step a2 this.symm, d3, d4]

/-- The sweep does not depend on the first factor at all. -/
theorem sweep_first {pinv : Tensor ℝ → Res (Tensor ℝ)} {X : Tensor ℝ} {R : Nat}
    {U U' : List (Tensor ℝ)} (hU : FactorsFor X.shape R U) (hU' : FactorsFor X.shape R U') (hs : U.drop 1 = U'.drop 1)
    (h2 : 2 ≤ X.order) (h25 : X.order ≤ 25) : sweep pinv X R U = sweep pinv X R U' := by
  have h0 : modeUpdate pinv X R U 0 = modeUpdate pinv X R U' 0 :=
    modeUpdate_congr hU hU' (by simpa [List.eraseIdx_eq_take_drop_succ] using hs) h2 h25 (by omega)
  have key : ∀ k, updates pinv X R U (k + 1) = updates pinv X R U' (k + 1) := by
    intro k
    induction k with
    | zero => rw [updates_succ, updates_succ]; change (modeUpdate pinv X R U 0 >>= _) = (modeUpdate pinv X R U' 0 >>= _); rw [h0]
    | succ k ih => rw [updates_succ, ih, ← updates_succ]
  obtain ⟨m, hm⟩ : ∃ m, X.order = m + 1 := ⟨X.order - 1, by omega⟩
  unfold sweep
  change (updates pinv X R U X.order >>= _) = (updates pinv X R U' X.order >>= _)
  rw [hm, key]

end cp
end TD
