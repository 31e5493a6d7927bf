import Verif.Lemmas.RenumberFit
import Verif.Lemmas.TrainSim

/-! # Renumbering in `CP_ALS` -/
namespace TD
open Spec Tensor tf ops Matrix

theorem assign_renum (σ : Nat → Nat → Nat) (U : List (Tensor ℝ)) (k : Nat) (v : Tensor ℝ) :
    tf.assign (renumFactors σ U) k (renumRows (σ k) v) = renumFactors σ <$> tf.assign U k v := by
  unfold tf.assign
  rw [getElem?_renumFactors]
  cases U[k]? with
  | none => rfl
  | some old =>
      simp only [Option.map_some]
      by_cases h : v.shape = old.shape
      · rw [if_pos (show (renumRows (σ k) v).shape = (renumRows (σ k) old).shape from h), if_pos h, ← renumFactors_set]; rfl
      · rw [if_neg (show ¬ (renumRows (σ k) v).shape = (renumRows (σ k) old).shape from h), if_neg h]; rfl

theorem grams_renum : ∀ {shape : List Nat} {R : Nat} {U : List (Tensor ℝ)} {σ : Nat → Nat → Nat}, FactorsFor shape R U →
    Renumbering shape σ → ((renumFactors σ U).mapM fun a => tf.matmul a a true false) =
      (U.mapM fun a => tf.matmul a a true false : Res (List (Tensor ℝ)))
  | [], _, [], _, _, _ => rfl
  | [], _, _ :: _, _, h, _ => by cases h
  | _ :: _, _, [], _, h, _ => by cases h
  | d :: shape, R, A :: U, σ, h, hσ => by
      have hA : A.shape = [d, R] := (List.cons.inj h).1
      have hU : FactorsFor shape R U := (List.cons.inj h).2
      have h0 : Set.BijOn (σ 0) (Set.Iio d) (Set.Iio d) := by simpa using hσ 0 (by simp)
      rw [renumFactors_cons, List.mapM_cons, List.mapM_cons, matmul_tn_renum hA hA h0, grams_renum hU hσ.tail]

theorem unfold_renum {X : Tensor ℝ} {σ : Nat → Nat → Nat} {n : Nat} (hσ : Renumbering X.shape σ) (hn : n < X.order)
    (hpos : 0 < X.shape.getD n 0) :
    ∃ M M', unfold X n = .ok M ∧ unfold (renum σ X) n = .ok M' ∧ M.shape = [X.shape.getD n 0, otherSize X.shape n] ∧
      M'.shape = [X.shape.getD n 0, otherSize X.shape n] ∧ ∀ i < X.shape.getD n 0, ∀ j < otherSize X.shape n,
        M'.at_ [i, j] = M.at_ [σ n i, colPerm X.shape n σ j] := by
  refine ⟨_, _, unfold_closed X hn hpos, unfold_closed (renum σ X) hn hpos, rfl, rfl, fun i hi j hj => ?_⟩
  rw [shape_renum, at_mat _ hi hj, at_renum σ (unkolda_spec hn hi hj).1, mapIdx_unkolda hσ hn hi hj,
    at_mat _ (hσ.lt hn hi) (colPerm_lt hσ hn hpos hj)]

theorem reshape_same {N : Tensor ℝ} {m n : Nat} (h : N.shape = [m, n]) : reshape N [(m : Int), (n : Int)] = .ok N := by
  have := reshape_nat (t := N) (s := [m, n]) (by rw [N.wf, h])
  simp only [List.map_cons, List.map_nil] at this
  rw [this]
  congr 1
  cases N with
  | mk s d wf => simp only at h; subst h; rfl

theorem reduceMax0_renum {N : Tensor ℝ} {m n : Nat} {π : Nat → Nat} (hs : N.shape = [m, n]) (hm : 0 < m)
    (h : Set.BijOn π (Set.Iio m) (Set.Iio m)) : reduceMax0 (renumRows π N) = reduceMax0 N := by
  obtain ⟨a, ha, has, ha2⟩ := cp.reduceMax0_ok N hs hm
  obtain ⟨b, hb, hbs, hb2⟩ := cp.reduceMax0_ok (renumRows π N) hs hm
  rw [ha, hb]
  congr 1
  refine ext_at (hbs.trans has.symm) fun i hi => ?_
  rw [hbs] at hi
  obtain ⟨r, rfl⟩ : ∃ r, i = [r] := by
    have := hi.length
    match i, this with
    | [r], _ => exact ⟨r, rfl⟩
  have hr : r < n := by simpa using hi
  obtain ⟨a1, p, hp, a3⟩ := ha2 r hr
  obtain ⟨b1, q, hq, b3⟩ := hb2 r hr
  refine le_antisymm ?_ ?_
  · rw [← b3, at_renumRows π hs hq hr]
    exact a1 _ (h.mapsTo hq)
  · obtain ⟨p', hp', e⟩ := h.surjOn (show p ∈ Set.Iio m from hp)
    rw [← a3, ← e, ← at_renumRows π hs hp' hr]
    exact b1 _ hp'

theorem div_renum {N lam : Tensor ℝ} {m n : Nat} {π : Nat → Nat} (hN : N.shape = [m, n]) (hl : lam.shape = [n])
    (h : Set.BijOn π (Set.Iio m) (Set.Iio m)) : tf.div (renumRows π N) lam = renumRows π <$> tf.div N lam := by
  by_cases h0 : (0 : ℝ) ∈ lam.data
  · unfold tf.div
    rw [if_pos h0, if_pos h0]; rfl
  · rw [cp.div_rows hN hl h0, cp.div_rows (by exact hN) hl h0]
    show Except.ok _ = Except.ok _
    congr 1
    refine ext_mat rfl rfl fun i hi j hj => ?_
    rw [at_mat _ hi hj, at_renumRows π (shape_mat _ _ _) hi hj, at_mat _ (h.mapsTo hi) hj, at_renumRows π hN hi hj]

namespace cp

theorem modeUpdate_renum {pinv : Tensor ℝ → Res (Tensor ℝ)}
    (hp : ∀ V P n, V.shape = [n, n] → pinv V = .ok P → P.shape = [n, n]) {X : Tensor ℝ} {σ : Nat → Nat → Nat}
    (hσ : Renumbering X.shape σ) {R n : Nat} {A : List (Tensor ℝ)} (hA : FactorsFor X.shape R A) (h2 : 2 ≤ X.order)
    (h25 : X.order ≤ 25) (hn : n < X.order) (hpos : 0 < X.shape.getD n 0) :
    modeUpdate pinv (renum σ X) R (renumFactors σ A) n =
      (fun u : Upd ℝ => ⟨renumFactors σ u.A, u.lam, renumRows (σ n) u.nonNorm⟩) <$> modeUpdate pinv X R A n := by
  have hπ := hσ n hn
  obtain ⟨M, M', hM, hM', hMs, hMs', eM⟩ := unfold_renum hσ hn hpos
  obtain ⟨K, K', hK, hK', hKs, hKs', eK⟩ := khatri_renum hσ hA h2 h25 hn hpos
  have hX := matmul_cancel hMs hKs hMs' hKs' hπ (colPerm_bij hσ hn hpos) eM eK
  obtain ⟨XA, hXA⟩ : ∃ XA, matmul M K = .ok XA := ⟨_, matmul_nn hMs hKs⟩
  obtain ⟨hXAs, -⟩ := toMat_matmul_nn hMs hKs hXA
  have hn' : n < A.length := by rw [hA.length]; exact hn
  have hke : kept A (.int n) ≠ [] := by
    rw [kept_int]; intro e
    have := congrArg List.length e
    rw [List.length_eraseIdx, if_pos hn', hA.length] at this
    unfold order at h2
    simp at this; omega
  obtain ⟨K2, G, grams, hK2, hG, hgr, hhad⟩ := Props.C19_gram A (.int n) true R hA.allMat hA.cols hke (by
    rw [kept_int, List.length_eraseIdx, if_pos hn', hA.length]; unfold order at h25; omega)
  rw [hK] at hK2
  cases hK2
  obtain ⟨hGs, -⟩ := toMat_matmul_tn hKs hKs hG
  unfold modeUpdate
  rw [hM', hM, ok_bind, ok_bind, grams_renum hA hσ, hgr, ok_bind, ok_bind, hK, hK', ok_bind, ok_bind, hX, hXA, ok_bind]
  change (do let XA ← (Except.ok (renumRows (σ n) XA) : Res (Tensor ℝ)); _) = _
  rw [ok_bind, hhad, ok_bind, ok_bind]
  cases hP : pinv G with
  | error e => rfl
  | ok P =>
  have hPs := hp _ _ _ hGs hP
  obtain ⟨N, hN⟩ : ∃ N, matmul XA P = .ok N := ⟨_, matmul_nn hXAs hPs⟩
  obtain ⟨hNs, -⟩ := toMat_matmul_nn hXAs hPs hN
  rw [ok_bind, ok_bind, matmul_nn_renum hXAs hPs hπ, hN, ok_bind]
  change (do let N ← (Except.ok (renumRows (σ n) N) : Res (Tensor ℝ)); _) = _
  rw [ok_bind, shape_renum, reshape_same hNs, reshape_same (by exact hNs), ok_bind, ok_bind, reduceMax0_renum hNs hpos hπ]
  obtain ⟨lam, hlam, hls, -⟩ := reduceMax0_ok N hNs hpos
  rw [hlam, ok_bind, ok_bind, div_renum hNs hls hπ]
  cases tf.div N lam with
  | error e => rfl
  | ok B =>
  rw [ok_bind]
  change (do let B ← (Except.ok (renumRows (σ n) B) : Res (Tensor ℝ)); _) = _
  rw [ok_bind, assign_renum]
  cases tf.assign A n B <;> rfl

theorem modeUpdate_factors {pinv : Tensor ℝ → Res (Tensor ℝ)} {X : Tensor ℝ} {shape : List Nat} {R n : Nat} {A : List (Tensor ℝ)}
    {u : Upd ℝ} (hA : FactorsFor shape R A) (h : modeUpdate pinv X R A n = .ok u) : FactorsFor shape R u.A := by
  unfold modeUpdate at h
  simp only [bind, Except.bind] at h
  repeat' split at h
  all_goals first | (cases h; done) | skip
  rename_i A' hA'
  cases h
  unfold tf.assign at hA'
  split at hA'
  · cases hA'
  · rename_i old hold
    split at hA'
    · cases hA'
      rename_i e
      exact hA.set (by rw [e, hA.get hold])
    · cases hA'

theorem sweep_renum {pinv : Tensor ℝ → Res (Tensor ℝ)}
    (hp : ∀ V P n, V.shape = [n, n] → pinv V = .ok P → P.shape = [n, n]) {X : Tensor ℝ} {σ : Nat → Nat → Nat}
    (hσ : Renumbering X.shape σ) {R : Nat} {A : List (Tensor ℝ)} (hA : FactorsFor X.shape R A) (h2 : 2 ≤ X.order)
    (h25 : X.order ≤ 25) (hpos : ∀ d ∈ X.shape, 0 < d) :
    sweep pinv (renum σ X) R (renumFactors σ A) = (fun r => (renumFactors σ r.1, r.2)) <$> sweep pinv X R A := by
  unfold sweep
  have key : ∀ (l : List Nat), (∀ n ∈ l, n < X.order) → ∀ (A : List (Tensor ℝ)) (o : Option (Tensor ℝ)), FactorsFor X.shape R A →
      (l.foldlM (init := (renumFactors σ A, o)) fun st mode => do
        let u ← modeUpdate pinv (renum σ X) R st.1 mode
        return (u.A, some u.lam) : Res (List (Tensor ℝ) × Option (Tensor ℝ))) =
      (fun r => (renumFactors σ r.1, r.2)) <$> (l.foldlM (init := (A, o)) fun st mode => do
        let u ← modeUpdate pinv X R st.1 mode
        return (u.A, some u.lam) : Res (List (Tensor ℝ) × Option (Tensor ℝ))) := by
    intro l
    induction l with
    | nil => intro _ A o _; rfl
    | cons n l ih =>
        intro hl A o hA
        have hn := hl n (by simp)
        have hpn : 0 < X.shape.getD n 0 := by
          rw [List.getD_eq_getElem _ _ hn]; exact hpos _ (List.getElem_mem hn)
        rw [List.foldlM_cons, List.foldlM_cons]
        simp only [modeUpdate_renum hp hσ hA h2 h25 hn hpn]
        cases hu : modeUpdate pinv X R A n with
        | error e => rfl
        | ok u => exact ih (fun m hm => hl m (by simp [hm])) u.A (some u.lam) (modeUpdate_factors hA hu)
  have := key (List.range X.order) (fun n hn => by simpa using hn) A none hA
  rw [show (renum σ X).order = X.order from rfl, this]
  cases ((List.range X.order).foldlM (init := (A, (none : Option (Tensor ℝ)))) fun st mode => do
    let u ← modeUpdate pinv X R st.1 mode
    return (u.A, some u.lam) : Res (List (Tensor ℝ) × Option (Tensor ℝ))) with
  | error e => rfl
  | ok r =>
      obtain ⟨r1, r2⟩ := r
      cases r2 <;> rfl

theorem fullOf_renum {A : List (Tensor ℝ)} {lam : Tensor ℝ} {shape : List Nat} {R : Nat} {σ : Nat → Nat → Nat}
    (hσ : Renumbering shape σ) (hA : FactorsFor shape R A) (hne : shape ≠ []) (h25 : shape.length ≤ 25) (hl : lam.shape = [R]) :
    fullOf (renumFactors σ A) lam = renum σ <$> fullOf A lam := by
  obtain ⟨Y, h1, h2, h3⟩ := fullOf_spec hA hne h25 hl
  obtain ⟨Y', h1', h2', h3'⟩ := fullOf_spec (hA.renum σ) hne h25 hl
  rw [h1, h1']
  show Except.ok _ = Except.ok _
  congr 1
  refine ext_at (h2'.trans h2.symm) fun i hi => ?_
  rw [h2'] at hi
  rw [h3' i hi, at_renum σ (by rw [h2]; exact hi), h3 _ (hσ.inB hi)]
  refine Finset.sum_congr rfl fun r hr => ?_
  rw [khatriEntry_renum (Finset.mem_range.1 hr) hA hi]

end cp
end TD
