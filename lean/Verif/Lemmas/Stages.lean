import Verif.Lemmas.Fixed

/-!
# Lemmas on the stages of one sweep over the modes
-/
namespace TD
open Spec Tensor tf ops Matrix

/-- The factors when a sweep comes to mode `n`: the modes before `n` are new, the others still old. -/
def atMode {τ : Type} (old new : List τ) (n : Nat) : List τ := new.take n ++ old.drop n

/-- A loop over `k, k+1, ..., k+m-1` that writes block `n` at stage `n`: what it sees at stage `n`, and how a quantity that no stage
increases compares with the end. -/
theorem fold_stages {σ τ : Type} {f : σ → Nat → Res σ} {get : σ → List τ} {P : σ → Prop} {E : σ → ℝ} {N : Nat}
    (hset : ∀ {s k s'}, f s k = .ok s' → ∃ v, get s' = (get s).set k v)
    (hP : ∀ {s k s'}, P s → k < N → f s k = .ok s' → P s' ∧ E s' ≤ E s) :
    ∀ {m k : Nat} {s s' : σ}, k + m = N → (get s).length = N → P s → (List.range' k m).foldlM f s = .ok s' →
      E s' ≤ E s ∧ (get s').take k = (get s).take k ∧ (get s').length = N ∧
      ∀ n, k ≤ n → n < N → ∃ a b, P a ∧ get a = atMode (get s) (get s') n ∧ f a n = .ok b ∧ E s' ≤ E b := by
  intro m
  induction m with
  | zero =>
      intro k s s' hk hl _ h
      cases h
      exact ⟨le_rfl, rfl, hl, fun n h1 h2 => absurd h2 (by omega)⟩
  | succ m ih =>
      intro k s s' hk hl hs h
      rw [List.range'_succ, List.foldlM_cons] at h
      cases e : f s k with
      | error e' => rw [e] at h; cases h
      | ok s1 =>
          rw [e, ok_bind] at h
          obtain ⟨v, hv⟩ := hset e
          obtain ⟨p1, p2⟩ := hP hs (by omega) e
          obtain ⟨i1, i2, i3, i4⟩ := ih (k := k + 1) (by omega) (by rw [hv, List.length_set, hl]) p1 h
          have ht : (get s').take k = (get s).take k := by
            have := congrArg (List.take k) i2
            rw [List.take_take, List.take_take, Nat.min_eq_left (by omega), hv, List.take_set_of_le (le_refl k)] at this
            exact this
          refine ⟨i1.trans p2, ht, i3, fun n h1 h2 => ?_⟩
          rcases Nat.eq_or_lt_of_le h1 with rfl | h1
          · exact ⟨s, s1, hs, by rw [atMode, ht, List.take_append_drop], e, i1⟩
          · obtain ⟨a, b, q1, q2, q3, q4⟩ := i4 n h1 h2
            refine ⟨a, b, q1, ?_, q3, q4⟩
            rw [q2, atMode, atMode, hv, List.drop_set_of_lt (by omega)]

theorem cp.modeUpdate_set {pinv : Tensor ℝ → Res (Tensor ℝ)} {X : Tensor ℝ} {R k : Nat} {A : List (Tensor ℝ)} {u : cp.Upd ℝ}
    (hu : cp.modeUpdate pinv X R A k = .ok u) : ∃ v, u.A = A.set k v := by
  unfold cp.modeUpdate at hu
  cases h1 : ops.unfold X k with
  | error e => rw [h1] at hu; cases hu
  | ok M =>
  rw [h1, ok_bind] at hu
  cases h2 : A.mapM (fun a => tf.matmul a a true false) with
  | error e => rw [h2] at hu; cases hu
  | ok AtA =>
  rw [h2, ok_bind] at hu
  cases h3 : ops.khatri A (.int k) true with
  | error e => rw [h3] at hu; cases hu
  | ok K =>
  rw [h3, ok_bind] at hu
  cases h4 : tf.matmul M K with
  | error e => rw [h4] at hu; cases hu
  | ok XA =>
  rw [h4, ok_bind] at hu
  cases h5 : ops.hadamard AtA (.int k) with
  | error e => rw [h5] at hu; cases hu
  | ok V =>
  rw [h5, ok_bind] at hu
  cases h6 : pinv V with
  | error e => rw [h6] at hu; cases hu
  | ok P =>
  rw [h6, ok_bind] at hu
  cases h7 : tf.matmul XA P with
  | error e => rw [h7] at hu; cases hu
  | ok N =>
  rw [h7, ok_bind] at hu
  cases h8 : tf.reshape N [(X.shape.getD k 0 : Nat), (R : Nat)] with
  | error e => rw [h8] at hu; cases hu
  | ok N' =>
  rw [h8, ok_bind] at hu
  cases h9 : tf.reduceMax0 N' with
  | error e => rw [h9] at hu; cases hu
  | ok lam =>
  rw [h9, ok_bind] at hu
  cases h10 : tf.div N lam with
  | error e => rw [h10] at hu; cases hu
  | ok A' =>
  rw [h10, ok_bind] at hu
  cases h11 : tf.assign A k A' with
  | error e => rw [h11] at hu; cases hu
  | ok A'' =>
  rw [h11, ok_bind] at hu
  cases hu
  obtain ⟨old, -, -, e⟩ := assign_inv h11
  exact ⟨A', e.1⟩

/-- One step of CP: at the stage of mode `n` no matrix in its place, with whatever weights, has an error below the one the step ends
with. -/
theorem cp.main_stages {pinv : Tensor ℝ → Res (Tensor ℝ)} (hp : PinvOk pinv) {X : Tensor ℝ} {R : Nat}
    {A A' : List (Tensor ℝ)} {o : fact.Out (List (Tensor ℝ)) (Tensor ℝ) (Tensor ℝ) ℝ}
    (hA : FactorsFor X.shape R A) (h2 : 2 ≤ X.order) (h25 : X.order ≤ 25)
    (hpos : ∀ d ∈ X.shape, 0 < d) (h : cp.main pinv X R A = .ok (A', o)) :
    ∃ lam, o.aux = some lam ∧ ∀ n < X.order, ∀ B : Tensor ℝ, B.shape = [X.shape.getD n 0, R] → ∀ w,
      cpErr X R A' (cp.wt lam) ≤ cpErr X R ((atMode A A' n).set n B) w := by
  obtain ⟨lam, hsw, -, -, -, h5, -⟩ := cp.main_ok hp hA h2 h25 hpos h
  refine ⟨lam, h5, fun n hn B hB w => ?_⟩
  unfold cp.sweep at hsw
  cases hf : (List.range X.order).foldlM (fun (st : List (Tensor ℝ) × Option (Tensor ℝ)) mode => (do
        let u ← cp.modeUpdate pinv X R st.1 mode
        return (u.A, some u.lam) : Res _)) (A, none) with
  | error e => rw [hf] at hsw; cases hsw
  | ok st' =>
      rw [hf, ok_bind] at hsw
      obtain ⟨A2, l2⟩ := st'
      cases l2 with
      | none => cases hsw
      | some l =>
      cases hsw
      have hinv : ∀ {s : List (Tensor ℝ) × Option (Tensor ℝ)} {k : Nat} {s' : List (Tensor ℝ) × Option (Tensor ℝ)},
          (do let u ← cp.modeUpdate pinv X R s.1 k
              return (u.A, some u.lam) : Res _) = .ok s' →
            ∃ u, cp.modeUpdate pinv X R s.1 k = .ok u ∧ s' = (u.A, some u.lam) := by
        intro s k s' e
        cases hu : cp.modeUpdate pinv X R s.1 k with
        | error e' => rw [hu] at e; cases e
        | ok u => rw [hu] at e; cases e; exact ⟨u, rfl, rfl⟩
      rw [List.range_eq_range'] at hf
      obtain ⟨-, -, -, hst⟩ := fold_stages (N := X.order) (get := Prod.fst) (P := fun st => FactorsFor X.shape R st.1)
        (E := fun st => cpErr X R st.1 (match st.2 with | none => fun _ => 0 | some l => cp.wt l))
        (by intro s k s' e
            obtain ⟨u, hu, rfl⟩ := hinv e
            exact cp.modeUpdate_set hu)
        (by intro s k s' hs hk e
            obtain ⟨u, hu, rfl⟩ := hinv e
            obtain ⟨a1, -, -, a3⟩ := cp.modeUpdate_descends hp hs h2 h25 hk (cp.getD_pos hpos hk) hu
            exact ⟨a1, a3 _⟩) (Nat.zero_add _) hA.length hA hf
      obtain ⟨a, b, q1, q2, q3, q4⟩ := hst n (Nat.zero_le _) hn
      obtain ⟨u, hu, rfl⟩ := hinv q3
      have := (cp.modeUpdate_descends hp q1 h2 h25 hn (cp.getD_pos hpos hn) hu).2.2.1 B w hB
      rw [q2] at this
      exact q4.trans this

/-- One step of HOOI from orthonormal factors: at the stage of mode `n` no matrix in its place, with whatever core, has an error below the
one the step ends with. -/
theorem hooi_stages {svd : Tensor ℝ → Res (Tensor ℝ × Tensor ℝ × Tensor ℝ)} (hs : SvdOk svd) {X : Tensor ℝ}
    {ranks : List Nat} (h2 : 2 ≤ X.order) (h13 : X.order ≤ 13)
    (hpos : ∀ d ∈ X.shape, 0 < d) (hlen : ranks.length = X.order) {A A' : List (Tensor ℝ)}
    {o : fact.Out (List (Tensor ℝ)) (Tensor ℝ) (Tensor ℝ) ℝ} (hA : TuckerShapes X.shape ranks A)
    (hAo : ∀ k M, A[k]? = some M → OrthoCols M (X.shape.getD k 0) (ranks.getD k 0))
    (h : tucker.HOOI.main svd X ranks A = .ok (A', o)) :
    ∃ g, o.aux = some g ∧ g.shape = ranks ∧ ∀ n < X.order, ∀ B g' : Tensor ℝ, B.shape = [X.shape.getD n 0, ranks.getD n 0] →
      g'.shape = ranks → tkErr X g A' ≤ tkErr X g' ((atMode A A' n).set n B) := by
  obtain ⟨g, a1, a2, a3, -, a5, a6, a7, a8, a9, -, -, -, a13, -⟩ := hooi_main hs h2 h13 hpos hlen.ge hA h
  have hne : X.shape ≠ [] := by intro e; unfold order at h2; rw [e] at h2; simp at h2
  have hort : ∀ {U : List (Tensor ℝ)}, U.length = X.shape.length →
      (∀ k M, U[k]? = some M → OrthoCols M (X.shape.getD k 0) (ranks.getD k 0)) → OrthoFactors X.shape U := by
    intro U hl hU
    refine ⟨hl, fun k M hM => ?_⟩
    have := hU k M hM
    have e : M.shape.getD 1 0 = ranks.getD k 0 := by rw [this.1]; rfl
    rw [e]; exact this
  have hset : ∀ {U : List (Tensor ℝ)} {n : Nat} {Q : Tensor ℝ}, n < X.order → U.length = X.shape.length →
      (∀ k M, U[k]? = some M → OrthoCols M (X.shape.getD k 0) (ranks.getD k 0)) → OrthoCols Q (X.shape.getD n 0) (ranks.getD n 0) →
      ∀ k M, (U.set n Q)[k]? = some M → OrthoCols M (X.shape.getD k 0) (ranks.getD k 0) := by
    intro U n Q hn hl hU hQ k M hM
    by_cases e : n = k
    · subst e
      rw [List.getElem?_set_self (by rw [hl]; exact hn), Option.some.injEq] at hM
      subst hM; exact hQ
    · rw [List.getElem?_set_ne e] at hM
      exact hU k M hM
  have ho := hort a1.1 a2
  obtain ⟨g1, Y, e1, e2, hgs, hYs, -, hYe⟩ := tucker_entries hne h13 ho.allMat ho.rowDims
  rw [a6] at e1; cases e1
  have hgr : g.shape = ranks := by rw [hgs, a1.colDims hlen]
  have herr : tkErr X g A' = normSqT X - normSqT g := by
    rw [e2] at a7; cases a7
    rw [← a9]
    exact (boxSum_congr fun i hi => by rw [hYe i hi]).symm
  refine ⟨g, a5, hgr, fun n hn B g' hB hg' => ?_⟩
  have hsw : tucker.HOOI.sweep svd X ranks A = .ok A' := by
    unfold tucker.HOOI.main at h
    cases hsw : tucker.HOOI.sweep svd X ranks A with
    | error e => rw [hsw] at h; cases h
    | ok A1 =>
        rw [hsw, ok_bind] at h
        cases h3 : ttm X A1 none true with
        | error e => rw [h3] at h; cases h
        | ok g =>
        rw [h3, ok_bind] at h
        cases h4 : tucker.fullOf g A1 with
        | error e => rw [h4] at h; cases h
        | ok Y =>
        rw [h4, ok_bind] at h
        cases h5 : cp.scalars X Y with
        | error e => rw [h5] at h; cases h
        | ok p =>
        rw [h5, ok_bind] at h
        obtain ⟨l, obj, rel⟩ := p
        cases h
        rfl
  unfold tucker.HOOI.sweep at hsw
  rw [List.range_eq_range'] at hsw
  obtain ⟨-, -, -, hst⟩ := fold_stages (N := X.order) (get := fun A : List (Tensor ℝ) => A)
    (P := fun U => TuckerShapes X.shape ranks U ∧ ∀ k M, U[k]? = some M → OrthoCols M (X.shape.getD k 0) (ranks.getD k 0))
    (E := fun U => - coreSq X U)
    (by intro s k s' e
        unfold tucker.HOOI.modeUpdate at e
        cases h1 : ttm X s none true (.int k) with
        | error e' => rw [h1] at e; cases e
        | ok Y =>
        rw [h1, ok_bind] at e
        cases h2 : tucker.leading svd Y ranks k with
        | error e' => rw [h2] at e; cases e
        | ok v =>
        rw [h2, ok_bind] at e
        obtain ⟨old, -, -, e⟩ := assign_inv e
        exact ⟨v, e.1⟩)
    (by intro s k s' hs' hk e
        obtain ⟨u1, -⟩ := hooi_update hs h2 h13 hpos hlen.ge hs'.1 hk
        obtain ⟨B0, b1, b2, b3⟩ := u1 (Nat.le_min.2 (a3 k hk))
        rw [b1] at e
        cases e
        refine ⟨⟨hs'.1.set b2.1, hset hk hs'.1.1 hs'.2 b2⟩, ?_⟩
        have hk' : k < s.length := by rw [hs'.1.1]; exact hk
        have := b3 s[k] (hs'.2 k _ (List.getElem?_eq_getElem hk'))
        rw [List.set_getElem_self] at this
        linarith) (Nat.zero_add _) hA.1 ⟨hA, hAo⟩ hsw
  obtain ⟨a, b, q1, q2, q3, q4⟩ := hst n (Nat.zero_le _) hn
  have q2 : a = atMode A A' n := q2
  obtain ⟨u1, -⟩ := hooi_update hs h2 h13 hpos hlen.ge q1.1 hn
  obtain ⟨B0, b1, b2, b3⟩ := u1 (Nat.le_min.2 (a3 n hn))
  rw [b1] at q3
  cases q3
  rw [← q2]
  obtain ⟨Q, g'', r1, r2, r3⟩ := tkErr_orthonormalize h2 h13 q1.1 hlen hg' hn (a3 n hn).1 hB
  have hQ := b3 Q r1
  have hoQ : OrthoFactors X.shape (a.set n Q) := hort (by rw [List.length_set]; exact q1.1.1) (hset hn q1.1.1 q1.2 r1)
  have hco := core_optimal hne h13 hoQ (g' := g'') (by rw [r2, (q1.1.set r1.1).colDims hlen])
  rw [r3, herr, ← a13]
  linarith

end TD
