import Verif.Lemmas.Approach
import Verif.Lemmas.LimitSv
import Verif.Props.ScaleBcu
import Verif.Props.Momentum

/-!
# Lemmas on endless runs of `NCP_BCU` and `NTUCKER_BCU`
-/
namespace TD
open Spec Tensor Filter Topology fact Matrix Props Lim

theorem runs_unique {S F K X R : Type} {c : Cls S F K X R} {s a a' : S} {k k' : Option K} {o o' : Out F K X R}
    (h : Spec.Runs c s k o a) (h' : Spec.Runs c s k' o' a') : k' = k ∧ o' = o ∧ a' = a := by
  unfold Spec.Runs at h h'
  cases hc : c.core with
  | none =>
      rw [hc] at h h'
      obtain ⟨rfl, h⟩ := h
      obtain ⟨rfl, h'⟩ := h'
      rw [h] at h'
      cases h'
      exact ⟨rfl, rfl, rfl⟩
  | some f =>
      rw [hc] at h h'
      obtain ⟨s1, v, e1, rfl, e2⟩ := h
      obtain ⟨s1', v', e1', rfl, e2'⟩ := h'
      rw [e1] at e1'
      cases e1'
      rw [e2] at e2'
      cases e2'
      exact ⟨rfl, rfl, rfl⟩

/-- Trainings of all lengths from one start are parts of one endless run. -/
theorem endless_extrapolate {S F K X : Type} {c : Cls S F K X ℝ} {op1 op2 : S → Res S} (hc : c.update = some (op1, op2))
    {args : Args ℝ} {fresh : Res S} {self : Self F K X} {self' : Nat → Self F K X} {ev : Nat → List Int} {hist : Nat → List (ℝ × ℝ)}
    (h : ∀ n : Nat, train (exactArith ℝ) c args ((n : Int) + 1) fresh self = (self' n, ev n, .ok (hist n)))
    (hl : ∀ n, (hist n).length = n + 1) :
    ∃ (σ s : Nat → S) (o : Nat → Out F K X ℝ) (k : Nat → Option K), fresh = .ok (σ 0) ∧ ∀ n, Spec.Runs c (σ n) (k n) (o n) (s n) ∧
      ((∀ i < n, (o n).obj < (o i).obj) → op1 (s n) = .ok (σ (n + 1))) ∧
      ((∃ i < n, (o i).obj ≤ (o n).obj) → op2 (s n) = .ok (σ (n + 1))) ∧
      (self' n).factors = some (o n).factors ∧
      (∀ v, (c.lambdasAfter <|> ((o n).aux <|> k n)) = some v → (self' n).aux = some v) := by
  have hr := fun n => Props.extrapolate_run c op1 op2 hc _ _ _ _ _ _ _ (h n)
  choose s0 o k σ h0 hσ0 hh hf ha hm using hr
  simp only [hl] at hm hf ha
  have hm' : ∀ n j, ∃ s, j < n + 1 → Spec.Runs c (σ n j) (k n j) (o n j) s ∧ (j + 1 < n + 1 →
        ((∀ i < j, (o n j).obj < (o n i).obj) → op1 s = .ok (σ n (j + 1))) ∧
        ((∃ i < j, (o n i).obj ≤ (o n j).obj) → op2 s = .ok (σ n (j + 1)))) := by
    intro n j
    by_cases hj : j < n + 1
    · obtain ⟨s, hs⟩ := hm n j hj
      exact ⟨s, fun _ => hs⟩
    · exact ⟨σ n j, fun h => absurd h hj⟩
  choose s hs using hm'
  have hs0 : ∀ n, s0 n = s0 0 := fun n => Except.ok.inj ((h0 n).symm.trans (h0 0))
  have key : ∀ j, ∀ n, j ≤ n → σ n j = σ j j ∧ k n j = k j j ∧ o n j = o j j ∧ s n j = s j j := by
    intro j
    induction j using Nat.strong_induction_on with
    | _ j ih =>
      intro n hn
      have e : σ n j = σ j j := by
        cases j with
        | zero => rw [hσ0, hσ0, hs0 n]
        | succ j =>
            obtain ⟨-, -, a3, a4⟩ := ih j (by omega) n (by omega)
            obtain ⟨-, -, b3, b4⟩ := ih j (by omega) (j + 1) (by omega)
            obtain ⟨p1, p2⟩ := (hs n j (by omega)).2 (by omega)
            obtain ⟨q1, q2⟩ := (hs (j + 1) j (by omega)).2 (by omega)
            have hob : ∀ i < j, o (j + 1) i = o n i := fun i hi => by
              rw [(ih i (by omega) (j + 1) (by omega)).2.2.1, (ih i (by omega) n (by omega)).2.2.1]
            by_cases hi : ∀ i < j, (o n j).obj < (o n i).obj
            · have r1 := p1 hi
              have r2 := q1 fun i hi' => by rw [hob i hi', b3, ← a3]; exact hi i hi'
              rw [a4] at r1
              rw [b4, r1] at r2
              exact Except.ok.inj r2
            · push Not at hi
              have r1 := p2 hi
              have r2 := q2 (by obtain ⟨i, hi1, hi2⟩ := hi; exact ⟨i, hi1, by rw [hob i hi1, b3, ← a3]; exact hi2⟩)
              rw [a4] at r1
              rw [b4, r1] at r2
              exact Except.ok.inj r2
      have r1 := (hs n j (by omega)).1
      have r2 := (hs j j (by omega)).1
      rw [e] at r1
      obtain ⟨u1, u2, u3⟩ := runs_unique r2 r1
      exact ⟨e, u1, u2, u3⟩
  refine ⟨fun j => σ j j, fun j => s j j, fun j => o j j, fun j => k j j, by show fresh = .ok (σ 0 0); rw [h0 0, hσ0], fun n => ⟨?_, ?_, ?_, ?_, ?_⟩⟩
  · exact (hs n n (by omega)).1
  · intro hi
    have := ((hs (n + 1) n (by omega)).2 (by omega)).1
    obtain ⟨-, -, a3, a4⟩ := key n (n + 1) (by omega)
    rw [a3, a4] at this
    exact this fun i hi' => by rw [(key i (n + 1) (by omega)).2.2.1]; exact hi i hi'
  · rintro ⟨i, hi1, hi2⟩
    have := ((hs (n + 1) n (by omega)).2 (by omega)).2
    obtain ⟨-, -, a3, a4⟩ := key n (n + 1) (by omega)
    rw [a3, a4] at this
    exact this ⟨i, hi1, by rw [(key i (n + 1) (by omega)).2.2.1]; exact hi2⟩
  · exact hf n
  · exact ha n

/-- A loop over `k, k+1, ..., k+m-1` that writes block `n` at stage `n`: what it sees before and after stage `n`. -/
theorem fold_stages_next {σ τ : Type} {f : σ → Nat → Res σ} {get : σ → List τ} {P : σ → Prop} {N : Nat}
    (hset : ∀ {s k s'}, f s k = .ok s' → ∃ v, get s' = (get s).set k v)
    (hP : ∀ {s k s'}, P s → k < N → f s k = .ok s' → P s') :
    ∀ {m k : Nat} {s s' : σ}, k + m = N → (get s).length = N → P s → (List.range' k m).foldlM f s = .ok s' →
      (get s').take k = (get s).take k ∧ (get s').length = N ∧
      ∀ n, k ≤ n → n < N → ∃ a b, P a ∧ get a = atMode (get s) (get s') n ∧ f a n = .ok b ∧
        get b = atMode (get s) (get s') (n + 1) := by
  intro m
  induction m with
  | zero =>
      intro k s s' hk hl _ h
      cases h
      exact ⟨rfl, hl, fun n h1 h2 => absurd h2 (by omega)⟩
  | succ m ih =>
      intro k s s' hk hl hs h
      rw [List.range'_succ, List.foldlM_cons] at h
      cases e : f s k with
      | error e' => rw [e] at h; cases h
      | ok s1 =>
          rw [e, ok_bind] at h
          obtain ⟨v, hv⟩ := hset e
          obtain ⟨i2, i3, i4⟩ := ih (k := k + 1) (by omega) (by rw [hv, List.length_set, hl]) (hP hs (by omega) e) h
          have ht : (get s').take k = (get s).take k := by
            have := congrArg (List.take k) i2
            rw [List.take_take, List.take_take, Nat.min_eq_left (by omega), hv, List.take_set_of_le (le_refl k)] at this
            exact this
          refine ⟨ht, i3, fun n h1 h2 => ?_⟩
          rcases Nat.eq_or_lt_of_le h1 with rfl | h1
          · refine ⟨s, s1, hs, by rw [atMode, ht, List.take_append_drop], e, ?_⟩
            rw [atMode, i2]
            have : (get s).drop (k + 1) = (get s1).drop (k + 1) := by rw [hv, List.drop_set_of_lt (by omega)]
            rw [this, List.take_append_drop]
          · obtain ⟨a, b, q1, q2, q3, q4⟩ := i4 n h1 h2
            refine ⟨a, b, q1, ?_, q3, ?_⟩
            · rw [q2, atMode, atMode, hv, List.drop_set_of_lt (by omega)]
            · rw [q4, atMode, atMode, hv, List.drop_set_of_lt (by omega)]

theorem atMode_get {τ : Type} {old new : List τ} {n N : Nat} (h1 : new.length = N) (hn : n < N) :
    (atMode old new (n + 1))[n]? = new[n]? := by
  rw [atMode, List.getElem?_append_left (by rw [List.length_take, h1]; omega), List.getElem?_take_of_lt (by omega)]

/-- The error terms of proximal steps vanish in the limit. -/
theorem three_point_limit {e1 e2 l b x y : ℕ → ℝ} {E1 E2 β D : ℝ} (h : ∀ k, e1 k ≤ e2 k + l k * x k - l k * y k)
    (h1 : Tendsto e1 atTop (𝓝 E1)) (h2 : Tendsto e2 atTop (𝓝 E2)) (h0 : ∀ k, 0 ≤ l k) (hb : ∀ k, l k ≤ b k)
    (hβ : Tendsto b atTop (𝓝 β)) (hx : Tendsto x atTop (𝓝 D)) (hy : Tendsto y atTop (𝓝 D)) : E1 ≤ E2 := by
  have hd : Tendsto (fun k => b k * |x k - y k|) atTop (𝓝 0) := by
    have := hβ.mul (hx.sub hy).abs
    rwa [sub_self, abs_zero, mul_zero] at this
  have hs := h2.add hd
  rw [add_zero] at hs
  refine le_of_tendsto_of_tendsto' h1 hs fun k => (h k).trans ?_
  have a1 : l k * (x k - y k) ≤ l k * |x k - y k| := mul_le_mul_of_nonneg_left (le_abs_self _) (h0 k)
  have a2 := mul_le_mul_of_nonneg_right (hb k) (abs_nonneg (x k - y k))
  linarith

theorem distSqT_tendsto {B T : Tensor ℝ} {A : ℕ → Tensor ℝ} (h : Approaches A T) :
    Tendsto (fun n => distSqT B (A n)) atTop (𝓝 (distSqT B T)) := by
  unfold distSqT
  exact boxSum_tendsto fun i => ((tendsto_const_nhds (x := B.at_ i)).sub (h.all i)).pow 2

/-- The extrapolated points converge with the points they are made of. -/
theorem extrapolated_tendsto {A B M : ℕ → Tensor ℝ} {T : Tensor ℝ} {w : ℕ → ℝ} (hA : Approaches A T) (hB : Approaches B T)
    (hw : ∀ n, 0 ≤ w n ∧ w n < 1) (hs : ∀ n, (M n).shape = (A n).shape)
    (hM : ∀ n i, InB (A n).shape i → (M n).at_ i = (A n).at_ i + w n * ((A n).at_ i - (B n).at_ i)) : Approaches M T := by
  refine ⟨fun n => by rw [hs, hA.1], fun i hi => ?_⟩
  have h1 := hA.2 i hi
  have h2 := hB.2 i hi
  have h3 : Tendsto (fun n => w n * ((A n).at_ i - (B n).at_ i)) atTop (𝓝 0) := by
    have hd := (h1.sub h2).abs
    rw [sub_self, abs_zero] at hd
    refine squeeze_zero_norm (fun n => ?_) hd
    rw [Real.norm_eq_abs, abs_mul, abs_of_nonneg (hw n).1]
    exact mul_le_of_le_one_left (abs_nonneg _) (hw n).2.le
  have := h1.add h3
  rw [add_zero] at this
  exact this.congr fun n => (hM n i (by rw [hA.1]; exact hi)).symm

/-! ### Bounds of the Lipschitz constants -/

theorem topSv_gram_le {J R : Nat} {K : Mat J R} {l : ℝ} (h : IsTopSv (Kᵀ * K) l) : l ≤ frobSq K := by
  obtain ⟨v, v1, v2⟩ := h.attained
  have a := frobSq_mul_col Kᵀ (K * v)
  rw [← Matrix.mul_assoc, v2, frobSq_transpose] at a
  have b := frobSq_mul_col K v
  rw [v1, mul_one] at b
  have hK := frobSq_nonneg K
  have : l ^ 2 ≤ frobSq K ^ 2 := by nlinarith
  exact (abs_le_of_sq_le_sq' this hK).2

/-- The matrix of shape `[I, R]` with `c` in position `[0, r]` and zeros elsewhere. -/
noncomputable def spike (I R r : Nat) (c : ℝ) : Tensor ℝ := ofFn [I, R] fun i => if i = [0, r] then c else 0

theorem spike_shape (I R r : Nat) (c : ℝ) : (spike I R r c).shape = [I, R] := rfl

/-- The size of the matrix of a least squares problem from some of its values. -/
theorem frobSq_spikes {I J R : Nat} (hI : 0 < I) (M : Mat I J) (K : Mat J R) :
    frobSq K = ∑ r ∈ Finset.range R, (frobSq (M - toMat (spike I R r 1) I R * Kᵀ) + frobSq (M - toMat (spike I R r (-1)) I R * Kᵀ) -
      2 * frobSq (M - toMat (spike I R r 0) I R * Kᵀ)) / 2 := by
  have e : ∀ (r : Fin R) (c : ℝ) (i : Fin I) (j : Fin J),
      (toMat (spike I R r c) I R * Kᵀ) i j = if i = ⟨0, hI⟩ then c * K j r else 0 := by
    intro r c i j
    have hs : ∀ b : Fin R, toMat (spike I R r c) I R i b = if i = ⟨0, hI⟩ ∧ b = r then c else 0 := by
      intro b
      rw [toMat_apply, spike, at_ofFn _ (InB_pair.2 ⟨_, _, rfl, i.isLt, b.isLt⟩)]
      simp [Fin.ext_iff]
    rw [Matrix.mul_apply]
    simp only [hs, transpose_apply]
    by_cases hi : i = ⟨0, hI⟩
    · simp [hi]
    · simp [hi]
  rw [Finset.sum_range]
  have hK : frobSq K = ∑ r : Fin R, ∑ j : Fin J, K j r ^ 2 := by rw [frobSq, Finset.sum_comm]
  rw [hK]
  refine Finset.sum_congr rfl fun r _ => ?_
  have h1 : ∀ c : ℝ, frobSq (M - toMat (spike I R r c) I R * Kᵀ) =
      ∑ i : Fin I, ∑ j : Fin J, (M i j - if i = ⟨0, hI⟩ then c * K j r else 0) ^ 2 := by
    intro c
    rw [frobSq]
    refine Finset.sum_congr rfl fun i _ => Finset.sum_congr rfl fun j _ => ?_
    rw [Matrix.sub_apply, e]
  rw [h1, h1, h1, ← Finset.sum_add_distrib, Finset.mul_sum, ← Finset.sum_sub_distrib, Finset.sum_div]
  rw [Finset.sum_eq_single (⟨0, hI⟩ : Fin I)]
  · rw [← Finset.sum_add_distrib, Finset.mul_sum, ← Finset.sum_sub_distrib, Finset.sum_div]
    refine Finset.sum_congr rfl fun j _ => ?_
    simp only [if_true]
    ring
  · intro i _ hi
    simp only [if_neg hi]
    ring
  · intro h; exact absurd (Finset.mem_univ _) h

namespace bcu
open tf ops

/-- A bound of the Lipschitz constant of mode `n` from values of the error. -/
noncomputable def spikeBound (err : Tensor ℝ → ℝ) (I R : Nat) : ℝ :=
  ∑ r ∈ Finset.range R, (err (spike I R r 1) + err (spike I R r (-1)) - 2 * err (spike I R r 0)) / 2

theorem spikeBound_tendsto {err : ℕ → Tensor ℝ → ℝ} {E : Tensor ℝ → ℝ} {I R : Nat}
    (h : ∀ B, Tendsto (fun n => err n B) atTop (𝓝 (E B))) :
    Tendsto (fun n => spikeBound (err n) I R) atTop (𝓝 (spikeBound E I R)) := by
  unfold spikeBound
  exact tendsto_finsetSum _ fun r _ => ((((h _).add (h _)).sub ((h _).const_mul 2)).div_const 2)

theorem NCP.lip_le {topSv : Tensor ℝ → Res ℝ} (ht : TopSvOk topSv) {X : Tensor ℝ} {R n : Nat} {st st' : State}
    (hA : FactorsFor X.shape R st.A) (h2 : 2 ≤ X.order) (h25 : X.order ≤ 25) (hn : n < X.order) (hR : 0 < R)
    (hpos : 0 < X.shape.getD n 0) (h : NCP.modeUpdate topSv X st n = .ok st') :
    st'.L n ≤ spikeBound (fun B => cpErr X R (st.A.set n B) fun _ => 1) (X.shape.getD n 0) R := by
  obtain ⟨K, V, XA, hK, hV, hXA, hVm, hXAm, he⟩ := NCP.reduce topSv hA h2 h25 hn hpos (st := st)
  rw [he] at h
  obtain ⟨l, Z, hl, -, -, -, -, rfl⟩ := factorStep_inv h
  obtain ⟨l', hl', hsv⟩ := ht V R R hV hR hR
  rw [hl] at hl'; cases hl'
  rw [hVm] at hsv
  simp only [Function.update_self]
  refine (topSv_gram_le hsv).trans (le_of_eq ?_)
  rw [frobSq_spikes hpos (Matrix.of fun (i : Fin (X.shape.getD n 0)) (j : Fin (otherSize X.shape n)) => X.at_ (unkolda X.shape n i j)),
    spikeBound]
  refine Finset.sum_congr rfl fun r _ => ?_
  have e : ∀ c : ℝ, cpErr X R (st.A.set n (spike (X.shape.getD n 0) R r c)) (fun _ => 1) = _ := fun c =>
    (cpErr_frob (fun _ => 1) hA h2 h25 hn (spike_shape _ _ r c) hK).2
  simp only [e, of_mul_one]

theorem NTUCKER.lip_le {topSv : Tensor ℝ → Res ℝ} (ht : TopSvOk topSv) {X g : Tensor ℝ} {ranks : List Nat} {n : Nat} {st st' : State}
    (hA : TuckerShapes X.shape ranks st.A) (hr : ranks.length = X.shape.length)
    (hg : g.shape = ranks) (h2 : 2 ≤ X.order) (h13 : X.order ≤ 13) (hn : n < X.order)
    (hpos : 0 < X.shape.getD n 0) (hrp : 0 < ranks.getD n 0) (h : NTUCKER.modeUpdate topSv X g st n = .ok st') :
    st'.L n ≤ spikeBound (fun B => tkErr X g (st.A.set n B)) (X.shape.getD n 0) (ranks.getD n 0) := by
  obtain ⟨K, V, XA, hV, hXA, hVm, hXAm, herr, he⟩ := NTUCKER.reduce topSv hA hr hg h2 h13 hn hpos hrp (st := st)
  rw [he] at h
  obtain ⟨l, Z, hl, -, -, -, -, rfl⟩ := factorStep_inv h
  obtain ⟨l', hl', hsv⟩ := ht V _ _ hV hrp hrp
  rw [hl] at hl'; cases hl'
  rw [hVm] at hsv
  simp only [Function.update_self]
  refine (topSv_gram_le hsv).trans (le_of_eq ?_)
  rw [frobSq_spikes hpos (unfM X n (X.shape.getD n 0) (otherSize X.shape n)), spikeBound]
  refine Finset.sum_congr rfl fun r _ => ?_
  rw [herr _ (spike_shape _ _ _ _), herr _ (spike_shape _ _ _ _), herr _ (spike_shape _ _ _ _)]

/-- One sweep of `NCP_BCU`: the three-point inequality at every mode, in terms of the factors before and after the sweep. -/
theorem NCP.sweep_stages {topSv : Tensor ℝ → Res ℝ} (ht : TopSvOk topSv) {X : Tensor ℝ} {R : Nat} {st st' : State}
    (hst : FactorsOk (X.shape.map fun d => [d, R]) st)
    (h2 : 2 ≤ X.order) (h25 : X.order ≤ 25) (hR : 0 < R) (hpos : ∀ d ∈ X.shape, 0 < d)
    (h1 : (List.range X.order).foldlM (NCP.modeUpdate topSv X) st = .ok st') {n : Nat} (hn : n < X.order) {m Z : Tensor ℝ} (hm : st.Am[n]? = some m)
    (hZ : st'.A[n]? = some Z) :
    ∃ l, 0 < l ∧ l ≤ spikeBound (fun B => cpErr X R ((atMode st.A st'.A n).set n B) fun _ => 1) (X.shape.getD n 0) R ∧
      ∀ B, B.shape = [X.shape.getD n 0, R] → Nonneg B →
        cpErr X R (atMode st.A st'.A (n + 1)) (fun _ => 1) ≤ cpErr X R ((atMode st.A st'.A n).set n B) (fun _ => 1) +
          l * distSqT B m - l * distSqT B Z := by
  rw [List.range_eq_range'] at h1
  obtain ⟨-, hlen, hsg⟩ := fold_stages_next (N := X.order) (get := fun a : State => a.A)
    (P := fun a => FactorsOk (X.shape.map fun d => [d, R]) a ∧ a.Am = st.Am)
    (by intro a k b e
        obtain ⟨V, XA, e⟩ := NCP.modeUpdate_inv e
        obtain ⟨l, Z, -, -, -, -, -, rfl⟩ := factorStep_inv e
        exact ⟨Z, rfl⟩)
    (by intro a k b ha _ e
        obtain ⟨V, XA, e⟩ := NCP.modeUpdate_inv e
        exact ⟨ha.1.factorStep e, (factorStep_momentum e).2.2.1.trans ha.2⟩)
    (Nat.zero_add _) hst.factorsFor.1.length ⟨hst, rfl⟩ h1
  obtain ⟨a, b, ⟨a1, a2⟩, a3, a4, a5⟩ := hsg n (Nat.zero_le _) hn
  have hA := a1.factorsFor.1
  have hms := hst.factorsFor.2.2.get hm
  obtain ⟨Z', z1, z2, z3, z4, z5⟩ := NCP.three_point ht hA h2 h25 hn hR (cp.getD_pos hpos hn) (by rw [a2]; exact hm) hms a4
  have hl := NCP.lip_le ht hA h2 h25 hn hR (cp.getD_pos hpos hn) a4
  have hZ' : Z' = Z := by
    have e : b.A[n]? = some Z' := by rw [z3]; exact List.getElem?_set_self (by rw [hA.length]; exact hn)
    rw [a5, atMode_get hlen hn] at e
    exact Option.some.inj (e.symm.trans hZ)
  subst hZ'
  refine ⟨b.L n, z4, by rw [a3] at hl; exact hl, fun B hB hBn => ?_⟩
  have := z5 B hB hBn
  rw [← z3, a5, a3] at this
  exact this

/-- One step of `NCP_BCU`: the three-point inequality at every mode, in terms of the factors before and after the step. -/
theorem NCP.main_stages {topSv : Tensor ℝ → Res ℝ} (ht : TopSvOk topSv) {X : Tensor ℝ} {R : Nat} {st st' : State}
    {o : fact.Out (List (Tensor ℝ)) (Tensor ℝ) (Tensor ℝ) ℝ} (hst : FactorsOk (X.shape.map fun d => [d, R]) st)
    (h2 : 2 ≤ X.order) (h25 : X.order ≤ 25) (hR : 0 < R) (hpos : ∀ d ∈ X.shape, 0 < d)
    (h : NCP.main topSv X st = .ok (st', o)) {n : Nat} (hn : n < X.order) {m Z : Tensor ℝ} (hm : st.Am[n]? = some m)
    (hZ : st'.A[n]? = some Z) :
    ∃ l, 0 < l ∧ l ≤ spikeBound (fun B => cpErr X R ((atMode st.A st'.A n).set n B) fun _ => 1) (X.shape.getD n 0) R ∧
      ∀ B, B.shape = [X.shape.getD n 0, R] → Nonneg B →
        cpErr X R (atMode st.A st'.A (n + 1)) (fun _ => 1) ≤ cpErr X R ((atMode st.A st'.A n).set n B) (fun _ => 1) +
          l * distSqT B m - l * distSqT B Z := by
  obtain ⟨s, h1, rfl, -⟩ := NCP.main_inv h
  exact NCP.sweep_stages ht hst h2 h25 hR hpos h1 hn hm hZ

/-- One step of `NTUCKER_BCU` after the core run. -/
theorem NTUCKER.main_stages {topSv : Tensor ℝ → Res ℝ} (ht : TopSvOk topSv) {X : Tensor ℝ} {ranks : List Nat} {st st' : TState}
    {o : fact.Out (List (Tensor ℝ)) (Tensor ℝ) (Tensor ℝ) ℝ} (hst : TkOk X.shape ranks st) (hr : ranks.length = X.shape.length)
    (h2 : 2 ≤ X.order) (h13 : X.order ≤ 13) (hpos : ∀ d ∈ X.shape, 0 < d) (hrp : ∀ d ∈ ranks, 0 < d)
    (h : NTUCKER.main topSv X st = .ok (st', o)) {n : Nat} (hn : n < X.order) {m Z : Tensor ℝ} (hm : st.Am[n]? = some m)
    (hZ : st'.A[n]? = some Z) :
    ∃ l, 0 < l ∧ l ≤ spikeBound (fun B => tkErr X st.g ((atMode st.A st'.A n).set n B)) (X.shape.getD n 0) (ranks.getD n 0) ∧
      ∀ B, B.shape = [X.shape.getD n 0, ranks.getD n 0] → Nonneg B →
        tkErr X st.g (atMode st.A st'.A (n + 1)) ≤ tkErr X st.g ((atMode st.A st'.A n).set n B) +
          l * distSqT B m - l * distSqT B Z := by
  obtain ⟨s, h1, rfl, -⟩ := NTUCKER.main_inv h
  rw [List.range_eq_range'] at h1
  obtain ⟨-, hlen, hsg⟩ := fold_stages_next (N := X.order) (get := fun a : State => a.A)
    (P := fun a => FactorsOk (tuckerShapes X.shape ranks) a ∧ a.Am = st.Am)
    (by intro a k b e
        obtain ⟨V, XA, e⟩ := NTUCKER.modeUpdate_inv e
        obtain ⟨l, Z, -, -, -, -, -, rfl⟩ := factorStep_inv e
        exact ⟨Z, rfl⟩)
    (by intro a k b ha _ e
        obtain ⟨V, XA, e⟩ := NTUCKER.modeUpdate_inv e
        exact ⟨ha.1.factorStep e, (factorStep_momentum e).2.2.1.trans ha.2⟩)
    (Nat.zero_add _) hst.shapes.1 ⟨hst.factors, rfl⟩ h1
  obtain ⟨a, b, ⟨a1, a2⟩, a3, a4, a5⟩ := hsg n (Nat.zero_le _) hn
  have hA := tuckerShapes_iff.1 a1.A
  have hms := (tuckerShapes_iff.1 hst.factors.Am).2 n m hm
  have hrn : 0 < ranks.getD n 0 := by
    have hn' : n < ranks.length := by rw [hr]; exact hn
    rw [List.getD_eq_getElem _ _ hn']
    exact hrp _ (List.getElem_mem hn')
  obtain ⟨Z', z1, z2, z3, z4, z5⟩ := NTUCKER.three_point ht hA hr hst.g h2 h13 hn (cp.getD_pos hpos hn) hrn (by rw [a2]; exact hm) hms a4
  have hl := NTUCKER.lip_le ht hA hr hst.g h2 h13 hn (cp.getD_pos hpos hn) hrn a4
  have hZ' : Z' = Z := by
    have e : b.A[n]? = some Z' := by rw [z3]; exact List.getElem?_set_self (by rw [hA.1]; exact hn)
    rw [a5, atMode_get hlen hn] at e
    exact Option.some.inj (e.symm.trans hZ)
  subst hZ'
  refine ⟨b.L n, z4, by rw [a3] at hl; exact hl, fun B hB hBn => ?_⟩
  have := z5 B hB hBn
  rw [← z3, a5, a3] at this
  exact this

theorem normSqT_toMat {M : Tensor ℝ} (h : M.shape.length = 2) :
    normSqT M = frobSq (toMat M (M.shape.getD 0 0) (M.shape.getD 1 0)) := by
  obtain ⟨a, b, hs⟩ : ∃ a b, M.shape = [a, b] := by
    match hM : M.shape, h with
    | [a, b], _ => exact ⟨a, b, rfl⟩
  rw [normSqT, hs, boxSum_pair, frobSq, Finset.sum_range]
  refine Finset.sum_congr rfl fun i _ => ?_
  rw [Finset.sum_range]
  rfl

theorem prod_topSv_le {U : List (Tensor ℝ)} {cs : List ℝ} (hU : AllMat U) (h : List.Forall₂ (fun M s => IsTopSv (toMat (gramOf M)
    (M.shape.getD 1 0) (M.shape.getD 1 0)) s) U cs) : 0 ≤ cs.prod ∧ cs.prod ≤ (U.map normSqT).prod := by
  induction h with
  | nil => simp
  | @cons M c U cs hM _ ih =>
      obtain ⟨i1, i2⟩ := ih fun N hN => hU N (by simp [hN])
      have h0 := hM.nonneg
      rw [toMat_gramOf] at hM
      have h1 := topSv_gram_le hM
      rw [← normSqT_toMat (hU M (by simp))] at h1
      rw [List.map_cons, List.prod_cons, List.prod_cons]
      exact ⟨mul_nonneg h0 i1, mul_le_mul h1 i2 i1 (h0.trans h1)⟩

theorem normProd_tendsto : ∀ {L : List (Tensor ℝ)} {F : ℕ → List (Tensor ℝ)}, FactorsApproach F L →
    Tendsto (fun n => ((F n).map normSqT).prod) atTop (𝓝 (L.map normSqT).prod)
  | [], F, h => by
      simp only [h.nil]
      exact tendsto_const_nhds
  | K :: L, F, h => by
      obtain ⟨M, T, hF, hM, hT⟩ := h.cons
      simp only [hF, List.map_cons, List.prod_cons]
      refine Tendsto.mul ?_ (normProd_tendsto hT)
      unfold normSqT
      simp only [hM.1]
      exact boxSum_tendsto fun i => (hM.all i).pow 2

/-- A core run: the three-point inequality with a bound of its constant. -/
theorem NTUCKER.core_stage {topSv : Tensor ℝ → Res ℝ} (ht : TopSvOk topSv) {X : Tensor ℝ} {ranks : List Nat} {st st' : TState} {Z : Tensor ℝ}
    (hst : TkOk X.shape ranks st) (hr : ranks.length = X.shape.length) (h1 : 1 ≤ X.order) (h13 : X.order ≤ 13)
    (hrp : ∀ d ∈ ranks, 0 < d) (h : NTUCKER.core topSv X st = .ok (st', Z)) :
    ∃ l, 0 < l ∧ l ≤ (st.A.map normSqT).prod ∧ ∀ B, B.shape = ranks → Nonneg B →
        tkErr X Z st.A ≤ tkErr X B st.A + l * distSqT B st.gm - l * distSqT B Z := by
  rcases NTUCKER.core_spec ht hst hr h1 h13 hrp with ⟨e, -⟩ | ⟨-, Z', l, e, h0, -, -, h3⟩
  · rw [e] at h; cases h
  have e' := e
  rw [h] at e
  cases e
  refine ⟨l, h0, ?_, h3⟩
  have hA := hst.shapes
  have hc := hA.colDims hr
  have hl : st.A.length = X.order := hA.1
  have hposA : ∀ M ∈ st.A, 0 < M.shape.getD 1 0 := fun M hM => by
    refine hrp _ ?_
    rw [← hc]
    exact List.mem_map.2 ⟨M, hM, rfl⟩
  obtain ⟨s, hs, hsv⟩ := maxSingleValueMul_ok ht (ms := st.A.map gramOf) (fun M hM => by
    obtain ⟨N, -, rfl⟩ := List.mem_map.1 hM; rfl) (by
      intro e; have := congrArg List.length e; rw [List.length_map, hl] at this; simp at this; omega) (fun M hM => by
    obtain ⟨N, hN, rfl⟩ := List.mem_map.1 hM
    exact ⟨hposA N hN, hposA N hN⟩)
  have hls : l = s.prod := by
    unfold NTUCKER.core at e'
    rw [grams_ok hA.allMat, ok_bind, hs, ok_bind] at e'
    generalize ops.ttm st.gm (st.A.map gramOf) = r1 at e'
    cases r1 with
    | error e => cases e'
    | ok B =>
    rw [ok_bind] at e'
    cases h4 : assignCore st.g B with
    | error e => rw [h4] at e'; cases e'
    | ok B' =>
    rw [h4, ok_bind] at e'
    cases h5 : ops.ttm X st.A none true with
    | error e => rw [h5] at e'; cases e'
    | ok XA =>
    rw [h5, ok_bind] at e'
    cases h6 : tf.ewise (· - ·) B' XA with
    | error e => rw [h6] at e'; cases e'
    | ok G =>
    rw [h6, ok_bind] at e'
    cases h7 : assignCore st.g G with
    | error e => rw [h7] at e'; cases e'
    | ok G' =>
    rw [h7, ok_bind] at e'
    cases h8 : proxStep st.gm G' s.prod with
    | error e => rw [h8] at e'; cases e'
    | ok v =>
    rw [h8, ok_bind] at e'
    cases h9 : assignCore st.g v with
    | error e => rw [h9] at e'; cases e'
    | ok g =>
    rw [h9, ok_bind] at e'
    have := congrArg (fun t : TState × Tensor ℝ => t.1.L X.order) (Except.ok.inj e')
    simp only [Function.update_self] at this
    exact this.symm
  rw [hls]
  exact (prod_topSv_le hA.allMat (Forall₂_map_left hsv)).2

end bcu
end TD
