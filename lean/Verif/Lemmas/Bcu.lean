import Verif.Lemmas.TopSv
import Verif.Lemmas.Cp
import Verif.Model.Bcu

/-! # Lemmas on `NCP_BCU` and `NTUCKER_BCU` -/
namespace TD
open Spec Tensor tf ops Matrix

theorem Spec.Nonneg.at {t : Tensor ℝ} (h : Nonneg t) (i : List Nat) : 0 ≤ t.at_ i := by
  unfold at_
  rw [List.getD_eq_getElem?_getD]
  cases e : t.data[ravel t.shape i]? with
  | none => exact le_refl _
  | some x => exact h x (List.mem_of_getElem? e)

theorem nonneg_of_at {t : Tensor ℝ} (h : ∀ i, InB t.shape i → 0 ≤ t.at_ i) : Nonneg t := by
  intro x hx
  rw [data_eq t] at hx
  obtain ⟨i, hi, rfl⟩ := List.mem_map.1 hx
  exact h i (mem_indices.1 hi)

theorem nonneg_khatriEntry {U : List (Tensor ℝ)} (h : ∀ M ∈ U, Nonneg M) (r : Nat) (i : List Nat) :
    0 ≤ khatriEntry r U i := by
  induction U generalizing i with
  | nil => simp [khatriEntry]
  | cons M U ih =>
      cases i with
      | nil => simp [khatriEntry]
      | cons a i => exact mul_nonneg ((h M (by simp)).at _) (ih (fun N hN => h N (by simp [hN])) i)

theorem nonneg_kronEntry {U : List (Tensor ℝ)} (h : ∀ M ∈ U, Nonneg M) (i j : List Nat) :
    0 ≤ kronEntry U i j := by
  induction U generalizing i j with
  | nil => simp [kronEntry]
  | cons M U ih =>
      cases i with
      | nil => simp [kronEntry]
      | cons a i =>
          cases j with
          | nil => simp [kronEntry]
          | cons b j => exact mul_nonneg ((h M (by simp)).at _) (ih (fun N hN => h N (by simp [hN])) i j)

theorem assign_inv {α : Type} {vars vars' : List (Tensor α)} {k : Nat} {v : Tensor α} (h : tf.assign vars k v = .ok vars') :
    ∃ old, vars[k]? = some old ∧ v.shape = old.shape ∧ vars' = vars.set k v ∧
      vars'.map Tensor.shape = vars.map Tensor.shape := by
  unfold tf.assign at h
  cases e : vars[k]? with
  | none => rw [e] at h; cases h
  | some old =>
      rw [e] at h
      simp only at h
      by_cases hs : v.shape = old.shape
      · rw [if_pos hs] at h
        cases h
        refine ⟨old, rfl, hs, rfl, ?_⟩
        rw [List.map_set]
        obtain ⟨hk, e'⟩ := List.getElem?_eq_some_iff.1 e
        apply List.ext_getElem (by simp)
        intro i h1 h2
        by_cases hi : k = i
        · subst hi; simp [hs, e']
        · simp [hi]
      · rw [if_neg hs] at h; cases h

theorem foldlM_inv {β σ : Type} {f : σ → β → Res σ} {P : σ → Prop} {Q : β → Prop}
    (hstep : ∀ s b s', P s → Q b → f s b = .ok s' → P s') :
    ∀ {l : List β} {s s' : σ}, (∀ b ∈ l, Q b) → P s → l.foldlM f s = .ok s' → P s' := by
  intro l
  induction l with
  | nil => intro s s' _ h0 h; cases h; exact h0
  | cons b l ih =>
      intro s s' hl h0 h
      rw [List.foldlM_cons] at h
      cases e : f s b with
      | error e' => rw [e] at h; cases h
      | ok s1 =>
          rw [e] at h
          exact ih (fun c hc => hl c (by simp [hc])) (hstep s b s1 h0 (hl b (by simp)) e) h

namespace bcu

theorem relu_nonneg (t : Tensor ℝ) : Nonneg (relu t) := by
  intro x hx
  obtain ⟨y, -, rfl⟩ := List.mem_map.1 (show x ∈ t.data.map (fun x => max x 0) from hx)
  exact le_max_right _ _

theorem getVar_ok {vars : List (Tensor ℝ)} {k : Nat} {v : Tensor ℝ} (h : getVar vars k = .ok v) : vars[k]? = some v := by
  unfold getVar at h
  cases e : vars[k]? with
  | none => rw [e] at h; cases h
  | some w => rw [e] at h; cases h; rfl

theorem proxStep_inv {m G v : Tensor ℝ} {L : ℝ} (h : proxStep m G L = .ok v) : L ≠ 0 ∧ Nonneg v := by
  unfold proxStep at h
  by_cases h0 : L = 0
  · rw [if_pos h0] at h; cases h
  · rw [if_neg h0] at h
    cases e : tf.ewise (· - ·) m (tf.map (· / L) G) with
    | error e' => rw [e] at h; cases h
    | ok d => rw [e] at h; cases h; exact ⟨h0, relu_nonneg d⟩

theorem proxStep_eq {m G : Tensor ℝ} {L : ℝ} (hs : G.shape = m.shape) (h0 : L ≠ 0) :
    ∃ v, proxStep m G L = .ok v ∧ v.shape = m.shape ∧ Nonneg v ∧
      ∀ i, InB m.shape i → v.at_ i = max (m.at_ i - G.at_ i / L) 0 := by
  have e : proxStep m G L = .ok (relu (ofFn m.shape fun i => m.at_ i - (tf.map (· / L) G).at_ i)) := by
    unfold proxStep
    rw [if_neg h0, ewise_same _ (show m.shape = (tf.map (· / L) G).shape from hs.symm)]
    rfl
  refine ⟨_, e, rfl, relu_nonneg _, fun i hi => ?_⟩
  unfold relu
  rw [at_map _ _ (by exact hi), at_ofFn _ hi, at_map _ _ (by rw [hs]; exact hi)]

/-- What a factor step leaves behind, whatever the shapes. -/
theorem factorStep_inv {topSv : Tensor ℝ → Res ℝ} {st st' : State} {n : Nat} {V XA : Tensor ℝ}
    (h : factorStep topSv st n V XA = .ok st') :
    ∃ l Z, topSv V = .ok l ∧ l ≠ 0 ∧ Nonneg Z ∧ (∀ old, st.A[n]? = some old → Z.shape = old.shape) ∧
      (st.A.set n Z).map Tensor.shape = st.A.map Tensor.shape ∧
      st' = { st with A := st.A.set n Z, L0 := Function.update st.L0 n (st.L n), L := Function.update st.L n l } := by
  unfold factorStep at h
  cases h1 : topSv V with
  | error e => rw [h1] at h; cases h
  | ok l =>
  rw [h1, ok_bind] at h
  cases h2 : getVar st.Am n with
  | error e => rw [h2] at h; cases h
  | ok m =>
  rw [h2, ok_bind] at h
  cases h3 : tf.matmul m V with
  | error e => rw [h3] at h; cases h
  | ok mV =>
  rw [h3, ok_bind] at h
  cases h4 : tf.ewise (· - ·) mV XA with
  | error e => rw [h4] at h; cases h
  | ok G =>
  rw [h4, ok_bind] at h
  cases h5 : proxStep m G l with
  | error e => rw [h5] at h; cases h
  | ok Z =>
  rw [h5, ok_bind] at h
  cases h6 : tf.assign st.A n Z with
  | error e => rw [h6] at h; cases h
  | ok A' =>
  rw [h6, ok_bind] at h
  cases h
  obtain ⟨old, ho, hs, rfl, hmap⟩ := assign_inv h6
  obtain ⟨hl, hZ⟩ := proxStep_inv h5
  exact ⟨l, Z, rfl, hl, hZ, fun old' ho' => by rw [ho] at ho'; cases ho'; exact hs, hmap, rfl⟩

/-- A factor step in closed form. -/
theorem factorStep_eq {topSv : Tensor ℝ → Res ℝ} {st : State} {n I R : Nat} {V XA m old : Tensor ℝ} {l : ℝ}
    (hV : V.shape = [R, R]) (hXA : XA.shape = [I, R]) (hm : st.Am[n]? = some m) (hms : m.shape = [I, R])
    (ho : st.A[n]? = some old) (hos : old.shape = [I, R]) (hl : topSv V = .ok l) :
    (l = 0 → factorStep topSv st n V XA = .error .nonFinite) ∧
    (l ≠ 0 → ∃ Z, Z.shape = [I, R] ∧ Nonneg Z ∧
      (∀ i r, toMat Z I R i r =
        max (toMat m I R i r - (toMat m I R * toMat V R R - toMat XA I R) i r / l) 0) ∧
      factorStep topSv st n V XA = .ok { st with
        A := st.A.set n Z, L0 := Function.update st.L0 n (st.L n), L := Function.update st.L n l }) := by
  have hg : getVar st.Am n = .ok m := by unfold getVar; rw [hm]
  obtain ⟨mV, hmV⟩ : ∃ mV, tf.matmul m V = .ok mV := ⟨_, matmul_nn hms hV⟩
  obtain ⟨hmVs, hmVm⟩ := toMat_matmul_nn hms hV hmV
  have hG := ewise_same (· - ·) (A := mV) (B := XA) (by rw [hmVs, hXA])
  set G := ofFn mV.shape fun idx => mV.at_ idx - XA.at_ idx with hGd
  have hGs : G.shape = m.shape := by rw [hGd, shape_ofFn, hmVs, hms]
  constructor
  · intro h0
    unfold factorStep
    rw [hl, ok_bind, hg, ok_bind, hmV, ok_bind, hG, ok_bind]
    unfold proxStep
    rw [if_pos h0]; rfl
  · intro h0
    obtain ⟨Z, hZ, hZs, hZn, hZe⟩ := proxStep_eq hGs h0
    refine ⟨Z, by rw [hZs, hms], hZn, fun i r => ?_, ?_⟩
    · have hin : InB [I, R] [(i : Nat), (r : Nat)] := InB_pair.2 ⟨_, _, rfl, i.isLt, r.isLt⟩
      rw [toMat_apply, hZe _ (by rw [hms]; exact hin), Matrix.sub_apply, ← hmVm, toMat_apply, toMat_apply, toMat_apply,
        hGd, at_ofFn _ (by rw [hmVs]; exact hin)]
    · unfold factorStep
      rw [hl, ok_bind, hg, ok_bind, hmV, ok_bind, hG, ok_bind, hZ, ok_bind]
      unfold tf.assign
      simp only [ho]
      rw [if_pos (by rw [hZs, hms, hos])]
      rfl

/-! ### Momentum -/

/-- `(1 + √(1 + 4x²)) / 2`. -/
noncomputable def phi (x : ℝ) : ℝ := (1 + Real.sqrt (1 + 4 * x ^ 2)) / 2

theorem lt_phi {x : ℝ} (_h : 0 ≤ x) : x < phi x := by
  have : 2 * x < Real.sqrt (1 + 4 * x ^ 2) := by
    apply Real.lt_sqrt_of_sq_lt
    nlinarith
  unfold phi
  linarith

/-- The momentum scalars of a reachable state. -/
def MomentumOk (st : State) : Prop := 1 ≤ st.t0 ∧ (st.t = st.t0 ∨ st.t = phi st.t0)

theorem MomentumOk.le {st : State} (h : MomentumOk st) : st.t0 ≤ st.t := by
  rcases h.2 with e | e
  · exact le_of_eq e.symm
  · rw [e]; exact le_of_lt (lt_phi (by linarith [h.1]))

theorem MomentumOk.tUpdate {st : State} (h : MomentumOk st) : MomentumOk (tUpdate st) ∧ st.t ≤ (bcu.tUpdate st).t := by
  refine ⟨⟨h.1, Or.inr rfl⟩, ?_⟩
  change st.t ≤ phi st.t0
  rcases h.2 with e | e
  · rw [e]; exact le_of_lt (lt_phi (by linarith [h.1]))
  · exact le_of_eq e

theorem weight_ok {st : State} (h : MomentumOk st) : ∃ w, weight st = .ok w ∧ w = (st.t0 - 1) / st.t ∧ 0 ≤ w ∧ w < 1 := by
  have ht : 0 < st.t := by linarith [h.1, h.le]
  refine ⟨(st.t0 - 1) / st.t, ?_, rfl, div_nonneg (by linarith [h.1]) ht.le, ?_⟩
  · unfold weight loss.fdiv
    rw [if_neg ht.ne']
  · rw [div_lt_one ht]; linarith [h.le]

theorem cappedWeight_inv {st : State} {w x : ℝ} {k : Nat} (h : cappedWeight st w k = .ok x) (h0 : 0 ≤ w) (h1 : w < 1) :
    0 ≤ x ∧ x < 1 ∧ x ≤ w := by
  unfold cappedWeight loss.fdiv at h
  by_cases hL : st.L k = 0
  · rw [if_pos hL] at h; cases h
  · rw [if_neg hL] at h
    cases h
    exact ⟨le_min h0 (Real.sqrt_nonneg _), lt_of_le_of_lt (min_le_left _ _) h1, min_le_left _ _⟩

theorem extrapolate_inv {w : ℝ} {v v0 m : Tensor ℝ} (hs : v.shape = v0.shape) (h : extrapolate w v v0 = .ok m) :
    m.shape = v.shape ∧ ∀ i, InB v.shape i → m.at_ i = v.at_ i + w * (v.at_ i - v0.at_ i) := by
  unfold extrapolate at h
  rw [ewise_same _ hs, ok_bind] at h
  rw [ewise_same _ (show v.shape = (tf.map (w * ·) (ofFn v.shape fun idx => v.at_ idx - v0.at_ idx)).shape from rfl)] at h
  cases h
  refine ⟨rfl, fun i hi => ?_⟩
  rw [at_ofFn _ hi, at_map _ _ (by exact hi), at_ofFn _ hi]

/-- The variables of the factors keep their shapes and are nonnegative. -/
structure FactorsOk (sh : List (List Nat)) (st : State) : Prop where
  A : st.A.map Tensor.shape = sh
  A0 : st.A0.map Tensor.shape = sh
  Am : st.Am.map Tensor.shape = sh
  nonneg : ∀ M ∈ st.A, Nonneg M
  nonneg0 : ∀ M ∈ st.A0, Nonneg M

theorem shape_of_map {sh : List (List Nat)} {l l' : List (Tensor ℝ)} (h : l.map Tensor.shape = sh)
    (h' : l'.map Tensor.shape = sh) {k : Nat} {a b : Tensor ℝ} (ha : l[k]? = some a) (hb : l'[k]? = some b) :
    a.shape = b.shape := by
  have := congrArg (fun l => l[k]?) (h.trans h'.symm)
  simpa [ha, hb] using this

theorem nonneg_set {l : List (Tensor ℝ)} (h : ∀ M ∈ l, Nonneg M) {k : Nat} {v : Tensor ℝ} (hv : Nonneg v) :
    ∀ M ∈ l.set k v, Nonneg M := by
  intro M hM
  rcases List.mem_or_eq_of_mem_set hM with h1 | h1
  · exact h M h1
  · rw [h1]; exact hv

theorem FactorsOk.factorStep {sh : List (List Nat)} {topSv : Tensor ℝ → Res ℝ} {st st' : State} {n : Nat}
    {V XA : Tensor ℝ} (hst : FactorsOk sh st) (h : factorStep topSv st n V XA = .ok st') : FactorsOk sh st' := by
  obtain ⟨l, Z, -, -, hZ, -, hmap, rfl⟩ := factorStep_inv h
  exact ⟨hmap.trans hst.A, hst.A0, hst.Am, nonneg_set hst.nonneg hZ, hst.nonneg0⟩

theorem factorStep_momentum {topSv : Tensor ℝ → Res ℝ} {st st' : State} {n : Nat} {V XA : Tensor ℝ}
    (h : factorStep topSv st n V XA = .ok st') : st'.t = st.t ∧ st'.t0 = st.t0 ∧ st'.Am = st.Am ∧ st'.A0 = st.A0 := by
  obtain ⟨l, Z, -, -, -, -, -, rfl⟩ := factorStep_inv h
  exact ⟨rfl, rfl, rfl, rfl⟩

theorem extrapolateMode_inv {w : ℝ} {st st' : State} {k : Nat} (h : extrapolateMode w st k = .ok st') :
    ∃ wk a a0 m, cappedWeight st w k = .ok wk ∧ st.A[k]? = some a ∧ st.A0[k]? = some a0 ∧ extrapolate wk a a0 = .ok m ∧
      (st.Am.set k m).map Tensor.shape = st.Am.map Tensor.shape ∧
      (st.A0.set k a).map Tensor.shape = st.A0.map Tensor.shape ∧ k < st.Am.length ∧
      st' = { st with wA := Function.update st.wA k wk, Am := st.Am.set k m, A0 := st.A0.set k a } := by
  unfold extrapolateMode at h
  cases h1 : cappedWeight st w k with
  | error e => rw [h1] at h; cases h
  | ok wk =>
  rw [h1, ok_bind] at h
  cases h2 : getVar st.A k with
  | error e => rw [h2] at h; cases h
  | ok a =>
  rw [h2, ok_bind] at h
  cases h3 : getVar st.A0 k with
  | error e => rw [h3] at h; cases h
  | ok a0 =>
  rw [h3, ok_bind] at h
  cases h4 : extrapolate wk a a0 with
  | error e => rw [h4] at h; cases h
  | ok m =>
  rw [h4, ok_bind] at h
  cases h5 : tf.assign st.Am k m with
  | error e => rw [h5] at h; cases h
  | ok Am =>
  rw [h5, ok_bind] at h
  cases h6 : tf.assign st.A0 k a with
  | error e => rw [h6] at h; cases h
  | ok A0 =>
  rw [h6, ok_bind] at h
  cases h
  obtain ⟨o1, e1, -, rfl, m1⟩ := assign_inv h5
  obtain ⟨o2, -, -, rfl, m2⟩ := assign_inv h6
  exact ⟨wk, a, a0, m, rfl, getVar_ok h2, getVar_ok h3, h4, m1, m2, (List.getElem?_eq_some_iff.1 e1).1, rfl⟩

/-- All modes of `train_op1`. -/
theorem extrapolateAll {sh : List (List Nat)} {w : ℝ} (h0 : 0 ≤ w) (h1 : w < 1) : ∀ {l : List Nat} {st st' : State}, l.Nodup →
    FactorsOk sh st → l.foldlM (extrapolateMode w) st = .ok st' →
    FactorsOk sh st' ∧ st'.A = st.A ∧ st'.t = st.t ∧ st'.t0 = st.t0 ∧ st'.L = st.L ∧ st'.L0 = st.L0 ∧
      (∀ k, k ∉ l → st'.wA k = st.wA k ∧ st'.Am[k]? = st.Am[k]? ∧ st'.A0[k]? = st.A0[k]?) ∧
      ∀ k ∈ l, 0 ≤ st'.wA k ∧ st'.wA k < 1 ∧ st'.wA k ≤ w ∧ ∃ a a0 m, st.A[k]? = some a ∧ st.A0[k]? = some a0 ∧ st'.Am[k]? = some m ∧
        st'.A0[k]? = some a ∧ m.shape = a.shape ∧
        ∀ i, InB a.shape i → m.at_ i = a.at_ i + st'.wA k * (a.at_ i - a0.at_ i) := by
  intro l
  induction l with
  | nil =>
      intro st st' _ hst h
      cases h
      exact ⟨hst, rfl, rfl, rfl, rfl, rfl, fun _ _ => ⟨rfl, rfl, rfl⟩, fun k hk => absurd hk (by simp)⟩
  | cons k l ih =>
      intro st st' hnd hst h
      rw [List.foldlM_cons] at h
      cases e : extrapolateMode w st k with
      | error e' => rw [e] at h; cases h
      | ok s1 =>
          rw [e, ok_bind] at h
          obtain ⟨wk, a, a0, m, c1, c2, c3, c4, c5, c6, c7, rfl⟩ := extrapolateMode_inv e
          obtain ⟨hkl, hnd'⟩ := List.nodup_cons.1 hnd
          have hs := shape_of_map hst.A hst.A0 c2 c3
          obtain ⟨m1, m2⟩ := extrapolate_inv hs c4
          obtain ⟨w0, w1, w2⟩ := cappedWeight_inv c1 h0 h1
          obtain ⟨f1, f2, f3, f4, f5, f6, f7, f8⟩ := ih hnd' (st := { st with
              wA := Function.update st.wA k wk, Am := st.Am.set k m, A0 := st.A0.set k a })
            ⟨hst.A, c6.trans hst.A0, c5.trans hst.Am, hst.nonneg,
              nonneg_set hst.nonneg0 (hst.nonneg a (List.mem_of_getElem? c2))⟩ h
          have hk0 : k < st.A0.length := (List.getElem?_eq_some_iff.1 c3).1
          refine ⟨f1, f2, f3, f4, f5, f6, fun j hj => ?_, fun j hj => ?_⟩
          · simp only [List.mem_cons, not_or] at hj
            obtain ⟨g1, g2, g3⟩ := f7 j hj.2
            refine ⟨?_, ?_, ?_⟩
            · rw [g1]; exact Function.update_of_ne hj.1 _ _
            · rw [g2]; exact List.getElem?_set_ne (Ne.symm hj.1)
            · rw [g3]; exact List.getElem?_set_ne (Ne.symm hj.1)
          · by_cases hjk : j = k
            · subst hjk
              obtain ⟨g1, g2, g3⟩ := f7 j hkl
              have e1 : st'.wA j = wk := by rw [g1]; exact Function.update_self _ _ _
              have e2 : st'.Am[j]? = some m := by rw [g2]; exact List.getElem?_set_self c7
              have e3 : st'.A0[j]? = some a := by rw [g3]; exact List.getElem?_set_self hk0
              rw [e1]
              exact ⟨w0, w1, w2, a, a0, m, c2, c3, e2, e3, m1, m2⟩
            · have hjl : j ∈ l := by
                rcases List.mem_cons.1 hj with h | h
                · exact absurd h hjk
                · exact h
              obtain ⟨x1, x2, x2', b, b0, n, y1, y2, y3, y4, y5, y6⟩ := f8 j hjl
              refine ⟨x1, x2, x2', b, b0, n, y1, ?_, y3, y4, y5, y6⟩
              rw [← y2]
              exact (List.getElem?_set_ne (Ne.symm hjk)).symm

/-! ### Initial state -/

theorem normInit_inv {X v u : Tensor ℝ} {p : Nat} (h : normInit X p v = .ok u) :
    u.shape = v.shape ∧ (Nonneg v → Nonneg u) := by
  unfold normInit at h
  by_cases h0 : tf.norm v = 0
  · rw [if_pos h0] at h; cases h
  · rw [if_neg h0] at h
    cases h
    refine ⟨rfl, fun hv x hx => ?_⟩
    obtain ⟨y, hy, rfl⟩ := List.mem_map.1 (show x ∈ v.data.map _ from hx)
    exact mul_nonneg (div_nonneg (hv y hy) (Real.sqrt_nonneg _)) (Real.rpow_nonneg (Real.sqrt_nonneg _) _)

theorem mapM_inv {β γ : Type} {f : β → Res γ} : ∀ {l : List β} {r : List γ}, l.mapM f = .ok r →
    List.Forall₂ (fun x y => f x = .ok y) l r
  | [], r, h => by cases h; exact List.Forall₂.nil
  | x :: l, r, h => by
      rw [List.mapM_cons] at h
      cases h1 : f x with
      | error e => rw [h1] at h; cases h
      | ok y =>
          rw [h1, ok_bind] at h
          cases h2 : l.mapM f with
          | error e => rw [h2] at h; cases h
          | ok ys =>
              rw [h2, ok_bind] at h
              cases h
              exact List.Forall₂.cons h1 (mapM_inv h2)

theorem init_inv {X : Tensor ℝ} {p : Nat} {draws : List (Tensor ℝ)} {st : State} (h : init X p draws = .ok st) :
    FactorsOk (draws.map Tensor.shape) st ∧ MomentumOk st ∧ st.Am = st.A ∧ st.A0 = st.A := by
  unfold init at h
  cases h1 : draws.mapM (fun d => normInit X p (relu d)) with
  | error e => rw [h1] at h; cases h
  | ok A =>
      rw [h1, ok_bind] at h
      cases h
      have hf := mapM_inv h1
      have hs : A.map Tensor.shape = draws.map Tensor.shape := by
        clear h1
        induction hf with
        | nil => rfl
        | cons hx _ ih =>
            rw [List.map_cons, List.map_cons, ih, (normInit_inv hx).1]; rfl
      have hn : ∀ M ∈ A, Nonneg M := by
        clear h1 hs
        induction hf with
        | nil => intro M hM; exact absurd hM (by simp)
        | cons hx _ ih =>
            intro M hM
            rcases List.mem_cons.1 hM with e | e
            · rw [e]; exact (normInit_inv hx).2 (relu_nonneg _)
            · exact ih M e
      exact ⟨⟨hs, hs, hs, hn, hn⟩, ⟨le_refl _, Or.inl rfl⟩, rfl, rfl⟩

end bcu
end TD
