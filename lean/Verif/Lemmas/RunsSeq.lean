import Verif.Lemmas.Runs
import Verif.Spec.Runs

/-!
# `train_op1` mode by mode: when it succeeds and what it leaves
-/
namespace TD.bcu
open TD Tensor graph

theorem get_of_shapes {l : List (Tensor ℝ)} {sh : List (List Nat)} (h : l.map Tensor.shape = sh) {k : Nat}
    (hk : k < sh.length) : ∃ a, l[k]? = some a ∧ a.shape = sh.getD k [] := by
  subst h
  rw [List.length_map] at hk
  refine ⟨l[k], List.getElem?_eq_getElem hk, ?_⟩
  simp [List.getD_eq_getElem?_getD, hk]

theorem assign_ok {l : List (Tensor ℝ)} {k : Nat} {a v : Tensor ℝ} (h : l[k]? = some a) (hs : v.shape = a.shape) :
    tf.assign l k v = .ok (l.set k v) := by
  unfold tf.assign
  rw [h]
  simp [hs]

theorem map_shape_set {l : List (Tensor ℝ)} {sh : List (List Nat)} (h : l.map Tensor.shape = sh) {k : Nat} {v : Tensor ℝ}
    (hv : v.shape = sh.getD k []) : (l.set k v).map Tensor.shape = sh := by
  subst h
  rw [List.map_set, hv]
  by_cases hk : k < l.length
  · have : (l.map Tensor.shape).getD k [] = (l.map Tensor.shape)[k]'(by simpa using hk) := by
      simp [List.getD_eq_getElem?_getD, hk]
    rw [this, List.set_getElem_self]
  · rw [List.set_eq_of_length_le (by simpa using hk)]

/-- One mode of `train_op1` fails only if the weight is undefined. -/
theorem extrapolateMode_ok {sh : List (List Nat)} {w : ℝ} {st : State} (hS : AllShapes sh st) {k : Nat} (hk : k < sh.length) :
    (∃ e, cappedWeight st w k = .error e ∧ (extrapolateMode w st k).toOption = none) ∨
    ∃ wk a a0 m, cappedWeight st w k = .ok wk ∧ st.A[k]? = some a ∧ st.A0[k]? = some a0 ∧ extrapolate wk a a0 = .ok m ∧
      m.shape = sh.getD k [] ∧ a.shape = sh.getD k [] ∧
      extrapolateMode w st k = .ok { st with
        wA := Function.update st.wA k wk
        Am := st.Am.set k m
        A0 := st.A0.set k a } := by
  cases hc : cappedWeight st w k with
  | error e =>
      left
      refine ⟨e, rfl, ?_⟩
      unfold extrapolateMode
      rw [hc]; rfl
  | ok wk =>
      right
      obtain ⟨a, ha, has⟩ := get_of_shapes hS.A hk
      obtain ⟨a0, ha0, ha0s⟩ := get_of_shapes hS.A0 hk
      obtain ⟨b, hb, hbs⟩ := get_of_shapes hS.Am hk
      obtain ⟨d, m, _, _, hm, hms⟩ := extrapolate_ok wk (has.trans ha0s.symm)
      refine ⟨wk, a, a0, m, rfl, ha, ha0, hm, hms.trans has, has, ?_⟩
      unfold extrapolateMode getVar
      rw [hc, ok_bind, ha, ha0]
      simp only [ok_bind]
      rw [hm, ok_bind, assign_ok hb (by rw [hms, has, hbs]), ok_bind, assign_ok ha0 (by rw [has, ha0s]), ok_bind]
      rfl

/-- The first `n` modes of `train_op1`. -/
theorem extrapolate_range {sh : List (List Nat)} {w : ℝ} {st : State} (hS : AllShapes sh st) : ∀ n ≤ sh.length,
    (((List.range n).foldlM (extrapolateMode w) st).toOption = none ∧ ∃ k < n, ∃ e, cappedWeight st w k = .error e) ∨
    ∃ s, (List.range n).foldlM (extrapolateMode w) st = .ok s ∧ AllShapes sh s ∧ s.A = st.A ∧ s.t = st.t ∧ s.t0 = st.t0 ∧
      s.L = st.L ∧ s.L0 = st.L0 ∧
      (∀ k < n, ∃ a a0 m, cappedWeight st w k = .ok (s.wA k) ∧ st.A[k]? = some a ∧ st.A0[k]? = some a0 ∧
        extrapolate (s.wA k) a a0 = .ok m ∧ s.Am[k]? = some m ∧ s.A0[k]? = some a) ∧
      ∀ k, n ≤ k → s.wA k = st.wA k ∧ s.Am[k]? = st.Am[k]? ∧ s.A0[k]? = st.A0[k]? := by
  intro n
  induction n with
  | zero =>
      intro _
      right
      exact ⟨st, rfl, hS, rfl, rfl, rfl, rfl, rfl, fun k hk => by omega, fun k _ => ⟨rfl, rfl, rfl⟩⟩
  | succ n ih =>
      intro hn
      rw [List.range_succ, List.foldlM_append, toOption_bind]
      rcases ih (by omega) with ⟨h1, k, hk, h2⟩ | ⟨s, hs, sS, sA, st', st0, sL, sL0, hlt, hge⟩
      · left
        exact ⟨by rw [h1]; rfl, k, by omega, h2⟩
      · rw [hs]
        have hcap : cappedWeight s w n = cappedWeight st w n := by unfold cappedWeight; rw [sL, sL0]
        rcases extrapolateMode_ok (w := w) sS (k := n) (by omega) with ⟨e, he, hx⟩ | ⟨wk, a, a0, m, e1, e2, e3, e4, e5, e6, e7⟩
        · left
          refine ⟨?_, n, by omega, e, hcap ▸ he⟩
          simp only [toOption_ok, Option.bind_some, List.foldlM_cons, List.foldlM_nil, toOption_bind, hx, Option.bind_none]
        · right
          have hlA : n < s.A0.length := by
            have := congrArg List.length sS.A0
            simp only [List.length_map] at this
            omega
          have hlm : n < s.Am.length := by
            have := congrArg List.length sS.Am
            simp only [List.length_map] at this
            omega
          refine ⟨{ s with
              wA := Function.update s.wA n wk
              Am := s.Am.set n m
              A0 := s.A0.set n a }, by rw [ok_bind, List.foldlM_cons, e7, ok_bind]; rfl,
            ⟨sS.A, map_shape_set sS.A0 e6, map_shape_set sS.Am e5⟩, sA, st', st0, sL, sL0, ?_, ?_⟩
          · intro k hk
            by_cases hkn : k = n
            · subst hkn
              refine ⟨a, a0, m, ?_, sA ▸ e2, (hge k (le_refl _)).2.2 ▸ e3, ?_, ?_, ?_⟩
              · simp only [Function.update_self]; exact hcap ▸ e1
              · simp only [Function.update_self]; exact e4
              · exact List.getElem?_set_self hlm
              · exact List.getElem?_set_self hlA
            · obtain ⟨b, b0, m', f1, f2, f3, f4, f5, f6⟩ := hlt k (by omega)
              refine ⟨b, b0, m', ?_, f2, f3, ?_, ?_, ?_⟩
              · simp only [Function.update_of_ne hkn]; exact f1
              · simp only [Function.update_of_ne hkn]; exact f4
              · rw [List.getElem?_set_ne (Ne.symm hkn)]; exact f5
              · rw [List.getElem?_set_ne (Ne.symm hkn)]; exact f6
          · intro k hk
            have hkn : n ≠ k := by omega
            obtain ⟨g1, g2, g3⟩ := hge k (by omega)
            refine ⟨?_, ?_, ?_⟩
            · simp only [Function.update_of_ne (Ne.symm hkn)]; exact g1
            · rw [List.getElem?_set_ne hkn]; exact g2
            · rw [List.getElem?_set_ne hkn]; exact g3

end TD.bcu
