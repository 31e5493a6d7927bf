import Verif.Model.PitfCall
import Verif.Props.DualAscent

/-! # C157: which calls of `exact_recovery` return, and what the rank does -/
namespace TD.Props
open TD TD.pitf Matrix Spec

theorem list_prod_one (l : List Nat) : l.prod = 1 ↔ ∀ d ∈ l, d = 1 := by
  induction l with
  | nil => simp
  | cons a l ih => rw [List.prod_cons, mul_eq_one, ih, List.forall_mem_cons]

theorem freedom_eq_zero (s : Fin 3 → Nat) (r : Int) : np.freedom s r = 0 ↔ r = 0 ∨ 3 * r = 2 * (s 0 + s 1 + s 2) := by
  have : np.freedom s r = r * (2 * (s 0 + s 1 + s 2) - 3 * r) := by unfold np.freedom; ring
  rw [this, mul_eq_zero]
  refine or_congr Iff.rfl ?_
  constructor <;> intro h <;> linarith

/-- `exact_recovery` of a third-order tensor raises without samples, and without steps. -/
theorem C69_no_samples {n : Fin 3 → Nat} (svd : np.Svd) (argDelt argTao : ℝ) (steps : Nat) (hsteps : 0 < steps) (T : Tensor3 n)
    (spl : Samples n 0) : np.exactRecovery svd argDelt argTao steps T spl = .error .zeroDivision := by
  rw [np.exactRecovery, if_pos ⟨rfl, hsteps.ne'⟩]

/-- The typed run returns exactly with a sample and a step. -/
theorem exactRecovery_ok_iff {n : Fin 3 → Nat} {m : Nat} (svd : np.Svd) (argDelt argTao : ℝ) (steps : Nat) (T : Tensor3 n) (spl : Samples n m) :
    (∃ R, np.exactRecovery svd argDelt argTao steps T spl = .ok R) ↔ 0 < m ∧ 0 < steps := by
  constructor
  · rintro ⟨R, h⟩
    have hs : 0 < steps := by
      rcases Nat.eq_zero_or_pos steps with rfl | hs
      · rw [C69_zero_steps] at h; cases h
      · exact hs
    refine ⟨?_, hs⟩
    rcases Nat.eq_zero_or_pos m with rfl | hm
    · rw [C69_no_samples svd argDelt argTao steps hs] at h; cases h
    · exact hm
  · rintro ⟨hm, hs⟩
    obtain ⟨s, rfl⟩ : ∃ s, steps = s + 1 := ⟨steps - 1, by omega⟩
    exact ⟨_, recovery_run svd argDelt argTao T spl hm s⟩

variable (svd : np.Svd) (argDelt argTao : ℝ) (rank sampleNum steps : Int) (T : Tensor ℝ)
  (draw : (∀ d, 0 < np.dims T.shape d) → Samples (np.dims T.shape) sampleNum.toNat)

theorem forall_dims (s : List Nat) : (∀ d, 0 < np.dims s d) ↔ 0 < s.getD 0 0 ∧ 0 < s.getD 1 0 ∧ 0 < s.getD 2 0 := by
  rw [Fin.forall_fin_succ, Fin.forall_fin_succ, Fin.forall_fin_succ]
  exact ⟨fun h => ⟨h.1, h.2.1, h.2.2.1⟩, fun h => ⟨h.1, h.2.1, h.2.2, fun i => i.elim0⟩⟩

/-- **C157**: `exact_recovery` returns exactly for a tensor with three non-empty modes, all further modes of size one, at least one sample, at least
one step, and a rank that is neither 0 nor two thirds of the sum of the three sizes. -/
theorem C157_returns_iff :
    (∃ R, (np.recover svd argDelt argTao rank sampleNum steps T draw).result = .ok R) ↔
      (∃ n0 n1 n2 : Nat, ∃ rest : List Nat, T.shape = n0 :: n1 :: n2 :: rest ∧ 0 < n0 ∧ 0 < n1 ∧ 0 < n2 ∧ (∀ d ∈ rest, d = 1) ∧
        3 * rank ≠ 2 * (n0 + n1 + n2)) ∧ 1 ≤ sampleNum ∧ 1 ≤ steps ∧ rank ≠ 0 := by
  by_cases h3 : T.order < 3
  · rw [np.recover, if_pos h3]
    refine ⟨fun h => (by obtain ⟨R, h⟩ := h; cases h), ?_⟩
    rintro ⟨⟨n0, n1, n2, rest, hs, -⟩, -⟩
    simp only [Tensor.order, hs, List.length_cons] at h3
    omega
  obtain ⟨n0, n1, n2, rest, hs⟩ : ∃ n0 n1 n2 rest, T.shape = n0 :: n1 :: n2 :: rest := by
    rw [Tensor.order] at h3
    match h : T.shape with
    | [] => rw [h] at h3; exact absurd (by decide) h3
    | [_] => rw [h] at h3; simp at h3
    | [_, _] => rw [h] at h3; simp at h3
    | n0 :: n1 :: n2 :: rest => exact ⟨n0, n1, n2, rest, rfl⟩
  have hd : (∀ d, 0 < np.dims T.shape d) ↔ 0 < n0 ∧ 0 < n1 ∧ 0 < n2 := by rw [forall_dims, hs]; rfl
  have hf : np.freedom (np.dims T.shape) rank = 0 ↔ rank = 0 ∨ 3 * rank = 2 * (n0 + n1 + n2) := by
    rw [freedom_eq_zero, hs]; rfl
  have hp : (T.shape.drop 3).prod = 1 ↔ ∀ d ∈ rest, d = 1 := by
    rw [hs]; exact list_prod_one _
  rw [np.recover, if_neg h3]
  have hex : (∃ n0' n1' n2' : Nat, ∃ rest' : List Nat, T.shape = n0' :: n1' :: n2' :: rest' ∧ 0 < n0' ∧ 0 < n1' ∧ 0 < n2' ∧ (∀ d ∈ rest', d = 1) ∧
        3 * rank ≠ 2 * (n0' + n1' + n2')) ↔ (0 < n0 ∧ 0 < n1 ∧ 0 < n2) ∧ (∀ d ∈ rest, d = 1) ∧ 3 * rank ≠ 2 * (n0 + n1 + n2) := by
    constructor
    · rintro ⟨a, b, c, r, h, h0, h1, h2, h4, h5⟩
      rw [hs] at h
      simp only [List.cons.injEq] at h
      obtain ⟨rfl, rfl, rfl, rfl⟩ := h
      exact ⟨⟨h0, h1, h2⟩, h4, h5⟩
    · rintro ⟨⟨h0, h1, h2⟩, h4, h5⟩
      exact ⟨n0, n1, n2, rest, hs, h0, h1, h2, h4, h5⟩
  rw [hex]
  by_cases hn : sampleNum < 0
  · rw [if_pos hn]
    exact ⟨fun h => (by obtain ⟨R, h⟩ := h; cases h), fun h => by omega⟩
  rw [if_neg hn]
  by_cases hd0 : ∀ d, 0 < np.dims T.shape d
  · rw [dif_pos hd0]
    by_cases hf0 : np.freedom (np.dims T.shape) rank = 0
    · rw [if_pos hf0]
      refine ⟨fun h => (by obtain ⟨R, h⟩ := h; cases h), fun h => ?_⟩
      rcases hf.1 hf0 with h0 | h0
      · exact absurd h0 h.2.2.2
      · exact absurd h0 h.1.2.2
    rw [if_neg hf0]
    have hf1 := fun h => hf0 (hf.2 h)
    by_cases hr : 0 < steps ∧ 0 < sampleNum ∧ (T.shape.drop 3).prod ≠ 1
    · rw [if_pos hr]
      exact ⟨fun h => (by obtain ⟨R, h⟩ := h; cases h), fun h => absurd (hp.2 h.1.2.1) hr.2.2⟩
    rw [if_neg hr]
    rw [exactRecovery_ok_iff]
    constructor
    · rintro ⟨hm, hst⟩
      refine ⟨⟨hd.1 hd0, ?_, fun h => hf1 (.inr h)⟩, by omega, by omega, fun h => hf1 (.inl h)⟩
      by_contra hc
      exact hr ⟨by omega, by omega, fun h => hc (hp.1 h)⟩
    · rintro ⟨-, h1, h2, -⟩
      exact ⟨by omega, by omega⟩
  · rw [dif_neg hd0]
    exact ⟨fun h => (by obtain ⟨R, h⟩ := h; cases h), fun h => absurd (hd.2 h.1.1) hd0⟩

/-- **C157**: two calls that return and differ in the rank only return the same. -/
theorem C157_rank (rank' : Int) (R R') (h : (np.recover svd argDelt argTao rank sampleNum steps T draw).result = .ok R)
    (h' : (np.recover svd argDelt argTao rank' sampleNum steps T draw).result = .ok R') : R = R' := by
  unfold np.recover at h h'
  split_ifs at h h'
  exact Except.ok.inj (h.symm.trans h')

/-- **C157**: what is returned is the run on the entries of the tensor (described by C69). -/
theorem C157_run (R) (h : (np.recover svd argDelt argTao rank sampleNum steps T draw).result = .ok R) :
    ∃ hd : ∀ d, 0 < np.dims T.shape d, np.exactRecovery svd argDelt argTao steps.toNat
      (fun i j k => T.at_ (i.val :: j.val :: k.val :: List.replicate (T.shape.length - 3) 0)) (draw hd) = .ok R := by
  unfold np.recover at h
  split_ifs at h with _ _ hd
  exact ⟨hd, h⟩

/-- **C157**: the three text files are overwritten unless the order, the sizes, the number of samples or the rank is refused: with no steps, no samples
or too many modes the files of an earlier run are lost although the call raises. -/
theorem C157_files : (np.recover svd argDelt argTao rank sampleNum steps T draw).files = true ↔
    3 ≤ T.shape.length ∧ (0 < T.shape.getD 0 0 ∧ 0 < T.shape.getD 1 0 ∧ 0 < T.shape.getD 2 0) ∧ 0 ≤ sampleNum ∧ rank ≠ 0 ∧
      3 * rank ≠ 2 * (T.shape.getD 0 0 + T.shape.getD 1 0 + T.shape.getD 2 0) := by
  rw [← forall_dims]
  have hf := freedom_eq_zero (np.dims T.shape) rank
  have e : ∀ d : Fin 3, np.dims T.shape d = T.shape.getD d 0 := fun _ => rfl
  rw [e, e, e] at hf
  unfold np.recover Tensor.order
  have hf' : np.freedom (np.dims T.shape) rank ≠ 0 ↔ rank ≠ 0 ∧ 3 * rank ≠ 2 * (T.shape.getD 0 0 + T.shape.getD 1 0 + T.shape.getD 2 0) := by
    rw [Ne, hf, not_or]; rfl
  rw [← hf']
  split_ifs with h1 h2 h3 h4 h5 <;>
    simp only [false_iff, true_iff, not_and, ne_eq, not_not]
  · omega
  · omega
  · exact fun _ _ _ => h4
  · exact ⟨by omega, h3, by omega, h4⟩
  · exact ⟨by omega, h3, by omega, h4⟩
  · exact fun _ h => absurd h h3

/-- **C157**: which exception a call raises that leaves the files alone. -/
theorem C157_refused (h : (np.recover svd argDelt argTao rank sampleNum steps T draw).files = false) :
    (np.recover svd argDelt argTao rank sampleNum steps T draw).result = .error
      (if T.shape.length < 3 then .indexError else if sampleNum < 0 ∨ 0 ∈ T.shape.take 3 then .valueError else .zeroDivision) := by
  by_cases h3 : T.order < 3
  · rw [np.recover, if_pos h3, if_pos (show T.shape.length < 3 from h3)]
  have h3' : ¬ T.shape.length < 3 := h3
  rw [if_neg h3']
  have hz : 0 ∈ T.shape.take 3 ↔ ¬ ∀ d, 0 < np.dims T.shape d := by
    rw [forall_dims]
    match hs : T.shape with
    | [] | [_] | [_, _] => rw [hs] at h3'; simp at h3'
    | n0 :: n1 :: n2 :: rest =>
        simp only [List.take_succ_cons, List.take_zero, List.mem_cons, List.not_mem_nil, or_false, List.getD_cons_zero, List.getD_cons_succ]
        omega
  revert h
  rw [np.recover, if_neg h3]
  by_cases hn : sampleNum < 0
  · rw [if_pos hn, if_pos (.inl hn)]; exact fun _ => rfl
  rw [if_neg hn]
  by_cases hd : ∀ d, 0 < np.dims T.shape d
  · rw [dif_pos hd, if_neg (not_or.2 ⟨hn, fun h => hz.1 h hd⟩)]
    split_ifs <;> intro h <;> first | rfl | cases h
  · rw [dif_neg hd, if_pos (.inr (hz.2 hd))]; exact fun _ => rfl

/-- **C157**: which exception a call raises after overwriting the files: without steps `UnboundLocalError`, without samples
`ZeroDivisionError`, and `ValueError` for further modes of another size than one. -/
theorem C157_lost (h : (np.recover svd argDelt argTao rank sampleNum steps T draw).files = true) :
    (steps ≤ 0 → (np.recover svd argDelt argTao rank sampleNum steps T draw).result = .error .unboundLocal) ∧
    (0 < steps → sampleNum = 0 → (np.recover svd argDelt argTao rank sampleNum steps T draw).result = .error .zeroDivision) ∧
    (0 < steps → 0 < sampleNum → (∃ d ∈ T.shape.drop 3, d ≠ 1) →
      (np.recover svd argDelt argTao rank sampleNum steps T draw).result = .error .valueError) := by
  unfold np.recover at h ⊢
  split_ifs at h ⊢ with h1 h2 h3 h4 h5
  · exact ⟨fun h => by omega, fun _ h => by omega, fun _ _ _ => rfl⟩
  · refine ⟨fun hs => ?_, fun hs hm => ?_, fun hs hm hd => ?_⟩
    · obtain hs' : steps.toNat = 0 := by omega
      simp only [hs']
      exact C69_zero_steps svd argDelt argTao _ _
    · subst hm
      exact C69_no_samples svd argDelt argTao _ (by omega) _ _
    · refine absurd ⟨hs, hm, fun hp => ?_⟩ h5
      obtain ⟨d, hd, hd1⟩ := hd
      exact hd1 ((list_prod_one _).1 hp d hd)

/-- A 2 × 1 × 1 tensor, one sample, three steps: rank 1 returns, rank 0 raises. -/
example : ∃ (svd : np.Svd) (R : np.Recovery (np.dims [2, 1, 1]) 1),
    (np.recover svd 1 1 1 1 3 ⟨[2, 1, 1], [1, 2], rfl⟩ fun h d _ => ⟨0, h d⟩).result = .ok R ∧
    (np.recover svd 1 1 0 1 3 ⟨[2, 1, 1], [1, 2], rfl⟩ fun h d _ => ⟨0, h d⟩).result = .error .zeroDivision := by
  obtain ⟨svd, _⟩ := exists_npSvd
  obtain ⟨R, hR⟩ := (C157_returns_iff svd 1 1 1 1 3 ⟨[2, 1, 1], [1, 2], rfl⟩ fun h d _ => ⟨0, h d⟩).2
    ⟨⟨2, 1, 1, [], rfl, by decide, by decide, by decide, by simp, by decide⟩, by decide, by decide, by decide⟩
  refine ⟨svd, R, hR, C157_refused svd 1 1 0 1 3 _ _ ?_⟩
  rw [← Bool.not_eq_true, C157_files]
  exact fun h => h.2.2.2.1 rfl

end TD.Props
