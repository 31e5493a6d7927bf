import Verif.Model.PitfSays
import Verif.Props.PitfCall

/-! # C180: what `exact_recovery` prints and writes -/
namespace TD.Props
open TD TD.pitf Matrix Spec

section
variable {n : Fin 3 → Nat} {m : Nat}

theorem recoveryLoopSays_eq (svd : np.Svd) (spl : Samples n m) (T : Tensor3 n) (delt tao : ℝ) (k i : Nat)
    (y : Fin m → ℝ) (l : Option (np.Iter n m)) (h) (said : List np.Said) (w : np.Written n m) :
    np.recoveryLoopSays svd spl T delt tao k i y l h said w
      = (np.recoveryLoop svd spl T delt tao k i y l h,
        said ++ (List.range k).map (fun j => let it := np.recoveryStep svd spl T delt tao (recoveryY svd spl T delt tao y j)
          np.Said.step (i + j) it.erate it.loss),
        ⟨w.e2 ++ (List.range k).map (fun j => let it := np.recoveryStep svd spl T delt tao (recoveryY svd spl T delt tao y j)
            (i + j, np.PomegaPair spl it.X it.Y it.Z)),
          w.y ++ (List.range k).map (fun j => (i + j, recoveryY svd spl T delt tao y (j + 1))),
          w.X ++ (List.range k).map (fun j => (i + j, (np.recoveryStep svd spl T delt tao (recoveryY svd spl T delt tao y j)).X))⟩) := by
  induction k generalizing i y l h said w with
  | zero => simp [np.recoveryLoop, np.recoveryLoopSays]
  | succ k ih =>
    obtain ⟨If, Ef, Rf⟩ := h
    rw [np.recoveryLoop, np.recoveryLoopSays, ih]
    simp only [recoveryY_shift, List.range_succ_eq_map, List.map_cons, List.map_map, Function.comp_def, List.append_assoc,
      List.singleton_append, Nat.succ_eq_add_one, Nat.add_zero, Nat.add_right_comm i 1, ← Nat.add_assoc]
    rfl
end

variable (svd : np.Svd) (argDelt argTao : ℝ) (rank sampleNum steps : Int) (T : Tensor ℝ)
  (draw : (∀ d, 0 < np.dims T.shape d) → Samples (np.dims T.shape) sampleNum.toNat)

/-- **C180**: printing and writing changes nothing else: the same result or exception, and the files are touched in the same calls. -/
theorem C180_same : (np.recoverSays svd argDelt argTao rank sampleNum steps T draw).result = (np.recover svd argDelt argTao rank sampleNum steps T draw).result ∧
    (np.recoverSays svd argDelt argTao rank sampleNum steps T draw).files.isSome = (np.recover svd argDelt argTao rank sampleNum steps T draw).files := by
  unfold np.recoverSays np.recover np.exactRecovery
  simp only [recoveryLoopSays_eq]
  split_ifs <;> first | exact ⟨rfl, rfl⟩ | skip
  rename_i h _ _ _
  rcases np.recoveryLoop svd (draw h) (np.entries T) _ _ steps.toNat 0 0 none ([], [], []) with ⟨_ | it, If, Ef, Rf⟩ <;> exact ⟨rfl, rfl⟩

/-- The whole output of a call that returns. -/
theorem recoverSays_ok {R} (hR : (np.recoverSays svd argDelt argTao rank sampleNum steps T draw).result = .ok R) :
    ∃ h : ∀ d, 0 < np.dims T.shape d, 1 ≤ sampleNum ∧ 1 ≤ steps ∧
      let n := np.dims T.shape
      let delt := argDelt * sampleNum.toNat / √((n 0 : ℝ) * n 1 * n 2)
      let Y := recoveryY svd (draw h) (np.entries T) delt (argTao * √((n 0 : ℝ) * n 1 * n 2)) 0
      let it := fun k => np.recoveryStep svd (draw h) (np.entries T) delt (argTao * √((n 0 : ℝ) * n 1 * n 2)) (Y k)
      R = ⟨it (steps.toNat - 1), List.range steps.toNat, (List.range steps.toNat).map fun j => (it j).erate,
        (List.range steps.toNat).map fun j => (it j).loss⟩ ∧
      (np.recoverSays svd argDelt argTao rank sampleNum steps T draw).said = [.freedom (np.freedom n rank), .delt delt, .ratio (sampleNum / np.freedom n rank)] ++
        (List.range steps.toNat).map (fun j => .step j (it j).erate (it j).loss) ∧
      (np.recoverSays svd argDelt argTao rank sampleNum steps T draw).files = some
        ⟨(List.range steps.toNat).map (fun j => (j, np.PomegaPair (draw h) (it j).X (it j).Y (it j).Z)),
          (List.range steps.toNat).map (fun j => (j, Y (j + 1))), (List.range steps.toNat).map (fun j => (j, (it j).X))⟩ := by
  obtain ⟨⟨n0, n1, n2, rest, hsh, p0, p1, p2, hrest, hfr⟩, hm, hs, hr⟩ := (C157_returns_iff svd argDelt argTao rank sampleNum steps T draw).1
    ⟨R, by rw [← (C180_same svd argDelt argTao rank sampleNum steps T draw).1]; exact hR⟩
  have hs0 : steps.toNat ≠ 0 := by omega
  have h1 : ¬ T.order < 3 := by simp [Tensor.order, hsh]
  have h2 : ¬ sampleNum < 0 := by omega
  have h3 : ∀ d, 0 < np.dims T.shape d := by
    rw [forall_dims, hsh]; exact ⟨p0, p1, p2⟩
  have h4 : np.freedom (np.dims T.shape) rank ≠ 0 := by
    rw [Ne, freedom_eq_zero, hsh]
    rintro (h | h)
    · exact hr h
    · exact hfr h
  have h5 : ¬ (0 < steps ∧ 0 < sampleNum ∧ (T.shape.drop 3).prod ≠ 1) := by
    rintro ⟨-, -, h⟩
    rw [hsh] at h
    exact h ((list_prod_one rest).2 hrest)
  have h6 : ¬ (sampleNum.toNat = 0 ∧ steps.toNat ≠ 0) := by omega
  rw [np.recoverSays, if_neg h1, if_neg h2, dif_pos h3, if_neg h4, if_neg h5, if_neg h6] at hR ⊢
  simp only [recoveryLoopSays_eq, recoveryLoop_eq, if_neg hs0, List.nil_append, Nat.zero_add] at hR ⊢
  refine ⟨h3, hm, hs, ?_, rfl, trivial⟩
  injection hR with hR
  rw [← hR, List.range_eq_range']

/-- **C180**: a call that returns has printed the degree of freedom, the step size, the number of samples per degree of freedom, and then one line for each
step with the three numbers of its entry in the returned lists. -/
theorem C180_says {R} (hR : (np.recoverSays svd argDelt argTao rank sampleNum steps T draw).result = .ok R) :
    ∃ d0 d1 d2 : Nat, T.shape.take 3 = [d0, d1, d2] ∧
      let fd : Int := rank * (d0 + d1 - rank) + rank * (d1 + d2 - rank) + rank * (d2 + d0 - rank)
      (np.recoverSays svd argDelt argTao rank sampleNum steps T draw).said =
        .freedom fd :: .delt (argDelt * sampleNum / √(d0 * d1 * d2)) :: .ratio (sampleNum / fd) ::
          (R.If.zip (R.Ef.zip R.Rf)).map fun p => .step p.1 p.2.1 p.2.2 := by
  obtain ⟨⟨n0, n1, n2, rest, hsh, -⟩, -⟩ := (C157_returns_iff svd argDelt argTao rank sampleNum steps T draw).1
    ⟨R, by rw [← (C180_same svd argDelt argTao rank sampleNum steps T draw).1]; exact hR⟩
  obtain ⟨h, hm, hs, rfl, h2, -⟩ := recoverSays_ok svd argDelt argTao rank sampleNum steps T draw hR
  refine ⟨n0, n1, n2, by rw [hsh]; rfl, ?_⟩
  have e0 : np.dims T.shape 0 = n0 := by rw [hsh]; rfl
  have e1 : np.dims T.shape 1 = n1 := by rw [hsh]; rfl
  have e2 : np.dims T.shape 2 = n2 := by rw [hsh]; rfl
  have em : ((sampleNum.toNat : Nat) : ℝ) = sampleNum := by
    have : ((sampleNum.toNat : Int) : ℝ) = sampleNum := by rw [Int.toNat_of_nonneg (by omega)]
    exact_mod_cast this
  rw [h2]
  simp only [np.freedom, e0, e1, e2, em, List.zip_map', List.cons_append, List.nil_append]
  refine congrArg _ (congrArg _ (congrArg _ ?_))
  refine List.ext_getElem (by simp) fun i _ _ => ?_
  simp

/-- **C180**: after a call that returns, each of the three files has one record for each step, numbered from 0, and the last records of `np_y.txt` and `np_X.txt` are
the vector and the first matrix returned. -/
theorem C180_files {R} (hR : (np.recoverSays svd argDelt argTao rank sampleNum steps T draw).result = .ok R) :
    ∃ W, (np.recoverSays svd argDelt argTao rank sampleNum steps T draw).files = some W ∧
      W.e2.map (·.1) = List.range steps.toNat ∧ W.y.map (·.1) = List.range steps.toNat ∧ W.X.map (·.1) = List.range steps.toNat ∧
      W.y.getLast? = some (steps.toNat - 1, R.last.y) ∧ W.X.getLast? = some (steps.toNat - 1, R.last.X) := by
  obtain ⟨h, hm, hs, rfl, -, h2⟩ := recoverSays_ok svd argDelt argTao rank sampleNum steps T draw hR
  have hs0 : steps.toNat ≠ 0 := by omega
  refine ⟨_, h2, ?_, ?_, ?_, ?_, ?_⟩
  · simp [Function.comp_def]
  · simp [Function.comp_def]
  · simp [Function.comp_def]
  · simp only [List.getLast?_map, List.getLast?_range, if_neg hs0, Option.map_some]
    rfl
  · simp only [List.getLast?_map, List.getLast?_range, if_neg hs0, Option.map_some]

/-- The records of a file before record `k`: the vector of the previous step, zero at the start. -/
def before {m : Nat} (f : List (Nat × (Fin m → ℝ))) : Nat → Fin m → ℝ
  | 0 => 0
  | k + 1 => (f[k]?.map (·.2)).getD 0

/-- **C180**: the files account for the run.  In every step the record of `np_y.txt` is the one before plus the step size times the difference between the data at the
drawn positions and the record of `np_e2.txt`, and the loss of that step is the root mean square of these differences. -/
theorem C180_account {R W} (hR : (np.recoverSays svd argDelt argTao rank sampleNum steps T draw).result = .ok R)
    (hW : (np.recoverSays svd argDelt argTao rank sampleNum steps T draw).files = some W) :
    ∃ (ne : ∀ d, 0 < np.dims T.shape d) (pos : Fin 3 → Fin sampleNum.toNat → Nat), (∀ d i, pos d i = (draw ne d i).val) ∧
      ∀ k < steps.toNat, ∃ p y, W.e2[k]? = some (k, p) ∧ W.y[k]? = some (k, y) ∧
        let e := fun i => T.at_ ([pos 0 i, pos 1 i, pos 2 i] ++ List.replicate (T.order - 3) 0) - p i
        (∀ i, y i = before W.y k i + argDelt * sampleNum / √((T.shape.getD 0 0 : ℝ) * T.shape.getD 1 0 * T.shape.getD 2 0) * e i) ∧
        R.Rf[k]? = some (some (√((∑ i, e i ^ 2) / sampleNum))) := by
  obtain ⟨h, hm, hs, rfl, -, h2⟩ := recoverSays_ok svd argDelt argTao rank sampleNum steps T draw hR
  rw [h2] at hW
  injection hW with hW
  subst hW
  have em : ((sampleNum.toNat : Nat) : ℝ) = sampleNum := by
    have : ((sampleNum.toNat : Int) : ℝ) = sampleNum := by rw [Int.toNat_of_nonneg (by omega)]
    exact_mod_cast this
  have em0 : (sampleNum : ℝ) ≠ 0 := by
    have : sampleNum ≠ 0 := by omega
    exact_mod_cast this
  refine ⟨h, fun d i => (draw h d i).val, fun _ _ => rfl, fun k hk => ?_⟩
  refine ⟨_, _, by simp only [List.getElem?_map, List.getElem?_range hk, Option.map_some]; rfl,
    by simp only [List.getElem?_map, List.getElem?_range hk, Option.map_some]; rfl, ?_, ?_⟩
  · intro i
    have hb : ∀ f : Nat → Fin sampleNum.toNat → ℝ, f 0 = 0 → before ((List.range steps.toNat).map fun j => (j, f (j + 1))) k = f k := by
      intro f hf
      cases k with
      | zero => exact hf.symm
      | succ k => simp [before, Nat.lt_of_succ_lt hk]
    rw [hb _ rfl, ← em]
    rfl
  · simp only [List.getElem?_map, List.getElem?_range hk, Option.map_some]
    have hfs : ∀ a : ℝ, loss.fsqrt (loss.fdiv a (sampleNum.toNat : ℝ)) = some (√(a / sampleNum)) := by
      intro a
      rw [em, loss.fdiv, if_neg em0]; rfl
    exact congrArg some (hfs _)

/-- **C180**: the two numbers of a step carry the same information.  If some datum at the drawn positions is not zero, then in all steps the printed error rate is the printed loss times one
constant, the root of the number of samples over the norm of the data there. -/
theorem C180_proportional {R} (hR : (np.recoverSays svd argDelt argTao rank sampleNum steps T draw).result = .ok R) :
    ∃ (ne : ∀ d, 0 < np.dims T.shape d) (d : Fin sampleNum.toNat → ℝ),
      (∀ i, d i = T.at_ ([(draw ne 0 i).val, (draw ne 1 i).val, (draw ne 2 i).val] ++ List.replicate (T.order - 3) 0)) ∧
      ((∃ i, d i ≠ 0) → ∀ (k : Nat) er l, R.Ef[k]? = some er → R.Rf[k]? = some l →
        ∃ x : ℝ, l = some x ∧ er = some (√sampleNum / √(∑ i, d i ^ 2) * x)) := by
  obtain ⟨h, hm, hs, rfl, -, -⟩ := recoverSays_ok svd argDelt argTao rank sampleNum steps T draw hR
  refine ⟨h, np.PomegaTensor (draw h) (np.entries T), fun i => rfl, ?_⟩
  rintro ⟨i, hi⟩ k er l her hl
  have em : ((sampleNum.toNat : Nat) : ℝ) = sampleNum := by
    have : ((sampleNum.toNat : Int) : ℝ) = sampleNum := by rw [Int.toNat_of_nonneg (by omega)]
    exact_mod_cast this
  have em0 : (0 : ℝ) < sampleNum := by
    have : 0 < sampleNum := by omega
    exact_mod_cast this
  have hpos : 0 < ∑ i, np.PomegaTensor (draw h) (np.entries T) i ^ 2 :=
    lt_of_lt_of_le (by positivity) (Finset.single_le_sum (fun j _ => sq_nonneg (np.PomegaTensor (draw h) (np.entries T) j)) (Finset.mem_univ i))
  have hn : np.norm (np.PomegaTensor (draw h) (np.entries T)) ≠ 0 := (Real.sqrt_pos.2 hpos).ne'
  simp only [List.getElem?_map, Option.map_eq_some_iff] at her hl
  obtain ⟨j, hj, rfl⟩ := her
  obtain ⟨j', hj', rfl⟩ := hl
  obtain rfl : j = j' := Option.some.inj (hj.symm.trans hj')
  have key : ∀ e : Fin sampleNum.toNat → ℝ, ∃ x : ℝ, loss.fsqrt (loss.fdiv (∑ i, e i ^ 2) (sampleNum.toNat : ℝ)) = some x ∧
      loss.fdiv (np.norm e) (np.norm (np.PomegaTensor (draw h) (np.entries T))) =
        some (√sampleNum / √(∑ i, np.PomegaTensor (draw h) (np.entries T) i ^ 2) * x) := by
    intro e
    refine ⟨√((∑ i, e i ^ 2) / sampleNum), ?_, ?_⟩
    · rw [em, loss.fdiv, if_neg em0.ne']; rfl
    · rw [loss.fdiv, if_neg hn, Real.sqrt_div' _ em0.le]
      have := (Real.sqrt_pos.2 em0).ne'
      refine congrArg some ?_
      unfold np.norm
      field_simp
  exact key _

/-- **C180**: whatever rank, threshold and decomposition were used, two runs on the same data with the same draws, step size and number of steps whose `np_e2.txt` agree have the same
`np_y.txt`, return the same vector, and print and return the same losses. -/
theorem C180_determined (svd' : np.Svd) (argTao' : ℝ) (rank' : Int) {R R' W W'}
    (hR : (np.recoverSays svd argDelt argTao rank sampleNum steps T draw).result = .ok R)
    (hW : (np.recoverSays svd argDelt argTao rank sampleNum steps T draw).files = some W)
    (hR' : (np.recoverSays svd' argDelt argTao' rank' sampleNum steps T draw).result = .ok R')
    (hW' : (np.recoverSays svd' argDelt argTao' rank' sampleNum steps T draw).files = some W') (he : W.e2 = W'.e2) :
    W.y = W'.y ∧ R.last.y = R'.last.y ∧ R.Rf = R'.Rf := by
  obtain ⟨ne, pos, hpos, ha⟩ := C180_account svd argDelt argTao rank sampleNum steps T draw hR hW
  obtain ⟨ne', pos', hpos', ha'⟩ := C180_account svd' argDelt argTao' rank' sampleNum steps T draw hR' hW'
  obtain rfl : pos = pos' := by funext d i; rw [hpos, hpos']
  obtain ⟨_, w1, -, l1, -, g1, -⟩ := C180_files svd argDelt argTao rank sampleNum steps T draw hR
  obtain ⟨_, w2, -, l2, -, g2, -⟩ := C180_files svd' argDelt argTao' rank' sampleNum steps T draw hR'
  obtain rfl := Option.some.inj (hW.symm.trans w1)
  obtain rfl := Option.some.inj (hW'.symm.trans w2)
  obtain ⟨_, -, -, q1, -⟩ := recoverSays_ok svd argDelt argTao rank sampleNum steps T draw hR
  obtain ⟨_, -, -, q2, -⟩ := recoverSays_ok svd' argDelt argTao' rank' sampleNum steps T draw hR'
  have len1 : W.y.length = steps.toNat := by simpa using congrArg List.length l1
  have len2 : W'.y.length = steps.toNat := by simpa using congrArg List.length l2
  have hb : ∀ k ≤ steps.toNat, before W.y k = before W'.y k := by
    intro k
    induction k with
    | zero => exact fun _ => rfl
    | succ k ih =>
      intro hk
      obtain ⟨p, y, a1, a2, a3, -⟩ := ha k (by omega)
      obtain ⟨p', y', b1, b2, b3, -⟩ := ha' k (by omega)
      rw [he, b1] at a1
      injection a1 with a1
      injection a1 with _ a1
      subst a1
      have : y = y' := by
        funext i
        rw [a3, b3, ih (by omega)]
      simp only [before, a2, b2, this]
  have hy : W.y = W'.y := by
    refine List.ext_getElem? fun k => ?_
    by_cases hk : k < steps.toNat
    · obtain ⟨p, y, a1, a2, -⟩ := ha k hk
      obtain ⟨p', y', b1, b2, -⟩ := ha' k hk
      have h := hb (k + 1) hk
      simp only [before, a2, b2, Option.map_some, Option.getD_some] at h
      rw [a2, b2, h]
    · rw [List.getElem?_eq_none (by omega), List.getElem?_eq_none (by omega)]
  refine ⟨hy, ?_, ?_⟩
  · rw [hy, g2] at g1
    injection g1 with g1
    injection g1 with _ g1
    exact g1.symm
  · have r1 : R.Rf.length = steps.toNat := by rw [q1]; simp
    have r2 : R'.Rf.length = steps.toNat := by rw [q2]; simp
    refine List.ext_getElem? fun k => ?_
    by_cases hk : k < steps.toNat
    · obtain ⟨p, y, a1, -, -, a4⟩ := ha k hk
      obtain ⟨p', y', b1, -, -, b4⟩ := ha' k hk
      rw [he, b1] at a1
      injection a1 with a1
      injection a1 with _ a1
      subst a1
      rw [a4, b4]
    · rw [List.getElem?_eq_none (by omega), List.getElem?_eq_none (by omega)]

/-- **C180**: a call that raises leaves no record: no step is printed, and the files are as they were or empty. -/
theorem C180_raises {err} (hR : (np.recoverSays svd argDelt argTao rank sampleNum steps T draw).result = .error err) :
    (∀ i e l, .step i e l ∉ (np.recoverSays svd argDelt argTao rank sampleNum steps T draw).said) ∧
    ∀ W, (np.recoverSays svd argDelt argTao rank sampleNum steps T draw).files = some W → W.e2 = [] ∧ W.y = [] ∧ W.X = [] := by
  have h0 : ∀ W : np.Written (np.dims T.shape) sampleNum.toNat, some ⟨[], [], []⟩ = some W → W.e2 = [] ∧ W.y = [] ∧ W.X = [] := by
    rintro W hW
    injection hW with hW
    subst hW
    exact ⟨rfl, rfl, rfl⟩
  revert hR
  unfold np.recoverSays
  extract_lets n size delt fd said1 said2
  have hs1 : ∀ i e l, np.Said.step i e l ∉ said1 := by simp [said1]
  have hs2 : ∀ i e l, np.Said.step i e l ∉ said2 := by simp [said2, said1]
  by_cases c1 : T.order < 3
  · rw [if_pos c1]; exact fun _ => ⟨fun _ _ _ => List.not_mem_nil, fun W hW => by cases hW⟩
  by_cases c2 : sampleNum < 0
  · rw [if_neg c1, if_pos c2]; exact fun _ => ⟨fun _ _ _ => List.not_mem_nil, fun W hW => by cases hW⟩
  by_cases c3 : ∀ d, 0 < n d
  swap
  · rw [if_neg c1, if_neg c2, dif_neg c3]; exact fun _ => ⟨fun _ _ _ => List.not_mem_nil, fun W hW => by cases hW⟩
  rw [if_neg c1, if_neg c2, dif_pos c3]
  by_cases c4 : fd = 0
  · rw [if_pos c4]; exact fun _ => ⟨hs1, fun W hW => by cases hW⟩
  rw [if_neg c4]
  by_cases c5 : 0 < steps ∧ 0 < sampleNum ∧ (T.shape.drop 3).prod ≠ 1
  · rw [if_pos c5]; exact fun _ => ⟨hs2, h0⟩
  rw [if_neg c5]
  by_cases c6 : sampleNum.toNat = 0 ∧ steps.toNat ≠ 0
  · rw [if_pos c6]; exact fun _ => ⟨hs2, h0⟩
  rw [if_neg c6, recoveryLoopSays_eq, recoveryLoop_eq]
  by_cases hs : steps.toNat = 0
  · rw [if_pos hs, hs]
    exact fun _ => ⟨by simpa using hs2, h0⟩
  · rw [if_neg hs]
    intro hR
    cases hR

/-- **C180**: with the same draws, a shorter run prints and writes the beginning of what a longer one does. -/
theorem C180_prefix {R R'} (steps' : Int) (hle : steps ≤ steps') (hR : (np.recoverSays svd argDelt argTao rank sampleNum steps T draw).result = .ok R)
    (hR' : (np.recoverSays svd argDelt argTao rank sampleNum steps' T draw).result = .ok R') :
    (np.recoverSays svd argDelt argTao rank sampleNum steps T draw).said <+: (np.recoverSays svd argDelt argTao rank sampleNum steps' T draw).said ∧
    ∃ W W', (np.recoverSays svd argDelt argTao rank sampleNum steps T draw).files = some W ∧
      (np.recoverSays svd argDelt argTao rank sampleNum steps' T draw).files = some W' ∧ W.e2 <+: W'.e2 ∧ W.y <+: W'.y ∧ W.X <+: W'.X := by
  obtain ⟨h, -, -, -, h1, h2⟩ := recoverSays_ok svd argDelt argTao rank sampleNum steps T draw hR
  obtain ⟨h', -, -, -, h1', h2'⟩ := recoverSays_ok svd argDelt argTao rank sampleNum steps' T draw hR'
  have hp : ∀ {α : Type} (f : Nat → α), (List.range steps.toNat).map f <+: (List.range steps'.toNat).map f := by
    intro α f
    obtain ⟨c, hc⟩ : ∃ c, steps'.toNat = steps.toNat + c := ⟨steps'.toNat - steps.toNat, by omega⟩
    rw [hc, List.range_add, List.map_append]
    exact List.prefix_append _ _
  refine ⟨?_, _, _, h2, h2', hp _, hp _, hp _⟩
  rw [h1, h1']
  exact (List.prefix_append_right_inj _).2 (hp _)

/-- A call that returns, and one that raises after emptying the files. -/
example : ∃ (svd : np.Svd) (R : np.Recovery (np.dims [2, 1, 1]) 1),
    (np.recoverSays svd 1 1 1 1 3 ⟨[2, 1, 1], [1, 2], rfl⟩ fun h d _ => ⟨0, h d⟩).result = .ok R ∧
    (∃ e, (np.recoverSays svd 1 1 1 1 0 ⟨[2, 1, 1], [1, 2], rfl⟩ fun h d _ => ⟨0, h d⟩).result = .error e) ∧
    (np.recoverSays svd 1 1 1 1 0 ⟨[2, 1, 1], [1, 2], rfl⟩ fun h d _ => ⟨0, h d⟩).files.isSome = true := by
  obtain ⟨svd, _⟩ := exists_npSvd
  obtain ⟨R, hR⟩ := (C157_returns_iff svd 1 1 1 1 3 ⟨[2, 1, 1], [1, 2], rfl⟩ fun h d _ => ⟨0, h d⟩).2
    ⟨⟨2, 1, 1, [], rfl, by decide, by decide, by decide, by simp, by decide⟩, by decide, by decide, by decide⟩
  refine ⟨svd, R, by rw [(C180_same ..).1, hR], ?_, ?_⟩
  · cases hc : (np.recoverSays svd 1 1 1 1 0 ⟨[2, 1, 1], [1, 2], rfl⟩ fun h d _ => ⟨0, h d⟩).result with
    | error e => exact ⟨e, rfl⟩
    | ok R' =>
      obtain ⟨_, _, h, _⟩ := recoverSays_ok _ _ _ _ _ _ _ _ hc
      exact absurd h (by decide)
  · rw [(C180_same ..).2, C157_files]
    decide

end TD.Props
