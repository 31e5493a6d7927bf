import Verif.Model.PitfSaysTf
import Verif.Props.PitfTrain

/-! # C181: what `PITF.train` prints, writes and leaves behind -/
namespace TD.Props
open TD TD.pitf Matrix Spec

variable {n : Fin 3 → Nat} {m : Nat}

theorem loopSays_append (svd : tfl.Svd) (T : Tensor3 n) (delt tao : ℝ) (vi : Int) (steps : Nat) (draws : Nat → Samples n m)
    (h0 : vi ≠ 0 ∨ steps ≤ 2) (k s : Nat) (hs : s + k = steps) (c : tfl.Con m) :
    tfl.loopSays svd T delt tao vi steps draws k (s + 1) (pitfY svd T delt tao draws s) c =
      (⟨c.said ++ (List.range' (s + 1) k).map (fun j => if reported steps vi j then
            let f := tfl.fetch svd T delt tao (pitfY svd T delt tao draws (j - 1)) (draws j)
            tfl.Said.step j f.erate f.loss else .marks),
          c.fileY ++ ((List.range' (s + 1) k).filter fun j => reported steps vi j).map (fun j => pitfY svd T delt tao draws j),
          c.fileE2 ++ ((List.range' (s + 1) k).filter fun j => reported steps vi j).map
            (fun j => (tfl.fetch svd T delt tao (pitfY svd T delt tao draws (j - 1)) (draws j)).e2),
          if k = 0 then c.vector else some (pitfY svd T delt tao draws steps), c.finished,
          if k = 0 then c.vars else
            let f := tfl.fetch svd T delt tao (pitfY svd T delt tao draws (steps - 1)) (draws steps)
            some (f.loss, f.erate)⟩, none) := by
  induction k generalizing s c with
  | zero => simp [tfl.loopSays]
  | succ k ih =>
    have hr := reports_ok steps vi (s + 1) (by omega)
    rw [tfl.loopSays, hr]
    have hy : (tfl.fetch svd T delt tao (pitfY svd T delt tao draws s) (draws (s + 1))).y = pitfY svd T delt tao draws (s + 1) := rfl
    by_cases hd : reported steps vi (s + 1)
    · simp only [hd, decide_true, hy]
      rw [ih (s + 1) (by omega)]
      simp only [List.range'_succ, List.map_cons, List.filter_cons, hd, decide_true, if_true, List.append_assoc, List.singleton_append, Nat.add_sub_cancel,
        if_neg (Nat.succ_ne_zero k)]
      by_cases hk : k = 0
      · subst hk
        have : s + 1 = steps := by omega
        subst this
        simp
      · simp only [if_neg hk]
    · simp only [hd, decide_false, hy]
      rw [ih (s + 1) (by omega)]
      have hk : k ≠ 0 := fun hk => hd (.inr (.inl (by omega)))
      simp only [List.range'_succ, List.map_cons, List.filter_cons, hd, decide_false, if_false, List.append_assoc, List.singleton_append,
        if_neg (Nat.succ_ne_zero k), if_neg hk, Bool.false_eq_true]

/-- The line of a step: its numbers if the step is reported, and three question marks otherwise. -/
def PitfLine (steps : Nat) (vi : Int) (log : List (Nat × tfl.Fetch m)) (step : Nat) (l : tfl.Said) : Prop :=
  if step = 1 ∨ step = steps ∨ (vi ∣ step ∧ vi ≠ -1) then ∃ f, (step, f) ∈ log ∧ l = .step step f.erate f.loss else l = .marks

/-- **C181**: a training that succeeds prints the initial line, one line for each step, and a last line with the numbers of the last step.  The files have one record for
each reported step, in order, and the object holds the last vector and is finished. -/
theorem C181_trains (svd : tfl.Svd) (argDelt argTao : ℝ) (vi : Int) (steps : Nat) (T : Tensor3 n) (draws : Nat → Samples n m)
    (v : Option (Fin m → ℝ)) (b : Bool) (hm : 0 < m) (R) (hR : tfl.train svd argDelt argTao vi steps T draws = .ok R) :
    ∃ c lines f, tfl.trainSays svd argDelt argTao vi steps T draws v b = (c, none) ∧
      c.said = .initial :: lines ++ [.finish f.loss f.erate] ∧
      List.Forall₂ (PitfLine steps vi R.log) (List.range' 1 steps) lines ∧
      R.log.getLast? = some (steps, f) ∧
      c.fileY = R.log.map (·.2.y) ∧ c.fileE2 = R.log.map (·.2.e2) ∧ c.vector = some R.y ∧ c.finished = true := by
  have hs : 0 < steps := by
    rcases Nat.eq_zero_or_pos steps with rfl | h
    · rw [(C96_fails svd argDelt argTao T draws hm).1] at hR; cases hR
    · exact h
  have h0 : vi ≠ 0 ∨ steps ≤ 2 := by
    by_contra hc
    have : vi = 0 ∧ 2 < steps := by omega
    rw [this.1, (C96_fails svd argDelt argTao T draws hm).2 steps this.2] at hR; cases hR
  rw [pitf_train svd argDelt argTao vi steps hs hm h0] at hR
  injection hR with hR
  have hl := loopSays_append svd T (argDelt * m / √((n 0 : ℝ) * n 1 * n 2)) (argTao * √((n 0 : ℝ) * n 1 * n 2)) vi steps draws h0 steps 0 (by omega)
    ⟨[.initial], [], [], v, b, none⟩
  simp only [if_neg hs.ne', Nat.zero_add, List.nil_append] at hl
  subst hR
  have hz : pitfY svd T (argDelt * m / √((n 0 : ℝ) * n 1 * n 2)) (argTao * √((n 0 : ℝ) * n 1 * n 2)) draws 0 = 0 := rfl
  rw [hz] at hl
  rw [tfl.trainSays, hl]
  refine ⟨_, _, _, rfl, rfl, ?_, ?_, ?_, ?_, rfl, rfl⟩
  · show List.Forall₂ _ _ (List.map _ _)
    rw [List.forall₂_map_right_iff, List.forall₂_same]
    intro j hj
    unfold PitfLine
    by_cases hd : reported steps vi j
    · have hd' : j = 1 ∨ j = steps ∨ (vi ∣ j ∧ vi ≠ -1) := hd
      rw [if_pos hd, if_pos hd']
      exact ⟨_, List.mem_map.2 ⟨j, List.mem_filter.2 ⟨hj, by simpa using hd⟩, rfl⟩, rfl⟩
    · have hd' : ¬ (j = 1 ∨ j = steps ∨ (vi ∣ j ∧ vi ≠ -1)) := hd
      rw [if_neg hd, if_neg hd']
  · obtain ⟨k, rfl⟩ : ∃ k, steps = k + 1 := ⟨steps - 1, by omega⟩
    have hd : reported (k + 1) vi (k + 1) := .inr (.inl rfl)
    have e : 1 + 1 * k = k + 1 := by omega
    rw [List.range'_concat, e, List.filter_append, List.map_append]
    simp [hd]
  · simp only [List.map_map]
    refine List.map_congr_left fun j hj => ?_
    have hj := (List.mem_filter.1 hj).1
    rw [List.mem_range'_1] at hj
    obtain ⟨i, rfl⟩ : ∃ i, j = i + 1 := ⟨j - 1, by omega⟩
    rfl
  · simp only [List.map_map]
    rfl

/-- **C181**: a training raises in two cases, and is never marked as finished then.  Without steps the last `print` reads unbound variables: only the initial line is printed, and
the object keeps its vector.  With a validation interval of 0 and more than two steps the second step divides by zero: the first step is printed, written and kept. -/
theorem C181_raises (svd : tfl.Svd) (argDelt argTao : ℝ) (vi : Int) (steps : Nat) (T : Tensor3 n) (draws : Nat → Samples n m)
    (v : Option (Fin m → ℝ)) (b : Bool) (hm : 0 < m) (c e) (h : tfl.trainSays svd argDelt argTao vi steps T draws v b = (c, some e)) :
    c.finished = b ∧
    (steps = 0 ∧ e = .unboundLocal ∧ c.said = [.initial] ∧ c.fileY = [] ∧ c.fileE2 = [] ∧ c.vector = v ∨
      vi = 0 ∧ 2 < steps ∧ e = .zeroDivision ∧ ∃ er l y p, c.said = [.initial, .step 1 er l] ∧ c.fileY = [y] ∧ c.fileE2 = [p] ∧ c.vector = some y) := by
  rcases Nat.eq_zero_or_pos steps with rfl | hs
  · injection h with h1 h2
    injection h2 with h2
    subst h1 h2
    exact ⟨rfl, .inl ⟨rfl, rfl, rfl, rfl, rfl, rfl⟩⟩
  · by_cases h0 : vi ≠ 0 ∨ steps ≤ 2
    · obtain ⟨c', _, _, h', -⟩ := C181_trains svd argDelt argTao vi steps T draws v b hm _ (pitf_train svd argDelt argTao vi steps hs hm h0 T draws)
      rw [h'] at h
      cases h
    · obtain ⟨rfl, h2⟩ : vi = 0 ∧ 2 < steps := by omega
      obtain ⟨k, rfl⟩ : ∃ k, steps = k + 3 := ⟨steps - 3, by omega⟩
      have r1 : tfl.reports (k + 3) 0 1 = .ok true := by unfold tfl.reports; rw [if_pos (.inr rfl)]
      have r2 : tfl.reports (k + 3) 0 2 = .error .zeroDivision := by
        unfold tfl.reports; rw [if_neg (by omega), if_pos rfl]
      rw [tfl.trainSays, tfl.loopSays, r1] at h
      simp only [] at h
      rw [tfl.loopSays, r2] at h
      injection h with h1 h3
      injection h3 with h3
      subst h1 h3
      exact ⟨rfl, .inr ⟨rfl, h2, rfl, _, _, _, _, rfl, rfl, rfl, rfl⟩⟩

/-- **C181**: the number of lines does not depend on the validation interval: two and one for each step. -/
theorem C181_count (svd : tfl.Svd) (argDelt argTao : ℝ) (vi : Int) (steps : Nat) (T : Tensor3 n) (draws : Nat → Samples n m)
    (v : Option (Fin m → ℝ)) (b : Bool) (hm : 0 < m) (c) (h : tfl.trainSays svd argDelt argTao vi steps T draws v b = (c, none)) :
    c.said.length = steps + 2 := by
  cases hR : tfl.train svd argDelt argTao vi steps T draws with
  | ok R =>
    obtain ⟨c', lines, f, h1, h2, h3, -⟩ := C181_trains svd argDelt argTao vi steps T draws v b hm R hR
    rw [h1] at h
    injection h with h _
    subst h
    have := h3.length_eq
    rw [List.length_range'] at this
    rw [h2]
    simp [← this]
  | error e =>
    exfalso
    rcases Nat.eq_zero_or_pos steps with rfl | hs
    · cases h
    · by_cases h0 : vi ≠ 0 ∨ steps ≤ 2
      · rw [pitf_train svd argDelt argTao vi steps hs hm h0] at hR
        cases hR
      · obtain ⟨rfl, h2⟩ : vi = 0 ∧ 2 < steps := by omega
        obtain ⟨k, rfl⟩ : ∃ k, steps = k + 3 := ⟨steps - 3, by omega⟩
        have r1 : tfl.reports (k + 3) 0 1 = .ok true := by unfold tfl.reports; rw [if_pos (.inr rfl)]
        have r2 : tfl.reports (k + 3) 0 2 = .error .zeroDivision := by
          unfold tfl.reports; rw [if_neg (by omega), if_pos rfl]
        rw [tfl.trainSays, tfl.loopSays, r1] at h
        simp only [] at h
        rw [tfl.loopSays, r2] at h
        cases h

/-- **C181**: a training starts over.  What an earlier training left in the object has no influence on the output, on the files, on the vector and on whether it raises (given
the same draws), except that a training without steps keeps the vector and one that raises keeps the mark. -/
theorem C181_again (svd : tfl.Svd) (argDelt argTao : ℝ) (vi : Int) (steps : Nat) (T : Tensor3 n) (draws : Nat → Samples n m)
    (v v' : Option (Fin m → ℝ)) (b b' : Bool) :
    let o := tfl.trainSays svd argDelt argTao vi steps T draws v b
    let o' := tfl.trainSays svd argDelt argTao vi steps T draws v' b'
    o.2 = o'.2 ∧ o.1.said = o'.1.said ∧ o.1.fileY = o'.1.fileY ∧ o.1.fileE2 = o'.1.fileE2 ∧ (0 < steps → o.1.vector = o'.1.vector) ∧
      (o.2 = none → o.1.finished = o'.1.finished) := by
  rcases Nat.eq_zero_or_pos steps with rfl | hs
  · exact ⟨rfl, rfl, rfl, rfl, fun h => absurd h (by omega), fun h => by cases h⟩
  · by_cases h0 : vi ≠ 0 ∨ steps ≤ 2
    · have hl := fun v b => loopSays_append svd T (argDelt * m / √((n 0 : ℝ) * n 1 * n 2)) (argTao * √((n 0 : ℝ) * n 1 * n 2)) vi steps draws h0 steps 0
        (by omega) ⟨[.initial], [], [], v, b, none⟩
      have hz : pitfY svd T (argDelt * m / √((n 0 : ℝ) * n 1 * n 2)) (argTao * √((n 0 : ℝ) * n 1 * n 2)) draws 0 = 0 := rfl
      simp only [if_neg hs.ne', Nat.zero_add, hz] at hl
      simp only [tfl.trainSays, hl]
      exact ⟨trivial, trivial, trivial, trivial, fun _ => trivial, fun _ => trivial⟩
    · obtain ⟨rfl, h2⟩ : vi = 0 ∧ 2 < steps := by omega
      obtain ⟨k, rfl⟩ : ∃ k, steps = k + 3 := ⟨steps - 3, by omega⟩
      have r1 : tfl.reports (k + 3) 0 1 = .ok true := by unfold tfl.reports; rw [if_pos (.inr rfl)]
      have r2 : tfl.reports (k + 3) 0 2 = .error .zeroDivision := by
        unfold tfl.reports; rw [if_neg (by omega), if_pos rfl]
      have hl : ∃ f : tfl.Fetch m, ∀ v b, tfl.trainSays svd argDelt argTao 0 (k + 3) T draws v b =
          (⟨[.initial, .step 1 f.erate f.loss], [f.y], [f.e2], some f.y, b, some (f.loss, f.erate)⟩, some .zeroDivision) := by
        refine ⟨tfl.fetch svd T (argDelt * m / √((n 0 : ℝ) * n 1 * n 2)) (argTao * √((n 0 : ℝ) * n 1 * n 2)) 0 (draws 1), fun v b => ?_⟩
        rw [tfl.trainSays, tfl.loopSays, r1]
        simp only []
        rw [tfl.loopSays, r2]
        rfl
      obtain ⟨f, hl⟩ := hl
      simp only [hl]
      exact ⟨trivial, trivial, trivial, trivial, fun _ => trivial, fun h => by cases h⟩

/-- Seven steps with a validation interval of 3, and a training that raises. -/
example (svd : tfl.Svd) (T : Tensor3 ![2, 2, 2]) (draws : Nat → Samples ![2, 2, 2] 4) :
    (∃ R, tfl.train svd 1 1 3 7 T draws = .ok R) ∧ (∃ c, tfl.trainSays svd 1 1 3 7 T draws none false = (c, none)) ∧
    ∃ c, tfl.trainSays svd 1 1 0 7 T draws none false = (c, some .zeroDivision) := by
  have h := pitf_train svd 1 1 3 7 (by decide) (by decide) (.inl (by decide)) T draws
  obtain ⟨c, _, _, hc, -⟩ := C181_trains svd 1 1 3 7 T draws none false (by decide) _ h
  refine ⟨⟨_, h⟩, ⟨c, hc⟩, ?_⟩
  exact ⟨_, rfl⟩

end TD.Props
