import Verif.Props.Ratings
import Verif.Lemmas.Shell

/-!
# C115 (`ex_20_shell2.sh`) and C155 : which experiments of the shell scripts leave a report
-/
namespace TD.Props
open TD Spec Tensor fact sp Num ex reader

/-- **C115.** The script `ex_20_shell2.sh` ends; it runs exactly the planned experiments, no two with the same file, and none with a file
of `ex_20_shell.sh`. -/
theorem C115_shell2 : ∃ jobs, (∀ fuel ≥ 21, shell20b fuel = some jobs) ∧ (∀ j, j ∈ jobs ↔ Planned20b j) ∧
    (jobs.Pairwise fun j j' => ¬ SameName j j') ∧ ∀ j j', Planned20b j → Planned20 j' → outPath j ≠ outPath j' := by
  refine ⟨shell20bL, fun _ h => shell20b_eq h, fun _ => mem_shell20bL, pairwise_shell20bL, fun j j' h h' e => ?_⟩
  obtain ⟨-, h1, h2, h3, -⟩ := outPath_iff.1 e
  obtain ⟨-, -, -, -, -, -, h⟩ := h
  obtain ⟨-, -, -, h', -⟩ := h'
  omega

example : Planned20b ⟨.tucker, 80, 80, 80, 20, 80, 20⟩ ∧ ¬ Planned20b ⟨.tucker, 80, 80, 80, 20, 31, 20⟩ := by
  unfold Planned20b; decide

theorem admissible_cube {n1 n2 n3 r : Nat} (hr : 0 < r) : Admissible [n1, n2, n3] [r, r, r] ↔ r ≤ n1 ∧ r ≤ n2 ∧ r ≤ n3 := by
  have hrr : r ≤ r * r := Nat.le_mul_of_pos_left r hr
  have h0 : (Finset.range 3).erase 0 = {1, 2} := by decide
  have h1 : (Finset.range 3).erase 1 = {0, 2} := by decide
  have h2 : (Finset.range 3).erase 2 = {0, 1} := by decide
  constructor
  · intro h
    exact ⟨(h 0 (by simp)).1, (h 1 (by simp)).1, (h 2 (by simp)).1⟩
  · rintro ⟨a, b, c⟩ n hn
    have hn : n < 3 := hn
    interval_cases n
    · exact ⟨a, by simp [h0, hrr]⟩
    · exact ⟨b, by simp [h1, hrr]⟩
    · exact ⟨c, by simp [h2, hrr]⟩

/-- **C155.** An experiment on any data of positive dimensions, with a positive rank that for `tucker_ex.py` is at most each dimension,
ends and leaves a report of at least one line and at most one per step; the singular value routines must return for every matrix.
Only `cp_ex.py` may raise instead, what the pseudo-inverse raised, and then writes nothing.  (In arithmetic with rounding, overflow,
infinities and NaN.) -/
theorem C155_reports (F : Fmt) (w : World F) (hp : PinvSize w.pinv) (hs : SvdSize w.svd) (h1 : ∀ M, ∃ l, w.topSv M = .ok l)
    (h2 : ∀ M, ∃ q, w.svd M = .ok q) (toPy : Num F → PyFloat) (fs : ex.Files) (T : Tensor (Num F)) (n1 n2 n3 r : Nat) (j : Job)
    (hT : T.shape = [n1, n2, n3]) (hpos : 0 < n1 ∧ 0 < n2 ∧ 0 < n3) (hr : 0 < r) (hj : j.dR = r) (hd : ExDrawsFit w n1 n2 n3 r)
    (ht : j.alg = .tucker → r ≤ n1 ∧ r ≤ n2 ∧ r ≤ n3) :
    (∃ text, exRun toPy w T j fs = (Function.update fs (outPath j) (some text), .ok ()) ∧
      1 ≤ text.count '\n' ∧ text.count '\n' ≤ exSteps j.alg) ∨
    j.alg = .cp ∧ ∃ e V, w.pinv V = .error e ∧ exRun toPy w T j fs = (fs, .error e) := by
  have ho : T.order = 3 := by rw [order, hT]; rfl
  have hpos' : ∀ d ∈ T.shape, 0 < d := by rw [hT]; simp; omega
  have hrn : j.dR.toNat = r := by omega
  obtain ⟨d1, d2, d3, d4⟩ := hd
  have fin : ∀ hist, exTrain w j T = .ok hist → 1 ≤ hist.length → hist.length ≤ exSteps j.alg →
      ∃ text, exRun toPy w T j fs = (Function.update fs (outPath j) (some text), .ok ()) ∧
        1 ≤ text.count '\n' ∧ text.count '\n' ≤ exSteps j.alg := by
    intro hist h a b
    refine ⟨report (hist.map fun p => (toPy p.1, toPy p.2)), by simp only [exRun, h, Except.map, run], ?_, ?_⟩
    · rw [C114_line_count, List.length_map]; exact a
    · rw [C114_line_count, List.length_map]; exact b
  cases ha : j.alg with
  | cp =>
      rw [ha] at fin
      rcases C137_raises F w.pinv hp T r (by omega) (by omega) hpos' w.Ar ⟨50, false, w.tol⟩ (Or.inl (by simp)) 600 (by decide) w.cp
        (by rw [hT]; exact d1) {} with ⟨self', ev, hist, h⟩ | ⟨self', ev, e, h, V, hV⟩
      · left
        obtain ⟨-, -, -, -, a, b, -⟩ := C43_history _ _ _ _ _ _ _ _ _ h
        exact fin hist (by simp only [exTrain, ha, hrn, h]) a (by simpa [exSteps] using b)
      · right
        refine ⟨rfl, e, V, hV, ?_⟩
        have : exTrain w j T = .error e := by simp only [exTrain, ha, hrn, h]
        simp only [exRun, this, Except.map, run]
  | ncp =>
      left
      rw [ha] at fin
      obtain ⟨self', ev, hist, h, -⟩ := C136_ncp_completes F w.topSv h1 T r (by omega) (by omega) hpos' w.Ar ⟨200, false, w.tol⟩
        (Or.inl (by simp)) 6000 (by decide) _ ⟨w.ncp, by rw [hT]; exact d2, rfl⟩ {}
      obtain ⟨-, -, -, -, a, b, -⟩ := C43_history _ _ _ _ _ _ _ _ _ h
      exact fin hist (by simp only [exTrain, ha, hrn, h]) a (by simpa [exSteps] using b)
  | tucker =>
      left
      obtain ⟨hist, h⟩ := (C139_hooi_returns F w.svd hs h2 T [r, r, r] (by rw [hT]; rfl) (by omega) (by omega) hpos' w.Ar ⟨10, false, w.tol⟩
        (Or.inl (by simp)) 100 (by decide) {}).2 (by rw [hT]; exact (admissible_cube hr).2 (ht ha))
      rw [ha] at fin
      obtain ⟨-, -, -, -, a, b, -⟩ := C43_history _ _ _ _ _ _ _ _ _ (Prod.ext rfl (Prod.ext rfl h))
      exact fin hist (by simp only [exTrain, ha, hrn]; exact h) a (by simpa [exSteps] using b)
  | ntucker =>
      left
      rw [ha] at fin
      obtain ⟨self', ev, hist, h, -⟩ := C136_ntucker_completes F w.topSv h1 T [r, r, r] (by rw [hT]; rfl) (by omega) (by omega) hpos'
        (by simp; omega) w.Ar ⟨500, false, w.tol⟩ (Or.inl (by simp)) 10000 (by decide) _
        ⟨w.ntucker, w.core, by rw [hT]; exact d3, d4, rfl⟩ {}
      obtain ⟨-, -, -, -, a, b, -⟩ := C43_history _ _ _ _ _ _ _ _ _ h
      exact fin hist (by simp only [exTrain, ha, h]) a (by simpa [exSteps] using b)

/-- **C155.** `tucker_ex.py` with a rank above one of the dimensions always raises, on all data and with every singular value
decomposition, and leaves all files as they were. -/
theorem C155_tucker_raises (F : Fmt) (w : World F) (hs : SvdSize w.svd) (toPy : Num F → PyFloat) (fs : ex.Files) (T : Tensor (Num F))
    (n1 n2 n3 r : Nat) (j : Job) (hT : T.shape = [n1, n2, n3]) (hpos : 0 < n1 ∧ 0 < n2 ∧ 0 < n3) (hr : 0 < r) (hj : j.dR = r)
    (ha : j.alg = .tucker) (hbad : n1 < r ∨ n2 < r ∨ n3 < r) : ∃ e, exRun toPy w T j fs = (fs, .error e) := by
  have ho : T.order = 3 := by rw [order, hT]; rfl
  have hpos' : ∀ d ∈ T.shape, 0 < d := by rw [hT]; simp; omega
  have hrn : j.dR.toNat = r := by omega
  rcases C139_hooi_raises F w.svd hs T [r, r, r] (by rw [hT]; rfl) (by omega) (by omega) hpos' w.Ar ⟨10, false, w.tol⟩
    (Or.inl (by simp)) 100 (by decide) {} with ⟨h, -⟩ | ⟨e, h, -⟩
  · rw [hT, admissible_cube hr] at h
    omega
  · have : exTrain w j T = .error e := by simp only [exTrain, ha, hrn]; exact h
    exact ⟨e, by simp only [exRun, this, Except.map, run]⟩

/-- The full claim for a script: every experiment it plans leaves a report, when the routines return. -/
def EveryOneReports (planned : Job → Prop) : Prop :=
  ∀ (F : Fmt) (w : World F), PinvSize w.pinv → SvdSize w.svd → (∀ M, ∃ l, w.topSv M = .ok l) → (∀ M, ∃ q, w.svd M = .ok q) →
    (∀ M, ∃ q, w.pinv M = .ok q) → ∀ (toPy : Num F → PyFloat) (fs : ex.Files) (T : Tensor (Num F)) (j : Job), planned j →
    T.shape = [j.n1.toNat, j.n2.toNat, j.n3.toNat] → ExDrawsFit w j.n1.toNat j.n2.toNat j.n3.toNat j.dR.toNat →
    ∃ text, exRun toPy w T j fs = (Function.update fs (outPath j) (some text), .ok ())

theorem everyOne_of {planned : Job → Prop} (h : ∀ j, planned j → 0 < j.n1 ∧ j.n2 = j.n1 ∧ j.n3 = j.n1 ∧ 0 < j.dR ∧ (j.alg = .tucker → j.dR ≤ j.n1)) :
    EveryOneReports planned := by
  intro F w hp hs h1 h2 h3 toPy fs T j hj hT hd
  obtain ⟨a, b, c, d, e⟩ := h j hj
  rcases C155_reports F w hp hs h1 h2 toPy fs T _ _ _ j.dR.toNat j hT (by omega) (by omega) (by omega) hd (fun ha => by
    have := e ha; omega) with ⟨text, h, -⟩ | ⟨-, e, V, hV, -⟩
  · exact ⟨text, h⟩
  · obtain ⟨q, hq⟩ := h3 V
    cases hq.symm.trans hV

/-- **C155** holds of `ex_20_shell2.sh`. -/
theorem C155_shell2 : EveryOneReports Planned20b :=
  everyOne_of fun j ⟨h0, h1, h2, h3, h4, h5, h6⟩ => ⟨by omega, h1, h2, by omega, fun _ => h5⟩

/-- **C155 is false of `ex_20_shell.sh`**: 100 of its calls ask `tucker_ex.py` for ranks 21 to 25 of a 20 × 20 × 20 tensor. -/
theorem C155_shell_false : ¬ EveryOneReports Planned20 := by
  intro h
  let z (s : List Nat) : Tensor (Num f32) := ofFn s fun _ => 0
  let w : World f32 := ⟨Num.loopArith f32, 0, .ok, fun _ => .ok 1, svdEx, [z [20, 21], z [20, 21], z [20, 21]], [z [20, 21], z [20, 21], z [20, 21]],
    [z [20, 21], z [20, 21], z [20, 21]], z [21, 21, 21]⟩
  have hj : Planned20 ⟨.tucker, 20, 20, 20, 20, 21, 1⟩ := by unfold Planned20; decide
  obtain ⟨text, e⟩ := h f32 w (fun V P R h e => by cases e; exact h) svdEx_size (fun M => ⟨1, rfl⟩) (fun M => ⟨_, rfl⟩) (fun M => ⟨_, rfl⟩)
    (fun _ => .nan) (fun _ => none) (z [20, 20, 20]) _ hj rfl ⟨rfl, rfl, rfl, rfl⟩
  obtain ⟨e', h'⟩ := C155_tucker_raises f32 w svdEx_size (fun _ => .nan) (fun _ => none) (z [20, 20, 20]) 20 20 20 21 ⟨.tucker, 20, 20, 20, 20, 21, 1⟩
    rfl (by decide) (by decide) rfl rfl (by decide)
  cases (Prod.mk.inj (e.symm.trans h')).2

/-- **C155, the part that holds of `ex_20_shell.sh`**: all other calls leave a report.  Missing: `tucker_ex.py` with size 20 and ranks 21
to 25. -/
theorem C155_shell_partial : EveryOneReports fun j => Planned20 j ∧ ¬ (j.alg = .tucker ∧ j.n1 = 20 ∧ 21 ≤ j.dR) :=
  everyOne_of fun j ⟨⟨h0, h1, h2, h3, h4, h5⟩, h6⟩ => ⟨by omega, h1, h2, by omega, fun ha => by
    have : ¬ (j.n1 = 20 ∧ 21 ≤ j.dR) := fun h => h6 ⟨ha, h⟩
    omega⟩

/-- And none of the excepted calls does, whatever the data, the draws and the singular value decomposition. -/
theorem C155_shell_never (j : Job) (hj : Planned20 j) (ha : j.alg = .tucker) (hn : j.n1 = 20) (hr : 21 ≤ j.dR) (F : Fmt) (w : World F)
    (hs : SvdSize w.svd) (toPy : Num F → PyFloat) (fs : ex.Files) (T : Tensor (Num F))
    (hT : T.shape = [j.n1.toNat, j.n2.toNat, j.n3.toNat]) : ∃ e, exRun toPy w T j fs = (fs, .error e) := by
  obtain ⟨-, h2, h3, -⟩ := hj
  exact C155_tucker_raises F w hs toPy fs T _ _ _ j.dR.toNat j hT (by omega) (by omega) (by omega) ha (by omega)

end TD.Props
