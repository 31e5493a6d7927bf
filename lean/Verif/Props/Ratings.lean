import Verif.Spec.Ratings
import Verif.Props.Experiment
import Verif.Props.Reader
import Verif.Props.FloatText
import Verif.Props.Train
import Verif.Props.SpecialBcu
import Verif.Props.SpecialCp
import Verif.Props.SpecialTucker

/-!
# C145 : the rating scripts
-/
namespace TD.Props
open TD Spec Tensor fact sp Num ex reader
variable {α : Type}

theorem mlOut_eq : ratingsReport = mlOut := by funext a; cases a <;> decide +kernel

theorem mlOut_inj {a b : Alg} (h : mlOut a = mlOut b) : a = b := by
  revert h; cases a <;> cases b <;> decide

theorem mlIn_ne (a : Alg) : mlIn ≠ mlOut a := by cases a <;> decide

/-- **C145** (what is written): if the file of ratings describes a table of users below 943, films below 1682 and a third
coordinate below 31, the training gets the tensor of that table.  If the training returns, the script writes its own report, and
the report states the history; if it raises, the script raises the same exception and all files stay as they were. -/
theorem C145_report [Zero α] (pyFloat : List Char → Option α) (toPy : α → PyFloat) (alg : Alg)
    (trained : Tensor α → Res (List (α × α))) (fs : ex.Files) (content : List Char) (entries : List (List Nat × α))
    (hc : fs ratingsFile = some content) (hf : FileOf pyFloat 3 content entries)
    (hb : ∀ e ∈ entries, InB [943, 1682, 31] e.1) :
    ∃ T : Tensor α, T.shape = [943, 1682, 31] ∧
      (∀ u m t, u < 943 → m < 1682 → t < 31 → T.at_ [u, m, t] = lastValue entries [u, m, t]) ∧
      (∀ hist, trained T = .ok hist → ∃ text, ReportOf text (hist.map fun p => (toPy p.1, toPy p.2)) ∧
        ml pyFloat toPy alg trained fs = (Function.update fs (ratingsReport alg) (some text), .ok ())) ∧
      ∀ e, trained T = .error e → ml pyFloat toPy alg trained fs = (fs, .error e) := by
  rw [mlOut_eq]
  obtain ⟨T, hT, hs, he⟩ := C35_read_shape pyFloat 3 mlIn content entries [943, 1682, 31] ⟨"/root/tensorD_f/data_out_tmp/u1.base".toList, Or.inl rfl⟩ hf rfl hb
  have hc' : fs mlIn = some content := hc
  have hT' : fullData pyFloat mlIn content (some mlShape) = .ok T := hT
  refine ⟨T, hs, fun u m t hu hm ht => he _ ?_, fun hist h => ⟨_, C114_report _, ?_⟩, fun e h => ?_⟩
  · exact .cons hu (.cons hm (.cons ht .nil))
  · simp only [ml, hc', hT', h]
  · simp only [ml, hc', hT', h]

theorem ml_cases [Zero α] (pyFloat : List Char → Option α) (toPy : α → PyFloat) (alg : Alg)
    (trained : Tensor α → Res (List (α × α))) (fs : ex.Files) :
    (∃ e, ∀ fs' : ex.Files, fs' mlIn = fs mlIn → ml pyFloat toPy alg trained fs' = (fs', .error e)) ∨
      ∃ text, ∀ fs' : ex.Files, fs' mlIn = fs mlIn →
        ml pyFloat toPy alg trained fs' = (Function.update fs' (mlOut alg) (some text), .ok ()) := by
  unfold ml
  cases hc : fs mlIn with
  | none => exact Or.inl ⟨_, fun fs' h => by rw [h]⟩
  | some content =>
      cases hT : fullData pyFloat mlIn content (some mlShape) with
      | error e => exact Or.inl ⟨e, fun fs' h => by simp only [h, hT]⟩
      | ok T =>
          cases ht : trained T with
          | error e => exact Or.inl ⟨e, fun fs' h => by simp only [h, hT, ht]⟩
          | ok hist => exact Or.inr ⟨report (hist.map fun p => (toPy p.1, toPy p.2)), fun fs' h => by simp only [h, hT, ht]⟩

/-- **C145** (failures): a script that raises leaves all files as they were.  It raises if there is no file of ratings and if the
file names a user, a film or a third coordinate that is too large, in particular if users are numbered from 1 to 943. -/
theorem C145_refuses [Zero α] (pyFloat : List Char → Option α) (toPy : α → PyFloat) (alg : Alg)
    (trained : Tensor α → Res (List (α × α))) (fs : ex.Files) :
    (∀ e, (ml pyFloat toPy alg trained fs).2 = .error e → (ml pyFloat toPy alg trained fs).1 = fs) ∧
    (fs ratingsFile = none → (ml pyFloat toPy alg trained fs).2 = .error .fileNotFound) ∧
    ∀ content entries, fs ratingsFile = some content → FileOf pyFloat 3 content entries →
      (∃ e ∈ entries, 943 ≤ e.1.getD 0 0 ∨ 1682 ≤ e.1.getD 1 0 ∨ 31 ≤ e.1.getD 2 0) →
      (ml pyFloat toPy alg trained fs).2 = .error .invalidArgument := by
  refine ⟨fun e h => ?_, fun h => ?_, fun content entries hc hf hb => ?_⟩
  · rcases ml_cases pyFloat toPy alg trained fs with ⟨e', he⟩ | ⟨text, ht⟩
    · rw [he fs rfl]
    · rw [ht fs rfl] at h; cases h
  · have h' : fs mlIn = none := h
    simp only [ml, h']
  · have hc' : fs mlIn = some content := hc
    have := C39_out_of_shape pyFloat 3 mlIn content entries [943, 1682, 31] ⟨"/root/tensorD_f/data_out_tmp/u1.base".toList, Or.inl rfl⟩ hf rfl (by
      obtain ⟨e, he, h⟩ := hb
      refine ⟨e, he, fun hi => ?_⟩
      match e.1, hi, h with
      | [u, m, t], .cons h1 (.cons h2 (.cons h3 .nil)), h =>
        simp only [List.getD_cons_zero, List.getD_cons_succ] at h
        omega)
    have hT : fullData pyFloat mlIn content (some mlShape) = .error .invalidArgument := this
    simp only [ml, hc', hT]

/-- **C145** (no interference): any of the scripts, each at most once, in any order, leave the file of ratings and every file
that is not one of their reports alone; and every report is the one its script writes when it is the only one that runs. -/
theorem C145_independent [Zero α] (pyFloat : List Char → Option α) (toPy : α → PyFloat)
    (rs : List (Alg × (Tensor α → Res (List (α × α))))) (hn : (rs.map Prod.fst).Nodup) (fs : ex.Files) :
    (∀ p, (∀ r ∈ rs, ratingsReport r.1 ≠ p) → mls pyFloat toPy rs fs p = fs p) ∧
    mls pyFloat toPy rs fs ratingsFile = fs ratingsFile ∧
    ∀ r ∈ rs, mls pyFloat toPy rs fs (ratingsReport r.1) = (ml pyFloat toPy r.1 r.2 fs).1 (ratingsReport r.1) := by
  rw [mlOut_eq]
  have h1 : ∀ (rs : List (Alg × (Tensor α → Res (List (α × α))))) (fs : ex.Files) p, (∀ r ∈ rs, mlOut r.1 ≠ p) →
      mls pyFloat toPy rs fs p = fs p := by
    intro rs
    induction rs with
    | nil => exact fun _ _ _ => rfl
    | cons r rs ih =>
        intro fs p h
        refine (ih _ p fun r' hr => h r' (List.mem_cons_of_mem _ hr)).trans ?_
        rcases ml_cases pyFloat toPy r.1 r.2 fs with ⟨e, he⟩ | ⟨t, ht⟩
        · simp only [he fs rfl]
        · simp only [ht fs rfl]
          exact Function.update_of_ne (Ne.symm (h r List.mem_cons_self)) _ _
  refine ⟨h1 rs fs, h1 rs fs mlIn fun r _ e => mlIn_ne r.1 e.symm, ?_⟩
  induction rs generalizing fs with
  | nil => simp
  | cons r rs ih =>
      rw [List.map_cons, List.nodup_cons] at hn
      have hin : (ml pyFloat toPy r.1 r.2 fs).1 mlIn = fs mlIn := h1 [r] fs mlIn fun r _ e => mlIn_ne r.1 e.symm
      intro r' hr'
      rcases List.mem_cons.1 hr' with rfl | hr'
      · exact h1 rs _ _ fun q hq e => hn.1 (List.mem_map.2 ⟨q, hq, mlOut_inj e⟩)
      · have hne : mlOut r.1 ≠ mlOut r'.1 := fun e => hn.1 (List.mem_map.2 ⟨r', hr', (mlOut_inj e).symm⟩)
        refine (ih hn.2 _ r' hr').trans ?_
        have hk : (ml pyFloat toPy r.1 r.2 fs).1 (mlOut r'.1) = fs (mlOut r'.1) := h1 [r] fs _ (by simpa using hne)
        rcases ml_cases pyFloat toPy r'.1 r'.2 fs with ⟨e, he⟩ | ⟨t, ht⟩
        · rw [he _ hin, he fs rfl]; exact hk
        · rw [ht _ hin, ht fs rfl]; simp

/-- **C145** (completion, in rounded arithmetic): on every table of ratings in range, with whatever values, even infinities and
NaN, `ml_ncp.py`, `ml_tucker.py` and `ml_ntucker.py` end without an exception and write a report of at least one and at most 100,
100 and 2000 lines, if the singular value routines return for every matrix; `ml_cp.py` writes at least one and at most 100 lines or raises
what the pseudo-inverse raised, and then writes nothing. -/
theorem C145_completes (F : Fmt) (w : World F) (hd : DrawsFit w) (hp : PinvSize w.pinv) (hs : SvdSize w.svd)
    (h1 : ∀ M, ∃ l, w.topSv M = .ok l) (h2 : ∀ M, ∃ q, w.svd M = .ok q) (toPy : Num F → PyFloat) (fs : ex.Files)
    (content : List Char) (entries : List (List Nat × Num F))
    (hc : fs ratingsFile = some content) (hf : FileOf (toFloat F) 3 content entries)
    (hb : ∀ e ∈ entries, InB [943, 1682, 31] e.1) (alg : Alg) :
    (∃ text, ml (toFloat F) toPy alg (mlTrain w alg) fs = (Function.update fs (ratingsReport alg) (some text), .ok ()) ∧
      1 ≤ text.count '\n' ∧ text.count '\n' ≤ if alg = .ntucker then 2000 else 100) ∨
    alg = .cp ∧ ∃ e V, w.pinv V = .error e ∧ ml (toFloat F) toPy alg (mlTrain w alg) fs = (fs, .error e) := by
  rw [mlOut_eq]
  obtain ⟨T, hT, hs', -⟩ := C35_read_shape (toFloat F) 3 mlIn content entries [943, 1682, 31] ⟨"/root/tensorD_f/data_out_tmp/u1.base".toList, Or.inl rfl⟩ hf rfl hb
  have hc' : fs mlIn = some content := hc
  have hT' : fullData (toFloat F) mlIn content (some mlShape) = .ok T := hT
  have ho : T.order = 3 := by rw [order, hs']; rfl
  have hpos : ∀ d ∈ T.shape, 0 < d := by rw [hs']; decide
  obtain ⟨d1, d2, d3, d4⟩ := hd
  have fin : ∀ hist, mlTrain w alg T = .ok hist → 1 ≤ hist.length → hist.length ≤ (if alg = .ntucker then 2000 else 100) →
      ∃ text, ml (toFloat F) toPy alg (mlTrain w alg) fs = (Function.update fs (mlOut alg) (some text), .ok ()) ∧
        1 ≤ text.count '\n' ∧ text.count '\n' ≤ if alg = .ntucker then 2000 else 100 := by
    intro hist h a b
    refine ⟨report (hist.map fun p => (toPy p.1, toPy p.2)), by simp only [ml, hc', hT', h], ?_, ?_⟩
    · rw [C114_line_count, List.length_map]; exact a
    · rw [C114_line_count, List.length_map]; exact b
  cases alg with
  | cp =>
      rcases C137_raises F w.pinv hp T 20 (by omega) (by omega) hpos w.Ar ⟨1, false, w.tol⟩ (Or.inl one_ne_zero) 100 (by decide) w.cp
        (by rw [hs']; exact d1) {} with ⟨self', ev, hist, h⟩ | ⟨self', ev, e, h, V, hV⟩
      · left
        obtain ⟨-, -, -, -, a, b, -⟩ := C43_history _ _ _ _ _ _ _ _ _ h
        exact fin hist (by simp only [mlTrain, h]) a (by simpa using b)
      · right
        refine ⟨rfl, e, V, hV, ?_⟩
        have : mlTrain w .cp T = .error e := by simp only [mlTrain, h]
        simp only [ml, hc', hT', this]
  | ncp =>
      left
      obtain ⟨self', ev, hist, h, -⟩ := C136_ncp_completes F w.topSv h1 T 20 (by omega) (by omega) hpos w.Ar ⟨1, false, w.tol⟩
        (Or.inl one_ne_zero) 100 (by decide) _ ⟨w.ncp, by rw [hs']; exact d2, rfl⟩ {}
      obtain ⟨-, -, -, -, a, b, -⟩ := C43_history _ _ _ _ _ _ _ _ _ h
      exact fin hist (by simp only [mlTrain, h]) a (by simpa using b)
  | tucker =>
      left
      obtain ⟨hist, h⟩ := (C139_hooi_returns F w.svd hs h2 T [20, 20, 20] (by rw [hs']; rfl) (by omega) (by omega) hpos w.Ar ⟨1, false, w.tol⟩
        (Or.inl one_ne_zero) 100 (by decide) {}).2 (by rw [hs']; unfold Admissible; decide +kernel)
      obtain ⟨-, -, -, -, a, b, -⟩ := C43_history _ _ _ _ _ _ _ _ _ (Prod.ext rfl (Prod.ext rfl h))
      exact fin hist h a (by simpa using b)
  | ntucker =>
      left
      obtain ⟨self', ev, hist, h, -⟩ := C136_ntucker_completes F w.topSv h1 T [20, 20, 20] (by rw [hs']; rfl) (by omega) (by omega) hpos
        (by decide) w.Ar ⟨20, false, w.tol⟩ (Or.inl (by simp)) 2000 (by decide) _
        ⟨w.ntucker, w.core, by rw [hs']; exact d3, d4, rfl⟩ {}
      obtain ⟨-, -, -, -, a, b, -⟩ := C43_history _ _ _ _ _ _ _ _ _ h
      exact fin hist (by simp only [mlTrain, h]) a (by simpa using b)

/-- The hypotheses of `C145_completes` are met: a file with a rating, a NaN and a corner of the range;
and routines that return. -/
example : ∃ (w : World f32) (entries : List (List Nat × Num f32)), DrawsFit w ∧ PinvSize w.pinv ∧ SvdSize w.svd ∧
    (∀ M, ∃ l, w.topSv M = .ok l) ∧ (∀ M, ∃ q, w.svd M = .ok q) ∧
    FileOf (toFloat f32) 3 "0,5,2,4.5\n7,7,7,nan\n942,1681,30,-1e-1".toList entries ∧
    (∀ e ∈ entries, InB [943, 1682, 31] e.1) ∧ lastValue entries [7, 7, 7] = .nan := by
  let z (s : List Nat) : Tensor (Num f32) := ofFn s fun _ => 0
  refine ⟨⟨Num.loopArith f32, 0, .ok, fun _ => .ok 1, svdEx, [z [943, 20], z [1682, 20], z [31, 20]], [z [943, 20], z [1682, 20], z [31, 20]],
    [z [943, 20], z [1682, 20], z [31, 20]], z [20, 20, 20]⟩,
    [([0, 5, 2], .round f32 ((45 / 10 : ℚ) : ℝ)), ([7, 7, 7], .nan), ([942, 1681, 30], .round f32 ((-1 / 10 : ℚ) : ℝ))],
    ⟨rfl, rfl, rfl, rfl⟩, fun V P R h e => by cases e; exact h, svdEx_size, fun M => ⟨1, rfl⟩, fun M => ⟨_, rfl⟩, ?_, ?_, ?_⟩
  · have p1 : pyFloat "4.5".toList = some (.num (45 / 10)) := by decide +kernel
    have p2 : pyFloat "nan".toList = some .nan := by decide +kernel
    have p3 : pyFloat "-1e-1".toList = some (.num (-1 / 10)) := by decide +kernel
    refine ⟨by norm_num, by simp, _, csvOf_plain (lines := ["0,5,2,4.5".toList, "7,7,7,nan".toList, "942,1681,30,-1e-1".toList])
      (lines_unlines (ls := ["0,5,2,4.5".toList, "7,7,7,nan".toList, "942,1681,30,-1e-1".toList]) (by decide) (by decide)) (by decide)
      (by decide), ?_⟩
    have hfil : (["0,5,2,4.5".toList, "7,7,7,nan".toList, "942,1681,30,-1e-1".toList] : List (List Char)).filter (· ≠ []) =
      ["0,5,2,4.5".toList, "7,7,7,nan".toList, "942,1681,30,-1e-1".toList] := rfl
    rw [hfil]
    refine List.Forall₂.cons ⟨["0".toList, "5".toList, "2".toList], "4.5".toList, rfl, rfl, ints_iff.1 (by decide +kernel), ?_⟩
      (List.Forall₂.cons ⟨["7".toList, "7".toList, "7".toList], "nan".toList, rfl, rfl, ints_iff.1 (by decide +kernel), ?_⟩
      (List.Forall₂.cons ⟨["942".toList, "1681".toList, "30".toList], "-1e-1".toList, rfl, rfl, ints_iff.1 (by decide +kernel), ?_⟩
        List.Forall₂.nil))
    · unfold toFloat; rw [p1]; rfl
    · unfold toFloat; rw [p2]; rfl
    · unfold toFloat; rw [p3]; rfl
  · intro e he
    simp only [List.mem_cons, List.not_mem_nil, or_false] at he
    rcases he with rfl | rfl | rfl <;> decide
  · rfl

end TD.Props
