import Verif.Lemmas.Shell

/-!
# C114, C115: the reports of the experiment scripts
-/
namespace TD.Props
open TD.Spec TD.ex

/-! ### C114 -/

/-- **C114.** The file an experiment writes has one line per history entry, in order, with both numbers to ten digits. -/
theorem C114_report (hist : List (PyFloat × PyFloat)) : ReportOf (report hist) hist := by
  refine ⟨hist.map fun p => fmt10 p.1 ++ [',', ' '] ++ fmt10 p.2, ?_, ?_⟩
  · rw [report, List.flatMap_map]; exact congrArg (hist.flatMap ·) (funext fun p => rfl)
  · rw [List.forall₂_map_left_iff, List.forall₂_same]
    exact fun p _ => ⟨_, _, rfl, fmt10_shows _, fmt10_shows _⟩

/-- The number of lines is the number of history entries. -/
theorem C114_line_count (hist : List (PyFloat × PyFloat)) : (report hist).count '\n' = hist.length := by
  induction hist with
  | nil => rfl
  | cons p hist ih =>
      have h : ∀ x, (fmt10 x).count '\n' = 0 := fun x => List.count_eq_zero.2 (fmt10_shows x).mem.2
      rw [report] at ih
      rw [report, List.flatMap_cons, List.count_append, ih, line]
      simp [List.count_append, h, Nat.add_comm]

/-- **C114.** Whoever reads such a file knows the history: any two histories it states have the same length and agree entry
by entry up to a unit of the tenth digit, and in their infinities and NaNs. -/
theorem C114_readable {t : List Char} {hist hist' : List (PyFloat × PyFloat)} (h : ReportOf t hist) (h' : ReportOf t hist') :
    List.Forall₂ (fun p q => Close p.1 q.1 ∧ Close p.2 q.2) hist hist' := by
  obtain ⟨ls, rfl, hf⟩ := h
  obtain ⟨ls', ht, hf'⟩ := h'
  have hn : ∀ {ls : List (List Char)} {hist : List (PyFloat × PyFloat)},
      List.Forall₂ (fun l p => ∃ a b, l = a ++ [',', ' '] ++ b ∧ Shows a p.1 ∧ Shows b p.2) ls hist → ∀ l ∈ ls, '\n' ∉ l := by
    intro ls hist hf
    induction hf with
    | nil => simp
    | cons hp _ ih =>
        rintro l hl
        rcases List.mem_cons.1 hl with rfl | hl
        · obtain ⟨a, b, rfl, ha, hb⟩ := hp
          simp [ha.mem.2, hb.mem.2]
        · exact ih l hl
  obtain rfl := lines_inj (hn hf) (hn hf') ht
  clear ht hn
  induction hf generalizing hist' with
  | nil => cases hf'; exact .nil
  | cons hp _ ih =>
      cases hf' with
      | cons hq hf' =>
          refine .cons ?_ (ih hf')
          obtain ⟨a, b, rfl, ha, hb⟩ := hp
          obtain ⟨a', b', e, ha', hb'⟩ := hq
          have e' : a ++ ',' :: (' ' :: b) = a' ++ ',' :: (' ' :: b') := by simpa using e
          obtain ⟨rfl, e2⟩ := append_sep_inj ha.mem.1 ha'.mem.1 e'
          obtain rfl := (List.cons.inj e2).2
          exact ⟨ha.close ha', hb.close hb'⟩

/-- **C114.** Histories of multiples of the unit of the tenth digit, infinities and NaNs are stored exactly. -/
theorem C114_exact {hist hist' : List (PyFloat × PyFloat)} (h1 : ∀ p ∈ hist, OnGrid p.1 ∧ OnGrid p.2)
    (h2 : ∀ p ∈ hist', OnGrid p.1 ∧ OnGrid p.2) (h : report hist = report hist') :
    List.Forall₂ (fun p q => ∀ x y, (x, y) ∈ [(p.1, q.1), (p.2, q.2)] →
      match x, y with
      | .nan, .nan => True
      | .inf a, .inf b => a = b
      | .fin a m, .fin b n => signed a m = signed b n
      | _, _ => False) hist hist' := by
  have key : ∀ {t : List Char} {neg : Bool} {m : ℚ≥0}, OnGrid (.fin neg m) → Shows t (.fin neg m) → Decimal10 t (signed neg m) := by
    rintro t neg m ⟨k, hk⟩ ⟨v, hv, hd⟩
    have e : v = signed neg m := by
      obtain ⟨n, i, f, -, -, -, -, rfl⟩ := hv
      have hk' : (m : ℚ) * 10 ^ 10 = k := by exact_mod_cast hk
      have hm : (m : ℚ) = k / 10 ^ 10 := by rw [← hk']; field_simp
      have e1 : ((if n = true then (-1 : ℚ) else 1) * (digitsVal i + digitsVal f / 10 ^ 10) - signed neg m) =
          (((if n = true then (-1 : Int) else 1) * (digitsVal i * 10 ^ 10 + digitsVal f) -
            (if neg = true then -(k : Int) else k) : Int) : ℚ) / 10 ^ 10 := by
        unfold signed
        rw [hm]
        cases n <;> cases neg <;> simp <;> ring
      rw [e1, abs_div, abs_of_pos (show (0 : ℚ) < 10 ^ 10 by positivity), div_le_iff₀ (by positivity)] at hd
      have h3 : (1 : ℚ) / (2 * 10 ^ 10) * 10 ^ 10 < 1 := by norm_num
      have h4 := hd.trans_lt h3
      rw [← Int.cast_abs] at h4
      have h5 : |((if n = true then (-1 : Int) else 1) * (digitsVal i * 10 ^ 10 + digitsVal f) -
            (if neg = true then -(k : Int) else k))| < 1 := by exact_mod_cast h4
      rw [Int.abs_lt_one_iff.1 h5] at e1
      simp only [Int.cast_zero, zero_div] at e1
      linarith
    exact e ▸ hv
  have one : ∀ {t : List Char} {x y : PyFloat}, OnGrid x → OnGrid y → Shows t x → Shows t y →
      match x, y with
      | .nan, .nan => True
      | .inf a, .inf b => a = b
      | .fin a m, .fin b n => signed a m = signed b n
      | _, _ => False := by
    intro t x y gx gy hx hy
    have hc := hx.close hy
    cases x <;> cases y <;> try exact hc
    exact (key gx hx).unique (key gy hy)
  have r1 := C114_report hist
  have r2 := C114_report hist'
  rw [h] at r1
  obtain ⟨ls, ht, hf⟩ := r1
  obtain ⟨ls', ht', hf'⟩ := r2
  have hn : ∀ {ls : List (List Char)} {hist : List (PyFloat × PyFloat)},
      List.Forall₂ (fun l p => ∃ a b, l = a ++ [',', ' '] ++ b ∧ Shows a p.1 ∧ Shows b p.2) ls hist → ∀ l ∈ ls, '\n' ∉ l := by
    intro ls hist hf
    induction hf with
    | nil => simp
    | cons hp _ ih =>
        rintro l hl
        rcases List.mem_cons.1 hl with rfl | hl
        · obtain ⟨a, b, rfl, ha, hb⟩ := hp
          simp [ha.mem.2, hb.mem.2]
        · exact ih l hl
  obtain rfl := lines_inj (hn hf) (hn hf') (ht.symm.trans ht')
  clear ht ht' hn h
  induction hf generalizing hist' with
  | nil => cases hf'; exact .nil
  | cons hp _ ih =>
      cases hf' with
      | cons hq hf' =>
          refine .cons ?_ (ih (fun p hp => h1 p (by simp [hp])) (fun p hp => h2 p (by simp [hp])) hf')
          obtain ⟨a, b, rfl, ha, hb⟩ := hp
          obtain ⟨a', b', e, ha', hb'⟩ := hq
          have e' : a ++ ',' :: (' ' :: b) = a' ++ ',' :: (' ' :: b') := by simpa using e
          obtain ⟨rfl, e2⟩ := append_sep_inj ha.mem.1 ha'.mem.1 e'
          obtain rfl := (List.cons.inj e2).2
          intro x y hxy
          simp only [List.mem_cons, Prod.mk.injEq, List.not_mem_nil, or_false] at hxy
          rcases hxy with ⟨rfl, rfl⟩ | ⟨rfl, rfl⟩
          · exact one (h1 _ (by simp)).1 (h2 _ (by simp)).1 ha ha'
          · exact one (h1 _ (by simp)).2 (h2 _ (by simp)).2 hb hb'

/-- A number half-way between two multiples of the unit is shown as the even one. -/
theorem C114_tie (neg : Bool) (m : ℚ≥0) (n : Nat) (h : m * 10 ^ 10 = n + 1 / 2) :
    ∃ k : Nat, k % 2 = 0 ∧ (k = n ∨ k = n + 1) ∧ fmt10 (.fin neg m) = fmt10 (.fin neg (k / 10 ^ 10)) := by
  have e : roundEven (m * 10 ^ 10) % 2 = 0 ∧ (roundEven (m * 10 ^ 10) = n ∨ roundEven (m * 10 ^ 10) = n + 1) := by
    have hf : ⌊(n : ℚ≥0) + 1 / 2⌋₊ = n := by
      rw [Nat.floor_eq_iff (by positivity)]
      constructor
      · exact le_self_add
      · exact (add_lt_add_iff_left _).2 (by norm_num)
    have h2 : 2 * ((n : ℚ≥0) + 1 / 2) = 2 * n + 1 := by ring
    unfold roundEven
    rw [h]
    simp only [hf, h2, lt_irrefl, if_false]
    split <;> omega
  refine ⟨roundEven (m * 10 ^ 10), e.1, e.2, ?_⟩
  have : roundEven ((roundEven (m * 10 ^ 10) : ℚ≥0) / 10 ^ 10 * 10 ^ 10) = roundEven (m * 10 ^ 10) := by
    rw [div_mul_cancel₀ _ (by positivity), roundEven_nat]
  simp only [fmt10, this]

/-- **C114.** A process killed at any moment leaves every other file alone, and its own file as it was or with the complete
lines of the first history entries followed by the beginning of the next line. -/
theorem C114_interrupted (j : Job) (hist : List (PyFloat × PyFloat)) (fs : Files) (at_ : Option Nat) :
    (∀ p, p ≠ outPath j → killed j hist fs at_ p = fs p) ∧
      (killed j hist fs at_ = fs ∨ ∃ k a rest, killed j hist fs at_ (outPath j) = some (a ++ rest) ∧ k ≤ hist.length ∧
        ReportOf a (hist.take k) ∧ '\n' ∉ rest ∧ (rest ≠ [] → ∃ p, hist[k]? = some p ∧ rest <+: line p)) := by
  cases at_ with
  | none => exact ⟨fun _ _ => rfl, Or.inl rfl⟩
  | some n =>
      refine ⟨fun p hp => Function.update_of_ne hp _ _, Or.inr ?_⟩
      have key : ∀ (hist : List (PyFloat × PyFloat)) (n : Nat), ∃ k rest, (report hist).take n = report (hist.take k) ++ rest ∧
          k ≤ hist.length ∧ '\n' ∉ rest ∧ (rest ≠ [] → ∃ p, hist[k]? = some p ∧ rest <+: line p) := by
        intro hist
        induction hist with
        | nil => exact fun n => ⟨0, [], by simp [report], le_refl _, by simp, by simp⟩
        | cons p hist ih =>
            intro n
            by_cases hn : n < (line p).length
            · refine ⟨0, (line p).take n, ?_, by simp, ?_, fun _ => ⟨p, rfl, List.take_prefix _ _⟩⟩
              · simp [report, List.take_append_of_le_length hn.le]
              · have e : line p = (fmt10 p.1 ++ [',', ' '] ++ fmt10 p.2) ++ ['\n'] := rfl
                rw [e, List.length_append, List.length_singleton] at hn
                rw [e, List.take_append_of_le_length (by omega)]
                intro hm
                have := List.mem_of_mem_take hm
                simp [(fmt10_shows p.1).mem.2, (fmt10_shows p.2).mem.2] at this
            · obtain ⟨k, rest, e, hk, h1, h2⟩ := ih (n - (line p).length)
              refine ⟨k + 1, rest, ?_, by simp [hk], h1, by simpa using h2⟩
              rw [report] at e
              rw [report, List.flatMap_cons, List.take_append, e, List.take_of_length_le (by omega)]
              simp [report]
      obtain ⟨k, rest, e, hk, h1, h2⟩ := key hist n
      exact ⟨k, report (hist.take k), rest, by simp [killed, e], hk, C114_report _, h1, h2⟩

/-- A concrete report. -/
example : String.ofList (report [(.fin false (1 / 3), .fin true 2), (.nan, .inf true)]) =
    "0.3333333333, -2.0000000000\nnan, -inf\n" := by decide +kernel

/-- Ties go to the even digit, and a small negative number keeps its sign. -/
example : String.ofList (fmt10 (.fin false (1 / 20000000000))) = "0.0000000000" ∧
    String.ofList (fmt10 (.fin false (3 / 20000000000))) = "0.0000000002" ∧
    String.ofList (fmt10 (.fin true (1 / 10 ^ 12))) = "-0.0000000000" := by decide +kernel

/-- Multiples of the unit exist. -/
example : OnGrid (.fin true (5 / 2)) := ⟨25000000000, by norm_num⟩

/-! ### C115 -/

/-- The arguments a shell passes are understood: the texts of six integers give the experiment they describe. -/
theorem C115_arguments (alg : Alg) (name : List Char) (n1 n2 n3 gR dR time : Int) :
    jobOf alg (name :: [n1, n2, n3, gR, dR, time].map intText) = .ok ⟨alg, n1, n2, n3, gR, dR, time⟩ := by
  simp [jobOf, argInt, pyInt_intText]

theorem argInt_ok {argv : List (List Char)} {k : Nat} {z : Int} :
    argInt argv k = .ok z ↔ ∃ s, argv[k]? = some s ∧ IntText s z := by
  unfold argInt
  cases h : argv[k]? with
  | none => simp
  | some s =>
    cases hz : reader.pyInt s with
    | none => simpa [hz] using fun h => by simp [pyInt_iff.2 h] at hz
    | some w => simp [hz, ← pyInt_iff]

/-- Which command lines are understood: argument `k` has to be there and be the text of an integer for `k = 1, …, 6`; further
arguments are ignored. -/
theorem C115_command_line (alg : Alg) (argv : List (List Char)) (j : Job) :
    jobOf alg argv = .ok j ↔ j.alg = alg ∧ ∀ p ∈ [(1, j.n1), (2, j.n2), (3, j.n3), (4, j.gR), (5, j.dR), (6, j.time)],
      ∃ s, argv[p.1]? = some s ∧ IntText s p.2 := by
  have hb : ∀ {β γ : Type} (x : Res β) (f : β → Res γ) (y : γ), (x >>= f) = .ok y ↔ ∃ b, x = .ok b ∧ f b = .ok y := by
    intro β γ x f y
    cases x <;> simp [bind, Except.bind]
  simp only [jobOf, hb, argInt_ok, pure, Except.pure, Except.ok.injEq]
  constructor
  · rintro ⟨n1, h1, n2, h2, n3, h3, gR, h4, dR, h5, t, h6, rfl⟩
    refine ⟨rfl, ?_⟩
    simp only [List.mem_cons, List.not_mem_nil, or_false]
    rintro p (rfl | rfl | rfl | rfl | rfl | rfl) <;> assumption
  · rintro ⟨rfl, h⟩
    exact ⟨_, h (1, _) (by simp), _, h (2, _) (by simp), _, h (3, _) (by simp), _, h (4, _) (by simp), _, h (5, _) (by simp),
      _, h (6, _) (by simp), rfl⟩

/-- The other command lines raise before anything is computed: the first argument that is missing or no integer decides, with
`IndexError` or `ValueError`. -/
theorem C115_command_line_raises (alg : Alg) (argv : List (List Char)) (k : Nat) (h1 : 1 ≤ k) (h6 : k ≤ 6)
    (hb : ∀ m, 1 ≤ m → m < k → ∃ s z, argv[m]? = some s ∧ IntText s z) :
    (argv.length ≤ k → jobOf alg argv = .error .indexError) ∧
      ∀ s, argv[k]? = some s → (∀ z, ¬ IntText s z) → jobOf alg argv = .error .valueError := by
  have key : ∀ e, argInt argv k = .error e → jobOf alg argv = .error e := by
    intro e he
    have ok : ∀ m, 1 ≤ m → m < k → ∃ z, argInt argv m = .ok z := by
      intro m hm hk
      obtain ⟨s, z, hs, hz⟩ := hb m hm hk
      exact ⟨z, argInt_ok.2 ⟨s, hs, hz⟩⟩
    unfold jobOf
    obtain rfl | rfl | rfl | rfl | rfl | rfl : k = 1 ∨ k = 2 ∨ k = 3 ∨ k = 4 ∨ k = 5 ∨ k = 6 := by omega
    · rw [he]; rfl
    · obtain ⟨_, a1⟩ := ok 1 (by omega) (by omega)
      rw [a1, he]; rfl
    · obtain ⟨_, a1⟩ := ok 1 (by omega) (by omega)
      obtain ⟨_, a2⟩ := ok 2 (by omega) (by omega)
      rw [a1, a2, he]; rfl
    · obtain ⟨_, a1⟩ := ok 1 (by omega) (by omega)
      obtain ⟨_, a2⟩ := ok 2 (by omega) (by omega)
      obtain ⟨_, a3⟩ := ok 3 (by omega) (by omega)
      rw [a1, a2, a3, he]; rfl
    · obtain ⟨_, a1⟩ := ok 1 (by omega) (by omega)
      obtain ⟨_, a2⟩ := ok 2 (by omega) (by omega)
      obtain ⟨_, a3⟩ := ok 3 (by omega) (by omega)
      obtain ⟨_, a4⟩ := ok 4 (by omega) (by omega)
      rw [a1, a2, a3, a4, he]; rfl
    · obtain ⟨_, a1⟩ := ok 1 (by omega) (by omega)
      obtain ⟨_, a2⟩ := ok 2 (by omega) (by omega)
      obtain ⟨_, a3⟩ := ok 3 (by omega) (by omega)
      obtain ⟨_, a4⟩ := ok 4 (by omega) (by omega)
      obtain ⟨_, a5⟩ := ok 5 (by omega) (by omega)
      rw [a1, a2, a3, a4, a5, he]; rfl
  constructor
  · intro hl
    apply key
    simp [argInt, List.getElem?_eq_none hl]
  · intro s hs hz
    apply key
    have : reader.pyInt s = none := by
      cases h : reader.pyInt s with
      | none => rfl
      | some z => exact absurd (pyInt_iff.1 h) (hz z)
    simp [argInt, hs, this]

/-- A surplus argument is ignored, a missing one and a word raise. -/
example : jobOf .cp (["x", "20", "20", "20", "5", "6", "1", "9"].map String.toList) = .ok ⟨.cp, 20, 20, 20, 5, 6, 1⟩ ∧
    jobOf .cp (["x", "20", "20"].map String.toList) = .error .indexError ∧
    jobOf .cp (["x", "20", "a"].map String.toList) = .error .valueError := by decide +kernel

/-- **C115.** Two experiments write the same file exactly if they agree in the algorithm, the first dimension, both ranks and
the repetition. -/
theorem C115_name (j j' : Job) : outPath j = outPath j' ↔ SameName j j' := outPath_iff

/-- A file that no successful experiment of the sequence is named after is left alone; in particular failing experiments
change nothing. -/
theorem C115_untouched (rs : List (Job × Res (List (PyFloat × PyFloat)))) (fs : Files) (p : List Char)
    (h : ∀ j hist, (j, .ok hist) ∈ rs → outPath j ≠ p) : runs rs fs p = fs p := runs_untouched rs fs p h

/-- **C115.** After any sequence of experiments a report is the one of the last successful experiment of that name. -/
theorem C115_last (before after : List (Job × Res (List (PyFloat × PyFloat)))) (j : Job) (hist : List (PyFloat × PyFloat))
    (fs : Files) (h : ∀ j' hist', (j', .ok hist') ∈ after → ¬ SameName j j') :
    runs (before ++ (j, .ok hist) :: after) fs (outPath j) = some (report hist) := by
  rw [runs_append]
  refine (runs_untouched after _ _ fun j' h' hm e => h j' h' hm (outPath_iff.1 e.symm)).trans ?_
  exact Function.update_self _ _ _

/-- The full claim: after a sequence of different experiments every report of a successful one is there. -/
def EachKept : Prop :=
  ∀ (rs : List (Job × Res (List (PyFloat × PyFloat)))) (fs : Files), (rs.map (·.1)).Nodup →
    ∀ j hist, (j, .ok hist) ∈ rs → runs rs fs (outPath j) = some (report hist)

/-- **C115 is false of the code**: the file name leaves out the second and third dimension. -/
theorem C115_each_kept_false : ¬ EachKept := by
  intro h
  have := h [(⟨.cp, 20, 20, 20, 10, 5, 1⟩, .ok [(.nan, .nan)]), (⟨.cp, 20, 30, 40, 10, 5, 1⟩, .ok [])] (fun _ => none)
    (by decide) ⟨.cp, 20, 20, 20, 10, 5, 1⟩ [(.nan, .nan)] (by simp)
  revert this
  decide +kernel

/-- **C115, the part that holds**: all reports are there if the experiments differ in what the name mentions.  Missing:
experiments that differ only in the second or third dimension. -/
theorem C115_each_kept_partial (rs : List (Job × Res (List (PyFloat × PyFloat)))) (fs : Files)
    (h : (rs.map (·.1)).Pairwise fun j j' => ¬ SameName j j') (j : Job) (hist : List (PyFloat × PyFloat))
    (hm : (j, .ok hist) ∈ rs) : runs rs fs (outPath j) = some (report hist) := by
  obtain ⟨before, after, rfl⟩ := List.append_of_mem hm
  refine C115_last before after j hist fs fun j' h' hm' => ?_
  rw [List.map_append, List.pairwise_append, List.map_cons, List.pairwise_cons] at h
  exact h.2.1.1 j' (List.mem_map.2 ⟨_, hm', rfl⟩)

/-- **C115.** The script `ex_20_shell.sh` ends; it runs exactly the planned experiments, no two with the same file. -/
theorem C115_shell : ∃ jobs, (∀ fuel ≥ 21, shell20 fuel = some jobs) ∧ (∀ j, j ∈ jobs ↔ Planned20 j) ∧
    jobs.Pairwise fun j j' => ¬ SameName j j' :=
  ⟨shell20L, fun _ h => shell20_eq h, fun _ => mem_shell20L, pairwise_shell20L⟩

/-- **C115.** So it keeps every report, whatever the trainings return and whichever of them fail. -/
theorem C115_shell_kept {fuel : Nat} {jobs : List Job} (hj : shell20 fuel = some jobs) (hf : 21 ≤ fuel)
    (trained : Job → Res (List (PyFloat × PyFloat))) (fs : Files) (j : Job) (hp : Planned20 j)
    (hist : List (PyFloat × PyFloat)) (ht : trained j = .ok hist) :
    runs (jobs.map fun j => (j, trained j)) fs (outPath j) = some (report hist) := by
  rw [shell20_eq hf] at hj
  obtain rfl := Option.some.inj hj
  refine C115_each_kept_partial _ fs ?_ j hist (List.mem_map.2 ⟨j, mem_shell20L.2 hp, by rw [ht]⟩)
  rw [List.map_map]
  simpa [Function.comp_def] using pairwise_shell20L

/-- The planned experiments, for example. -/
example : Planned20 ⟨.ntucker, 80, 80, 80, 20, 25, 21⟩ ∧ ¬ Planned20 ⟨.cp, 80, 80, 80, 20, 25, 21⟩ := by
  unfold Planned20; decide

/-- The full claim for both scripts: the second one writes no file of the first. -/
def ScriptsDisjoint : Prop :=
  ∀ fuel jobs jobs', shell20 fuel = some jobs → shellNoNoise fuel = some jobs' →
    ∀ j ∈ jobs, ∀ j' ∈ jobs', outPath j ≠ outPath j'

/-- **It is false**: every experiment of `ex_no_noise.sh` is one of `ex_20_shell.sh` with the same file, so that running the
second script replaces reports of the first. -/
theorem C115_scripts_false : ¬ ScriptsDisjoint ∧ ∃ jobs', shellNoNoise 21 = some jobs' ∧ jobs' ≠ [] ∧ ∀ j ∈ jobs', Planned20 j := by
  have h2 : ∃ jobs', shellNoNoise 21 = some jobs' ∧ jobs' ≠ [] ∧ ∀ j ∈ jobs', Planned20 j := by
    have : ∃ jobs', shellNoNoise 21 = some jobs' ∧ jobs' ≠ [] ∧ ∀ j ∈ jobs', (decide (j.n1 = 20 ∨ j.n1 = 40 ∨ j.n1 = 80) &&
      decide (j.n2 = j.n1) && decide (j.n3 = j.n1) && decide (j.gR = 10 ∧ j.dR = 10 ∨ j.gR = 20 ∧ j.dR = 20) &&
      decide (1 ≤ j.time) && decide (j.time ≤ 10)) = true := by
      refine ⟨((shellNoNoise 21).getD []), ?_, ?_, ?_⟩ <;> decide +kernel
    obtain ⟨jobs', e, h0, h⟩ := this
    refine ⟨jobs', e, h0, fun j hj => ?_⟩
    have := h j hj
    simp only [Bool.and_eq_true, decide_eq_true_eq] at this
    obtain ⟨⟨⟨⟨⟨h1, h2⟩, h3⟩, h4⟩, h5⟩, h6⟩ := this
    refine ⟨h1, h2, h3, ?_, h5, ?_⟩
    · rcases h4 with ⟨a, b⟩ | ⟨a, b⟩
      · exact Or.inl ⟨a, by omega, by omega⟩
      · exact Or.inr ⟨a, by omega, by omega⟩
    · split <;> omega
  refine ⟨fun h => ?_, h2⟩
  obtain ⟨jobs', e, h0, hp⟩ := h2
  obtain ⟨j, hj⟩ := List.exists_mem_of_ne_nil _ h0
  exact h 21 _ _ (shell20_eq (le_refl _)) e j (mem_shell20L.2 (hp j hj)) j hj rfl

end TD.Props
