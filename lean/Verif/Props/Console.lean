import Verif.Lemmas.Console
import Verif.Props.Train

/-!
# C178 : what a training prints
-/
namespace TD.Props
open TD Spec fact ex

variable {S F K X : Type}

theorem trainSays_spec (a : Alg) (A : Arith PyFloat) (c : Cls S F K X PyFloat) (args : Args PyFloat) (steps : Int) (s : S)
    (self : Self F K X) : (trainSays a A c args steps (.ok s) self).1 = train A c args steps (.ok s) self ∧
    ((∀ hist, (train A c args steps (.ok s) self).2.2 = .ok hist →
      ∃ ls last p, (trainSays a A c args steps (.ok s) self).2 = onLines (startText (conName a) :: ls ++ [last]) ∧
        StepTexts ls (train A c args steps (.ok s) self).2.1 hist ∧ hist.getLast? = some p ∧
        FinishText (conName a) last hist.length p.1) ∧
    ∀ e, (train A c args steps (.ok s) self).2.2 = .error e →
      ∃ ls hist, (trainSays a A c args steps (.ok s) self).2 = onLines (startText (conName a) :: ls) ∧
        StepTexts ls (train A c args steps (.ok s) self).2.1 hist) := by
  have h0 : Telling a 0 ({ sess := s, self := if c.resets then { self with finish := false } else self } :
      Loc S F K X PyFloat) { text := initLine a } :=
    ⟨⟨[], by simp [onLines, initLine, startText], .nil⟩, rfl, Or.inl rfl, fun h => absurd rfl h⟩
  obtain ⟨k, e1, e2, e3⟩ := loopSays_spec (A := A) (c := c) (args := args) (steps := steps) steps.toNat 0 h0
  rw [show ((0 : Nat) : Int) + 1 = 1 from rfl] at e1 e2 e3
  unfold trainSays train
  simp only [e1]
  cases hl : loop A c args steps steps.toNat 1
      { sess := s, self := if c.resets = true then { self with finish := false } else self } with
  | mk l e =>
  rw [hl] at e2 e3
  obtain ⟨⟨ls, t1, t2⟩⟩ := e2
  cases e with
  | some e =>
    refine ⟨rfl, ?_, ?_⟩
    · intro hist h; cases h
    · intro e' _; exact ⟨ls, l.hist, t1, t2⟩
  | none =>
  obtain ⟨n, n1, n2⟩ := e3 rfl
  by_cases hs : steps < 1
  · have hz : n = 0 := by
      by_contra hn
      have := n1.1 hn
      simp only [ne_eq, not_true_eq_false, or_false] at this
      omega
    have hk : steps.toNat = 0 := by omega
    rw [hk] at e1
    have hk' : k = { text := initLine a } := by
      have := congrArg (fun q => q.2.1) e1
      exact this.symm
    subst hk'
    simp only [hs, if_true]
    refine ⟨rfl, ?_, ?_⟩
    · intro hist h; cases h
    · intro e' _; exact ⟨ls, l.hist, t1, t2⟩
  · have hn : n ≠ 0 := n1.2 (Or.inl (by omega))
    obtain ⟨v1, v2⟩ := n2.vars hn
    have hne : l.hist ≠ [] := by
      intro e; have := n2.len; rw [e] at this; exact hn this.symm
    rw [List.getLast?_eq_some_getLast hne, Option.map_some] at v2
    simp only [v1, v2, hs, if_false]
    refine ⟨rfl, ?_, ?_⟩
    · intro hist h
      cases h
      refine ⟨ls, conName a ++ " model train finish, in ".toList ++ intText n ++ " steps, with RMSE = ".toList ++
        fmt10 (l.hist.getLast hne).1, _, ?_, t2, List.getLast?_eq_some_getLast hne, _, _, rfl, ?_, fmt10_shows _⟩
      · rw [t1]; simp [onLines, finishLine]
      · rw [n2.len]; exact intText_numeral n
    · intro e' h; cases h

/-- **C178**: the model with the printed text is the model without it. -/
theorem C178_same (a : Alg) (A : Arith PyFloat) (c : Cls S F K X PyFloat) (args : Args PyFloat) (steps : Int) (fresh : Res S)
    (self : Self F K X) : (trainSays a A c args steps fresh self).1 = train A c args steps fresh self := by
  cases fresh with
  | error e => rfl
  | ok s => exact (trainSays_spec a A c args steps s self).1

/-- **C178**: a training that returns has printed the initial line, one line for each reported step with the two numbers
of its history entry, and a last line with the number of steps and the loss of the last history entry. -/
theorem C178_returns (a : Alg) (A : Arith PyFloat) (c : Cls S F K X PyFloat) (args : Args PyFloat) (steps : Int)
    (fresh : Res S) (self self' : Self F K X) (ev : List Int) (hist : List (PyFloat × PyFloat))
    (h : train A c args steps fresh self = (self', ev, .ok hist)) :
    ∃ ls last p, (trainSays a A c args steps fresh self).2 = onLines (startText (conName a) :: ls ++ [last]) ∧
      StepTexts ls ev hist ∧ ev = ((List.range hist.length).filter (Reported args steps)).map (fun j : Nat => (j : Int) + 1) ∧
      hist.getLast? = some p ∧ FinishText (conName a) last hist.length p.1 := by
  obtain ⟨s0, n, o, kc, rfl, -, -, -, -, h6, h7, -⟩ := train_ok h
  obtain ⟨ls, last, p, e1, e2, e3, e4⟩ := (trainSays_spec a A c args steps s0 self).2.1 hist (by rw [h])
  rw [h] at e2
  have hl : hist.length = n := by rw [h6]; simp
  exact ⟨ls, last, p, e1, e2, by rw [hl]; exact h7, e3, e4⟩

/-- **C178** with `verbose=True`: there is a line for every history entry, in order. -/
theorem C178_verbose (a : Alg) (A : Arith PyFloat) (c : Cls S F K X PyFloat) (args : Args PyFloat) (hv : args.verbose = true)
    (steps : Int) (fresh : Res S) (self self' : Self F K X) (ev : List Int) (hist : List (PyFloat × PyFloat))
    (h : train A c args steps fresh self = (self', ev, .ok hist)) :
    ∃ ls last p, (trainSays a A c args steps fresh self).2 = onLines (startText (conName a) :: ls ++ [last]) ∧
      ls.length = hist.length ∧ (∀ (j : Nat) l q, ls[j]? = some l → hist[j]? = some q → StepText l (j + 1) q) ∧
      hist.getLast? = some p ∧ FinishText (conName a) last hist.length p.1 := by
  obtain ⟨ls, last, p, e1, e2, e3, e4, e5⟩ := C178_returns a A c args steps fresh self self' ev hist h
  have hev : ev = (List.range hist.length).map (fun j : Nat => (j : Int) + 1) := by
    rw [e3, List.filter_eq_self.2]
    intro j _
    exact decide_eq_true (Or.inr (Or.inl hv))
  have hlen : ls.length = hist.length := by rw [e2.length_eq, hev]; simp
  refine ⟨ls, last, p, e1, hlen, fun j l q hl hq => ?_, e4, e5⟩
  obtain ⟨hj, rfl⟩ := List.getElem?_eq_some_iff.1 hl
  have hj' : j < ev.length := by rw [← e2.length_eq]; exact hj
  obtain ⟨i, q', f1, f2, f3⟩ := e2.get hj hj'
  have : i = j := by
    have : ev.get ⟨j, hj'⟩ = (j : Int) + 1 := by simp [hev]
    rw [this] at f1
    omega
  subst this
  rw [hq] at f2
  cases f2
  exact f3

/-- **C178**: a training that raises has printed nothing if it got no session; otherwise the initial line and one line for
each reported step, and no last line. -/
theorem C178_raises (a : Alg) (A : Arith PyFloat) (c : Cls S F K X PyFloat) (args : Args PyFloat) (steps : Int)
    (fresh : Res S) (self self' : Self F K X) (ev : List Int) (e : PyErr)
    (h : train A c args steps fresh self = (self', ev, .error e)) :
    (∀ e', fresh = .error e' → (trainSays a A c args steps fresh self).2 = []) ∧
    ∀ s, fresh = .ok s → ∃ ls hist, (trainSays a A c args steps fresh self).2 = onLines (startText (conName a) :: ls) ∧
      StepTexts ls ev hist := by
  refine ⟨?_, ?_⟩
  · rintro e' rfl; rfl
  · rintro s rfl
    obtain ⟨ls, hist, e1, e2⟩ := (trainSays_spec a A c args steps s self).2.2 e (by rw [h])
    rw [h] at e2
    exact ⟨ls, hist, e1, e2⟩

theorem StepText.unique {l : List Char} {n m : Nat} {p q : PyFloat × PyFloat} (h : StepText l n p) (h' : StepText l m q) :
    n = m ∧ Close p.1 q.1 ∧ Close p.2 q.2 := by
  obtain ⟨d, a, b, rfl, hd, ha, hb⟩ := h
  obtain ⟨d', a', b', e, hd', ha', hb'⟩ := h'
  simp only [List.append_assoc] at e
  obtain ⟨rfl, e1⟩ := append_sep_inj (s := ',') (digit_ne hd.1 rfl) (digit_ne hd'.1 rfl) (List.append_cancel_left e)
  obtain ⟨rfl, e2⟩ := append_sep_inj (s := ',') ha.mem.1 ha'.mem.1 (List.append_cancel_left (as := " RMSE=".toList) e1)
  obtain rfl := List.append_cancel_left (as := " relerr=".toList) e2
  exact ⟨hd.2.symm.trans hd'.2, ha.close ha', hb.close hb'⟩

theorem FinishText.unique {name l : List Char} {n m : Nat} {x y : PyFloat} (h : FinishText name l n x)
    (h' : FinishText name l m y) : n = m ∧ Close x y := by
  obtain ⟨d, a, rfl, hd, ha⟩ := h
  obtain ⟨d', a', e, hd', ha'⟩ := h'
  simp only [List.append_assoc] at e
  obtain ⟨rfl, e1⟩ := append_sep_inj (s := ' ') (digit_ne hd.1 rfl) (digit_ne hd'.1 rfl)
    (List.append_cancel_left (List.append_cancel_left e))
  obtain rfl := List.append_cancel_left (as := "steps, with RMSE = ".toList) e1
  exact ⟨hd.2.symm.trans hd'.2, ha.close ha'⟩

theorem console_lines {a : Alg} {ls : List (List Char)} {last : List Char} {ev : List Int} {hist : List (PyFloat × PyFloat)}
    {n : Nat} {x : PyFloat} (h : StepTexts ls ev hist) (hf : FinishText (conName a) last n x) :
    ∀ l ∈ startText (conName a) :: ls ++ [last], '\n' ∉ l := by
  intro l hl
  simp only [List.cons_append, List.mem_cons, List.mem_append, List.not_mem_nil, or_false] at hl
  rcases hl with rfl | hl | rfl
  · cases a <;> decide
  · obtain ⟨i, hi, rfl⟩ := List.mem_iff_getElem.1 hl
    obtain ⟨j, p, -, -, d, u, v, e, hd, hu, hv⟩ := h.get hi (by rw [← h.length_eq]; exact hi)
    rw [show ls[i] = _ from e]
    simp [hu.mem.2, hv.mem.2, digit_ne hd.1 (c := '\n') rfl]
  · obtain ⟨d, u, rfl, hd, hu⟩ := hf
    have : '\n' ∉ conName a := by cases a <;> decide
    simp [this, hu.mem.2, digit_ne hd.1 (c := '\n') rfl]

/-- **C178**: whoever reads the output of a training that returned knows the number of steps, which of them were reported,
their history entries up to a unit of the tenth digit, and the loss of the last one. -/
theorem C178_readable {S' F' K' X' : Type} (a : Alg) (A A' : Arith PyFloat) (c : Cls S F K X PyFloat)
    (c' : Cls S' F' K' X' PyFloat) (args args' : Args PyFloat) (steps steps' : Int)
    (fresh : Res S) (fresh' : Res S') (self self1 : Self F K X) (self' self1' : Self F' K' X') (ev ev' : List Int)
    (hist hist' : List (PyFloat × PyFloat))
    (h : train A c args steps fresh self = (self1, ev, .ok hist))
    (h' : train A' c' args' steps' fresh' self' = (self1', ev', .ok hist'))
    (ht : (trainSays a A c args steps fresh self).2 = (trainSays a A' c' args' steps' fresh' self').2) :
    hist.length = hist'.length ∧ ev = ev' ∧
      (∀ (j : Nat) p q, (j : Int) + 1 ∈ ev → hist[j]? = some p → hist'[j]? = some q → Close p.1 q.1 ∧ Close p.2 q.2) ∧
      ∃ p q, hist.getLast? = some p ∧ hist'.getLast? = some q ∧ Close p.1 q.1 := by
  obtain ⟨ls, last, p, e1, e2, -, e4, e5⟩ := C178_returns a A c args steps fresh self self1 ev hist h
  obtain ⟨ls', last', p', e1', e2', -, e4', e5'⟩ := C178_returns a A' c' args' steps' fresh' self' self1' ev' hist' h'
  rw [e1, e1'] at ht
  have hl := lines_inj (console_lines e2 e5) (console_lines e2' e5') ht
  simp only [List.cons_append, List.cons.injEq, true_and] at hl
  obtain ⟨rfl, hl⟩ := List.append_inj' hl rfl
  obtain rfl : last = last' := by simpa using hl
  obtain ⟨u1, u2⟩ := FinishText.unique e5 e5'
  have hev : ∀ {ls : List (List Char)} {ev ev' : List Int}, StepTexts ls ev hist → StepTexts ls ev' hist' →
      ev = ev' ∧ ∀ (j : Nat) p q, (j : Int) + 1 ∈ ev → hist[j]? = some p → hist'[j]? = some q → Close p.1 q.1 ∧ Close p.2 q.2 := by
    intro ls
    induction ls with
    | nil => rintro ev ev' ⟨⟩ ⟨⟩; exact ⟨rfl, fun j p q h => by simp at h⟩
    | cons l ls ih =>
      rintro ev ev' (_ | ⟨⟨j, p, rfl, f1, f2⟩, hr⟩) (_ | ⟨⟨j', p', rfl, f1', f2'⟩, hr'⟩)
      obtain ⟨v1, v2, v3⟩ := StepText.unique f2 f2'
      obtain rfl : j = j' := by omega
      obtain ⟨rfl, hc⟩ := ih hr hr'
      refine ⟨rfl, fun i p1 q1 hi hp hq => ?_⟩
      rcases List.mem_cons.1 hi with hi | hi
      · obtain rfl : i = j := by omega
        rw [f1] at hp; rw [f1'] at hq
        cases hp; cases hq
        exact ⟨v2, v3⟩
      · exact hc i p1 q1 hi hp hq
  obtain ⟨w1, w2⟩ := hev e2 e2'
  exact ⟨u1, w1, w2, p, p', e4, e4', u2⟩

theorem fmt6_shows (x : PyFloat) : ShowsTo 6 (fmt6 x) x := by
  cases x with
  | nan => rfl
  | inf neg => cases neg <;> rfl
  | fin neg m =>
    have hk : roundEven (m * 10 ^ 6) % 10 ^ 6 < 10 ^ 6 := Nat.mod_lt _ (by norm_num)
    have hl : (Nat.toDigits 10 (roundEven (m * 10 ^ 6) % 10 ^ 6)).length ≤ 6 :=
      (Nat.length_toDigits_le_iff (by norm_num) (by norm_num)).2 hk
    refine ⟨Nat.toDigits 10 (roundEven (m * 10 ^ 6) / 10 ^ 6), _, digits_toDigits _, ⟨?_, ?_⟩, ?_, rfl, ?_⟩
    · simp [Nat.toDigits_ne_nil]
    · intro c hc
      rcases List.mem_append.1 hc with hc | hc
      · rw [(List.mem_replicate.1 hc).2]; rfl
      · exact (digits_toDigits _).2 c hc
    · rw [List.length_append, List.length_replicate]; omega
    · rw [digitsVal_toDigits, digitsVal_eq, Nat.ofDigitChars_append, Nat.ofDigitChars_replicate_zero, Nat.mul_zero,
        Nat.ofDigitChars_ten_toDigits]
      have h := roundEven_err (m * 10 ^ 6)
      push_cast at h
      have e : ((roundEven (m * 10 ^ 6) : Nat) : ℚ) = (10 ^ 6 : Nat) * (roundEven (m * 10 ^ 6) / 10 ^ 6 : Nat) +
          (roundEven (m * 10 ^ 6) % 10 ^ 6 : Nat) := by
        rw [← Nat.cast_mul, ← Nat.cast_add, Nat.div_add_mod]
      rw [e] at h
      push_cast at h
      rw [abs_le] at h ⊢
      constructor <;> linarith [h.1, h.2]

/-- **C178**: the output tells whether the training returned: no training of the same class that raised has printed the same
text as one that returned. -/
theorem C178_outcome {S' F' K' X' : Type} (a : Alg) (A A' : Arith PyFloat) (c : Cls S F K X PyFloat)
    (c' : Cls S' F' K' X' PyFloat) (args args' : Args PyFloat) (steps steps' : Int)
    (fresh : Res S) (fresh' : Res S') (self self1 : Self F K X) (self' self1' : Self F' K' X') (ev ev' : List Int)
    (hist : List (PyFloat × PyFloat)) (e : PyErr)
    (h : train A c args steps fresh self = (self1, ev, .ok hist))
    (h' : train A' c' args' steps' fresh' self' = (self1', ev', .error e)) :
    (trainSays a A c args steps fresh self).2 ≠ (trainSays a A' c' args' steps' fresh' self').2 := by
  intro ht
  obtain ⟨ls, last, p, e1, e2, -, e4, e5⟩ := C178_returns a A c args steps fresh self self1 ev hist h
  obtain ⟨r1, r2⟩ := C178_raises a A' c' args' steps' fresh' self' self1' ev' e h'
  cases fresh' with
  | error e' =>
    rw [e1, r1 e' rfl] at ht
    simp [onLines] at ht
  | ok s =>
    obtain ⟨ls', hist', f1, f2⟩ := r2 s rfl
    rw [e1, f1] at ht
    have hn : ∀ l ∈ startText (conName a) :: ls', '\n' ∉ l := fun l hl =>
      console_lines f2 e5 l (List.mem_append_left _ hl)
    have hl := lines_inj (console_lines e2 e5) hn ht
    simp only [List.cons_append, List.cons.injEq, true_and] at hl
    have hm : last ∈ ls' := by rw [← hl]; simp
    obtain ⟨i, hi, hi'⟩ := List.mem_iff_getElem.1 hm
    obtain ⟨j, q, -, -, d, u, v, g, -⟩ := f2.get hi (by rw [← f2.length_eq]; exact hi)
    obtain ⟨d', u', g', -⟩ := e5
    have h0 : last.head? = some 's' := by
      rw [← hi', show ls'[i] = _ from g]
      simp only [List.head?_append, show "step=".toList.head? = some 's' by decide, Option.some_or]
    obtain ⟨x, hx, hx'⟩ : ∃ x, (conName a).head? = some x ∧ x ≠ 's' := by
      cases a
      · exact ⟨'C', by decide, by decide⟩
      · exact ⟨'N', by decide, by decide⟩
      · exact ⟨'H', by decide, by decide⟩
      · exact ⟨'N', by decide, by decide⟩
    rw [g'] at h0
    simp only [List.head?_append, hx, Option.some_or, Option.some.injEq] at h0
    exact hx' h0

/-- **C178** for `HOSVD`: the model with the text is the model without it; the text is empty without a session, the initial
line if the run raises, and otherwise that line and one with the loss to six digits. -/
theorem C178_hosvd (run : S → Res ((F × K × X) × PyFloat)) (fresh : Res S) (self : Self F K X) :
    (hosvdSays run fresh self).1 = HOSVD.train (fun s => (run s).map Prod.fst) fresh self ∧
    (∀ e, fresh = .error e → (hosvdSays run fresh self).2 = []) ∧
    ∀ s, fresh = .ok s →
      (∀ e, run s = .error e → (hosvdSays run fresh self).2 = onLines [startText "HOSVD".toList]) ∧
      ∀ q v, run s = .ok (q, v) → ∃ t, ShowsTo 6 t v ∧ (hosvdSays run fresh self).2 =
        onLines [startText "HOSVD".toList, "HOSVD model train finish, with RMSE = ".toList ++ t] := by
  refine ⟨?_, ?_, ?_⟩
  · cases fresh with
    | error e => rfl
    | ok s =>
      unfold hosvdSays HOSVD.train
      cases h : run s with
      | error e => simp [h, Except.map]
      | ok q => simp [h, Except.map]
  · rintro e rfl; rfl
  · rintro s rfl
    refine ⟨fun e h => ?_, fun q v h => ⟨fmt6 v, fmt6_shows v, ?_⟩⟩
    · unfold hosvdSays; simp only [h]; rfl
    · unfold hosvdSays; simp only [h]; simp [onLines, startText]

/-- An arithmetic for the examples: nothing is smaller than anything. -/
def dullArith : Arith PyFloat :=
  { one := .fin false 1, add := fun x _ => x, sub := fun x _ => x, div := fun x _ => x, abs := id, lt := fun _ _ => false }

/-- C178 in a case: three steps of `CP_ALS` reported at steps 1 and 3, with errors 1/2, 1/4, 1/8. -/
example : String.ofList (trainSays .cp dullArith
    (CP_ALS.cls fun s : Nat => .ok (s + 1, ⟨(), some (), (), .fin false (1 / 2 ^ (s + 1)), .nan, .fin false (1 / 2 ^ (s + 1))⟩))
    { tol := .nan, validationInternal := -1, verbose := false } 3 (.ok 0) {}).2 =
    "CP model initial finish\nstep=1, RMSE=0.5000000000, relerr=0.5000000000\n" ++
    "step=3, RMSE=0.1250000000, relerr=0.1250000000\nCP model train finish, in 3 steps, with RMSE = 0.1250000000\n" := by
  decide +kernel

/-- And one that raises: the second step fails, so only the initial line and the line of step 1 are printed. -/
example : String.ofList (trainSays .ncp dullArith
    (NCP_BCU.cls (fun s : Nat => if s = 0 then .ok (1, ⟨(), none, (), .fin false 2, .nan, .fin true 1⟩) else
      .error .invalidArgument) .ok .ok ())
    { tol := .nan, validationInternal := 1, verbose := false } 3 (.ok 0) {}).2 =
    "Non-Negative CP model initial finish\nstep=1, RMSE=2.0000000000, relerr=-1.0000000000\n" := by
  decide +kernel

/-- C178 for `HOSVD` in a case. -/
example : String.ofList (hosvdSays (fun _ : Nat => .ok (((), (), ()), .fin false (1 / 3))) (.ok 0) {}).2 =
    "HOSVD model initial finish\nHOSVD model train finish, with RMSE = 0.333333\n" := by
  decide +kernel

end TD.Props
