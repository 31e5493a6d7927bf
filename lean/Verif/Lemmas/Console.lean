import Verif.Model.Console
import Verif.Spec.Console
import Verif.Lemmas.Experiment
import Verif.Lemmas.Train

/-!
# Lemmas about what a training prints
-/
namespace TD.fact
open TD ex Spec

variable {S F K X : Type}

/-- The text so far, for the events and the history so far. -/
structure Told (a : Alg) (l : Loc S F K X PyFloat) (k : Con) : Prop where
  text : ∃ ls, k.text = onLines (startText (conName a) :: ls) ∧ StepTexts ls l.events l.hist

/-- Before iteration `n + 1`. -/
structure Telling (a : Alg) (n : Nat) (l : Loc S F K X PyFloat) (k : Con) : Prop extends Told a l k where
  len : l.hist.length = n
  obj : n = 0 ∨ l.obj0.isSome
  vars : n ≠ 0 → k.step = some (n : Int) ∧ k.lossV = l.hist.getLast?.map Prod.fst

theorem intText_numeral (n : Nat) : Numeral (intText n) n := by
  have : intText (n : Int) = Nat.toDigits 10 n := by
    unfold intText
    simp [sign]
  rw [this]
  exact ⟨digits_toDigits n, digitsVal_toDigits n⟩

theorem stepLine_text (n : Nat) (p : PyFloat × PyFloat) :
    ∃ l, stepLine ((n : Int) + 1) p = l ++ ['\n'] ∧ StepText l (n + 1) p :=
  ⟨_, rfl, _, _, _, rfl, by exact_mod_cast intText_numeral (n + 1), fmt10_shows _, fmt10_shows _⟩

theorem stepTexts_append {ls : List (List Char)} {ev : List Int} {hist : List (PyFloat × PyFloat)} (h : StepTexts ls ev hist)
    (p : PyFloat × PyFloat) : StepTexts ls ev (hist ++ [p]) :=
  h.imp fun l e ⟨j, q, e1, e2, e3⟩ => ⟨j, q, e1, by
    rw [List.getElem?_append_left (List.getElem?_eq_some_iff.1 e2).1]; exact e2, e3⟩

theorem bodySays_spec {a : Alg} {A : Arith PyFloat} {c : Cls S F K X PyFloat} {args : Args PyFloat} {steps : Int} {n : Nat}
    {l : Loc S F K X PyFloat} {k : Con} (h : Telling a n l k) :
    ∃ k', bodySays A c args steps ((n : Int) + 1) l k =
        ((body A c args steps ((n : Int) + 1) l).1, k', (body A c args steps ((n : Int) + 1) l).2) ∧
      Told a (body A c args steps ((n : Int) + 1) l).1 k' ∧
      ∀ b, (body A c args steps ((n : Int) + 1) l).2 = .ok b →
        Telling a (n + 1) (body A c args steps ((n : Int) + 1) l).1 k' := by
  obtain ⟨⟨ls, ht, hl⟩⟩ := h.toTold
  unfold bodySays body
  have hcore : (coreRun c l).1.events = l.events ∧ (coreRun c l).1.hist = l.hist ∧ (coreRun c l).1.obj0 = l.obj0 := by
    unfold coreRun
    split
    · exact ⟨rfl, rfl, rfl⟩
    · split <;> exact ⟨rfl, rfl, rfl⟩
  cases hc : coreRun c l with
  | mk l1 e =>
  rw [hc] at hcore
  obtain ⟨c1, c2, c3⟩ := hcore
  simp only at c1 c2 c3
  have told1 : ∀ k' : Con, k'.text = k.text → Told a l1 k' := fun k' hk => ⟨ls, hk.trans ht, by rw [c1, c2]; exact hl⟩
  cases e with
  | some e => exact ⟨_, rfl, told1 _ rfl, fun b hb => by cases hb⟩
  | none =>
  simp only
  cases hr : reported args steps ((n : Int) + 1) with
  | error e => exact ⟨_, rfl, told1 _ rfl, fun b hb => by cases hb⟩
  | ok rep =>
  simp only
  cases hm : mainRun c rep ((n : Int) + 1) l1 with
  | error e => exact ⟨_, rfl, told1 _ rfl, fun b hb => by cases hb⟩
  | ok q =>
  obtain ⟨l2, o⟩ := q
  have hmain : l2.events = (if rep then l1.events ++ [(n : Int) + 1] else l1.events) ∧ l2.hist = l1.hist ∧ l2.obj0 = l1.obj0 := by
    unfold mainRun at hm
    split at hm
    · cases hm
    · cases hm; exact ⟨rfl, rfl, rfl⟩
  obtain ⟨m1, m2, m3⟩ := hmain
  -- the text after the run, with the entry appended to the history
  have htext : ∃ ls', (if rep then k.text ++ stepLine ((n : Int) + 1) (o.loss, o.rel) else k.text) =
      onLines (startText (conName a) :: ls') ∧ StepTexts ls' l2.events (l2.hist ++ [(o.loss, o.rel)]) := by
    cases rep with
    | false => exact ⟨ls, ht, by rw [m1, m2, c1, c2]; exact stepTexts_append hl _⟩
    | true =>
      obtain ⟨t, t1, t2⟩ := stepLine_text n (o.loss, o.rel)
      refine ⟨ls ++ [t], ?_, ?_⟩
      · rw [if_pos rfl, ht, t1]; simp [onLines]
      · rw [m1, m2, c1, c2, if_pos rfl]
        refine List.rel_append (stepTexts_append hl _) (.cons ⟨n, _, rfl, ?_, t2⟩ .nil)
        rw [List.getElem?_append_right (by rw [h.len]), h.len]; simp
  have hj : ∃ l3 obj0 b, judge A args.tol ((n : Int) + 1) l2 o = .ok (l3, obj0, b) ∧ l3.events = l2.events ∧
      l3.hist = l2.hist ++ [(o.loss, o.rel)] ∧ l3.obj0.isSome := by
    unfold judge
    by_cases h0 : n = 0
    · subst h0
      exact ⟨_, _, _, rfl, rfl, rfl, rfl⟩
    · have hne : ¬ ((n : Int) + 1 = 1) := by omega
      obtain ⟨v, hv⟩ := Option.isSome_iff_exists.1 (h.obj.resolve_left h0)
      simp only [hne, if_false, m3, c3, hv]
      exact ⟨_, _, _, rfl, rfl, rfl, rfl⟩
  obtain ⟨l3, obj0, b, j1, j2, j3, j4⟩ := hj
  simp only [j1]
  have tell : ∀ l4 : Loc S F K X PyFloat, l4.events = l3.events → l4.hist = l3.hist → l4.obj0.isSome → ∀ k' : Con,
      k'.text = (if rep then k.text ++ stepLine ((n : Int) + 1) (o.loss, o.rel) else k.text) →
      k'.step = some ((n : Int) + 1) → k'.lossV = some o.loss → Telling a (n + 1) l4 k' := by
    intro l4 e1 e2 e3 k' e4 e5 e6
    obtain ⟨ls', t1, t2⟩ := htext
    refine ⟨⟨ls', e4.trans t1, ?_⟩, ?_, Or.inr e3, fun _ => ⟨by rw [e5]; push_cast; rfl, ?_⟩⟩
    · rw [e1, e2, j2, j3]; exact t2
    · rw [e2, j3, List.length_append, m2, c2, h.len]; rfl
    · rw [e6, e2, j3]; simp
  cases b with
  | true => exact ⟨_, rfl, (tell l3 rfl rfl j4 _ rfl rfl rfl).toTold, fun b _ => tell l3 rfl rfl j4 _ rfl rfl rfl⟩
  | false =>
  simp only
  have hafter : (after A c o obj0 l3).1.events = l3.events ∧ (after A c o obj0 l3).1.hist = l3.hist ∧
      (after A c o obj0 l3).1.obj0.isSome := by
    unfold after
    split
    · exact ⟨rfl, rfl, j4⟩
    · split
      · split
        · exact ⟨rfl, rfl, j4⟩
        · exact ⟨rfl, rfl, rfl⟩
      · split <;> exact ⟨rfl, rfl, j4⟩
  cases hb : after A c o obj0 l3 with
  | mk l4 e =>
  rw [hb] at hafter
  obtain ⟨a1, a2, a3⟩ := hafter
  cases e with
  | some e => exact ⟨_, rfl, (tell l4 a1 a2 a3 _ rfl rfl rfl).toTold, fun b hb => by cases hb⟩
  | none => exact ⟨_, rfl, (tell l4 a1 a2 a3 _ rfl rfl rfl).toTold, fun b _ => tell l4 a1 a2 a3 _ rfl rfl rfl⟩

theorem loopSays_spec {a : Alg} {A : Arith PyFloat} {c : Cls S F K X PyFloat} {args : Args PyFloat} {steps : Int} :
    ∀ (m n : Nat) {l : Loc S F K X PyFloat} {k : Con}, Telling a n l k →
    ∃ k', loopSays A c args steps m ((n : Int) + 1) l k =
        ((loop A c args steps m ((n : Int) + 1) l).1, k', (loop A c args steps m ((n : Int) + 1) l).2) ∧
      Told a (loop A c args steps m ((n : Int) + 1) l).1 k' ∧
      ((loop A c args steps m ((n : Int) + 1) l).2 = none →
        ∃ n', (n' ≠ 0 ↔ m ≠ 0 ∨ n ≠ 0) ∧ Telling a n' (loop A c args steps m ((n : Int) + 1) l).1 k') := by
  intro m
  induction m with
  | zero => exact fun n l k h => ⟨k, rfl, h.toTold, fun _ => ⟨n, by simp, h⟩⟩
  | succ m ih =>
    intro n l k h
    obtain ⟨k', e1, e2, e3⟩ := bodySays_spec (A := A) (c := c) (args := args) (steps := steps) h
    unfold loopSays loop
    rw [e1]
    cases hb : body A c args steps ((n : Int) + 1) l with
    | mk l' r =>
    rw [hb] at e2 e3
    cases r with
    | error e => exact ⟨k', rfl, e2, fun h => by cases h⟩
    | ok b =>
      cases b with
      | true => exact ⟨k', rfl, e2, fun _ => ⟨n + 1, by simp, e3 true rfl⟩⟩
      | false =>
        obtain ⟨k'', f1, f2, f3⟩ := ih (n + 1) (e3 false rfl)
        push_cast at f1 f2 f3
        refine ⟨k'', f1, f2, fun h => ?_⟩
        obtain ⟨n', g1, g2⟩ := f3 h
        exact ⟨n', by simpa using g1, g2⟩

end TD.fact
