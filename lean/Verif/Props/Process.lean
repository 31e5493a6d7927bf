import Verif.Spec.Process

/-!
# C94: several models in one process
-/
namespace TD.Props
open TD fact process
variable {S F K X R : Type}

/-- The two processes look the same to object `i`; `n g` models have been built in graph `g`. -/
structure Alike (i : Nat) (p q : Process S F K X R) (n : Nat → Nat) : Prop where
  cur : p.cur = q.cur
  self : p.self i = q.self i
  out : outcomes i p = outcomes i q
  model : (p.model i = none ∧ q.model i = none) ∨ ∃ b b', p.model i = some b ∧ q.model i = some b' ∧ b.graph = b'.graph ∧
    b.plan = b'.plan ∧ (p.summaries b.graph).all (· == b.placeholder) ∧ (q.summaries b.graph).all (· == b'.placeholder) ∧
    1 ≤ n b.graph
  empty : ∀ g, n g = 0 → p.summaries g = [] ∧ q.summaries g = []

theorem Alike.train {i : Nat} {p q : Process S F K X R} {n : Nat → Nat} (h : Alike i p q n) (A : Arith R) (steps : Int)
    (fresh : Res S) : p.train A i steps fresh = q.train A i steps fresh := by
  unfold Process.train
  rcases h.model with ⟨h1, h2⟩ | ⟨b, b', h1, h2, h3, h4, h5, h6, -⟩
  · rw [h1, h2, h.self]
  · rw [h1, h2]
    simp only [← h3, ← h4, ← h.cur, h.self]
    split
    · rfl
    · rename_i hg
      have hg' : b.graph = p.cur := not_not.1 hg
      rw [if_pos (by rw [← hg']; exact h5), if_pos (by rw [← hg']; exact h6)]

theorem outcomes_append (i : Nat) (l : List (Nat × List Int × Res (Option (List (R × R))))) (j : Nat)
    (o : List Int × Res (Option (List (R × R)))) :
    ((l ++ [(j, o)]).filter fun o => o.1 == i).map Prod.snd =
      (l.filter fun o => o.1 == i).map Prod.snd ++ if j = i then [o] else [] := by
  rw [List.filter_append, List.map_append]
  congr 1
  by_cases hj : j = i
  · simp [hj]
  · simp [hj]

theorem alike_run (A : Arith R) (i : Nat) : ∀ (h : List (Call S F K X R)) (p q : Process S F K X R) (n : Nat → Nat),
    Alike i p q n → (∀ g, n g + buildsFrom p.cur h g ≤ 1) →
    ∃ n', Alike i (h.foldl (Process.step A) p) ((h.filter (concerns i)).foldl (Process.step A) q) n' := by
  intro h
  induction h with
  | nil => intro p q n ha _; exact ⟨n, ha⟩
  | cons c h ih =>
      intro p q n ha hn
      cases c with
      | enter g =>
          rw [List.filter_cons_of_pos rfl, List.foldl_cons, List.foldl_cons]
          exact ih _ _ n ⟨rfl, ha.self, ha.out, ha.model, ha.empty⟩ hn
      | train j steps fresh =>
          by_cases hj : j = i
          · subst hj
            rw [List.filter_cons_of_pos (by simp [concerns]), List.foldl_cons, List.foldl_cons]
            refine ih _ _ n ⟨ha.cur, ?_, ?_, ha.model, ha.empty⟩ hn
            · simp only [Process.step, Function.update_self, ha.train]
            · have := ha.out
              unfold outcomes at this ⊢
              simp only [Process.step, outcomes_append, this, ha.train]
          · rw [List.filter_cons_of_neg (by simp [concerns, hj]), List.foldl_cons]
            refine ih _ _ n ⟨ha.cur, ?_, ?_, ha.model, ha.empty⟩ hn
            · simp only [Process.step, Function.update_of_ne (Ne.symm hj), ha.self]
            · have := ha.out
              unfold outcomes at this ⊢
              simp only [Process.step, outcomes_append, this, if_neg hj, List.append_nil]
      | build j plan =>
          have hcur : n p.cur = 0 := by
            have := hn p.cur
            simp only [buildsFrom, if_true] at this
            omega
          obtain ⟨e1, e2⟩ := ha.empty _ hcur
          have hne : ∀ b, 1 ≤ n b → b ≠ p.cur := by rintro b h1 rfl; omega
          have hn' : ∀ g, Function.update n p.cur 1 g + buildsFrom p.cur h g ≤ 1 := by
            intro g
            have := hn g
            simp only [buildsFrom] at this
            by_cases hg : g = p.cur
            · subst hg; rw [Function.update_self]; rw [if_pos rfl] at this; omega
            · rw [Function.update_of_ne hg]; rw [if_neg (Ne.symm hg)] at this; omega
          have hem : ∀ g, Function.update n p.cur 1 g = 0 → g ≠ p.cur ∧ n g = 0 := by
            intro g hg
            by_cases hgc : g = p.cur
            · subst hgc; rw [Function.update_self] at hg; omega
            · rw [Function.update_of_ne hgc] at hg; exact ⟨hgc, hg⟩
          by_cases hj : j = i
          · subst hj
            rw [List.filter_cons_of_pos (by simp [concerns]), List.foldl_cons, List.foldl_cons]
            refine ih _ _ (Function.update n p.cur 1) ⟨ha.cur, ha.self, ha.out, 
              Or.inr ⟨⟨p.cur, p.next, plan⟩, ⟨q.cur, q.next, plan⟩, ?_, ?_, ?_, ?_, ?_, ?_, ?_⟩, ?_⟩ hn'
            · exact Function.update_self ..
            · exact Function.update_self ..
            · exact ha.cur
            · rfl
            · simp [Process.step, e1]
            · simp only [Process.step, ← ha.cur, Function.update_self, e2]
              simp
            · simp
            · intro g hg
              obtain ⟨h1, h2⟩ := hem g hg
              obtain ⟨h3, h4⟩ := ha.empty g h2
              simp only [Process.step, ← ha.cur, Function.update_of_ne h1]
              exact ⟨h3, h4⟩
          · rw [List.filter_cons_of_neg (by simp [concerns, hj]), List.foldl_cons]
            refine ih _ _ (Function.update n p.cur 1) ⟨ha.cur, ha.self, ha.out, ?_, ?_⟩ hn'
            · rcases ha.model with ⟨h1, h2⟩ | ⟨b, b', h1, h2, h3, h4, h5, h6, h7⟩
              · refine Or.inl ⟨?_, h2⟩
                simp only [Process.step, Function.update_of_ne (Ne.symm hj), h1]
              · refine Or.inr ⟨b, b', ?_, h2, h3, h4, ?_, h6, ?_⟩
                · simp only [Process.step, Function.update_of_ne (Ne.symm hj), h1]
                · simp only [Process.step, Function.update_of_ne (hne _ h7)]
                  exact h5
                · rw [Function.update_of_ne (hne _ h7)]
                  exact h7
            · intro g hg
              obtain ⟨h1, h2⟩ := hem g hg
              obtain ⟨h3, h4⟩ := ha.empty g h2
              simp only [Process.step, Function.update_of_ne h1]
              exact ⟨h3, h4⟩

/-- **C94** (part): in a process in which no graph holds two models, the attributes of every object and the outcomes
of all its trainings are those of a process with that object alone, whatever the order of all the calls. -/
theorem C94_own_graphs_partial (A : Arith R) (h : List (Call S F K X R)) (hh : OneModelPerGraph h) (i : Nat) :
    (run A h).self i = (run A (h.filter (concerns i))).self i ∧
      outcomes i (run A h) = outcomes i (run A (h.filter (concerns i))) := by
  obtain ⟨n, h1⟩ := alike_run A i h {} {} (fun _ => 0) ⟨rfl, rfl, rfl, Or.inl ⟨rfl, rfl⟩, fun _ _ => ⟨rfl, rfl⟩⟩
    (fun g => by rw [Nat.zero_add]; exact hh g)
  exact ⟨h1.self, h1.out⟩

theorem summaries_empty (A : Arith R) (g : Nat) : ∀ (h : List (Call S F K X R)) (p : Process S F K X R),
    buildsFrom p.cur h g = 0 → p.summaries g = [] → (h.foldl (Process.step A) p).summaries g = [] := by
  intro h
  induction h with
  | nil => intro p _ h; exact h
  | cons c h ih =>
      intro p hb hs
      rw [List.foldl_cons]
      cases c with
      | enter g' => exact ih _ hb hs
      | train j n f => exact ih _ hb hs
      | build j plan =>
          simp only [buildsFrom] at hb
          by_cases hg : p.cur = g
          · rw [if_pos hg] at hb; omega
          · rw [if_neg hg, Nat.zero_add] at hb
            refine ih _ hb ?_
            simp only [Process.step, Function.update_of_ne (Ne.symm hg), hs]

/-- A model alone in its graph, trained while that graph is the default one, is trained as if nothing else existed. -/
theorem C94_alone_partial (A : Arith R) (h : List (Call S F K X R)) (g i : Nat) (plan : Plan S F K X R) (n : Int)
    (fresh : Res S) (hg : buildsFrom 0 h g = 0) :
    (run A (h ++ [.enter g, .build i plan, .train i n fresh])).self i = (alone A plan n fresh ((run A h).self i)).1 ∧
      (run A (h ++ [.enter g, .build i plan, .train i n fresh])).out =
        (run A h).out ++ [(i, (alone A plan n fresh ((run A h).self i)).2)] := by
  have e := summaries_empty A g h {} hg rfl
  unfold run
  rw [List.foldl_append]
  set p := h.foldl (Process.step A) {} with hp
  simp [Process.step, Process.train, e]

/-- What such a training of the iterative classes leaves and reports: `train` of the class, on the attributes so far. -/
theorem C94_alone_loop_partial (A : Arith R) (h : List (Call S F K X R)) (g i : Nat) (c : Cls S F K X R) (args : Args R) (n : Int)
    (fresh : Res S) (hg : buildsFrom 0 h g = 0) :
    (run A (h ++ [.enter g, .build i (.loop c args), .train i n fresh])).self i = (fact.train A c args n fresh ((run A h).self i)).1 ∧
      (run A (h ++ [.enter g, .build i (.loop c args), .train i n fresh])).out =
        (run A h).out ++ [(i, (fact.train A c args n fresh ((run A h).self i)).2.1,
          (fact.train A c args n fresh ((run A h).self i)).2.2.map some)] := C94_alone_partial A h g i _ n fresh hg

/-- And of `HOSVD`: a run that returns sets the attributes to its values and reports one step; one that raises leaves the
attributes, resets the flag and reports nothing. -/
theorem C94_alone_hosvd_partial (A : Arith R) (h : List (Call S F K X R)) (g i : Nat) (once : S → Res (F × K × X)) (n : Int)
    (s : S) (hg : buildsFrom 0 h g = 0) :
    (∀ f k x, once s = .ok (f, k, x) →
      (run A (h ++ [.enter g, .build i (.once once), .train i n (.ok s)])).self i = ⟨some x, some f, some k, true⟩ ∧
      (run A (h ++ [.enter g, .build i (.once once), .train i n (.ok s)])).out = (run A h).out ++ [(i, [1], .ok none)]) ∧
    (∀ e, once s = .error e →
      (run A (h ++ [.enter g, .build i (.once once), .train i n (.ok s)])).self i = { (run A h).self i with finish := false } ∧
      (run A (h ++ [.enter g, .build i (.once once), .train i n (.ok s)])).out = (run A h).out ++ [(i, [], .error e)]) := by
  obtain ⟨h1, h2⟩ := C94_alone_partial A h g i (.once once) n (.ok s) hg
  rw [h1, h2]
  constructor
  · intro f k x e
    simp [alone, HOSVD.train, e, Except.isOk, Except.toBool, Except.map]
  · intro er e
    simp [alone, HOSVD.train, e, Except.isOk, Except.toBool, Except.map]

theorem unfed_fails (A : Arith R) (plan : Plan S F K X R) (n : Int) (fresh : Res S) (self : Self F K X) :
    ∃ e, (alone A (unfed plan) n fresh self).2.2 = .error e := by
  cases plan with
  | once run =>
      unfold alone unfed HOSVD.train
      cases fresh with
      | error e => exact ⟨e, rfl⟩
      | ok s => exact ⟨_, rfl⟩
  | loop c args =>
      unfold alone unfed
      simp only
      unfold fact.train
      cases fresh with
      | error e => exact ⟨e, rfl⟩
      | ok s =>
          simp only
          by_cases hn : n < 1
          · have : n.toNat = 0 := by omega
            rw [this]
            simp only [loop, if_pos hn]
            exact ⟨_, rfl⟩
          · obtain ⟨k, hk⟩ : ∃ k, n.toNat = k + 1 := ⟨n.toNat - 1, by omega⟩
            rw [hk, loop]
            generalize ({ sess := s, self := _ } : Loc S F K X R) = l
            unfold body
            rcases coreRun _ l with ⟨l1, e1⟩
            cases e1 with
            | some e => exact ⟨e, rfl⟩
            | none =>
                have hr : ∃ r, reported args n 1 = .ok r := by
                  unfold reported
                  split
                  · exact ⟨_, rfl⟩
                  · split
                    · exact ⟨_, rfl⟩
                    · exact ⟨_, rfl⟩
                obtain ⟨r, hr⟩ := hr
                simp only [hr, mainRun]
                exact ⟨_, rfl⟩

/-- **C94** is false of the code: after two calls of `build_model` in the same graph, on two objects or on the same
one, `train` of either raises, whatever happened before and however many steps are asked for. -/
theorem C94_second_model_false (A : Arith R) (h : List (Call S F K X R)) (i j : Nat) (P Q : Plan S F K X R) (n : Int)
    (fresh : Res S) :
    (∃ e, ((run A (h ++ [.build i P, .build j Q])).train A i n fresh).2.2 = .error e) ∧
      ∃ e, ((run A (h ++ [.build i P, .build j Q])).train A j n fresh).2.2 = .error e := by
  unfold run
  rw [List.foldl_append]
  set p := h.foldl (Process.step A) {} with hp
  have key : ∀ (k ph : Nat) (W : Plan S F K X R), (ph = p.next ∨ ph = p.next + 1) →
      ((p.step A (.build i P)).step A (.build j Q)).model k = some ⟨p.cur, ph, W⟩ →
      ∃ e, (((p.step A (.build i P)).step A (.build j Q)).train A k n fresh).2.2 = .error e := by
    intro k ph W hph hm
    unfold Process.train
    rw [hm]
    simp only [Process.step, ne_eq, not_true_eq_false, if_false, Function.update_self]
    rw [if_neg]
    · exact unfed_fails ..
    · simp only [List.all_append, List.all_cons, List.all_nil, Bool.and_true, Bool.and_eq_true, beq_iff_eq, not_and]
      intro h1 h2
      omega
  simp only [List.foldl_cons, List.foldl_nil]
  constructor
  · by_cases hij : i = j
    · subst hij
      exact key i (p.next + 1) Q (Or.inr rfl) (by simp [Process.step])
    · exact key i p.next P (Or.inl rfl) (by simp [Process.step, hij])
  · exact key j (p.next + 1) Q (Or.inr rfl) (by simp [Process.step])

/-! ### The hypotheses can be met -/

/-- Integers. -/
def intArith : Arith Int := ⟨1, (· + ·), (· - ·), (· / ·), fun x => x.natAbs, fun a b => decide (a < b)⟩

/-- A model whose main run always returns. -/
def quiet : Plan Unit Unit Unit Unit Int := .loop { main := fun _ => .ok ((), ⟨(), none, (), 5, 5, 5⟩) } { tol := 1 }

example : OneModelPerGraph [.enter 1, .build 0 quiet, .enter 2, .build 1 quiet, .train 1 2 (.ok ()), .enter 1,
    .train 0 3 (.ok ())] := by
  intro g
  simp only [buildsFrom]
  split <;> split <;> omega

/-- Trained alone, or in a graph of its own, this model returns a history; in a shared graph it raises. -/
theorem C94_independent_false : ¬ ∀ (h : List (Call Unit Unit Unit Unit Int)) (i : Nat),
    outcomes i (run intArith h) = outcomes i (run intArith (h.filter (concerns i))) := by
  intro H
  have := H [.build 0 quiet, .build 1 quiet, .train 1 2 (.ok ())] 1
  revert this
  decide +kernel

theorem never_built (A : Arith R) (i : Nat) : ∀ (h : List (Call S F K X R)) (p : Process S F K X R),
    (∀ plan, Call.build i plan ∉ h) → p.model i = none → p.self i = {} →
    (h.foldl (Process.step A) p).model i = none ∧ (h.foldl (Process.step A) p).self i = {} := by
  intro h
  induction h with
  | nil => intro p _ h1 h2; exact ⟨h1, h2⟩
  | cons c h ih =>
      intro p hb h1 h2
      rw [List.foldl_cons]
      refine ih _ (fun plan hm => hb plan (List.mem_cons_of_mem _ hm)) ?_ ?_
      · cases c with
        | enter g => exact h1
        | build j plan =>
            have hne : i ≠ j := fun e => hb plan (by rw [e]; exact List.mem_cons_self)
            simp only [Process.step, Function.update_of_ne hne, h1]
        | train j n fresh => exact h1
      · cases c with
        | enter g => exact h2
        | build j plan => exact h2
        | train j n fresh =>
            by_cases e : i = j
            · subst e
              simp only [Process.step, Function.update_self, Process.train, h1, h2]
            · simp only [Process.step, Function.update_of_ne e, h2]

/-- **C94**, calls in the wrong order: whatever else the program did, training a model that was never built raises
`TypeError`, executes no step and leaves the object without factors and full tensor, as it was constructed. -/
theorem C94_never_built (A : Arith R) (h : List (Call S F K X R)) (i : Nat) (hb : ∀ plan, Call.build i plan ∉ h) (n : Int)
    (fresh : Res S) : (run A h).train A i n fresh = ({}, [], .error .typeError) := by
  obtain ⟨h1, h2⟩ := never_built A i h {} hb rfl rfl
  unfold Process.train
  rw [show (run A h).model i = none from h1, show (run A h).self i = {} from h2]

example : ∀ plan, Call.build 1 plan ∉ [(Call.enter 3 : Call Unit Unit Unit Unit Int), .build 0 quiet, .train 1 2 (.ok ())] := by
  intro plan h
  simp at h

end TD.Props
