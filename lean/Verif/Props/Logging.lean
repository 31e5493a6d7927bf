import Verif.Model.Logging
import Mathlib.Data.List.Infix
import Mathlib.Tactic

/-!
# C161: the loggers of the library

Which messages `create_logger`'s loggers write and where, and what importing the module does to the loggers of the application.
-/
namespace TD.Props
open TD TD.logging

theorem log_get_set (s : State) (n m : Name) (l : Logger) : (s.set n l).get m = if m = n then some l else s.get m := by
  unfold State.set State.get
  by_cases hn : n = [] <;> by_cases hm : m = [] <;> by_cases h : m = n <;> simp_all [Function.update]

theorem log_get_getLogger (s : State) (n m : Name) :
    (getLogger s n).get m = if m = n then some ((s.get n).getD Logger.new) else s.get m := by
  unfold getLogger
  cases h : s.get n with
  | some l => by_cases e : m = n <;> simp [e, h]
  | none => simp only [log_get_set, Option.getD_none]

theorem log_get_create (s : State) (n m : Name) :
    (createLogger s n).get m = if m = n then some { (s.get n).getD Logger.new with level := ERROR } else s.get m := by
  unfold createLogger
  simp only [log_get_getLogger, if_true, log_get_set]
  split <;> rfl

/-- A logger after any calls: its level is `ERROR` if it was named in `create_logger`, nothing else changes. -/
theorem log_get_fold (ops : List Op) : ∀ (s : State) (n : Name), (ops.foldl step s).get n =
    if Op.create n ∈ ops then some { (s.get n).getD Logger.new with level := ERROR }
    else if Op.get n ∈ ops then some ((s.get n).getD Logger.new) else s.get n := by
  induction ops with
  | nil => intro s n; simp
  | cons op ops ih =>
    intro s n
    rw [List.foldl_cons, ih]
    cases op with
    | create m =>
      simp only [step, log_get_create, List.mem_cons, Op.create.injEq, reduceCtorEq, false_or]
      by_cases e : n = m <;> by_cases h : Op.create n ∈ ops <;> by_cases h' : Op.get n ∈ ops <;> simp [e, h, h']
    | get m =>
      simp only [step, log_get_getLogger, List.mem_cons, Op.get.injEq, reduceCtorEq, false_or]
      by_cases e : n = m <;> by_cases h : Op.create n ∈ ops <;> by_cases h' : Op.get n ∈ ops <;> simp [e, h, h']

theorem log_chain_one (s : State) (a : String) : chain s [a] = (s.get [a]).toList ++ [s.root] := by
  have : chain s [a] = [[a], []].filterMap s.get := rfl
  rw [this, List.filterMap_cons, List.filterMap_cons]
  cases s.get [a] <;> rfl

/-- **C161**, what is true of `create_logger`: whatever loggers the application had and whatever loggers are created before and after, the
loggers 'DEBUG' and 'RELEASE' write a message of level `ERROR` or above exactly once, to standard output, and no other message.
Missing: 'DEBUG' drops the messages its name promises, see `C161_debug_false`. -/
theorem C161_written_partial (s : State) (ops : List Op) (n : Name) (hn : n = ["DEBUG"] ∨ n = ["RELEASE"])
    (hc : Op.create n ∈ ops) (v : Nat) : emit (run s ops) n v = if ERROR ≤ v then ["stdout"] else [] := by
  have hg : (run s ops).get n = some ⟨ERROR, [⟨DEBUG, "stdout"⟩], false, false⟩ := by
    rw [run, log_get_fold, if_pos hc]
    rcases hn with rfl | rfl <;> simp [State.get, fileConfig]
  have hch : chain (run s ops) n = [⟨ERROR, [⟨DEBUG, "stdout"⟩], false, false⟩, (run s ops).root] := by
    rcases hn with rfl | rfl <;> rw [log_chain_one, hg] <;> rfl
  unfold emit
  rw [hg, hch]
  by_cases h : ERROR ≤ v
  · have h' : ¬ v < ERROR := by omega
    have h2 : DEBUG ≤ v := by unfold DEBUG ERROR at *; omega
    simp [effectiveLevel, handlersOf, h, h', h2, show ERROR ≠ 0 by decide]
  · have h' : v < ERROR := by omega
    simp [effectiveLevel, h, h', show ERROR ≠ 0 by decide]

/-- **C161** is false of `create_logger('DEBUG')`: no message below `ERROR` - so no debug message, information or warning - is ever
written by it, although the configuration, before the call, lets the logger 'DEBUG' write them all. -/
theorem C161_debug_false (s : State) (v : Nat) (h1 : DEBUG ≤ v) (h2 : v < ERROR) :
    emit (run s []) ["DEBUG"] v = ["stdout"] ∧ emit (run s [.create ["DEBUG"]]) ["DEBUG"] v = [] := by
  constructor
  · have hg : (run s []).get ["DEBUG"] = some ⟨DEBUG, [⟨DEBUG, "stdout"⟩], false, false⟩ := by
      simp [run, State.get, fileConfig]
    unfold emit
    rw [log_chain_one, hg]
    simp [effectiveLevel, handlersOf, h1, show DEBUG ≠ 0 by decide, show ¬ v < DEBUG by omega]
  · rw [C161_written_partial s _ _ (.inl rfl) (by simp), if_neg (by omega)]

/-- **C161** is false of the application's loggers: importing the module silences every logger that exists at that time, except
the root logger and those below 'DEBUG' and 'RELEASE'; nothing the module offers wakes them, and `create_logger` with the name of
such a logger returns a silent one. -/
theorem C161_silenced (s : State) (n : Name) (l : Logger) (hn : n ≠ []) (hl : s.named n = some l) (hd : n.head? ≠ some "DEBUG")
    (hr : n.head? ≠ some "RELEASE") (ops : List Op) (v : Nat) : emit (run s ops) n v = [] := by
  have h1 : n ≠ ["DEBUG"] := by rintro rfl; exact hd rfl
  have h2 : n ≠ ["RELEASE"] := by rintro rfl; exact hr rfl
  have hf : (fileConfig s).get n = some { l with disabled := true } := by
    simp [State.get, fileConfig, hn, h1, h2, hl, hd, hr]
  have : ∃ l', (run s ops).get n = some l' ∧ l'.disabled = true := by
    rw [run, log_get_fold, hf]
    split_ifs <;> exact ⟨_, rfl, rfl⟩
  obtain ⟨l', e, e'⟩ := this
  unfold emit
  rw [e]
  simp [e']

/-- **C161** is false: there is an application that logs a message before the import and not after it. -/
theorem C161_silenced_false : ∃ (s : State) (n : Name), emit s n ERROR = ["stderr"] ∧ ∀ ops, emit (run s ops) n ERROR = [] := by
  refine ⟨⟨⟨WARNING, [], true, false⟩, fun n => if n = ["app"] then some Logger.new else none⟩, ["app"], by decide, fun ops => ?_⟩
  exact C161_silenced _ _ Logger.new (by decide) (by simp) (by decide) (by decide) ops _

theorem log_effective : ∀ (ls t : List Logger) (L : Nat), L ≠ 0 → (∀ l ∈ ls, l.level = 0 ∨ l.level = L) →
    (∃ l ∈ ls, l.level = L) → effectiveLevel (ls ++ t) = L
  | [], _, _, _, _, ⟨_, hm, _⟩ => absurd hm (by simp)
  | l :: ls, t, L, hL, h, hx => by
    rw [List.cons_append, effectiveLevel]
    rcases h l (by simp) with e | e
    · rw [if_neg (by simp [e])]
      refine log_effective ls t L hL (fun x hx => h x (by simp [hx])) ?_
      obtain ⟨x, hm, e'⟩ := hx
      rcases List.mem_cons.1 hm with rfl | hm
      · omega
      · exact ⟨x, hm, e'⟩
    · rw [if_pos (by omega), e]

theorem log_handlers : ∀ (ls : List Logger) (r : Logger), (∀ l ∈ ls, l.handlers = [] ∧ l.propagate = true) →
    handlersOf (ls ++ [r]) = r.handlers
  | [], r, _ => by simp [handlersOf]
  | l :: ls, r, h => by
    obtain ⟨h1, h2⟩ := h l (by simp)
    rw [List.cons_append, handlersOf, h1, h2, if_pos rfl, List.nil_append]
    exact log_handlers ls r fun x hx => h x (by simp [hx])

/-- **C161** (loggers of the application made after the import): a logger none of whose ancestors existed at the import writes
each message exactly once, to standard error: all of level `DEBUG` or above, or only those of level `ERROR` or above as soon as
`create_logger` was called for it or for a logger above it - in particular with `None`, the root logger. -/
theorem C161_later (s : State) (ops : List Op) (n : Name) (hn : n ≠ []) (hnew : ∀ m, m <+: n → m ≠ [] → s.named m = none)
    (hd : n.head? ≠ some "DEBUG") (hr : n.head? ≠ some "RELEASE") (hc : Op.create n ∈ ops ∨ Op.get n ∈ ops) (v : Nat) :
    ((∃ m, m <+: n ∧ Op.create m ∈ ops) → emit (run s ops) n v = if ERROR ≤ v then ["stderr"] else []) ∧
    ((¬ ∃ m, m <+: n ∧ Op.create m ∈ ops) → emit (run s ops) n v = if DEBUG ≤ v then ["stderr"] else []) := by
  suffices h : ∀ L, (L = ERROR ∧ ∃ m, m <+: n ∧ Op.create m ∈ ops) ∨ (L = DEBUG ∧ ¬ ∃ m, m <+: n ∧ Op.create m ∈ ops) →
      emit (run s ops) n v = if L ≤ v then ["stderr"] else [] from ⟨fun e => h _ (.inl ⟨rfl, e⟩), fun e => h _ (.inr ⟨rfl, e⟩)⟩
  intro L hL
  have hf : ∀ m, m <+: n → m ≠ [] → (run s ops).get m =
      if Op.create m ∈ ops then some { Logger.new with level := ERROR } else if Op.get m ∈ ops then some Logger.new else none := by
    intro m hm hm0
    have hh : m.head? = n.head? := by
      obtain ⟨t, rfl⟩ := hm
      cases m with
      | nil => exact absurd rfl hm0
      | cons a m => rfl
    have h1 : m ≠ ["DEBUG"] := by rintro rfl; exact hd hh.symm
    have h2 : m ≠ ["RELEASE"] := by rintro rfl; exact hr hh.symm
    have : (fileConfig s).get m = none := by simp [State.get, fileConfig, hm0, h1, h2, hnew m hm hm0]
    rw [run, log_get_fold, this]
    rfl
  have hroot : (run s ops).get [] = 
      some ⟨if Op.create [] ∈ ops then ERROR else DEBUG, [⟨DEBUG, "stderr"⟩], s.root.propagate, s.root.disabled⟩ := by
    rw [run, log_get_fold]
    have : (fileConfig s).get [] = some ⟨DEBUG, [⟨DEBUG, "stderr"⟩], s.root.propagate, s.root.disabled⟩ := rfl
    rw [this]
    split_ifs <;> rfl
  generalize hR : (⟨if Op.create [] ∈ ops then ERROR else DEBUG, [⟨DEBUG, "stderr"⟩], s.root.propagate, s.root.disabled⟩ :
    Logger) = R at hroot
  obtain ⟨X, hX, hm⟩ : ∃ X, chain (run s ops) n = X ++ [R] ∧ ∀ l, l ∈ X ↔ ∃ m, m <+: n ∧ m ≠ [] ∧ (run s ops).get m = some l := by
    obtain ⟨a, t, rfl⟩ := List.exists_cons_of_ne_nil hn
    refine ⟨((t.inits.map (List.cons a)).reverse).filterMap (run s ops).get, ?_, fun l => ?_⟩
    · rw [chain, List.inits_cons, List.reverse_cons, List.filterMap_append]
      simp [hroot]
    · simp only [List.mem_filterMap, List.mem_reverse, List.mem_map, List.mem_inits]
      constructor
      · rintro ⟨m, ⟨u, hu, rfl⟩, e⟩
        exact ⟨a :: u, by simpa using hu, by simp, e⟩
      · rintro ⟨m, hp, h0, e⟩
        obtain ⟨b, u, rfl⟩ := List.exists_cons_of_ne_nil h0
        obtain ⟨rfl, hu⟩ := List.cons_prefix_cons.1 hp
        exact ⟨_, ⟨u, hu, rfl⟩, e⟩
  have hall : ∀ l ∈ X, l = Logger.new ∨ l = { Logger.new with level := ERROR } := fun l hl => by
    obtain ⟨m, hp, h0, e⟩ := (hm l).1 hl
    rw [hf m hp h0] at e
    split_ifs at e with h1 h2
    · exact .inr (Option.some.inj e).symm
    · exact .inl (Option.some.inj e).symm
  have hlev : effectiveLevel (X ++ [R]) = L := by
    rcases hL with ⟨rfl, m, hp, hmc⟩ | ⟨rfl, h1⟩
    · by_cases hm0 : m = []
      · subst hm0
        rw [← List.append_nil (X ++ [R])]
        refine log_effective _ _ _ (by decide) (fun l hl => ?_) ⟨R, by simp, by simp [← hR, hmc]⟩
        rcases List.mem_append.1 hl with hl | hl
        · rcases hall l hl with rfl | rfl <;> simp [Logger.new]
        · rw [List.mem_singleton.1 hl, ← hR]; simp [hmc]
      · refine log_effective _ _ _ (by decide) (fun l hl => ?_) ⟨_, (hm _).2 ⟨m, hp, hm0, by rw [hf m hp hm0, if_pos hmc]⟩, rfl⟩
        rcases hall l hl with rfl | rfl <;> simp [Logger.new]
    · have h0 : Op.create [] ∉ ops := fun h => h1 ⟨[], List.nil_prefix, h⟩
      rw [← List.append_nil (X ++ [R])]
      refine log_effective _ _ _ (by decide) (fun l hl => ?_) ⟨R, by simp, by simp [← hR, h0]⟩
      rcases List.mem_append.1 hl with hl | hl
      · obtain ⟨m, hp, hm0, e⟩ := (hm l).1 hl
        rw [hf m hp hm0, if_neg fun h => h1 ⟨m, hp, h⟩] at e
        split_ifs at e
        rw [← Option.some.inj e]; simp [Logger.new]
      · rw [List.mem_singleton.1 hl, ← hR]; simp [h0]
  have hhand : handlersOf (X ++ [R]) = [⟨DEBUG, "stderr"⟩] := by
    rw [log_handlers]
    · rw [← hR]
    · intro l hl
      rcases hall l hl with rfl | rfl <;> simp [Logger.new]
  have hself : ∃ l, (run s ops).get n = some l ∧ l.disabled = false := by
    rw [hf n (List.prefix_refl _) hn]
    split_ifs with h1 h2
    · exact ⟨_, rfl, rfl⟩
    · exact ⟨_, rfl, rfl⟩
    · exact absurd hc (by tauto)
  obtain ⟨l, e, e'⟩ := hself
  unfold emit
  rw [e, hX, hlev, hhand]
  have hge : DEBUG ≤ L := by rcases hL with ⟨rfl, -⟩ | ⟨rfl, -⟩ <;> decide
  by_cases h : L ≤ v
  · simp [e', h, show ¬ v < L by omega, show DEBUG ≤ v by omega]
  · simp [h, show v < L by omega]

/-- The hypotheses are met: an application with a logger of its own, which makes another one after the import. -/
example : let s : State := ⟨⟨WARNING, [], true, false⟩, fun n => if n = ["app"] then some Logger.new else none⟩
    (∀ m, m <+: ["job", "step"] → m ≠ [] → s.named m = none) ∧
    emit (run s [.get ["job", "step"]]) ["job", "step"] DEBUG = ["stderr"] ∧
    emit (run s [.get ["job", "step"], .create []]) ["job", "step"] DEBUG = [] ∧
    emit (run s [.create ["app"], .create ["RELEASE"]]) ["app"] ERROR = [] := by
  refine ⟨fun m hm _ => ?_, by decide, by decide, by decide⟩
  have : m ≠ ["app"] := by
    rintro rfl
    exact absurd hm (by decide)
  simp [this]

end TD.Props
