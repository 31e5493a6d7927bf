import Verif.Lemmas.Graph

/-!
# Graphs in which every read precedes the writes
-/
namespace TD.graph
open TD
variable {ι ν β : Type} [DecidableEq ι] [DecidableEq ν] {G : Graph ι ν β}

/-- A graph whose operations read every variable before it is written. -/
structure ReadsOld (G : Graph ι ν β) (r : ι → Nat) : Prop where
  /-- kernels look at their inputs only -/
  loc : ∀ n ∈ G.nodes, ∀ vals vals' vars vars', (∀ m ∈ G.deps n, vals m = vals' m) →
    (∀ v ∈ G.reads n, vars v = vars' v) → G.kernel n vals vars = G.kernel n vals' vars'
  /-- no cycle -/
  rank : ∀ n ∈ G.nodes, ∀ m ∈ G.deps n, m ∈ G.nodes ∧ r m < r n
  one : ∀ m ∈ G.nodes, ∀ n ∈ G.nodes, ∀ v, G.writes m = some v → G.writes n = some v → m = n
  race : ∀ n ∈ G.nodes, ∀ v ∈ G.reads n, ∀ w ∈ G.nodes, G.writes w = some v → Before G n w

/-- Results of the operations, to depth `d`. -/
def depth (G : Graph ι ν β) (old : ν → β) : Nat → ι → Option β
  | 0, _ => none
  | d + 1, n => if (G.deps n).all fun m => (depth G old d m).isSome then G.kernel n (depth G old d) old else none

omit [DecidableEq ι] [DecidableEq ν] in
theorem ReadsOld.depth_stable {r : ι → Nat} (h : ReadsOld G r) (old : ν → β) :
    ∀ d n, n ∈ G.nodes → r n < d → depth G old (d + 1) n = depth G old d n := by
  intro d
  induction d with
  | zero => intro n _ hn; omega
  | succ d ih =>
      intro n hn hd
      have e : ∀ m ∈ G.deps n, depth G old (d + 1) m = depth G old d m := by
        intro m hm
        obtain ⟨h1, h2⟩ := h.rank n hn m hm
        exact ih m h1 (by omega)
      rw [depth, depth]
      have e1 : ((G.deps n).all fun m => (depth G old (d + 1) m).isSome) =
          (G.deps n).all fun m => (depth G old d m).isSome := by
        rw [Bool.eq_iff_iff]
        simp only [List.all_eq_true]
        exact ⟨fun h m hm => by rw [← e m hm]; exact h m hm, fun h m hm => by rw [e m hm]; exact h m hm⟩
      rw [e1, h.loc n hn _ _ old old e fun _ _ => rfl]

omit [DecidableEq ι] [DecidableEq ν] in
theorem ReadsOld.depth_le {r : ι → Nat} (h : ReadsOld G r) (old : ν → β) {n : ι} (hn : n ∈ G.nodes) {d : Nat}
    (hd : r n < d) : depth G old d n = depth G old (r n + 1) n := by
  obtain ⟨k, rfl⟩ : ∃ k, d = r n + 1 + k := ⟨d - (r n + 1), by omega⟩
  induction k with
  | zero => rfl
  | succ k ih =>
      have := h.depth_stable old (r n + 1 + k) n hn (by omega)
      rw [← ih (by omega), ← this]; rfl

omit [DecidableEq ι] [DecidableEq ν] in
/-- The result of every operation, computed from the values the variables have at the beginning. -/
theorem ReadsOld.exists_den {r : ι → Nat} (h : ReadsOld G r) (old : ν → β) :
    ∃ den : ι → Option β, Den G old den (fun _ => old) ∧
      ∀ n ∈ G.nodes, den n = if (G.deps n).all fun m => (den m).isSome then G.kernel n den old else none := by
  have heq : ∀ n ∈ G.nodes, depth G old (r n + 1) n =
      if (G.deps n).all fun m => (depth G old (r m + 1) m).isSome then G.kernel n (fun m => depth G old (r m + 1) m) old
      else none := by
    intro n hn
    rw [depth]
    have e : ∀ m ∈ G.deps n, depth G old (r n) m = depth G old (r m + 1) m := fun m hm => by
      obtain ⟨h1, h2⟩ := h.rank n hn m hm
      exact h.depth_le old h1 h2
    have e1 : ((G.deps n).all fun m => (depth G old (r n) m).isSome) =
        (G.deps n).all fun m => (depth G old (r m + 1) m).isSome := by
      rw [Bool.eq_iff_iff]
      simp only [List.all_eq_true]
      exact ⟨fun h m hm => by rw [← e m hm]; exact h m hm, fun h m hm => by rw [e m hm]; exact h m hm⟩
    rw [e1, h.loc n hn _ (fun m => depth G old (r m + 1) m) old old e fun _ _ => rfl]
  refine ⟨fun n => depth G old (r n + 1) n, ⟨?_, ?_, fun n hn m hm => (h.rank n hn m hm).1, h.one,
    fun n hn v hv => Or.inr ⟨fun w hw hwv => h.race n hn v hv w hw hwv, rfl⟩⟩, heq⟩
  · intro n hn hs vals vars h1 h2
    rw [heq n hn, if_pos (by simpa [List.all_eq_true] using hs)]
    exact h.loc n hn _ _ _ _ h1 h2
  · intro n hn m hm hnone
    change depth G old (r m + 1) m = none at hnone
    rw [heq n hn, if_neg]
    simp only [List.all_eq_true]
    intro hc
    have := hc m hm
    rw [hnone] at this
    cases this

/-- Every complete execution of such a graph: results, variables and failure are determined. -/
theorem ReadsOld.run {r : ι → Nat} (h : ReadsOld G r) {old : ν → β} {c : Cfg ι ν β} (hr : Reaches G old c)
    (hc : Complete G c) : ∃ den : ι → Option β,
      (∀ n ∈ G.nodes, den n = if (G.deps n).all fun m => (den m).isSome then G.kernel n den old else none) ∧
      (∀ n ∈ G.nodes, c.done n = some (den n)) ∧
      (∀ w ∈ G.nodes, ∀ v x, G.writes w = some v → den w = some x → c.vars v = x) ∧
      (∀ v, (∀ w ∈ G.nodes, G.writes w ≠ some v) → c.vars v = old v) ∧
      (Failed G c ↔ ∃ n ∈ G.nodes, den n = none) := by
  obtain ⟨den, D, he⟩ := h.exists_den old
  obtain ⟨h1, h2, h3⟩ := complete_den D hr hc
  refine ⟨den, he, h1, h2, h3, ?_⟩
  constructor
  · rintro ⟨n, hn, hx⟩
    rw [h1 n hn, Option.some.injEq] at hx
    exact ⟨n, hn, hx⟩
  · rintro ⟨n, hn, hx⟩
    exact ⟨n, hn, by rw [h1 n hn, hx]⟩

/-- No execution of such a graph gets stuck. -/
theorem ReadsOld.completes {r : ι → Nat} (h : ReadsOld G r) {old : ν → β} {c : Cfg ι ν β} (hr : Reaches G old c) :
    ∃ c', Relation.ReflTransGen (Step G) c c' ∧ Complete G c' :=
  complete_exists r h.rank c hr

end TD.graph
