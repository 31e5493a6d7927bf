import Verif.Lemmas.Graph
import Verif.Lemmas.Skip
import Verif.Lemmas.Bcu
import Verif.Model.Graphs

/-!
# Mode by mode sweeps, seen from any mode
-/
namespace TD.graph
open TD Tensor

@[simp] theorem toOption_ok {β : Type} (x : β) : (Except.ok x : Res β).toOption = some x := rfl
@[simp] theorem toOption_error {β : Type} (e : PyErr) : (Except.error e : Res β).toOption = none := rfl
@[simp] theorem toOption_pure {β : Type} (x : β) : (pure x : Res β).toOption = some x := rfl

theorem toOption_bind {β γ : Type} (x : Res β) (f : β → Res γ) :
    (x >>= f).toOption = x.toOption.bind fun a => (f a).toOption := by
  cases x <;> rfl

/-- The state after the first `k` modes. -/
def steps {σ : Type} (f : σ → Nat → Res σ) (s0 : σ) (k : Nat) : Option σ := ((List.range k).foldlM f s0).toOption

theorem steps_zero {σ : Type} (f : σ → Nat → Res σ) (s0 : σ) : steps f s0 0 = some s0 := rfl

theorem steps_succ {σ : Type} (f : σ → Nat → Res σ) (s0 : σ) (k : Nat) :
    steps f s0 (k + 1) = (steps f s0 k).bind fun s => (f s k).toOption := by
  unfold steps
  rw [List.range_succ, List.foldlM_append, toOption_bind]
  congr 1
  funext s
  simp only [List.foldlM_cons, List.foldlM_nil]
  cases f s k <;> rfl

theorem steps_le {σ : Type} {f : σ → Nat → Res σ} {s0 : σ} {j k : Nat} (h : j ≤ k) (hn : steps f s0 j = none) :
    steps f s0 k = none := by
  induction h with
  | refl => exact hn
  | step _ ih => rw [steps_succ, ih]; rfl

/-- Mode `k` replaces factor `k` by one of the same shape and leaves the others alone. -/
def Local {α σ : Type} (f : σ → Nat → Res σ) (fac : σ → List (Tensor α)) : Prop :=
  ∀ s k s', f s k = .ok s' → ∃ v old, (fac s)[k]? = some old ∧ v.shape = old.shape ∧ fac s' = (fac s).set k v

variable {α σ : Type} {f : σ → Nat → Res σ} {fac : σ → List (Tensor α)} {s0 : σ}

theorem Local.step (hf : Local f fac) {k : Nat} {s' : σ} (h : steps f s0 (k + 1) = some s') :
    ∃ s v old, steps f s0 k = some s ∧ f s k = .ok s' ∧ (fac s)[k]? = some old ∧ v.shape = old.shape ∧
      fac s' = (fac s).set k v := by
  rw [steps_succ] at h
  cases hs : steps f s0 k with
  | none => rw [hs] at h; cases h
  | some s =>
      rw [hs] at h
      simp only [Option.bind_some] at h
      cases hfs : f s k with
      | error e => rw [hfs] at h; cases h
      | ok s'' =>
          rw [hfs] at h
          simp only [toOption_ok, Option.some.injEq] at h
          subst h
          obtain ⟨v, old, h1, h2, h3⟩ := hf s k s'' hfs
          exact ⟨s, v, old, rfl, hfs, h1, h2, h3⟩

theorem Local.shapes (hf : Local f fac) : ∀ {k : Nat} {s : σ}, steps f s0 k = some s →
    (fac s).map Tensor.shape = (fac s0).map Tensor.shape := by
  intro k
  induction k with
  | zero => intro s h; cases h; rfl
  | succ k ih =>
      intro s' h
      obtain ⟨s, v, old, h1, _, h3, h4, h5⟩ := hf.step h
      rw [h5, List.map_set, ← ih h1]
      refine List.ext_getElem? fun i => ?_
      rw [List.getElem?_set]
      by_cases hik : k = i
      · subst hik
        have hk : k < (fac s).length := (List.getElem?_eq_some_iff.1 h3).1
        have e := (List.getElem?_eq_some_iff.1 h3).2
        simp [hk, h4, e]
      · simp [hik]

theorem Local.length (hf : Local f fac) {k : Nat} {s : σ} (h : steps f s0 k = some s) :
    (fac s).length = (fac s0).length := by
  simpa using congrArg List.length (hf.shapes h)

theorem Local.later (hf : Local f fac) : ∀ {k : Nat} {s : σ}, steps f s0 k = some s → ∀ i, k ≤ i →
    (fac s)[i]? = (fac s0)[i]? := by
  intro k
  induction k with
  | zero => intro s h i _; cases h; rfl
  | succ k ih =>
      intro s' h i hi
      obtain ⟨s, v, old, h1, _, _, _, h5⟩ := hf.step h
      rw [h5, List.getElem?_set_ne (by omega)]
      exact ih h1 i (by omega)

theorem Local.earlier (hf : Local f fac) : ∀ {k : Nat} {s : σ}, steps f s0 k = some s → ∀ i, i < k →
    ∃ s', steps f s0 (i + 1) = some s' ∧ (fac s')[i]? = (fac s)[i]? := by
  intro k
  induction k with
  | zero => intro s _ i hi; omega
  | succ k ih =>
      intro s' h i hi
      by_cases hik : i = k
      · subst hik; exact ⟨s', h, rfl⟩
      · obtain ⟨s, v, old, h1, _, _, _, h5⟩ := hf.step h
        obtain ⟨s'', h2, h3⟩ := ih h1 i (by omega)
        refine ⟨s'', h2, ?_⟩
        rw [h5, List.getElem?_set_ne (by omega), h3]

/-- Factor `i` after the first `k` modes. -/
def facAt (f : σ → Nat → Res σ) (fac : σ → List (Tensor α)) (s0 : σ) (k i : Nat) : Option (Tensor α) :=
  (steps f s0 k).bind fun s => (fac s)[i]?

/-- What an operation of mode `k` finds in factor variable `i`. -/
def seenAt (f : σ → Nat → Res σ) (fac : σ → List (Tensor α)) (s0 : σ) (old : Nat → Tensor α) (k i : Nat) : Tensor α :=
  if i < k then (facAt f fac s0 (i + 1) i).getD (old i) else old i

theorem Local.seen (hf : Local f fac) {old : Nat → Tensor α} (hold : ∀ i < (fac s0).length, (fac s0)[i]? = some (old i))
    {k : Nat} {s : σ} (h : steps f s0 k = some s) {i : Nat} (hi : i < (fac s0).length) :
    (fac s)[i]? = some (seenAt f fac s0 old k i) := by
  unfold seenAt
  split
  · rename_i hik
    obtain ⟨s', h1, h2⟩ := hf.earlier h i hik
    have hlen := hf.length h
    have : (fac s)[i]? = some ((fac s)[i]'(by omega)) := List.getElem?_eq_getElem (by omega)
    rw [facAt, h1]
    simp only [Option.bind_some]
    rw [h2, this]
    rfl
  · rename_i hik
    rw [hf.later h i (by omega), hold i hi]

/-- The factors without the skipped one. -/
theorem mapM_eraseIdx {β γ : Type} {g : β → Option γ} : ∀ {l : List β} {r : List γ} (k : Nat), l.mapM g = some r →
    (l.eraseIdx k).mapM g = some (r.eraseIdx k) := by
  intro l
  induction l with
  | nil => intro r k h; simp at h; subst h; rfl
  | cons a l ih =>
      intro r k h
      rw [List.mapM_cons] at h
      cases ha : g a with
      | none => rw [ha] at h; cases h
      | some b =>
          rw [ha] at h
          cases hl : l.mapM g with
          | none => rw [hl] at h; cases h
          | some bs =>
              rw [hl] at h
              cases h
              cases k with
              | zero => simpa using hl
              | succ k =>
                  simp only [List.eraseIdx_cons_succ, List.mapM_cons, ha, ih k hl]
                  rfl

theorem mapM_congr' {β γ : Type} {g h : β → Option γ} {l : List β} (e : ∀ x ∈ l, g x = h x) : l.mapM g = l.mapM h := by
  induction l with
  | nil => rfl
  | cons a l ih =>
      rw [List.mapM_cons, List.mapM_cons, e a (by simp), ih fun x hx => e x (by simp [hx])]

theorem mapM_range_get {β : Type} (A : List β) : (List.range A.length).mapM (fun i => A[i]?) = some A := by
  induction A with
  | nil => rfl
  | cons a A ih =>
      rw [List.length_cons, List.range_succ_eq_map, List.mapM_cons, List.mapM_map]
      have : List.mapM ((fun i => (a :: A)[i]?) ∘ Nat.succ) (List.range A.length) = some A := by
        rw [← ih]; rfl
      rw [this]
      rfl

theorem mem_others {N k i : Nat} : i ∈ others N k ↔ i < N ∧ i ≠ k := by
  unfold others
  rw [List.mem_eraseIdx_iff_getElem?]
  constructor
  · rintro ⟨j, hj, h⟩
    obtain ⟨h1, h2⟩ := List.getElem?_eq_some_iff.1 h
    rw [List.getElem_range] at h2
    subst h2
    exact ⟨by simpa using h1, hj⟩
  · rintro ⟨h1, h2⟩
    exact ⟨i, h2, by simp [h1]⟩

theorem toOption_mapM {β γ : Type} (g : β → Res γ) (l : List β) :
    (l.mapM g).toOption = l.mapM fun a => (g a).toOption := by
  induction l with
  | nil => rfl
  | cons a l ih =>
      rw [List.mapM_cons, List.mapM_cons, ← ih]
      cases g a with
      | error e => rfl
      | ok b => cases l.mapM g <;> simp

theorem mapM_bind {ι β γ : Type} {h : ι → Option β} {g : β → Option γ} : ∀ {l : List ι} {r : List β},
    l.mapM h = some r → l.mapM (fun i => (h i).bind g) = r.mapM g := by
  intro l
  induction l with
  | nil => intro r e; cases e; rfl
  | cons a l ih =>
      intro r e
      rw [List.mapM_cons] at e
      cases ha : h a with
      | none => rw [ha] at e; cases e
      | some b =>
          rw [ha] at e
          cases hl : l.mapM h with
          | none => rw [hl] at e; cases e
          | some bs =>
              rw [hl] at e
              cases e
              rw [List.mapM_cons, List.mapM_cons, ha, ih hl]
              rfl

theorem mapM_range_bind {β γ : Type} (A : List β) (g : β → Option γ) :
    (List.range A.length).mapM (fun i => A[i]?.bind g) = A.mapM g := by
  induction A with
  | nil => rfl
  | cons a A ih =>
      rw [List.length_cons, List.range_succ_eq_map, List.mapM_cons, List.mapM_map, List.mapM_cons, ← ih]
      rfl

theorem skip_int {β : Type} (ms : List β) (k : Nat) : ops.skip ms (.int k) = ms.eraseIdx k := by
  rw [skip_eq_kept, kept_int]

theorem hadamard_skip {α : Type} [Mul α] [Zero α] (ms : List (Tensor α)) (k : Nat) :
    ops.hadamard ms (.int k) = ops.hadamard (ms.eraseIdx k) := by
  unfold ops.hadamard
  rw [skip_int]
  rfl

theorem khatri_skip {α : Type} [CommSemiring α] (ms : List (Tensor α)) (k : Nat) (rev : Bool) :
    ops.khatri ms (.int k) rev = ops.khatri (ms.eraseIdx k) .none rev := by
  unfold ops.khatri
  rw [skip_int]
  rfl

theorem others_eq_filter (N k : Nat) : others N k = (List.range N).filter fun i => !(ops.Skip.int k).mem i := by
  unfold others
  induction N with
  | zero => rfl
  | succ N ih =>
      rw [List.range_succ, List.filter_append, ← ih]
      by_cases hk : k < N
      · rw [List.eraseIdx_append_of_lt_length (by simpa using hk)]
        have : N ≠ k := by omega
        simp [ops.Skip.mem, this]
      · have hN : (List.range N).eraseIdx k = List.range N := List.eraseIdx_of_length_le (by simpa using hk)
        rw [List.eraseIdx_append_of_length_le (by simpa using hk), hN]
        by_cases hkN : k = N
        · subst hkN; simp [ops.Skip.mem]
        · have h1 : N ≠ k := by omega
          rw [List.eraseIdx_of_length_le (by simp; omega)]
          simp [ops.Skip.mem, h1]

theorem ttm_skip {α : Type} [CommSemiring α] (X : Tensor α) (A : List (Tensor α)) (k : Nat) (tr : Bool)
    (h : A.length = X.order) :
    ops.ttm X A none tr (.int k) = ops.ttm X (A.eraseIdx k) (some (others X.order k)) tr := by
  unfold ops.ttm
  simp only [Option.isSome_none, Bool.false_eq_true, false_and, if_false, Option.isSome_some, ne_eq, not_true, and_false,
    h, min_self, skip_int, others_eq_filter, Option.getD_some]

theorem mem_prev {ι : Type} {as : Nat → ι} {k : Nat} {m : ι} : m ∈ prev as k ↔ k ≠ 0 ∧ m = as (k - 1) := by
  unfold prev
  split <;> simp [*]

/-- The lists the operations of mode `k` collect. -/
theorem Local.collect (hf : Local f fac) {k : Nat} {s : σ} (h : steps f s0 k = some s) :
    (others (fac s0).length k).mapM (fun i => (fac s)[i]?) = some ((fac s).eraseIdx k) := by
  rw [← hf.length h]
  exact mapM_eraseIdx k (mapM_range_get _)

theorem Local.facAt_none (_hf : Local f fac) {k i : Nat} (_hi : i < (fac s0).length)
    (h : facAt f fac s0 k i = none) : steps f s0 k = none := by
  cases hs : steps f s0 k with
  | none => rfl
  | some s =>
      exfalso
      have hlen := _hf.length hs
      rw [facAt, hs] at h
      simp only [Option.bind_some, List.getElem?_eq_none_iff] at h
      omega

theorem facAt_some {k i : Nat} (h : (facAt f fac s0 k i).isSome) : ∃ s, steps f s0 k = some s := by
  cases hs : steps f s0 k with
  | none => rw [facAt, hs] at h; cases h
  | some s => exact ⟨s, rfl⟩

/-- Operations of mode `k` run after the assignment of mode `k - 1`. -/
theorem steps_of_prev {ι : Type} {as : Nat → ι} {den : ι → Option (Tensor α)} {k : Nat}
    (hden : ∀ j, den (as j) = facAt f fac s0 (j + 1) j) (h : ∀ m ∈ prev as k, (den m).isSome) :
    ∃ s, steps f s0 k = some s := by
  cases k with
  | zero => exact ⟨s0, rfl⟩
  | succ k =>
      have := h (as k) (mem_prev.2 ⟨by omega, by simp⟩)
      rw [hden] at this
      exact facAt_some this

/-- Assignments are ordered. -/
theorem chain {ι ν β : Type} {G : Graph ι ν β} (as : Nat → ι) (use : Nat → ι) (N : Nat)
    (h1 : ∀ k, k + 1 < N → as k ∈ G.deps (use (k + 1))) (h2 : ∀ k < N, Before G (use k) (as k)) {j k : Nat} (hjk : j < k)
    (hk : k < N) : Before G (as j) (as k) := by
  induction hjk with
  | refl => exact (Relation.TransGen.single (h1 j hk)).trans (h2 _ hk)
  | @step m _ ih => exact (ih (by omega)).trans ((Relation.TransGen.single (h1 m hk)).trans (h2 _ hk))

end TD.graph
