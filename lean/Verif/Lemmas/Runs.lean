import Verif.Lemmas.OldReads
import Verif.Lemmas.BcuGraph
import Verif.Lemmas.Bcu
import Verif.Model.GraphRuns

/-!
# What the graphs of `train_op1`, `train_op2`, `other_init_op` and of the core run compute
-/
namespace TD.graph.Bcu
open TD Tensor

theorem mem_slots {N k : Nat} {core : Bool} : k ∈ slots N core ↔ k < N ∨ (core = true ∧ k = N) := by
  unfold slots
  cases core <;> simp [List.mem_range]; omega

theorem slots_le {N k : Nat} {core : Bool} (h : k ∈ slots N core) : k ≤ N := by
  rw [mem_slots] at h; omega

/-- Which kind of variable. -/
def tag : Var → Nat
  | .A _ | .g => 0
  | .A0 _ | .g0 => 1
  | .Am _ | .gm => 2
  | .wA _ => 3
  | .t0 => 4
  | .t => 5
  | .L _ => 6
  | .L0 _ => 7

/-- Which slot. -/
def slot (N : Nat) : Var → Nat
  | .A k | .A0 k | .Am k | .L k | .L0 k | .wA k => k
  | _ => N

theorem tag_cur (N k : Nat) : tag (cur N k) = 0 := by unfold cur; split <;> rfl
theorem tag_best (N k : Nat) : tag (best N k) = 1 := by unfold best; split <;> rfl
theorem tag_mid (N k : Nat) : tag (mid N k) = 2 := by unfold mid; split <;> rfl

theorem tag_wA (k : Nat) : tag (.wA k) = 3 := rfl
theorem tag_t0 : tag .t0 = 4 := rfl
theorem tag_t : tag .t = 5 := rfl
theorem tag_L (k : Nat) : tag (.L k) = 6 := rfl
theorem tag_L0 (k : Nat) : tag (.L0 k) = 7 := rfl
theorem tag_A (k : Nat) : tag (.A k) = 0 := rfl
theorem tag_g : tag .g = 0 := rfl
theorem tag_gm : tag .gm = 2 := rfl

theorem slot_wA (N k : Nat) : slot N (.wA k) = k := rfl
theorem slot_cur (N k : Nat) : slot N (cur N k) = min k N := by unfold cur; split <;> simp only [slot] <;> omega
theorem slot_best (N k : Nat) : slot N (best N k) = min k N := by unfold best; split <;> simp only [slot] <;> omega
theorem slot_mid (N k : Nat) : slot N (mid N k) = min k N := by unfold mid; split <;> simp only [slot] <;> omega

theorem fits_ok {sh : List Nat} {v : Tensor ℝ} (h : v.shape = sh) : fits sh v = some v := if_pos h

namespace Op1

/-- The operations that run. -/
def Runs (N : Nat) (core : Bool) : Op → Prop
  | .w => True
  | .t0 => True
  | .cap k => k ∈ slots N core
  | .wA k => k ∈ slots N core
  | .diff k => k ∈ slots N core
  | .ext k => k ∈ slots N core
  | .keep k => k ∈ slots N core

theorem mem_nodes {N : Nat} {core : Bool} {shape : Nat → List Nat} {n : Op} :
    n ∈ (build N core shape).nodes ↔ Runs N core n := by
  cases n <;> simp [build, slotOps, Runs]

/-- How deep an operation is. -/
def rank : Op → Nat
  | .w => 0 | .cap _ => 1 | .wA _ => 2 | .diff _ => 0 | .ext _ => 3 | .keep _ => 4 | .t0 => 4

theorem readsOld {N : Nat} {core : Bool} {shape : Nat → List Nat} (h0 : 0 < N) : ReadsOld (build N core shape) rank := by
  have hlast : N - 1 ∈ slots N core := by rw [mem_slots]; omega
  refine ⟨?_, ?_, ?_, ?_⟩
  · intro n _ o o' x x' ho hx
    cases n <;> simp only [build, List.mem_cons, List.not_mem_nil, or_false, forall_eq, forall_eq_or_imp, false_imp_iff,
      implies_true] at ho hx ⊢
    · rw [hx.1, hx.2]
    · rw [ho, hx.1, hx.2]
    · rw [ho]
    · rw [hx.1, hx.2]
    · rw [ho.1, ho.2, hx]
    · rw [hx]
    · rw [hx]
  · intro n hn m hm
    rw [mem_nodes] at hn ⊢
    cases n <;> simp only [build, List.mem_cons, List.not_mem_nil, or_false] at hm
    · subst hm; exact ⟨trivial, by simp [rank]⟩
    · subst hm; exact ⟨hn, by simp [rank]⟩
    · rcases hm with rfl | rfl <;> exact ⟨hn, by simp [rank]⟩
    · subst hm; exact ⟨hn, by simp [rank]⟩
    · subst hm; exact ⟨hlast, by simp [rank]⟩
  · intro m hm n hn v hmv hnv
    rw [mem_nodes] at hm hn
    have h1 := congrArg (Option.map tag) (hmv.trans hnv.symm)
    have h2 := congrArg (Option.map (slot N)) (hmv.trans hnv.symm)
    cases m <;> simp only [build, reduceCtorEq] at hmv <;> cases n <;> simp only [build, reduceCtorEq] at hnv <;>
      simp only [build, Option.map_some, Option.some.injEq, tag_mid, tag_best, tag_wA, tag_t0] at h1 <;>
      simp only [build, Option.map_some, Option.some.injEq, slot_mid, slot_best, slot_wA] at h2 <;>
      simp only [Runs, mem_slots] at hm hn <;>
      first
      | (exfalso; omega)
      | rfl
      | (congr 1 <;> omega)
  · intro n hn v hv u hu huv
    rw [mem_nodes] at hn hu
    have hwt : Before (build N core shape) .w .t0 :=
      .tail (.tail (.tail (.single (b := .cap (N - 1)) (by simp [build])) (c := .wA (N - 1)) (by simp [build]))
        (c := .ext (N - 1)) (by simp [build])) (by simp [build])
    have hdk : ∀ k, Before (build N core shape) (.diff k) (.keep k) := fun k =>
      .tail (.single (b := .ext k) (by simp [build])) (by simp [build])
    have h1 := congrArg (Option.map tag) huv
    have h2 := congrArg (Option.map (slot N)) huv
    cases n <;> simp only [build, List.mem_cons, List.not_mem_nil, or_false] at hv <;>
      (try rcases hv with rfl | rfl) <;>
      cases u <;> simp only [build, reduceCtorEq] at huv <;>
      simp only [build, Option.map_some, Option.some.injEq, tag_mid, tag_best, tag_cur, tag_wA, tag_t0, tag_t, tag_L, tag_L0] at h1 <;>
      simp only [build, Option.map_some, Option.some.injEq, slot_mid, slot_best, slot_cur, slot_wA] at h2 <;>
      simp only [Runs, mem_slots] at hn hu <;>
      first
      | (exfalso; omega)
      | exact hwt
      | skip
    rename_i k j
    have : j = k := by omega
    subst this
    exact hdk j

/-- The extrapolation never fails on variables of equal shape. -/
theorem _root_.TD.bcu.extrapolate_ok (w : ℝ) {v v0 : Tensor ℝ} (h : v.shape = v0.shape) :
    ∃ d m, tf.ewise (· - ·) v v0 = .ok d ∧ tf.ewise (· + ·) v (tf.map (w * ·) d) = .ok m ∧
      bcu.extrapolate w v v0 = .ok m ∧ m.shape = v.shape := by
  refine ⟨_, _, tf.ewise_same _ h, tf.ewise_same _ ?_, ?_, shape_ofFn _ _⟩
  · rfl
  · unfold bcu.extrapolate
    rw [tf.ewise_same _ h, ok_bind]
    exact tf.ewise_same _ rfl

/-- A complete run of `train_op1`. -/
theorem run {N : Nat} {core : Bool} {shape : Nat → List Nat} (h0 : 0 < N) {old : Var → Tensor ℝ} {c : Cfg Op Var (Tensor ℝ)}
    (hr : Reaches (build N core shape) old c) (hc : Complete (build N core shape) c)
    (hsh : ∀ k ∈ slots N core, (old (cur N k)).shape = shape k ∧ (old (best N k)).shape = shape k) :
    (∀ w, loss.fdiv (the (old .t0) - 1) (the (old .t)) = some w → ∀ r : Nat → ℝ,
      (∀ k ∈ slots N core, loss.fsqrt (loss.fdiv (the (old (.L0 k))) (the (old (.L k)))) = some (r k)) →
      ¬ Failed (build N core shape) c ∧ c.vars .t0 = old .t ∧ ∀ k ∈ slots N core, c.vars (.wA k) = num (min w (r k)) ∧
        bcu.extrapolate (min w (r k)) (old (cur N k)) (old (best N k)) = .ok (c.vars (mid N k)) ∧
        c.vars (best N k) = old (cur N k)) ∧
    ((loss.fdiv (the (old .t0) - 1) (the (old .t)) = none ∨
      ∃ k ∈ slots N core, loss.fsqrt (loss.fdiv (the (old (.L0 k))) (the (old (.L k)))) = none) →
      Failed (build N core shape) c) ∧
    ∀ v, v ≠ .t0 → (∀ k ∈ slots N core, v ≠ .wA k ∧ v ≠ mid N k ∧ v ≠ best N k) → c.vars v = old v := by
  obtain ⟨den, hden, hdone, hwr, hkeep, hfail⟩ := (readsOld h0).run hr hc
  have dw : den .w = (loss.fdiv (the (old .t0) - 1) (the (old .t))).map num := by
    rw [hden .w (mem_nodes.2 trivial)]
    simp [build]
  have dcap : ∀ k ∈ slots N core, den (.cap k) = (den .w).bind fun w =>
      (loss.fsqrt (loss.fdiv (the (old (.L0 k))) (the (old (.L k))))).map fun r => num (min (the w) r) := by
    intro k hk
    rw [hden (.cap k) (mem_nodes.2 hk)]
    cases h : den .w <;> simp [build, h]
  refine ⟨?_, ?_, ?_⟩
  · intro w hw r hrk
    have hslot : ∀ k ∈ slots N core, ∃ d m, den (.cap k) = some (num (min w (r k))) ∧ den (.wA k) = some (num (min w (r k))) ∧
        den (.diff k) = some d ∧ den (.ext k) = some m ∧
        bcu.extrapolate (min w (r k)) (old (cur N k)) (old (best N k)) = .ok m ∧
        den (.keep k) = some (old (cur N k)) := by
      intro k hk
      obtain ⟨h1, h2⟩ := hsh k hk
      obtain ⟨d, m, e1, e2, e3, e4⟩ := bcu.extrapolate_ok (min w (r k)) (h1.trans h2.symm)
      have c1 : den (.cap k) = some (num (min w (r k))) := by
        rw [dcap k hk, dw, hw]
        simp [hrk k hk, the_num]
      have c2 : den (.wA k) = some (num (min w (r k))) := by
        rw [hden (.wA k) (mem_nodes.2 hk)]
        simp [build, c1]
      have c3 : den (.diff k) = some d := by
        rw [hden (.diff k) (mem_nodes.2 hk)]
        simp [build, e1]
      have c4 : den (.ext k) = some m := by
        rw [hden (.ext k) (mem_nodes.2 hk)]
        simp [build, c2, c3, the_num, e2, fits, e4, h1]
      refine ⟨d, m, c1, c2, c3, c4, e3, ?_⟩
      rw [hden (.keep k) (mem_nodes.2 hk)]
      simp [build, c4, fits, h1]
    have ht0 : den .t0 = some (old .t) := by
      have hlast : N - 1 ∈ slots N core := by rw [mem_slots]; omega
      obtain ⟨d, m, _, _, _, c4, _, _⟩ := hslot _ hlast
      rw [hden .t0 (mem_nodes.2 trivial)]
      simp [build, c4]
    refine ⟨?_, hwr .t0 (mem_nodes.2 trivial) .t0 _ rfl ht0, ?_⟩
    · rw [hfail]
      rintro ⟨n, hn, hx⟩
      rw [mem_nodes] at hn
      cases n with
      | w => rw [dw, hw] at hx; cases hx
      | t0 => rw [ht0] at hx; cases hx
      | cap k => obtain ⟨d, m, c1, c2, c3, c4, c5, c6⟩ := hslot k hn; rw [c1] at hx; cases hx
      | wA k => obtain ⟨d, m, c1, c2, c3, c4, c5, c6⟩ := hslot k hn; rw [c2] at hx; cases hx
      | diff k => obtain ⟨d, m, c1, c2, c3, c4, c5, c6⟩ := hslot k hn; rw [c3] at hx; cases hx
      | ext k => obtain ⟨d, m, c1, c2, c3, c4, c5, c6⟩ := hslot k hn; rw [c4] at hx; cases hx
      | keep k => obtain ⟨d, m, c1, c2, c3, c4, c5, c6⟩ := hslot k hn; rw [c6] at hx; cases hx
    · intro k hk
      obtain ⟨d, m, c1, c2, c3, c4, c5, c6⟩ := hslot k hk
      exact ⟨hwr (.wA k) (mem_nodes.2 hk) (.wA k) _ rfl c2,
        by rw [hwr (.ext k) (mem_nodes.2 hk) (mid N k) _ rfl c4, c5],
        hwr (.keep k) (mem_nodes.2 hk) (best N k) _ rfl c6⟩
  · rw [hfail]
    rintro (h | ⟨k, hk, h⟩)
    · exact ⟨.w, mem_nodes.2 trivial, by rw [dw, h]; rfl⟩
    · refine ⟨.cap k, mem_nodes.2 hk, ?_⟩
      rw [dcap k hk, h]
      cases den .w <;> rfl
  · intro v h1 h2
    refine hkeep v fun n hn hnv => ?_
    rw [mem_nodes] at hn
    cases n <;> simp only [build, reduceCtorEq, Option.some.injEq] at hnv
    · exact (h2 _ hn).1 hnv.symm
    · exact (h2 _ hn).2.1 hnv.symm
    · exact (h2 _ hn).2.2 hnv.symm
    · exact h1 hnv.symm

end Op1

namespace Op2

theorem mem_nodes {N : Nat} {core : Bool} {shape : Nat → List Nat} {k : Nat} :
    Op.back k ∈ (build N core shape).nodes ↔ k ∈ slots N core := by
  simp [build]

theorem readsOld {N : Nat} {core : Bool} {shape : Nat → List Nat} : ReadsOld (build N core shape) fun _ => 0 := by
  refine ⟨?_, ?_, ?_, ?_⟩
  · rintro ⟨k⟩ _ o o' x x' _ hx
    simp only [build, List.mem_cons, List.not_mem_nil, or_false, forall_eq] at hx ⊢
    rw [hx]
  · rintro ⟨k⟩ _ m hm
    simp [build] at hm
  · rintro ⟨j⟩ hj ⟨k⟩ hk v hjv hkv
    rw [mem_nodes, mem_slots] at hj hk
    have h := congrArg (Option.map (slot N)) (hjv.trans hkv.symm)
    simp only [build, Option.map_some, Option.some.injEq, slot_mid] at h
    congr 1
    omega
  · rintro ⟨j⟩ _ v hv ⟨k⟩ _ hkv
    simp only [build, List.mem_cons, List.not_mem_nil, or_false] at hv
    subst hv
    have h := congrArg (Option.map tag) hkv
    simp [build, tag_mid, tag_best] at h

/-- A complete run of `train_op2`. -/
theorem run {N : Nat} {core : Bool} {shape : Nat → List Nat} {old : Var → Tensor ℝ} {c : Cfg Op Var (Tensor ℝ)}
    (hr : Reaches (build N core shape) old c) (hc : Complete (build N core shape) c)
    (hsh : ∀ k ∈ slots N core, (old (best N k)).shape = shape k) :
    ¬ Failed (build N core shape) c ∧ (∀ k ∈ slots N core, c.vars (mid N k) = old (best N k)) ∧
    ∀ v, (∀ k ∈ slots N core, v ≠ mid N k) → c.vars v = old v := by
  obtain ⟨den, hden, hdone, hwr, hkeep, hfail⟩ := readsOld.run hr hc
  have hb : ∀ k ∈ slots N core, den (.back k) = some (old (best N k)) := by
    intro k hk
    rw [hden (.back k) (mem_nodes.2 hk)]
    simp [build, fits, hsh k hk]
  refine ⟨?_, fun k hk => hwr (.back k) (mem_nodes.2 hk) (mid N k) _ rfl (hb k hk), ?_⟩
  · rw [hfail]
    rintro ⟨⟨k⟩, hk, hx⟩
    rw [hb k (mem_nodes.1 hk)] at hx
    cases hx
  · intro v hv
    refine hkeep v ?_
    rintro ⟨k⟩ hk hkv
    simp only [build, Option.some.injEq] at hkv
    exact hv k (mem_nodes.1 hk) hkv.symm

end Op2

namespace Init

/-- The slot of an operation. -/
def Op.slot : Op → Nat
  | .nrm k | .quot k | .scale k | .to0 k | .toM k => k

theorem mem_nodes {X : Tensor ℝ} {p N : Nat} {core : Bool} {shape : Nat → List Nat} {n : Op} :
    n ∈ (build X p N core shape).nodes ↔ n.slot ∈ slots N core := by
  cases n <;> simp [build, slotOps, Op.slot]

/-- How deep an operation is. -/
def rank : Op → Nat
  | .nrm _ => 0 | .quot _ => 1 | .scale _ => 2 | .to0 _ => 3 | .toM _ => 3

theorem readsOld {X : Tensor ℝ} {p N : Nat} {core : Bool} {shape : Nat → List Nat} :
    ReadsOld (build X p N core shape) rank := by
  refine ⟨?_, ?_, ?_, ?_⟩
  · intro n _ o o' x x' ho hx
    cases n <;> simp only [build, List.mem_cons, List.not_mem_nil, or_false, forall_eq, false_imp_iff,
      implies_true] at ho hx ⊢
    · rw [hx]
    · rw [ho, hx]
    · rw [ho]
    · rw [ho]
    · rw [ho]
  · intro n hn m hm
    rw [mem_nodes] at hn ⊢
    cases n <;> simp only [build, List.mem_cons, List.not_mem_nil, or_false] at hm <;> subst hm <;>
      exact ⟨hn, by simp [rank]⟩
  · intro m hm n hn v hmv hnv
    rw [mem_nodes] at hm hn
    have h1 := congrArg (Option.map tag) (hmv.trans hnv.symm)
    have h2 := congrArg (Option.map (slot N)) (hmv.trans hnv.symm)
    cases m <;> simp only [build, reduceCtorEq] at hmv <;> cases n <;> simp only [build, reduceCtorEq] at hnv <;>
      simp only [build, Option.map_some, Option.some.injEq, tag_mid, tag_best, tag_cur] at h1 <;>
      simp only [build, Option.map_some, Option.some.injEq, slot_mid, slot_best, slot_cur] at h2 <;>
      simp only [Op.slot, mem_slots] at hm hn <;>
      first
      | (exfalso; omega)
      | (congr 1; omega)
  · intro n hn v hv u hu huv
    rw [mem_nodes] at hn hu
    have h1 := congrArg (Option.map tag) huv
    have h2 := congrArg (Option.map (slot N)) huv
    cases n <;> simp only [build, List.mem_cons, List.not_mem_nil, or_false] at hv <;> subst hv <;>
      cases u <;> simp only [build, reduceCtorEq] at huv <;>
      simp only [build, Option.map_some, Option.some.injEq, tag_mid, tag_best, tag_cur] at h1 <;>
      simp only [build, Option.map_some, Option.some.injEq, slot_mid, slot_best, slot_cur] at h2 <;>
      simp only [Op.slot, mem_slots] at hn hu <;>
      first
      | (exfalso; omega)
      | skip
    · rename_i k j
      have : j = k := by omega
      subst this
      exact .tail (.single (b := .quot j) (by simp [build])) (by simp [build])
    · rename_i k j
      have : j = k := by omega
      subst this
      exact .single (by simp [build])

/-- A complete run of `other_init_op`. -/
theorem run {X : Tensor ℝ} {p N : Nat} {core : Bool} {shape : Nat → List Nat} {old : Var → Tensor ℝ}
    {c : Cfg Op Var (Tensor ℝ)} (hr : Reaches (build X p N core shape) old c) (hc : Complete (build X p N core shape) c)
    (hsh : ∀ k ∈ slots N core, (old (cur N k)).shape = shape k) :
    ((∀ k ∈ slots N core, ∃ v, bcu.normInit X p (old (cur N k)) = .ok v) →
      ¬ Failed (build X p N core shape) c ∧ ∀ k ∈ slots N core,
        bcu.normInit X p (old (cur N k)) = .ok (c.vars (cur N k)) ∧ c.vars (best N k) = c.vars (cur N k) ∧
        c.vars (mid N k) = c.vars (cur N k)) ∧
    ((∃ k ∈ slots N core, ∃ e, bcu.normInit X p (old (cur N k)) = .error e) → Failed (build X p N core shape) c) ∧
    ∀ v, (∀ k ∈ slots N core, v ≠ cur N k ∧ v ≠ mid N k ∧ v ≠ best N k) → c.vars v = old v := by
  obtain ⟨den, hden, hdone, hwr, hkeep, hfail⟩ := readsOld.run hr hc
  have hn : ∀ k ∈ slots N core, den (.nrm k) = some (num (tf.norm (old (cur N k)))) := by
    intro k hk
    rw [hden (.nrm k) (mem_nodes.2 hk)]
    simp [build]
  have hq : ∀ k ∈ slots N core, den (.quot k) = (bcu.normInit X p (old (cur N k))).toOption := by
    intro k hk
    rw [hden (.quot k) (mem_nodes.2 hk)]
    unfold bcu.normInit
    by_cases h : tf.norm (old (cur N k)) = 0
    · simp [build, hn k hk, the_num, h]
    · simp [build, hn k hk, the_num, h]
  have hv : ∀ k ∈ slots N core, ∀ v, bcu.normInit X p (old (cur N k)) = .ok v →
      den (.quot k) = some v ∧ den (.scale k) = some v ∧ den (.to0 k) = some v ∧ den (.toM k) = some v := by
    intro k hk v h
    have c1 : den (.quot k) = some v := by rw [hq k hk, h]; rfl
    have hs : v.shape = shape k := by
      unfold bcu.normInit at h
      split at h
      · cases h
      · cases h; exact hsh k hk
    have c2 : den (.scale k) = some v := by
      rw [hden (.scale k) (mem_nodes.2 hk)]
      simp [build, c1, fits, hs]
    refine ⟨c1, c2, ?_, ?_⟩
    · rw [hden (.to0 k) (mem_nodes.2 hk)]
      simp [build, c2, fits, hs]
    · rw [hden (.toM k) (mem_nodes.2 hk)]
      simp [build, c2, fits, hs]
  refine ⟨?_, ?_, ?_⟩
  · intro hok
    refine ⟨?_, fun k hk => ?_⟩
    · rw [hfail]
      rintro ⟨n, hn', hx⟩
      rw [mem_nodes] at hn'
      obtain ⟨v, hv'⟩ := hok _ hn'
      obtain ⟨c1, c2, c3, c4⟩ := hv _ hn' v hv'
      cases n with
      | nrm k => rw [hn k hn'] at hx; cases hx
      | quot k => simp only [Op.slot] at c1; rw [c1] at hx; cases hx
      | scale k => simp only [Op.slot] at c2; rw [c2] at hx; cases hx
      | to0 k => simp only [Op.slot] at c3; rw [c3] at hx; cases hx
      | toM k => simp only [Op.slot] at c4; rw [c4] at hx; cases hx
    · obtain ⟨v, hv'⟩ := hok k hk
      obtain ⟨c1, c2, c3, c4⟩ := hv k hk v hv'
      rw [hwr (.scale k) (mem_nodes.2 hk) (cur N k) v rfl c2, hwr (.to0 k) (mem_nodes.2 hk) (best N k) v rfl c3,
        hwr (.toM k) (mem_nodes.2 hk) (mid N k) v rfl c4]
      exact ⟨hv', rfl, rfl⟩
  · rw [hfail]
    rintro ⟨k, hk, e, he⟩
    exact ⟨.quot k, mem_nodes.2 hk, by rw [hq k hk, he]; rfl⟩
  · intro v h
    refine hkeep v fun n hn' hnv => ?_
    rw [mem_nodes] at hn'
    cases n <;> simp only [build, reduceCtorEq, Option.some.injEq] at hnv
    · exact (h _ hn').1 hnv.symm
    · exact (h _ hn').2.2 hnv.symm
    · exact (h _ hn').2.1 hnv.symm

end Init

namespace Core

/-- The operations that run. -/
def Runs (N : Nat) : Op → Prop
  | .gram i => i < N
  | .use i => i < N
  | _ => True

theorem mem_nodes {topSv : Tensor ℝ → Res ℝ} {X : Tensor ℝ} {ranks : List Nat} {n : Op} :
    n ∈ (build topSv X ranks).nodes ↔ Runs X.order n := by
  cases n <;> simp [build, Runs]

/-- How deep an operation is. -/
def rank : Op → Nat
  | .gram _ => 0 | .use _ => 0 | .l0 => 0 | .sv => 1 | .l => 2 | .bsq => 1 | .xa => 1 | .grad => 2 | .assign => 3

theorem readsOld {topSv : Tensor ℝ → Res ℝ} {X : Tensor ℝ} {ranks : List Nat} :
    ReadsOld (build topSv X ranks) rank := by
  refine ⟨?_, ?_, ?_, ?_⟩
  · intro n _ o o' x x' ho hx
    cases n <;> simp only [build, List.mem_cons, List.not_mem_nil, or_false, forall_eq, false_imp_iff, List.mem_map,
      List.mem_range, forall_exists_index, and_imp, forall_apply_eq_imp_iff₂, forall_eq_or_imp, implies_true] at ho hx ⊢
    · rw [hx]
    · rw [hx]
    · rw [mapM_congr' fun i hi => ho i (List.mem_range.1 hi)]
    · rw [ho.2]
    · rw [mapM_congr' fun i hi => ho i (List.mem_range.1 hi), hx]
    · rw [hx]
    · rw [mapM_congr' fun i hi => ho i (List.mem_range.1 hi)]
    · rw [ho.1, ho.2]
    · rw [ho.1, ho.2, hx]
  · intro n hn m hm
    rw [mem_nodes] at hn ⊢
    cases n <;> simp only [build, List.mem_cons, List.not_mem_nil, or_false, List.mem_map, List.mem_range] at hm
    · obtain ⟨i, hi, rfl⟩ := hm; exact ⟨hi, by simp [rank]⟩
    · rcases hm with rfl | rfl <;> exact ⟨trivial, by simp [rank]⟩
    · obtain ⟨i, hi, rfl⟩ := hm; exact ⟨hi, by simp [rank]⟩
    · obtain ⟨i, hi, rfl⟩ := hm; exact ⟨hi, by simp [rank]⟩
    · rcases hm with rfl | rfl <;> exact ⟨trivial, by simp [rank]⟩
    · rcases hm with rfl | rfl <;> exact ⟨trivial, by simp [rank]⟩
  · intro m hm n hn v hmv hnv
    have h := hmv.trans hnv.symm
    cases m <;> simp only [build, reduceCtorEq] at hmv <;> cases n <;> simp only [build, reduceCtorEq] at hnv <;>
      first
      | rfl
      | simp [build] at h
  · intro n hn v hv u hu huv
    cases n <;> simp only [build, List.mem_cons, List.not_mem_nil, or_false] at hv <;> subst hv <;>
      cases u <;> simp [build] at huv
    exact .single (by simp [build])

/-- A complete core run (`ntucker.py:233`). -/
theorem run {topSv : Tensor ℝ → Res ℝ} {X : Tensor ℝ} {ranks : List Nat} {st : bcu.TState} (hl : st.A.length = X.order)
    (hg : st.g.shape = ranks) {c : Cfg Op Var (Tensor ℝ)} (hr : Reaches (build topSv X ranks) (tvars st) c)
    (hc : Complete (build topSv X ranks) c) :
    match bcu.NTUCKER.core topSv X st with
    | .ok (st', g) => c.vars = tvars st' ∧ c.done .assign = some (some g) ∧ ¬ Failed (build topSv X ranks) c
    | .error _ => Failed (build topSv X ranks) c := by
  obtain ⟨den, hden, hdone, hwr, hkeep, hfail⟩ := readsOld.run hr hc
  have dnone : ∀ n, Runs X.order n → (build topSv X ranks).kernel n den (tvars st) = none → den n = none := by
    intro n hn h
    rw [hden n (mem_nodes.2 hn), h, ite_self]
  have dsome : ∀ n x, Runs X.order n → (∀ m ∈ (build topSv X ranks).deps n, (den m).isSome) →
      (build topSv X ranks).kernel n den (tvars st) = some x → den n = some x := by
    intro n x hn hd h
    rw [hden n (mem_nodes.2 hn), h, if_pos (List.all_eq_true.2 hd)]
  have hAi : ∀ i < X.order, st.A[i]? = some (tvars st (.A i)) := by
    intro i hi
    have : i < st.A.length := by omega
    simp [tvars, vars, facVars, List.getD_eq_getElem?_getD, List.getElem?_eq_getElem this]
  have dgram : ∀ i < X.order, den (.gram i) = (tf.matmul (tvars st (.A i)) (tvars st (.A i)) true false).toOption := by
    intro i hi
    rw [hden (.gram i) (mem_nodes.2 hi)]
    simp [build]
  have duse : ∀ i < X.order, den (.use i) = some (tvars st (.A i)) := by
    intro i hi
    rw [hden (.use i) (mem_nodes.2 hi)]
    simp [build]
  have hgs : (List.range X.order).mapM (fun i => den (.gram i)) =
      (st.A.mapM fun a => tf.matmul a a true false).toOption := by
    rw [toOption_mapM, ← mapM_range_bind st.A, hl]
    refine mapM_congr' fun i hi => ?_
    rw [List.mem_range] at hi
    rw [dgram i hi, hAi i hi]
    rfl
  have hus : (List.range X.order).mapM (fun i => den (.use i)) = some st.A := by
    rw [← mapM_range_get, hl]
    refine mapM_congr' fun i hi => ?_
    rw [List.mem_range] at hi
    rw [duse i hi, hAi i hi]
  have dl0 : den .l0 = some (num (st.L X.order)) := by
    rw [hden .l0 (mem_nodes.2 trivial)]
    simp [build, tvars, vars]
  have gsome : ∀ {gs : List (Tensor ℝ)}, (List.range X.order).mapM (fun i => den (.gram i)) = some gs →
      ∀ i < X.order, (den (.gram i)).isSome := by
    intro gs h i hi
    by_contra hne
    have hn : den (.gram i) = none := by simpa using hne
    have : (List.range X.order).mapM (fun i => den (.gram i)) = none := by
      have : i ∈ List.range X.order := List.mem_range.2 hi
      generalize List.range X.order = l at this
      clear h
      induction l with
      | nil => cases this
      | cons a l ih =>
          rw [List.mapM_cons]
          rcases List.mem_cons.1 this with rfl | h'
          · rw [hn]; rfl
          · rw [ih h']; cases den (.gram a) <;> rfl
    rw [this] at h
    cases h
  unfold bcu.NTUCKER.core
  cases e1 : st.A.mapM fun a => tf.matmul a a true false with
  | error e =>
      rw [e1] at hgs
      refine hfail.2 ⟨.sv, mem_nodes.2 trivial, dnone .sv trivial ?_⟩
      simp [build, hgs]
  | ok gs =>
  rw [e1, toOption_ok] at hgs
  have hgsome := gsome hgs
  simp only [ok_bind]
  cases e2 : ops.maxSingleValueMul topSv gs with
  | error e =>
      refine hfail.2 ⟨.sv, mem_nodes.2 trivial, dnone .sv trivial ?_⟩
      simp [build, hgs, e2]
  | ok l =>
  have dsv : den .sv = some (num l) := by
    refine dsome .sv _ trivial ?_ ?_
    · simpa [build] using hgsome
    · simp [build, hgs, e2]
  have dl : den .l = some (num l) := by
    refine dsome .l _ trivial ?_ ?_
    · simp [build, dl0, dsv]
    · simp [build, dsv]
  simp only [ok_bind]
  cases e3 : ops.ttm st.gm gs with
  | error e =>
      refine hfail.2 ⟨.bsq, mem_nodes.2 trivial, dnone .bsq trivial ?_⟩
      simp [build, hgs, tvars, e3]
  | ok B =>
  simp only [ok_bind]
  unfold bcu.assignCore
  by_cases e4 : B.shape = ranks
  swap
  · rw [if_neg (by rw [hg]; exact e4)]
    refine hfail.2 ⟨.bsq, mem_nodes.2 trivial, dnone .bsq trivial ?_⟩
    simp [build, hgs, tvars, e3, fits, e4]
  have dB : den .bsq = some B := by
    refine dsome .bsq _ trivial ?_ ?_
    · simpa [build] using hgsome
    · simp [build, hgs, tvars, e3, fits, e4]
  rw [if_pos (by rw [hg]; exact e4), ok_bind]
  cases e5 : ops.ttm X st.A none true with
  | error e =>
      refine hfail.2 ⟨.xa, mem_nodes.2 trivial, dnone .xa trivial ?_⟩
      simp [build, hus, e5]
  | ok XA =>
  have dxa : den .xa = some XA := by
    refine dsome .xa _ trivial ?_ ?_
    · simp only [build, List.mem_map, List.mem_range, forall_exists_index, and_imp, forall_apply_eq_imp_iff₂]
      intro i hi
      rw [duse i hi]; rfl
    · simp [build, hus, e5]
  simp only [ok_bind]
  cases e6 : tf.ewise (· - ·) B XA with
  | error e =>
      refine hfail.2 ⟨.grad, mem_nodes.2 trivial, dnone .grad trivial ?_⟩
      simp [build, dB, dxa, e6]
  | ok G =>
  simp only [ok_bind]
  by_cases e7 : G.shape = ranks
  swap
  · rw [if_neg (by rw [hg]; exact e7)]
    refine hfail.2 ⟨.grad, mem_nodes.2 trivial, dnone .grad trivial ?_⟩
    simp [build, dB, dxa, e6, fits, e7]
  have dG : den .grad = some G := by
    refine dsome .grad _ trivial ?_ ?_
    · simp [build, dB, dxa]
    · simp [build, dB, dxa, e6, fits, e7]
  rw [if_pos (by rw [hg]; exact e7), ok_bind]
  cases e8 : bcu.proxStep st.gm G l with
  | error e =>
      refine hfail.2 ⟨.assign, mem_nodes.2 trivial, dnone .assign trivial ?_⟩
      simp [build, dG, dl, tvars, the_num, e8]
  | ok v =>
  simp only [ok_bind]
  by_cases e9 : v.shape = ranks
  swap
  · rw [if_neg (by rw [hg]; exact e9)]
    refine hfail.2 ⟨.assign, mem_nodes.2 trivial, dnone .assign trivial ?_⟩
    simp [build, dG, dl, tvars, the_num, e8, fits, e9]
  have dv : den .assign = some v := by
    refine dsome .assign _ trivial ?_ ?_
    · simp [build, dG, dl]
    · simp [build, dG, dl, tvars, the_num, e8, fits, e9]
  rw [if_pos (by rw [hg]; exact e9), ok_bind]
  refine ⟨?_, by rw [hdone .assign (mem_nodes.2 trivial), dv], ?_⟩
  · funext u
    by_cases u1 : u = .g
    · subst u1
      rw [hwr .assign (mem_nodes.2 trivial) .g v rfl dv]; rfl
    by_cases u2 : u = .L X.order
    · subst u2
      rw [hwr .l (mem_nodes.2 trivial) (.L X.order) _ rfl dl]
      simp [tvars, vars]
    by_cases u3 : u = .L0 X.order
    · subst u3
      rw [hwr .l0 (mem_nodes.2 trivial) (.L0 X.order) _ rfl dl0]
      simp [tvars, vars]
    rw [hkeep u (by
      intro n _ hnu
      cases n <;> simp only [build, reduceCtorEq, Option.some.injEq] at hnu
      · exact u3 hnu.symm
      · exact u2 hnu.symm
      · exact u1 hnu.symm)]
    cases u with
    | L i =>
        have : i ≠ X.order := by rintro rfl; exact u2 rfl
        simp [tvars, vars, Function.update_of_ne this]
    | L0 i =>
        have : i ≠ X.order := by rintro rfl; exact u3 rfl
        simp [tvars, vars, Function.update_of_ne this]
    | g => exact absurd rfl u1
    | _ => rfl
  · rw [hfail]
    rintro ⟨n, hn, hx⟩
    rw [mem_nodes] at hn
    cases n with
    | gram i => have := hgsome i hn; rw [hx] at this; cases this
    | use i => rw [duse i hn] at hx; cases hx
    | l0 => rw [dl0] at hx; cases hx
    | sv => rw [dsv] at hx; cases hx
    | l => rw [dl] at hx; cases hx
    | bsq => rw [dB] at hx; cases hx
    | xa => rw [dxa] at hx; cases hx
    | grad => rw [dG] at hx; cases hx
    | assign => rw [dv] at hx; cases hx

end Core

end TD.graph.Bcu
