import Verif.Lemmas.Rounding
import Verif.Lemmas.Skip
import Verif.Spec.ModeProd

/-! # The operators of `ops.py` and `type.py` on a rounded, an exact and a magnitude run -/
namespace TD
open Tensor fl ops
variable {S : Arith}

namespace tf

theorem parse_some {ws : List (List Char)} {out : List Char} (hws : ws ≠ []) (h1 : ∀ w ∈ ws, ∀ c ∈ w, c ≠ '-' ∧ c ≠ ',')
    {ins : List (List Char)} {o : List Char} (h : parseEq (joinComma ws ++ '-' :: '>' :: out) = some (ins, o)) :
    ins = ws ∧ o = out := by
  have h2 : '-' ∉ joinComma ws := not_mem_join (by decide) (fun w hw hc => (h1 w hw _ hc).1 rfl)
  have h3 : ∀ w ∈ ws, ',' ∉ w := fun w hw hc => (h1 w hw _ hc).2 rfl
  unfold parseEq at h
  rw [splitArrow_append h2] at h
  simp only [splitAll_join hws h3] at h
  split at h
  · simp only [Option.some.injEq, Prod.mk.injEq] at h
    exact ⟨h.1.symm, h.2.symm⟩
  · cases h

theorem letter_pair {w : List Char} {i j : Nat} (hw : w = [letter i, letter j]) : ∀ c ∈ w, c ≠ '-' ∧ c ≠ ',' := by
  subst hw
  intro c hc
  simp only [List.mem_cons, List.not_mem_nil, or_false] at hc
  rcases hc with rfl | rfl <;> exact letter_ne_sep _

theorem summed_nil {ins : List (List Char)} {out : List Char} (h : ∀ c ∈ ins.flatten, c ∈ out) (d : Char → Nat) :
    ((ins.flatten.dedup.filter (· ∉ out)).map d).prod ≤ 1 := by
  have : ins.flatten.dedup.filter (· ∉ out) = [] := by
    rw [List.filter_eq_nil_iff]
    intro c hc
    simpa using h c (by simpa using hc)
  rw [this]; simp

theorem kron_summed {n : Nat} {ins : List (List Char)} {out : List Char} (h : parseEq (kronEq n) = some (ins, out))
    (d : Char → Nat) : ((ins.flatten.dedup.filter (· ∉ out)).map d).prod ≤ 1 := by
  cases n with
  | zero => rw [show parseEq _ = none from rfl] at h; cases h
  | succ n =>
      rw [kronEq_eq] at h
      obtain ⟨rfl, rfl⟩ := parse_some (by simp) (by
        intro w hw
        obtain ⟨a, ha, b, hb, rfl⟩ := mem_zipWith_pair hw
        obtain ⟨i, -, rfl⟩ := List.mem_map.1 ha
        obtain ⟨j, -, rfl⟩ := List.mem_map.1 hb
        exact letter_pair rfl) h
      refine summed_nil (fun c hc => ?_) d
      rwa [mem_flatten_pair (by simp), ← List.mem_append] at hc

theorem khatri_summed {n : Nat} {ins : List (List Char)} {out : List Char} (h : parseEq (khatriEq n) = some (ins, out))
    (d : Char → Nat) : ((ins.flatten.dedup.filter (· ∉ out)).map d).prod ≤ 1 := by
  cases n with
  | zero => rw [show parseEq _ = none from rfl] at h; cases h
  | succ n =>
      rw [khatriEq_eq] at h
      obtain ⟨rfl, rfl⟩ := parse_some (by simp) (by
        intro w hw
        obtain ⟨i, -, rfl⟩ := List.mem_map.1 hw
        exact letter_pair (i := i) (j := 25) rfl) h
      refine summed_nil (fun c hc => ?_) d
      obtain ⟨w, hw, hc⟩ := List.mem_flatten.1 hc
      obtain ⟨i, hi, rfl⟩ := List.mem_map.1 hw
      simp only [List.mem_cons, List.not_mem_nil, or_false] at hc
      rw [List.mem_append]
      rcases hc with rfl | rfl
      · exact Or.inl (List.mem_map.2 ⟨i, hi, rfl⟩)
      · exact Or.inr (by simp)

theorem ttm_summed {N : Nat} {axis : List Nat} {tr : Bool} (hne : axis ≠ []) (hnd : axis.Nodup) (hlt : ∀ i ∈ axis, i < N)
    (h26 : ∀ i ∈ axis, i + N < 26) {eqn : List Char} (he : ttmEq N axis tr = .ok eqn)
    {ins : List (List Char)} {out : List Char} (h : parseEq eqn = some (ins, out)) {s : List Nat} {ss : List (List Nat)}
    (hs : s.length = N) :
    ((ins.flatten.dedup.filter (· ∉ out)).map (labelDim ins (s :: ss))).prod = Spec.axesSize s axis := by
  have hN : N ≤ 26 := by
    obtain ⟨p, hp⟩ := List.exists_mem_of_ne_nil axis hne
    have := h26 p hp; omega
  rw [ttmEq_ok hne hN hlt] at he
  obtain rfl := Except.ok.inj he
  set T : Nat → Char := fun i => letter (26 - N + i) with hTdef
  have hTinj : ∀ i < N, ∀ j < N, T i = T j → i = j := by
    intro i hi j hj e
    have := letter_inj (by omega) (by omega) e; omega
  have haT : ∀ i ∈ axis, ∀ j < N, letter i ≠ T j := by
    intro i hi j hj e
    have := hlt i hi
    have := h26 i hi
    have := letter_inj (by omega) (by omega) e; omega
  obtain ⟨rfl, rfl⟩ := parse_some (by simp) (by
    intro w hw c hc
    rcases List.mem_cons.1 hw with rfl | hw
    · obtain ⟨i, -, rfl⟩ := List.mem_map.1 hc
      exact letter_ne_sep _
    · obtain ⟨i, -, rfl⟩ := List.mem_map.1 hw
      cases tr <;> exact letter_pair rfl c hc) h
  set TL := (List.range N).map T with hTL
  have hTLn : TL.Nodup := List.nodup_range.map_on (fun x hx y hy e => hTinj x (by simpa using hx) y (by simpa using hy) e)
  set rest := axis.map fun i => if tr then [T i, letter i] else [letter i, T i] with hrest
  set out := (List.range N).map fun k => if k ∈ axis then letter k else T k with hout
  have hdim : ∀ i ∈ axis, labelDim (TL :: rest) (s :: ss) (T i) = s.getD i 0 := by
    intro i hi
    have hiN := hlt i hi
    have hmem : T i ∈ TL := List.mem_map.2 ⟨i, by simpa using hiN, rfl⟩
    have hidx : TL.idxOf (T i) = i := by
      have := hTLn.idxOf_getElem i (by simpa [hTL] using hiN)
      rwa [show TL[i]'(by simpa [hTL] using hiN) = T i by simp [hTL]] at this
    unfold labelDim bindLabels
    rw [List.flatten_cons, List.flatten_cons, List.idxOf_append_of_mem hmem, hidx]
    simp only [List.getD_eq_getElem?_getD]
    rw [List.getElem?_append_left (by omega)]
  have hperm : ((TL :: rest).flatten.dedup.filter (· ∉ out)).Perm (axis.map T) := by
    rw [List.perm_ext_iff_of_nodup ((List.nodup_dedup _).filter _)
      (hnd.map_on fun x hx y hy e => hTinj x (hlt x hx) y (hlt y hy) e)]
    intro c
    simp only [List.mem_filter, List.mem_dedup, decide_eq_true_eq]
    constructor
    · rintro ⟨hc, hco⟩
      have key : ∀ k < N, c = T k → c ∈ axis.map T := by
        rintro k hk rfl
        by_cases hka : k ∈ axis
        · exact List.mem_map.2 ⟨k, hka, rfl⟩
        · exact absurd (List.mem_map.2 ⟨k, by simpa using hk, by simp [hka]⟩) hco
      have key2 : ∀ i ∈ axis, c ≠ letter i := by
        rintro i hi rfl
        exact hco (List.mem_map.2 ⟨i, by simpa using hlt i hi, by simp [hi]⟩)
      rw [List.flatten_cons, List.mem_append] at hc
      rcases hc with hc | hc
      · obtain ⟨k, hk, rfl⟩ := List.mem_map.1 hc
        exact key k (by simpa using hk) rfl
      · obtain ⟨w, hw, hc⟩ := List.mem_flatten.1 hc
        obtain ⟨i, hi, rfl⟩ := List.mem_map.1 hw
        have h1 : c = T i ∨ c = letter i := by
          cases tr <;> simp at hc
          · exact hc.symm
          · exact hc
        rcases h1 with h1 | h1
        · exact key i (hlt i hi) h1
        · exact absurd h1 (key2 i hi)
    · intro hc
      obtain ⟨i, hi, rfl⟩ := List.mem_map.1 hc
      refine ⟨?_, ?_⟩
      · rw [List.flatten_cons, List.mem_append]
        exact Or.inl (List.mem_map.2 ⟨i, by simpa using hlt i hi, rfl⟩)
      · intro hm
        obtain ⟨k, hk, e⟩ := List.mem_map.1 hm
        by_cases hka : k ∈ axis
        · rw [if_pos hka] at e
          exact haT k hka i (hlt i hi) e
        · rw [if_neg hka] at e
          exact hka ((hTinj k (by simpa using hk) i (hlt i hi) e) ▸ hi)
  rw [(hperm.map _).prod_eq, List.map_map]
  unfold Spec.axesSize
  congr 1
  exact List.map_congr_left fun i hi => hdim i hi

end tf

namespace ops

theorem reshape2_shape {α : Type} {t M : Tensor α} {m n : Nat} (h : tf.reshape t [(m : Int), (n : Int)] = .ok M) :
    M.shape = [m, n] := by
  have e : ([(m : Int), (n : Int)] : List Int) = [m, n].map fun k : Nat => (k : Int) := rfl
  rw [e] at h
  by_cases hd : t.data.length = [m, n].prod
  · rw [tf.reshape_nat hd] at h
    obtain rfl := Except.ok.inj h
    rfl
  · rw [tf.reshape_nat_error hd] at h; cases h

theorem dimsAt_cons (s : List Nat) (i : Nat) (l : List Nat) : dimsAt s (i :: l) =
    (match s[i]? with
      | some d => .ok d
      | none => .error .indexError : Res Nat) >>= fun x => dimsAt s l >>= fun r => .ok (x :: r) := by
  unfold dimsAt
  rw [List.mapM_cons]; rfl

theorem dimsAt_inv {s l d : List Nat} (h : dimsAt s l = .ok d) : d = l.map fun k => s.getD k 0 := by
  induction l generalizing d with
  | nil => cases h; rfl
  | cons i l ih =>
      rw [dimsAt_cons] at h
      cases hi : s[i]? with
      | none => rw [hi] at h; cases h
      | some x =>
          rw [hi] at h
          change (dimsAt s l >>= fun r => .ok (x :: r)) = _ at h
          cases hl : dimsAt s l with
          | error e => rw [hl] at h; cases h
          | ok r =>
              rw [hl] at h
              obtain rfl := Except.ok.inj h
              rw [ih hl]
              simp [List.getD_eq_getElem?_getD, hi]

theorem t2mat_rest_rows {α : Type} [Zero α] {A M : Tensor α} {a : Axis} (h : t2mat A a .rest = .ok M) :
    ∃ n, M.shape = [Spec.axesSize A.shape a.elems, n] := by
  have key : ∀ (l indies cl rd : List Nat), dimsAt A.shape l = .ok rd → (do
      let cd ← dimsAt A.shape cl
      let tr ← tf.transpose A indies
      tf.reshape tr [((rd.prod : Nat) : Int), ((cd.prod : Nat) : Int)] : Res (Tensor α)) = .ok M → ∃ n, M.shape = [Spec.axesSize A.shape l, n] := by
    intro l indies cl rd hrd h
    have := dimsAt_inv hrd
    cases hc : dimsAt A.shape cl with
    | error e => rw [hc] at h; cases h
    | ok cd =>
        rw [hc] at h
        change (tf.transpose A _ >>= _) = _ at h
        cases ht : tf.transpose A indies with
        | error e => rw [ht] at h; cases h
        | ok tr =>
            rw [ht] at h
            refine ⟨cd.prod, ?_⟩
            rw [reshape2_shape h, this]; rfl
  unfold t2mat t2matSt at h
  cases a <;> dsimp only at h <;> split at h <;> first | cases h | skip
  · rename_i rd hrd
    exact key _ _ _ _ hrd h
  · rename_i rd hrd
    exact key _ _ _ _ hrd h

end ops

namespace Graded
variable {G : Nat → Fl S → ℝ → ℝ → Prop} (hG : Graded S G)
include hG

theorem ops_mul {d e : Nat} {A A' : Tensor (Fl S)} {B B' C C' : Tensor ℝ} (h : TRel (G d) A B C) (h' : TRel (G e) A' B' C')
    (a b : Axis) :
    RelR (TRel (G (d + e + Spec.axesSize A.shape a.elems))) (ops.mul A A' a b) (ops.mul B B' a b) (ops.mul C C' a b) := by
  unfold ops.mul
  rw [← h.order.1, ← h.order.2, ← h'.order.1, ← h'.order.2, ← h.1, ← h.2.1, ← h'.1, ← h'.2.1]
  dsimp only
  have hn : a.elems = (normAxis a).elems := by cases a <;> rfl
  rw [hn]
  refine RelR.bind_eq (t2mat_rel h _ _) fun M M1 M2 hM hMr => ?_
  obtain ⟨n, hMs⟩ := t2mat_rest_rows hM
  refine RelR.bind (t2mat_rel h' _ _) fun N N1 N2 hNr => ?_
  refine RelR.bind (hG.matmul hMr hNr ?_) fun _ _ _ hr => tf.reshape_rel hr _
  intro a0 a1 hs
  rw [hMs] at hs
  simp only [List.cons.injEq] at hs
  rw [if_pos rfl, hs.1]

theorem ops_inner {d e : Nat} {A A' : Tensor (Fl S)} {B B' C C' : Tensor ℝ} (h : TRel (G d) A B C) (h' : TRel (G e) A' B' C') :
    RelR (G (d + e + 1 + (A.shape.prod - 1))) (ops.inner A A') (ops.inner B B') (ops.inner C C') := by
  unfold ops.inner
  rw [← h.1, ← h.2.1, ← h'.1, ← h'.2.1]
  by_cases hs : A.shape ≠ A'.shape
  · rw [if_pos hs, if_pos hs, if_pos hs]; exact ⟨rfl, rfl⟩
  · rw [if_neg hs, if_neg hs, if_neg hs]
    push Not at hs
    unfold ops.vectorize
    simp only [tf.reshape_flat, ok_bind]
    have hl : A'.data.length = A.data.length := by rw [A.wf, A'.wf, hs]
    have e1 : TRel (G d) (⟨[A.data.length], A.data, by simp⟩ : Tensor (Fl S)) ⟨[B.data.length], B.data, by simp⟩
        ⟨[C.data.length], C.data, by simp⟩ :=
      ⟨congrArg (fun n => [n]) (by rw [A.wf, B.wf, h.1]), congrArg (fun n => [n]) (by rw [A.wf, C.wf, h.2.1]), h.2.2⟩
    have e2 : TRel (G e) (⟨[A'.data.length], A'.data, by simp⟩ : Tensor (Fl S)) ⟨[B'.data.length], B'.data, by simp⟩
        ⟨[C'.data.length], C'.data, by simp⟩ :=
      ⟨congrArg (fun n => [n]) (by rw [A'.wf, B'.wf, h'.1]), congrArg (fun n => [n]) (by rw [A'.wf, C'.wf, h'.2.1]), h'.2.2⟩
    refine RelR.bind_eq (tf.ewise_rel e1 e2 (hG.zero _) fun _ _ _ _ _ _ g1 g2 => hG.mul g1 g2) fun P P1 P2 hP hr => ?_
    rw [tf.ewise_same _ (by simp [hl])] at hP
    have hPs : P.shape = [A.data.length] := by rw [← Except.ok.inj hP]; rfl
    have := hG.total (by rw [P.wf, P1.wf, hr.1]) (by rw [P.wf, P2.wf, hr.2.1]) hr.2.2
    rw [P.wf, hPs, List.prod_singleton, A.wf] at this
    exact this

omit hG in
theorem skip_mem {L : List (Triple S)} {s : Skip} {p : Triple S} (h : p ∈ ops.skip L s) : p ∈ L := by
  rw [skip_eq_kept] at h; exact kept_sub h

omit hG in
theorem skip_map_list {β γ : Type} (f : β → γ) (ms : List β) (s : Skip) : ops.skip (ms.map f) s = (ops.skip ms s).map f := by
  rw [skip_eq_kept, skip_eq_kept, kept_map]

theorem ops_hadamard {d : Nat} {L : List (Triple S)} (h : ∀ p ∈ L, TRel (G d) p.1 p.2.1 p.2.2) (s : Skip) :
    RelR (TRel (G ((ops.skip L s).length * d + ((ops.skip L s).length - 1)))) (ops.hadamard (L.map fun p => p.1) s)
      (ops.hadamard (L.map fun p => p.2.1) s) (ops.hadamard (L.map fun p => p.2.2) s) := by
  unfold ops.hadamard
  rw [skip_map_list, skip_map_list, skip_map_list]
  replace h : ∀ p ∈ ops.skip L s, TRel (G d) p.1 p.2.1 p.2.2 := fun p hp => h p (skip_mem hp)
  generalize ops.skip L s = L at h
  cases L with
  | nil => exact ⟨rfl, rfl⟩
  | cons p L =>
      have key : ∀ (L : List (Triple S)) (k : Nat) (A : Tensor (Fl S)) (B C : Tensor ℝ), TRel (G k) A B C →
          (∀ p ∈ L, TRel (G d) p.1 p.2.1 p.2.2) →
          RelR (TRel (G (k + L.length * (d + 1)))) ((L.map fun p => p.1).foldlM (tf.ewise (· * ·)) A)
            ((L.map fun p => p.2.1).foldlM (tf.ewise (· * ·)) B) ((L.map fun p => p.2.2).foldlM (tf.ewise (· * ·)) C) := by
        intro L
        induction L with
        | nil =>
            intro k A B C h _
            simp only [List.length_nil, Nat.zero_mul, Nat.add_zero]
            exact h
        | cons q L ih =>
            intro k A B C hA hL
            simp only [List.map_cons, List.foldlM_cons]
            refine RelR.bind (tf.ewise_rel hA (hL q (by simp)) (hG.zero _) fun _ _ _ _ _ _ g1 g2 => hG.mul g1 g2)
              fun A1 B1 C1 h1 => ?_
            refine RelR.mono (ih _ _ _ _ h1 fun p hp => hL p (by simp [hp])) fun a b c habc => habc.mono fun _ _ _ hh =>
              hG.mono (by simp only [List.length_cons]; ring_nf; omega) hh
      have := key L d p.1 p.2.1 p.2.2 (h p (by simp)) fun q hq => h q (by simp [hq])
      refine RelR.mono this fun a b c habc => habc.mono fun _ _ _ hh =>
        hG.mono (by simp only [List.length_cons]; ring_nf; omega) hh

omit hG in
theorem dims_eq {d : Nat} {L : List (Triple S)} (h : ∀ p ∈ L, TRel (G d) p.1 p.2.1 p.2.2) (i : Nat) :
    dimOfEach (L.map fun p => p.2.1) i = dimOfEach (L.map fun p => p.1) i ∧
      dimOfEach (L.map fun p => p.2.2) i = dimOfEach (L.map fun p => p.1) i := by
  induction L with
  | nil => exact ⟨rfl, rfl⟩
  | cons p L ih =>
      have hp := h p (by simp)
      obtain ⟨h1, h2⟩ := ih fun q hq => h q (by simp [hq])
      unfold dimOfEach at h1 h2 ⊢
      simp only [List.map_cons, List.mapM_cons]
      rw [h1, h2, ← hp.1, ← hp.2.1]
      exact ⟨rfl, rfl⟩

theorem ops_kron {d : Nat} {L : List (Triple S)} (h : ∀ p ∈ L, TRel (G d) p.1 p.2.1 p.2.2) (s : Skip) (rev : Bool) :
    RelR (TRel (G ((ops.skip L s).length * d + ((ops.skip L s).length - 1)))) (ops.kron (L.map fun p => p.1) s rev)
      (ops.kron (L.map fun p => p.2.1) s rev) (ops.kron (L.map fun p => p.2.2) s rev) := by
  unfold ops.kron
  rw [skip_map_list, skip_map_list, skip_map_list]
  replace h : ∀ p ∈ ops.skip L s, TRel (G d) p.1 p.2.1 p.2.2 := fun p hp => h p (skip_mem hp)
  generalize ops.skip L s = L at h
  have hr : ∀ {β : Type} (f : Triple S → β), (if rev = true then (L.map f).reverse else L.map f) =
      (if rev = true then L.reverse else L).map f := by intro β f; cases rev <;> simp
  dsimp only
  rw [hr, hr, hr]
  have hlen : L.length = (if rev = true then L.reverse else L).length := by cases rev <;> simp
  rw [hlen]
  replace h : ∀ p ∈ (if rev = true then L.reverse else L), TRel (G d) p.1 p.2.1 p.2.2 := by
    intro p hp; exact h p (by cases rev <;> simpa using hp)
  generalize (if rev = true then L.reverse else L) = L at h
  simp only [List.length_map]
  refine RelR.bind (hG.einsum (K := 1) h fun ins out hp _ => tf.kron_summed hp _) fun A B C hA => ?_
  rw [(dims_eq h 0).1, (dims_eq h 0).2, (dims_eq h 1).1, (dims_eq h 1).2]
  refine RelR.bind (RelR.const (p := fun a b c => a = b ∧ a = c) fun a _ => ⟨rfl, rfl⟩) ?_
  rintro a _ _ ⟨rfl, rfl⟩
  refine RelR.bind (RelR.const (p := fun a b c => a = b ∧ a = c) fun a _ => ⟨rfl, rfl⟩) ?_
  rintro b _ _ ⟨rfl, rfl⟩
  exact tf.reshape_rel hA _

theorem ops_khatri {d : Nat} {L : List (Triple S)} (h : ∀ p ∈ L, TRel (G d) p.1 p.2.1 p.2.2) (s : Skip) (rev : Bool) :
    RelR (TRel (G ((ops.skip L s).length * d + ((ops.skip L s).length - 1)))) (ops.khatri (L.map fun p => p.1) s rev)
      (ops.khatri (L.map fun p => p.2.1) s rev) (ops.khatri (L.map fun p => p.2.2) s rev) := by
  unfold ops.khatri
  rw [skip_map_list, skip_map_list, skip_map_list]
  replace h : ∀ p ∈ ops.skip L s, TRel (G d) p.1 p.2.1 p.2.2 := fun p hp => h p (skip_mem hp)
  generalize ops.skip L s = L at h
  have hr : ∀ {β : Type} (f : Triple S → β), (if rev = true then (L.map f).reverse else L.map f) =
      (if rev = true then L.reverse else L).map f := by intro β f; cases rev <;> simp
  dsimp only
  rw [hr, hr, hr]
  have hlen : L.length = (if rev = true then L.reverse else L).length := by cases rev <;> simp
  rw [hlen]
  replace h : ∀ p ∈ (if rev = true then L.reverse else L), TRel (G d) p.1 p.2.1 p.2.2 := by
    intro p hp; exact h p (by cases rev <;> simpa using hp)
  generalize (if rev = true then L.reverse else L) = L at h
  simp only [List.length_map]
  refine RelR.bind (hG.einsum (K := 1) h fun ins out hp _ => tf.khatri_summed hp _) fun A B C hA => ?_
  rw [(dims_eq h 0).1, (dims_eq h 0).2]
  refine RelR.bind (RelR.const (p := fun a b c => a = b ∧ a = c) fun a _ => ⟨rfl, rfl⟩) ?_
  rintro a _ _ ⟨rfl, rfl⟩
  cases L with
  | nil => exact ⟨rfl, rfl⟩
  | cons p L =>
      have hp := h p (by simp)
      simp only [List.map_cons]
      rw [← hp.1, ← hp.2.1]
      cases p.1.shape[(1 : Nat)]? with
      | none => exact ⟨rfl, rfl⟩
      | some c => exact tf.reshape_rel hA _

theorem ops_ttm {d : Nat} {A : Tensor (Fl S)} {B C : Tensor ℝ} (hA : TRel (G d) A B C) {L : List (Triple S)}
    (h : ∀ p ∈ L, TRel (G d) p.1 p.2.1 p.2.2) {axis : List Nat} (tr : Bool) (hne : axis ≠ []) (hnd : axis.Nodup)
    (hlt : ∀ i ∈ axis, i < A.order) (h26 : ∀ i ∈ axis, i + A.order < 26) :
    RelR (TRel (G ((L.length + 1) * d + L.length + (Spec.axesSize A.shape axis - 1))))
      (ops.ttm A (L.map fun p => p.1) (some axis) tr) (ops.ttm B (L.map fun p => p.2.1) (some axis) tr)
      (ops.ttm C (L.map fun p => p.2.2) (some axis) tr) := by
  unfold ops.ttm
  simp only [Option.isSome_some, ne_eq, not_true_eq_false, and_false, if_false, Option.getD_some]
  rw [← hA.order.1, ← hA.order.2]
  refine RelR.bind_eq (RelR.const (p := fun a b c => a = b ∧ a = c) fun a _ => ⟨rfl, rfl⟩) ?_
  rintro eqn _ _ he ⟨rfl, rfl⟩
  have := hG.einsum (eqn := eqn) (L := (A, B, C) :: L) (d := d) (K := Spec.axesSize A.shape axis) (by
    intro p hp
    rcases List.mem_cons.1 hp with rfl | hp
    · exact hA
    · exact h p hp) (by
    intro ins out hp hok
    rw [List.map_cons, List.map_cons]
    exact le_of_eq (tf.ttm_summed hne hnd hlt h26 he hp rfl))
  simpa using this

end Graded
end TD
