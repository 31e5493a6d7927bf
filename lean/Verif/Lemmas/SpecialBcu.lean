import Verif.Lemmas.Special
import Verif.Lemmas.Par
import Verif.Lemmas.NTuckerRun
import Verif.Model.SpecialBcu

/-! # The graphs of the nonnegative trainings with rounding, overflow, infinities and NaN -/
namespace TD.sp
open TD Spec Tensor tf ops fl
variable {F : Fmt}

/-! ### Numbers that are not negative -/

/-- Not negative: NaN counts. -/
def NN (x : Num F) : Prop := x.lt 0 = false

theorem nn_fin {x : ℝ} {h} : NN (.fin x h : Num F) ↔ 0 ≤ x := by
  unfold NN Num.lt
  rw [Num.zero_def]
  simp only [Num.val]
  rw [decide_eq_false_iff_not, not_lt]
  exact EReal.coe_le_coe_iff

theorem nn_inf {s : Bool} : NN (.inf s : Num F) ↔ s = false := by
  unfold NN Num.lt
  rw [Num.zero_def]
  cases s <;> simp [Num.val]

theorem nn_nan : NN (.nan : Num F) := rfl

theorem rnd_nonneg (F : Fmt) {x : ℝ} (h : 0 ≤ x) : 0 ≤ F.arith.rnd x := by
  exact F.rnd_nonneg x h

theorem nn_round {x : ℝ} (h : 0 ≤ x) : NN (Num.round F x) := by
  rcases Num.round_cases (F := F) x with ⟨h', e⟩ | e
  · rw [e]; exact nn_fin.2 (rnd_nonneg F h)
  · rw [e, nn_inf]; simpa using h

theorem nn_zero : NN (0 : Num F) := nn_fin.2 le_rfl
theorem nn_one : NN (1 : Num F) := nn_fin.2 zero_le_one

theorem nn_add {x y : Num F} (hx : NN x) (hy : NN y) : NN (x + y) := by
  cases x with
  | nan => rw [Num.nan_add]; exact nn_nan
  | fin x h =>
      cases y with
      | nan => rw [Num.add_nan]; exact nn_nan
      | fin y h' => rw [Num.add_fin]; exact nn_round (add_nonneg (nn_fin.1 hx) (nn_fin.1 hy))
      | inf t => exact hy
  | inf s =>
      cases y with
      | nan => rw [Num.add_nan]; exact nn_nan
      | fin y h' => exact hx
      | inf t => rw [Num.add_inf_inf, nn_inf.1 hx, nn_inf.1 hy, if_pos rfl, nn_inf]

theorem nn_mul {x y : Num F} (hx : NN x) (hy : NN y) : NN (x * y) := by
  cases x with
  | nan => rw [Num.nan_mul]; exact nn_nan
  | fin x h =>
      cases y with
      | nan => rw [Num.mul_nan]; exact nn_nan
      | fin y h' => rw [Num.mul_fin]; exact nn_round (mul_nonneg (nn_fin.1 hx) (nn_fin.1 hy))
      | inf t =>
          rw [Num.mul_fin_inf]
          split
          · exact nn_nan
          · rw [nn_inf, nn_inf.1 hy, decide_eq_false (not_lt.2 (nn_fin.1 hx))]; rfl
  | inf s =>
      cases y with
      | nan => rw [Num.mul_nan]; exact nn_nan
      | fin y h' =>
          rw [Num.mul_inf_fin]
          split
          · exact nn_nan
          · rw [nn_inf, nn_inf.1 hx, decide_eq_false (not_lt.2 (nn_fin.1 hy))]; rfl
      | inf t => rw [Num.mul_inf_inf, nn_inf.1 hx, nn_inf.1 hy, nn_inf]; rfl

theorem nn_div {x y : Num F} (hx : NN x) (hy : NN y) : NN (x / y) := by
  cases x with
  | nan => rw [Num.nan_div]; exact nn_nan
  | fin x h =>
      cases y with
      | nan => rw [Num.div_nan]; exact nn_nan
      | fin y h' =>
          rw [Num.div_fin]
          split
          · split
            · exact nn_nan
            · rw [nn_inf]; exact decide_eq_false (not_lt.2 (nn_fin.1 hx))
          · exact nn_round (div_nonneg (nn_fin.1 hx) (nn_fin.1 hy))
      | inf t => exact nn_zero
  | inf s =>
      cases y with
      | nan => rw [Num.div_nan]; exact nn_nan
      | fin y h' => rw [Num.div_inf_fin, nn_inf, nn_inf.1 hx, decide_eq_false (not_lt.2 (nn_fin.1 hy))]; rfl
      | inf t => exact nn_nan

theorem nn_square (x : Num F) : NN (x * x) := by
  cases x with
  | nan => exact nn_nan
  | fin x h => rw [Num.mul_fin]; exact nn_round (mul_self_nonneg x)
  | inf s => rw [Num.mul_inf_inf, nn_inf]; simp

theorem nn_fma {x y z : Num F} (hx : NN x) (hy : NN y) (hz : NN z) : NN (Num.fma x y z) := by
  cases x with
  | nan => exact nn_add (nn_mul hx hy) hz
  | inf s => exact nn_add (nn_mul hx hy) hz
  | fin x h =>
      cases y with
      | nan => exact nn_add (nn_mul hx hy) hz
      | inf s => exact nn_add (nn_mul hx hy) hz
      | fin y h' =>
          cases z with
          | fin z h'' => exact nn_round (add_nonneg (mul_nonneg (nn_fin.1 hx) (nn_fin.1 hy)) (nn_fin.1 hz))
          | inf s => exact hz
          | nan => exact hz

theorem nn_sqrt (x : Num F) : NN x.sqrt := by
  cases x with
  | nan => exact nn_nan
  | fin x h =>
      show NN (if x < 0 then .nan else Num.round F (Real.sqrt x))
      split
      · exact nn_nan
      · exact nn_round (Real.sqrt_nonneg _)
  | inf s => cases s <;> simp [Num.sqrt, nn_inf, nn_nan]

theorem nn_root (p : Nat) (x : Num F) : NN (root p x) := by
  cases x with
  | nan => exact nn_nan
  | fin x h =>
      show NN (if x < 0 then .nan else Num.round F (Real.rpow x (1 / (p : ℝ))))
      split
      · exact nn_nan
      · rename_i hx; exact nn_round (Real.rpow_nonneg (not_lt.1 hx) _)
  | inf s => cases s <;> simp [root, nn_inf, nn_nan]

theorem nn_relu1 (x : Num F) : NN (relu1 x) := by
  unfold relu1
  split
  · exact nn_zero
  · rename_i h; exact Bool.eq_false_iff.2 h

/-! ### Properties kept by the evaluation of sums and products -/

/-- A property of numbers kept by the operations the tensor operators use. -/
structure Kept (Q : Num F → Prop) : Prop where
  zero : Q 0
  one : Q 1
  add : ∀ {x y}, Q x → Q y → Q (x + y)
  mul : ∀ {x y}, Q x → Q y → Q (x * y)
  fma : ∀ {x y z}, Q x → Q y → Q z → Q (Num.fma x y z)

theorem kept_nn : Kept (NN (F := F)) := ⟨nn_zero, nn_one, nn_add, nn_mul, nn_fma⟩
theorem kept_true : Kept (fun _ : Num F => True) := ⟨trivial, trivial, fun _ _ => trivial, fun _ _ => trivial, fun _ _ _ => trivial⟩

theorem Kept.eval {Q : Num F → Prop} (h : Kept Q) {ι : Type} {f : ι → Num F} (hf : ∀ i, Q (f i)) :
    ∀ t : Expr ι, Q (Num.eval f t)
  | .leaf i => hf i
  | .zero => h.zero
  | .one => h.one
  | .add a b => h.add (h.eval hf a) (h.eval hf b)
  | .mul a b => h.mul (h.eval hf a) (h.eval hf b)
  | .fma a b c => h.fma (h.eval hf a) (h.eval hf b) (h.eval hf c)

/-- The relation: the numbers of the first run have the property; the other runs are exact and only carry shapes. -/
def Has (Q : Num F → Prop) (x : Num F) (_ _ : ℝ) : Prop := Q x

theorem Kept.par {Q : Num F → Prop} (h : Kept Q) : Par (Has Q) where
  zero := h.zero
  mul := fun a b => h.mul a b
  total := fun {l _ _} _ _ hf => h.eval (f := fun i => l.getD i 0) (fun i => hf i) _
  dot := fun {l _ _} _ _ hf => by
    refine h.eval (f := fun p : Nat × Bool => if p.2 then (l.getD p.1 (0, 0)).2 else (l.getD p.1 (0, 0)).1) ?_ _
    rintro ⟨i, b⟩
    cases b
    exacts [(hf i).1, (hf i).2]
  contract := fun {_} _ {f _ _} _ _ _ hf => h.eval (f := fun p : List Nat × Nat => (f p.1).getD p.2 0) (fun p => hf p.1 p.2) _

/-- All entries have the property. -/
def AllQ (Q : Num F → Prop) (A : Tensor (Num F)) : Prop := ∀ x ∈ A.data, Q x

/-- A real tensor of the same shape. -/
noncomputable def shadow (A : Tensor (Num F)) : Tensor ℝ := tf.map (fun _ => 0) A

theorem AllQ.getD {Q : Num F → Prop} {A : Tensor (Num F)} (h0 : Q 0) (h : AllQ Q A) (k : Nat) : Q (A.data.getD k 0) := by
  rw [List.getD_eq_getElem?_getD]
  cases e : A.data[k]? with
  | none => exact h0
  | some x => exact h x (List.mem_of_getElem? e)

theorem AllQ.rel {Q : Num F → Prop} (hQ : Kept Q) {A : Tensor (Num F)} (h : AllQ Q A) : TRel (Has Q) A (shadow A) (shadow A) :=
  ⟨rfl, rfl, fun k => h.getD hQ.zero k⟩

theorem allQ_of {Q : Num F → Prop} {A : Tensor (Num F)} {B C : Tensor ℝ} (h : TRel (Has Q) A B C) : AllQ Q A := by
  intro x hx
  obtain ⟨k, hk, rfl⟩ := List.getElem_of_mem hx
  have := h.2.2 k
  rwa [List.getD_eq_getElem _ _ hk] at this

theorem allQ_true (A : Tensor (Num F)) : AllQ (fun _ => True) A := fun _ _ => trivial

theorem allQ_map {Q : Num F → Prop} {f : Num F → Num F} (A : Tensor (Num F)) (h : ∀ x ∈ A.data, Q (f x)) : AllQ Q (tf.map f A) := by
  intro x hx
  obtain ⟨y, hy, rfl⟩ := List.mem_map.1 (show x ∈ A.data.map f from hx)
  exact h y hy

theorem allQ_ofFn {Q : Num F → Prop} (s : List Nat) {f : List Nat → Num F} (h : ∀ i, Q (f i)) : AllQ Q (ofFn s f) := by
  intro x hx
  obtain ⟨i, -, rfl⟩ := List.mem_map.1 (show x ∈ (indices s).map f from hx)
  exact h i

/-- The runs of a list. -/
noncomputable def trip (ms : List (Tensor (Num F))) : List (Tensor (Num F) × Tensor ℝ × Tensor ℝ) :=
  ms.map fun A => (A, shadow A, shadow A)

theorem trip_maps (ms : List (Tensor (Num F))) : ((trip ms).map fun p => p.1) = ms ∧
    ((trip ms).map fun p => p.2.1) = ms.map shadow ∧ ((trip ms).map fun p => p.2.2) = ms.map shadow := by
  unfold trip
  simp [Function.comp_def]

theorem trip_rel {Q : Num F → Prop} (hQ : Kept Q) {ms : List (Tensor (Num F))} (h : ∀ M ∈ ms, AllQ Q M) :
    ∀ p ∈ trip ms, TRel (Has Q) p.1 p.2.1 p.2.2 := by
  intro p hp
  obtain ⟨A, hA, rfl⟩ := List.mem_map.1 hp
  exact (h A hA).rel hQ

theorem shadow_shapes (ms : List (Tensor (Num F))) : (ms.map shadow).map Tensor.shape = ms.map Tensor.shape := by
  rw [List.map_map]; rfl

section
variable {Q : Num F → Prop}

theorem khatri_ok (hQ : Kept Q) {ms : List (Tensor (Num F))} (h : ∀ M ∈ ms, AllQ Q M) {s : Skip} {rev : Bool} {K : Tensor ℝ}
    (hK : ops.khatri (ms.map shadow) s rev = .ok K) : ∃ K', ops.khatri ms s rev = .ok K' ∧ K'.shape = K.shape ∧ AllQ Q K' := by
  have := hQ.par.ops_khatri (trip_rel hQ h) s rev
  rw [(trip_maps ms).1, (trip_maps ms).2.1, (trip_maps ms).2.2] at this
  obtain ⟨a, c, e, -, hr⟩ := this.of_ok hK
  exact ⟨a, e, hr.1, allQ_of hr⟩

theorem hadamard_ok (hQ : Kept Q) {ms : List (Tensor (Num F))} (h : ∀ M ∈ ms, AllQ Q M) {s : Skip} {K : Tensor ℝ}
    (hK : ops.hadamard (ms.map shadow) s = .ok K) : ∃ K', ops.hadamard ms s = .ok K' ∧ K'.shape = K.shape ∧ AllQ Q K' := by
  have := hQ.par.ops_hadamard (trip_rel hQ h) s
  rw [(trip_maps ms).1, (trip_maps ms).2.1, (trip_maps ms).2.2] at this
  obtain ⟨a, c, e, -, hr⟩ := this.of_ok hK
  exact ⟨a, e, hr.1, allQ_of hr⟩

theorem ttm_ok (hQ : Kept Q) {A : Tensor (Num F)} (hA : AllQ Q A) {ms : List (Tensor (Num F))} (h : ∀ M ∈ ms, AllQ Q M)
    {axis : Option (List Nat)} {tr : Bool} {s : Skip} {K : Tensor ℝ}
    (hK : ops.ttm (shadow A) (ms.map shadow) axis tr s = .ok K) :
    ∃ K', ops.ttm A ms axis tr s = .ok K' ∧ K'.shape = K.shape ∧ AllQ Q K' := by
  have := hQ.par.ops_ttm (hA.rel hQ) (trip_rel hQ h) axis tr s
  rw [(trip_maps ms).1, (trip_maps ms).2.1, (trip_maps ms).2.2] at this
  obtain ⟨a, c, e, -, hr⟩ := this.of_ok hK
  exact ⟨a, e, hr.1, allQ_of hr⟩

theorem ttm_ok_of (hQ : Kept Q) {A : Tensor (Num F)} (hA : AllQ Q A) {ms : List (Tensor (Num F))} (h : ∀ M ∈ ms, AllQ Q M)
    {A' : Tensor ℝ} (hs : A.shape = A'.shape) {ms' : List (Tensor ℝ)} (hm : ms.map Tensor.shape = ms'.map Tensor.shape)
    {axis : Option (List Nat)} {tr : Bool} {s : Skip} {K : Tensor ℝ} (hK : ops.ttm A' ms' axis tr s = .ok K) :
    ∃ K', ops.ttm A ms axis tr s = .ok K' ∧ K'.shape = K.shape ∧ AllQ Q K' := by
  have hl : ms.length = ms'.length := by simpa using congrArg List.length hm
  have := hQ.par.ops_ttm (A := A) (B := A') (C := A') ⟨hs, hs, fun k => hA.getD hQ.zero k⟩
    (L := (ms.zip ms').map fun p => (p.1, p.2, p.2)) (by
      intro p hp
      obtain ⟨q, hq, rfl⟩ := List.mem_map.1 hp
      have e : q.1.shape = q.2.shape := by
        obtain ⟨k, hk, rfl⟩ := List.getElem_of_mem hq
        have hk1 : k < ms.length := by simp at hk; omega
        have hk2 : k < ms'.length := by omega
        have := List.getElem_of_eq hm (i := k) (by simpa using hk1)
        simpa using this
      exact ⟨e, e, fun k => (h _ (List.of_mem_zip hq).1).getD hQ.zero k⟩) axis tr s
  have e1 : (((ms.zip ms').map fun p => (p.1, p.2, p.2)).map fun p => p.1) = ms := by
    rw [List.map_map]; exact List.map_fst_zip (le_of_eq hl)
  have e2 : (((ms.zip ms').map fun p => (p.1, p.2, p.2)).map fun p => p.2.1) = ms' := by
    rw [List.map_map]; exact List.map_snd_zip (le_of_eq hl.symm)
  have e3 : (((ms.zip ms').map fun p => (p.1, p.2, p.2)).map fun p => p.2.2) = ms' := by
    rw [List.map_map]; exact List.map_snd_zip (le_of_eq hl.symm)
  rw [e1, e2, e3] at this
  obtain ⟨a, c, e, -, hr⟩ := this.of_ok hK
  exact ⟨a, e, hr.1, allQ_of hr⟩

/-- The full tensor of NCP. -/
theorem NCP.full_ok (hQ : Kept Q) {A : List (Tensor (Num F))} (h : ∀ M ∈ A, AllQ Q M) {shape : List Nat} {R : Nat}
    (hA : FactorsFor shape R A) (hne : shape ≠ []) (h25 : shape.length ≤ 25) :
    ∃ Y, NCP.fullOf A = .ok Y ∧ Y.shape = shape ∧ AllQ Q Y := by
  obtain ⟨Y, e, hs, -⟩ := bcu.NCP.fullOf_spec (A := A.map shadow) (R := R) ((shadow_shapes A).trans hA) hne h25
  have hrel : RelR (TRel (Has Q)) (NCP.fullOf A) (bcu.NCP.fullOf (A.map shadow)) (bcu.NCP.fullOf (A.map shadow)) := by
    unfold NCP.fullOf bcu.NCP.fullOf
    cases A with
    | nil => exact ⟨rfl, rfl⟩
    | cons a A =>
        unfold KTensor.init
        simp only [List.map_cons]
        have hd : ops.dimOf (shadow a) 1 = ops.dimOf a 1 := rfl
        rw [hd]
        cases hd1 : ops.dimOf a 1 with
        | error e => exact ⟨rfl, rfl⟩
        | ok r =>
            have h1 : TRel (Has Q) (tf.ones [r, 1] : Tensor (Num F)) (tf.ones [r, 1] : Tensor ℝ) (tf.ones [r, 1] : Tensor ℝ) :=
              TRel.ofFn hQ.zero _ fun _ _ => hQ.one
            have := hQ.par.kextract (trip_rel hQ h) h1 .float32 .float32
            rw [(trip_maps (a :: A)).1, (trip_maps (a :: A)).2.1, (trip_maps (a :: A)).2.2] at this
            exact this
  obtain ⟨Y', c, e', -, hr⟩ := hrel.of_ok e
  exact ⟨Y', e', hr.1.trans hs, allQ_of hr⟩

/-- The full tensor of NTUCKER. -/
theorem NTUCKER.full_ok (hQ : Kept Q) {g : Tensor (Num F)} (hg : AllQ Q g) {A : List (Tensor (Num F))} (h : ∀ M ∈ A, AllQ Q M)
    {shape ranks : List Nat} (hA : A.map Tensor.shape = tuckerShapes shape ranks) (hr : ranks.length = shape.length)
    (hgs : g.shape = ranks) (h1 : 1 ≤ shape.length) (h13 : shape.length ≤ 13) :
    ∃ Y, NTUCKER.fullOf g A = .ok Y ∧ Y.shape = shape ∧ AllQ Q Y := by
  obtain ⟨e, hs, -⟩ := tk_full (g := shadow g) (A := A.map shadow) h1 h13
    (tuckerShapes_iff.1 ((shadow_shapes A).trans hA)) hr hgs
  have hrel : RelR (TRel (Has Q)) (NTUCKER.fullOf g A) (bcu.NTUCKER.fullOf (shadow g) (A.map shadow))
      (bcu.NTUCKER.fullOf (shadow g) (A.map shadow)) := by
    unfold NTUCKER.fullOf bcu.NTUCKER.fullOf
    cases A with
    | nil => exact ⟨rfl, rfl⟩
    | cons a A =>
        unfold TTensor.init
        simp only [List.map_cons]
        have := hQ.par.textract (hg.rel hQ) (trip_rel hQ h) .float32 .float32
        rw [(trip_maps (a :: A)).1, (trip_maps (a :: A)).2.1, (trip_maps (a :: A)).2.2] at this
        exact this
  obtain ⟨Y', c, e', -, hr⟩ := hrel.of_ok e
  exact ⟨Y', e', hr.1.trans hs, allQ_of hr⟩

end


/-! ### The steps -/

theorem matmul_shape {A B : Tensor (Num F)} {m k n : Nat} {ta tb : Bool} (hA : A.shape = if ta then [k, m] else [m, k])
    (hB : B.shape = if tb then [n, k] else [k, n]) : ∃ M, tf.matmul A B ta tb = .ok M ∧ M.shape = [m, n] := by
  unfold tf.matmul
  rw [hA, hB]
  cases ta <;> cases tb <;> exact ⟨_, by simp; rfl, rfl⟩

/-- The variables have their shapes; those the results are read from are not negative. -/
structure StOk (sh : List (List Nat)) (st : State F) : Prop where
  A : st.A.map Tensor.shape = sh
  A0 : st.A0.map Tensor.shape = sh
  Am : st.Am.map Tensor.shape = sh
  nn : ∀ M ∈ st.A, AllQ NN M

theorem get_shape {sh : List (List Nat)} {l : List (Tensor (Num F))} (h : l.map Tensor.shape = sh) {k : Nat} (hk : k < sh.length) :
    ∃ a, l[k]? = some a ∧ a.shape = sh.getD k [] := by
  have hl : l.length = sh.length := by rw [← h, List.length_map]
  refine ⟨l[k]'(by omega), List.getElem?_eq_getElem _, ?_⟩
  rw [List.getD_eq_getElem _ _ hk]
  simp only [← h, List.getElem_map]

theorem map_shape_set {sh : List (List Nat)} {l : List (Tensor (Num F))} (h : l.map Tensor.shape = sh) {k : Nat} {v : Tensor (Num F)}
    (hv : v.shape = sh.getD k []) : (l.set k v).map Tensor.shape = sh := by
  rw [← h]
  refine List.ext_getElem (by simp) fun i h1 h2 => ?_
  simp only [List.getElem_map, List.getElem_set]
  split
  · rename_i e
    subst e
    rw [hv, ← h]
    rw [List.getD_eq_getElem _ _ (by simpa using h2), List.getElem_map]
  · rfl

theorem assign_ok {sh : List (List Nat)} {l : List (Tensor (Num F))} (h : l.map Tensor.shape = sh) {k : Nat} (hk : k < sh.length)
    {v : Tensor (Num F)} (hv : v.shape = sh.getD k []) : tf.assign l k v = .ok (l.set k v) := by
  obtain ⟨a, e, ha⟩ := get_shape h hk
  unfold tf.assign
  simp only [e]
  rw [if_pos (hv.trans ha.symm)]

theorem prox_ok {m G : Tensor (Num F)} (h : m.shape = G.shape) (L : Num F) :
    ∃ v, proxStep m G L = .ok v ∧ v.shape = m.shape ∧ AllQ NN v := by
  unfold proxStep
  rw [ewise_same (· - ·) (show m.shape = (tf.map (· / L) G).shape from h), ok_bind]
  exact ⟨_, rfl, rfl, allQ_map _ fun x _ => nn_relu1 x⟩

theorem factorStep_ok {topSv : Tensor (Num F) → Res (Num F)} {sh : List (List Nat)} {st : State F} (hst : StOk sh st) {k I R : Nat}
    (hk : k < sh.length) (hs : sh.getD k [] = [I, R]) {V XA : Tensor (Num F)} (hV : V.shape = [R, R]) (hXA : XA.shape = [I, R])
    {l : Num F} (hl : topSv V = .ok l) : ∃ st', factorStep topSv st k V XA = .ok st' ∧ StOk sh st' := by
  obtain ⟨m, em, hm⟩ := get_shape hst.Am hk
  rw [hs] at hm
  obtain ⟨mV, emV, hmV⟩ := matmul_shape (A := m) (B := V) (m := I) (k := R) (n := R) (ta := false) (tb := false) hm hV
  have eG := ewise_same (· - ·) (A := mV) (B := XA) (by rw [hmV, hXA])
  obtain ⟨v, ev, hv, hn⟩ := prox_ok (m := m) (G := ofFn mV.shape fun idx => mV.at_ idx - XA.at_ idx)
    (by rw [shape_ofFn, hm, hmV]) l
  refine ⟨{ st with
    A := st.A.set k v
    L0 := Function.update st.L0 k (st.L k)
    L := Function.update st.L k l }, ?_, ?_⟩
  · unfold factorStep getVar
    rw [hl, ok_bind]
    simp only [em]
    rw [ok_bind, emV, ok_bind, eG, ok_bind, ev, ok_bind, assign_ok hst.A hk (by rw [hv, hm, hs]), ok_bind]
    rfl
  · refine ⟨map_shape_set hst.A (by rw [hv, hm, hs]), hst.A0, hst.Am, fun M hM => ?_⟩
    rcases List.mem_or_eq_of_mem_set hM with h | h
    · exact hst.nn M h
    · rw [h]; exact hn

theorem extrapolate_ok (w : Num F) {v v0 : Tensor (Num F)} (h : v.shape = v0.shape) :
    ∃ m, extrapolate w v v0 = .ok m ∧ m.shape = v.shape := by
  unfold extrapolate
  rw [ewise_same _ h, ok_bind]
  exact ⟨_, ewise_same _ rfl, rfl⟩

theorem extrapolateMode_ok {sh : List (List Nat)} {st : State F} (hst : StOk sh st) (w : Num F) {k : Nat} (hk : k < sh.length) :
    ∃ st', extrapolateMode w st k = .ok st' ∧ StOk sh st' ∧ st'.A = st.A := by
  obtain ⟨a, ea, ha⟩ := get_shape hst.A hk
  obtain ⟨a0, ea0, ha0⟩ := get_shape hst.A0 hk
  obtain ⟨m, em, hm⟩ := extrapolate_ok (cappedWeight st w k) (v := a) (v0 := a0) (by rw [ha, ha0])
  refine ⟨{ st with wA := Function.update st.wA k (cappedWeight st w k), Am := st.Am.set k m, A0 := st.A0.set k a }, ?_, ?_⟩
  · unfold extrapolateMode getVar
    simp only [ea, ea0]
    rw [ok_bind, ok_bind, em, ok_bind, assign_ok hst.Am hk (by rw [hm, ha]), ok_bind, assign_ok hst.A0 hk ha, ok_bind]
    rfl
  · exact ⟨⟨hst.A, map_shape_set hst.A0 ha, map_shape_set hst.Am (by rw [hm, ha]), hst.nn⟩, rfl⟩

theorem foldlM_ok {σ : Type} {P : σ → Prop} {f : σ → Nat → Res σ} {l : List Nat} (hf : ∀ s, P s → ∀ k ∈ l, ∃ s', f s k = .ok s' ∧ P s') :
    ∀ {s : σ}, P s → ∃ s', l.foldlM f s = .ok s' ∧ P s' := by
  induction l with
  | nil => intro s hs; exact ⟨s, rfl, hs⟩
  | cons k l ih =>
      intro s hs
      obtain ⟨s1, e1, h1⟩ := hf s hs k (by simp)
      obtain ⟨s2, e2, h2⟩ := ih (fun s hs k hk => hf s hs k (by simp [hk])) h1
      exact ⟨s2, by rw [List.foldlM_cons, e1, ok_bind, e2], h2⟩

theorem scalars_ok {X Y : Tensor (Num F)} (h : Y.shape = X.shape) : ∃ r, scalars X Y = .ok r := by
  unfold scalars rmseIgnoreZero objective relResidual
  rw [if_neg (by rw [h]; simp), ewise_same (· * ·) (show Y.shape = (nonzero X).shape from h), ok_bind,
    ewise_same (· - ·) (show X.shape = (ofFn Y.shape _).shape from h.symm), ok_bind, ewise_same (· - ·) h, ok_bind]
  exact ⟨_, rfl⟩

theorem grams_ok {A : List (Tensor (Num F))} (hA : AllMat A) : ∃ gs, A.mapM (fun a => tf.matmul a a true false) = .ok gs ∧
    gs.map Tensor.shape = A.map fun M => [M.shape.getD 1 0, M.shape.getD 1 0] := by
  induction A with
  | nil => exact ⟨[], rfl, rfl⟩
  | cons a A ih =>
      obtain ⟨gs, e, hs⟩ := ih fun M hM => hA M (by simp [hM])
      have ha : a.shape = [a.shape.getD 0 0, a.shape.getD 1 0] := by
        have := hA a (by simp)
        match hsh : a.shape with
        | [x, y] => rfl
        | [] => simp [hsh] at this
        | [x] => simp [hsh] at this
        | x :: y :: z :: t => simp [hsh] at this
      obtain ⟨g, eg, hg⟩ := matmul_shape (A := a) (B := a) (m := a.shape.getD 1 0) (k := a.shape.getD 0 0) (n := a.shape.getD 1 0)
        (ta := true) (tb := false) ha ha
      refine ⟨g :: gs, ?_, by simp [hg, hs]⟩
      rw [List.mapM_cons, eg, ok_bind, e, ok_bind]
      rfl

theorem normInit_nn (X : Tensor (Num F)) (p : Nat) {v : Tensor (Num F)} (hv : AllQ NN v) : AllQ NN (normInit X p v) :=
  allQ_map _ fun x hx => nn_mul (nn_div (hv x hx) (nn_sqrt _)) (nn_root _ _)

theorem relu_nn (v : Tensor (Num F)) : AllQ NN (relu v) := allQ_map _ fun x _ => nn_relu1 x

theorem init_ok (X : Tensor (Num F)) (p : Nat) (draws : List (Tensor (Num F))) : StOk (draws.map Tensor.shape) (init X p draws) := by
  have h : (draws.map fun d => normInit X p (relu d)).map Tensor.shape = draws.map Tensor.shape := by
    rw [List.map_map]; rfl
  refine ⟨h, h, h, fun M hM => ?_⟩
  obtain ⟨d, -, rfl⟩ := List.mem_map.1 hM
  exact normInit_nn X p (relu_nn d)

/-! ### NCP -/

theorem NCP.modeUpdate_ok {topSv : Tensor (Num F) → Res (Num F)} (ht : ∀ M, ∃ l, topSv M = .ok l) {X : Tensor (Num F)} {R : Nat}
    (h2 : 2 ≤ X.order) (h25 : X.order ≤ 25) (hpos : ∀ d ∈ X.shape, 0 < d) {st : State F}
    (hst : StOk (X.shape.map fun d => [d, R]) st) {n : Nat} (hn : n < X.order) :
    ∃ st', NCP.modeUpdate topSv X st n = .ok st' ∧ StOk (X.shape.map fun d => [d, R]) st' := by
  have hA : FactorsFor X.shape R st.A := hst.A
  have hA' : FactorsFor X.shape R (st.A.map shadow) := (shadow_shapes st.A).trans hst.A
  have hn' : n < X.shape.length := hn
  have hlen : st.A.length = X.shape.length := hA.length
  have hlen' : (st.A.map shadow).length = X.shape.length := by rw [List.length_map, hlen]
  have hnp : 0 < X.shape.getD n 0 := by
    rw [List.getD_eq_getElem _ _ hn']; exact hpos _ (List.getElem_mem _)
  have hke : kept (st.A.map shadow) (.int n) ≠ [] := by
    rw [kept_int]; intro e
    have := congrArg List.length e
    rw [List.length_eraseIdx, if_pos (by omega), hlen'] at this
    unfold order at h2
    simp at this; omega
  obtain ⟨K, G, grams, hK, hG, hgr, hhad⟩ := Props.C19_gram (st.A.map shadow) (.int n) true R hA'.allMat hA'.cols hke (by
    rw [kept_int, List.length_eraseIdx, if_pos (by omega), hlen']; unfold order at h25; omega)
  have hget : (st.A.map shadow)[n]? = some (st.A.map shadow)[n] := List.getElem?_eq_getElem (by omega)
  obtain ⟨hKs, -⟩ := cpErr_frob (X := shadow X) (fun _ => 1) hA' h2 h25 hn (hA'.get hget) hK
  obtain ⟨K', hK', hKs', -⟩ := khatri_ok (kept_true (F := F)) (fun M _ => allQ_true M) hK
  obtain ⟨gs, hgs, hgss⟩ := grams_ok hA.allMat
  have hgss' : ∀ M ∈ gs, M.shape = [R, R] := by
    intro M hM
    have : M.shape ∈ gs.map Tensor.shape := List.mem_map.2 ⟨M, hM, rfl⟩
    rw [hgss] at this
    obtain ⟨N, hN, e⟩ := List.mem_map.1 this
    rw [← e, hA.cols N hN]
  have hglen : gs.length = st.A.length := by
    have := congrArg List.length hgss
    simpa using this
  obtain ⟨V, hV, hVs, -⟩ := hadamard_ok (kept_true (F := F)) (fun M _ => allQ_true M) (ms := gs) (s := .int n)
    (hadamard_core (sh := [R, R]) (by
      rw [kept_int]; intro e
      have := congrArg List.length e
      rw [List.length_eraseIdx, if_pos (by rw [List.length_map]; omega), List.length_map] at this
      unfold order at h2
      simp at this; omega) (fun M hM => by
      obtain ⟨N, hN, rfl⟩ := List.mem_map.1 (kept_sub hM)
      exact hgss' N hN))
  obtain ⟨XA, hXA, hXAs⟩ := matmul_shape (A := mat (X.shape.getD n 0) (otherSize X.shape n) fun i j => X.at_ (unkolda X.shape n i j))
    (B := K') (m := X.shape.getD n 0) (k := otherSize X.shape n) (n := R) (ta := false) (tb := false) rfl (hKs'.trans hKs)
  obtain ⟨l, hl⟩ := ht V
  have hk : n < (X.shape.map fun d => [d, R]).length := by simpa using hn'
  obtain ⟨st', e, hs'⟩ := factorStep_ok hst hk (I := X.shape.getD n 0) (R := R) (by
    rw [List.getD_eq_getElem _ _ hk, List.getElem_map, List.getD_eq_getElem _ _ hn']) (hVs.trans rfl) hXAs hl
  refine ⟨st', ?_, hs'⟩
  unfold NCP.modeUpdate
  rw [unfold_closed X hn hnp, ok_bind, hgs, ok_bind, hK', ok_bind, hXA, ok_bind, hV, ok_bind, e]

theorem tUpdate_ok {sh : List (List Nat)} {st : State F} (h : StOk sh st) : StOk sh (tUpdate st) := ⟨h.A, h.A0, h.Am, h.nn⟩

theorem NCP.main_ok {topSv : Tensor (Num F) → Res (Num F)} (ht : ∀ M, ∃ l, topSv M = .ok l) {X : Tensor (Num F)} {R : Nat}
    (h2 : 2 ≤ X.order) (h25 : X.order ≤ 25) (hpos : ∀ d ∈ X.shape, 0 < d) {st : State F}
    (hst : StOk (X.shape.map fun d => [d, R]) st) :
    ∃ st' o, NCP.main topSv X st = .ok (st', o) ∧ StOk (X.shape.map fun d => [d, R]) st' ∧
      o.factors.map Tensor.shape = (X.shape.map fun d => [d, R]) ∧ (∀ M ∈ o.factors, AllQ NN M) ∧ o.aux = none ∧
      o.full.shape = X.shape ∧ AllQ NN o.full := by
  obtain ⟨s, e, hs⟩ := foldlM_ok (P := StOk (X.shape.map fun d => [d, R])) (f := NCP.modeUpdate topSv X) (l := List.range X.order)
    (fun s hs k hk => NCP.modeUpdate_ok ht h2 h25 hpos hs (List.mem_range.1 hk)) hst
  obtain ⟨Y, eY, hY, hYn⟩ := NCP.full_ok kept_nn hs.nn (shape := X.shape) (R := R) hs.A (by
    intro e; unfold order at h2; rw [e] at h2; simp at h2) h25
  obtain ⟨⟨l, obj, rel⟩, er⟩ := scalars_ok hY
  refine ⟨tUpdate s, ⟨s.A, none, Y, l, obj, rel⟩, ?_, tUpdate_ok hs, hs.A, hs.nn, rfl, hY, hYn⟩
  unfold NCP.main
  rw [e, ok_bind, eY, ok_bind, er, ok_bind]
  rfl

theorem NCP.op1_ok {sh : List (List Nat)} {st : State F} (hst : StOk sh st) {N : Nat} (hN : N = sh.length) :
    ∃ st', NCP.op1 N st = .ok st' ∧ StOk sh st' := by
  obtain ⟨s, e, hs⟩ := foldlM_ok (P := StOk sh) (f := extrapolateMode (weight st)) (l := List.range N)
    (fun s hs k hk => by
      obtain ⟨s', a, b, -⟩ := extrapolateMode_ok hs (weight st) (k := k) (by rw [← hN]; exact List.mem_range.1 hk)
      exact ⟨s', a, b⟩) hst
  refine ⟨{ s with t0 := s.t }, ?_, ⟨hs.A, hs.A0, hs.Am, hs.nn⟩⟩
  unfold NCP.op1
  simp only
  rw [e, ok_bind]
  rfl

theorem NCP.op2_ok {sh : List (List Nat)} {st : State F} (hst : StOk sh st) : ∃ st', NCP.op2 st = .ok st' ∧ StOk sh st' :=
  ⟨_, rfl, ⟨hst.A, hst.A0, hst.A0, hst.nn⟩⟩

/-! ### NTUCKER -/

/-- The variables of `NTUCKER_BCU`. -/
structure TStOk (shape ranks : List Nat) (st : TState F) : Prop where
  fac : StOk (tuckerShapes shape ranks) st.toState
  g : st.g.shape = ranks
  g0 : st.g0.shape = ranks
  gm : st.gm.shape = ranks
  nn : AllQ NN st.g

theorem maxSv_ok {topSv : Tensor (Num F) → Res (Num F)} (ht : ∀ M, ∃ l, topSv M = .ok l) {ms : List (Tensor (Num F))} (hne : ms ≠ []) :
    ∃ l, ops.maxSingleValueMul topSv ms = .ok l := by
  have hmap : ∀ ms : List (Tensor (Num F)), ∃ vs, ms.mapM topSv = .ok vs ∧ vs.length = ms.length := by
    intro ms
    induction ms with
    | nil => exact ⟨[], rfl, rfl⟩
    | cons a ms ih =>
        obtain ⟨vs, e, h⟩ := ih
        obtain ⟨l, hl⟩ := ht a
        exact ⟨l :: vs, by rw [List.mapM_cons, hl, ok_bind, e, ok_bind]; rfl, by simp [h]⟩
  obtain ⟨vs, e, h⟩ := hmap (skip ms .none)
  unfold ops.maxSingleValueMul
  rw [e, ok_bind]
  cases vs with
  | nil =>
      have : skip ms .none = ms := rfl
      rw [this] at h
      exact absurd (List.length_eq_zero_iff.1 h.symm) hne
  | cons v vs =>
      unfold pyReduce
      clear e h
      obtain ⟨x, hx, -⟩ : ∃ x, vs.foldlM (fun a b => (Except.ok (a * b) : Res (Num F))) v = .ok x ∧ True := by
        induction vs generalizing v with
        | nil => exact ⟨v, rfl, trivial⟩
        | cons b vs ih => rw [List.foldlM_cons, ok_bind]; exact ih _
      exact ⟨x, hx⟩

theorem NTUCKER.core_ok {topSv : Tensor (Num F) → Res (Num F)} (ht : ∀ M, ∃ l, topSv M = .ok l) {X : Tensor (Num F)}
    {ranks : List Nat} (hr : ranks.length = X.shape.length) (h1 : 1 ≤ X.order) (h13 : X.order ≤ 13) {st : TState F}
    (hst : TStOk X.shape ranks st) :
    ∃ st' k, NTUCKER.core topSv X st = .ok (st', k) ∧ TStOk X.shape ranks st' ∧ k.shape = ranks ∧ AllQ NN k := by
  have hA' := tuckerShapes_iff.1 ((shadow_shapes st.A).trans hst.fac.A)
  have hl : st.A.length = X.order := by rw [← List.length_map (f := shadow)]; exact hA'.1
  have hne : st.A ≠ [] := by intro e; rw [e] at hl; simp at hl; omega
  have hXne : X.shape ≠ [] := by intro e; unfold order at h1; rw [e] at h1; simp at h1
  have hmat : AllMat st.A := by
    intro M hM
    exact hA'.allMat (shadow M) (List.mem_map.2 ⟨M, hM, rfl⟩)
  obtain ⟨gs, egs, hgs⟩ := grams_ok hmat
  have hglen : gs.length = st.A.length := by simpa using congrArg List.length hgs
  obtain ⟨l, hl⟩ := maxSv_ok ht (ms := gs) (by intro e; rw [e] at hglen; simp at hglen; exact hne (List.length_eq_zero_iff.1 hglen.symm))
  have hc := hA'.colDims hr
  have hgr : gs.map Tensor.shape = ((st.A.map shadow).map gramOf).map Tensor.shape := by
    rw [hgs, List.map_map, List.map_map]; rfl
  obtain ⟨B, hB, hBs, -⟩ := ttm_gram (g := shadow st.gm) (A := st.A.map shadow) (by simpa using hne) (by rw [List.length_map]; omega)
    (by rw [hc]; exact hst.gm)
  obtain ⟨B', hB', hBs', -⟩ := ttm_ok_of (kept_true (F := F)) (allQ_true st.gm) (fun M _ => allQ_true M)
    (show st.gm.shape = (shadow st.gm).shape from rfl) hgr hB
  obtain ⟨XA, -, hXA, -, hXAs, -⟩ := tucker_entries (X := shadow X) hXne h13 hA'.allMat hA'.rowDims
  obtain ⟨XA', hXA', hXAs', -⟩ := ttm_ok (kept_true (F := F)) (allQ_true X) (fun M _ => allQ_true M) hXA
  have hBr : B'.shape = ranks := by rw [hBs', hBs]; exact hst.gm
  have hXr : XA'.shape = ranks := by rw [hXAs', hXAs, hc]
  have hG := ewise_same (· - ·) (A := B') (B := XA') (by rw [hBr, hXr])
  obtain ⟨v, ev, hv, hvn⟩ := prox_ok (m := st.gm) (G := ofFn B'.shape fun idx => B'.at_ idx - XA'.at_ idx)
    (by rw [shape_ofFn, hst.gm, hBr]) l
  rw [hst.gm] at hv
  refine ⟨{ st with
    g := v
    L0 := Function.update st.L0 X.order (st.L X.order)
    L := Function.update st.L X.order l }, v, ?_,
    ⟨⟨hst.fac.A, hst.fac.A0, hst.fac.Am, hst.fac.nn⟩, hv, hst.g0, hst.gm, hvn⟩, hv, hvn⟩
  unfold NTUCKER.core assignCore
  rw [egs, ok_bind, hl, ok_bind, hB', ok_bind, if_pos (by rw [hBr, hst.g]), ok_bind, hXA', ok_bind, hG, ok_bind,
    if_pos (by rw [shape_ofFn, hBr, hst.g]), ok_bind, ev, ok_bind, if_pos (by rw [hv, hst.g]), ok_bind]
  rfl

theorem NTUCKER.modeUpdate_ok {topSv : Tensor (Num F) → Res (Num F)} (ht : ∀ M, ∃ l, topSv M = .ok l) {X g : Tensor (Num F)}
    {ranks : List Nat} (hr : ranks.length = X.shape.length) (h2 : 2 ≤ X.order) (h13 : X.order ≤ 13) (hpos : ∀ d ∈ X.shape, 0 < d)
    (hrp : ∀ d ∈ ranks, 0 < d) (hg : g.shape = ranks) {st : State F} (hst : StOk (tuckerShapes X.shape ranks) st) {n : Nat}
    (hn : n < X.order) :
    ∃ st', NTUCKER.modeUpdate topSv X g st n = .ok st' ∧ StOk (tuckerShapes X.shape ranks) st' := by
  have hA' := tuckerShapes_iff.1 ((shadow_shapes st.A).trans hst.A)
  have hn' : n < X.shape.length := hn
  have hnr : n < ranks.length := by omega
  have hnp : 0 < X.shape.getD n 0 := by
    rw [List.getD_eq_getElem _ _ hn']; exact hpos _ (List.getElem_mem _)
  obtain ⟨Y, hY, hYs, -⟩ := ttm_ok (kept_true (F := F)) (allQ_true g) (fun M _ => allQ_true M)
    (tk_Y (g := shadow g) h2 h13 hA' hr hg hn)
  obtain ⟨y1, y2, y3⟩ := tk_Y_shape (g := shadow g) hA' hr hg (n := n)
  have y1' : Y.order = X.shape.length := by rw [← y1]; unfold order; rw [hYs]
  have y2' : Y.shape.getD n 0 = ranks.getD n 0 := by rw [hYs]; exact y2
  have y3' : otherSize Y.shape n = otherSize X.shape n := by rw [hYs]; exact y3
  have hB := unfold_closed Y (n := n) (by rw [y1']; exact hn') (by
    rw [y2', List.getD_eq_getElem _ _ hnr]; exact hrp _ (List.getElem_mem _))
  rw [y2', y3'] at hB
  obtain ⟨B, hBs, hB⟩ : ∃ B : Tensor (Num F), B.shape = [ranks.getD n 0, otherSize X.shape n] ∧ unfold Y n = .ok B := ⟨_, rfl, hB⟩
  obtain ⟨XB, hXB, hXBs⟩ := matmul_shape (A := mat (X.shape.getD n 0) (otherSize X.shape n) fun i j => X.at_ (unkolda X.shape n i j))
    (B := B) (m := X.shape.getD n 0) (k := otherSize X.shape n) (n := ranks.getD n 0) (ta := false) (tb := true) rfl hBs
  obtain ⟨V, hV, hVs⟩ := matmul_shape (A := B) (B := B) (m := ranks.getD n 0) (k := otherSize X.shape n) (n := ranks.getD n 0)
    (ta := false) (tb := true) hBs hBs
  obtain ⟨l, hl⟩ := ht V
  have hk : n < (tuckerShapes X.shape ranks).length := by unfold tuckerShapes; simpa using hn'
  obtain ⟨st', e, hs'⟩ := factorStep_ok hst hk (I := X.shape.getD n 0) (R := ranks.getD n 0) (by
    rw [List.getD_eq_getElem _ _ hk]; simp [tuckerShapes]) hVs hXBs hl
  refine ⟨st', ?_, hs'⟩
  unfold NTUCKER.modeUpdate
  rw [unfold_closed X hn hnp, ok_bind, hY, ok_bind, hB, ok_bind, hXB, ok_bind, hV, ok_bind, e]

theorem NTUCKER.main_ok {topSv : Tensor (Num F) → Res (Num F)} (ht : ∀ M, ∃ l, topSv M = .ok l) {X : Tensor (Num F)}
    {ranks : List Nat} (hr : ranks.length = X.shape.length) (h2 : 2 ≤ X.order) (h13 : X.order ≤ 13) (hpos : ∀ d ∈ X.shape, 0 < d)
    (hrp : ∀ d ∈ ranks, 0 < d) {st : TState F} (hst : TStOk X.shape ranks st) :
    ∃ st' o, NTUCKER.main topSv X st = .ok (st', o) ∧ TStOk X.shape ranks st' ∧
      o.factors.map Tensor.shape = tuckerShapes X.shape ranks ∧ (∀ M ∈ o.factors, AllQ NN M) ∧ o.aux = none ∧
      o.full.shape = X.shape ∧ AllQ NN o.full := by
  obtain ⟨s, e, hs⟩ := foldlM_ok (P := StOk (tuckerShapes X.shape ranks)) (f := NTUCKER.modeUpdate topSv X st.g)
    (l := List.range X.order)
    (fun s hs k hk => NTUCKER.modeUpdate_ok ht hr h2 h13 hpos hrp hst.g hs (List.mem_range.1 hk)) hst.fac
  obtain ⟨Y, eY, hY, hYn⟩ := NTUCKER.full_ok kept_nn hst.nn hs.nn (shape := X.shape) (ranks := ranks) hs.A hr hst.g
    (by unfold order at h2; omega) h13
  obtain ⟨⟨l, obj, rel⟩, er⟩ := scalars_ok hY
  refine ⟨{ st with toState := tUpdate s }, ⟨s.A, none, Y, l, obj, rel⟩, ?_,
    ⟨tUpdate_ok hs, hst.g, hst.g0, hst.gm, hst.nn⟩, hs.A, hs.nn, rfl, hY, hYn⟩
  unfold NTUCKER.main
  rw [e, ok_bind, eY, ok_bind, er, ok_bind]
  rfl

theorem NTUCKER.op1_ok {shape ranks : List Nat} {st : TState F} (hst : TStOk shape ranks st) :
    ∃ st', NTUCKER.op1 shape.length st = .ok st' ∧ TStOk shape ranks st' := by
  obtain ⟨s, e, hs⟩ := foldlM_ok (P := StOk (tuckerShapes shape ranks)) (f := extrapolateMode (weight st.toState))
    (l := List.range shape.length)
    (fun s hs k hk => by
      obtain ⟨s', a, b, -⟩ := extrapolateMode_ok hs (weight st.toState) (k := k) (by
        unfold tuckerShapes; simpa using hk)
      exact ⟨s', a, b⟩) hst.fac
  obtain ⟨m, em, hm⟩ := extrapolate_ok (cappedWeight s (weight st.toState) shape.length) (v := st.g) (v0 := st.g0)
    (by rw [hst.g, hst.g0])
  rw [hst.g] at hm
  refine ⟨{ toState := { s with wA := Function.update s.wA shape.length (cappedWeight s (weight st.toState) shape.length), t0 := s.t }, g := st.g, g0 := st.g, gm := m }, ?_, ⟨⟨hs.A, hs.A0, hs.Am, hs.nn⟩, hst.g, hst.g, hm, hst.nn⟩⟩
  unfold NTUCKER.op1 assignCore
  simp only
  rw [e, ok_bind, em, ok_bind, if_pos (by rw [hm, hst.gm]), ok_bind]
  rfl

theorem NTUCKER.op2_ok {shape ranks : List Nat} {st : TState F} (hst : TStOk shape ranks st) :
    ∃ st', NTUCKER.op2 st = .ok st' ∧ TStOk shape ranks st' :=
  ⟨_, rfl, ⟨⟨hst.fac.A, hst.fac.A0, hst.fac.A0, hst.fac.nn⟩, hst.g, hst.g0, hst.g0, hst.nn⟩⟩

theorem NTUCKER.init_ok (X : Tensor (Num F)) {draws : List (Tensor (Num F))} {gdraw : Tensor (Num F)} {ranks : List Nat}
    (hd : draws.map Tensor.shape = tuckerShapes X.shape ranks) (hg : gdraw.shape = ranks) :
    TStOk X.shape ranks (NTUCKER.init X draws gdraw) := by
  have := sp.init_ok X (X.order + 1) draws
  rw [hd] at this
  exact ⟨this, hg, hg, hg, normInit_nn X _ (relu_nn _)⟩

/-! ### A singular value routine that raises -/

/-- The routine made total. -/
noncomputable def tot (topSv : Tensor (Num F) → Res (Num F)) (M : Tensor (Num F)) : Res (Num F) :=
  match topSv M with
  | .ok l => .ok l
  | .error _ => .ok 0

theorem tot_total (topSv : Tensor (Num F) → Res (Num F)) (M : Tensor (Num F)) : ∃ l, tot topSv M = .ok l := by
  unfold tot
  cases topSv M with
  | ok l => exact ⟨l, rfl⟩
  | error e => exact ⟨0, rfl⟩

theorem tot_ok {topSv : Tensor (Num F) → Res (Num F)} {M : Tensor (Num F)} {l : Num F} (h : topSv M = .ok l) : tot topSv M = .ok l := by
  unfold tot; rw [h]

theorem bind_ok_of {X Y : Type} {x : Res X} {f : X → Res Y} {y : Y} (h : (x >>= f) = .ok y) : ∃ a, x = .ok a ∧ f a = .ok y := by
  cases x with
  | error e => cases h
  | ok a => exact ⟨a, rfl, h⟩

theorem bind_mono {X Y : Type} {x x' : Res X} {f f' : X → Res Y} {y : Y} (hx : ∀ a, x = .ok a → x' = .ok a)
    (hf : ∀ a, f a = .ok y → f' a = .ok y) (h : (x >>= f) = .ok y) : (x' >>= f') = .ok y := by
  obtain ⟨a, e, h⟩ := bind_ok_of h
  rw [hx a e, ok_bind]; exact hf a h

theorem foldlM_mono {σ : Type} {f f' : σ → Nat → Res σ} (hf : ∀ s k s', f s k = .ok s' → f' s k = .ok s') :
    ∀ {l : List Nat} {s s' : σ}, l.foldlM f s = .ok s' → l.foldlM f' s = .ok s'
  | [], _, _, h => h
  | k :: l, s, s', h => by
      rw [List.foldlM_cons] at h ⊢
      exact bind_mono (fun a => hf s k a) (fun a => foldlM_mono hf) h

theorem mapM_mono {X Y : Type} {f f' : X → Res Y} (hf : ∀ a b, f a = .ok b → f' a = .ok b) :
    ∀ {l : List X} {r : List Y}, l.mapM f = .ok r → l.mapM f' = .ok r
  | [], _, h => h
  | a :: l, r, h => by
      rw [List.mapM_cons] at h ⊢
      exact bind_mono (fun b => hf a b) (fun b => bind_mono (fun r => mapM_mono hf) fun _ h => h) h

theorem factorStep_mono {topSv : Tensor (Num F) → Res (Num F)} {st st' : State F} {k : Nat} {V XA : Tensor (Num F)}
    (h : factorStep topSv st k V XA = .ok st') : factorStep (tot topSv) st k V XA = .ok st' :=
  bind_mono (fun _ => tot_ok) (fun _ h => h) h

theorem NCP.modeUpdate_mono {topSv : Tensor (Num F) → Res (Num F)} {X : Tensor (Num F)} {st : State F} {k : Nat} {st' : State F}
    (h : NCP.modeUpdate topSv X st k = .ok st') : NCP.modeUpdate (tot topSv) X st k = .ok st' :=
  bind_mono (fun _ h => h) (fun _ => bind_mono (fun _ h => h) fun _ => bind_mono (fun _ h => h) fun _ =>
    bind_mono (fun _ h => h) fun _ => bind_mono (fun _ h => h) fun _ => factorStep_mono) h

theorem NCP.main_mono {topSv : Tensor (Num F) → Res (Num F)} {X : Tensor (Num F)} {st : State F} {r}
    (h : NCP.main topSv X st = .ok r) : NCP.main (tot topSv) X st = .ok r :=
  bind_mono (fun _ => foldlM_mono fun _ _ _ => NCP.modeUpdate_mono) (fun _ h => h) h

theorem NTUCKER.modeUpdate_mono {topSv : Tensor (Num F) → Res (Num F)} {X g : Tensor (Num F)} {st : State F} {k : Nat}
    {st' : State F} (h : NTUCKER.modeUpdate topSv X g st k = .ok st') : NTUCKER.modeUpdate (tot topSv) X g st k = .ok st' :=
  bind_mono (fun _ h => h) (fun _ => bind_mono (fun _ h => h) fun _ => bind_mono (fun _ h => h) fun _ =>
    bind_mono (fun _ h => h) fun _ => bind_mono (fun _ h => h) fun _ => factorStep_mono) h

theorem NTUCKER.main_mono {topSv : Tensor (Num F) → Res (Num F)} {X : Tensor (Num F)} {st : TState F} {r}
    (h : NTUCKER.main topSv X st = .ok r) : NTUCKER.main (tot topSv) X st = .ok r :=
  bind_mono (fun _ => foldlM_mono fun _ _ _ => NTUCKER.modeUpdate_mono) (fun _ h => h) h

theorem NTUCKER.core_mono {topSv : Tensor (Num F) → Res (Num F)} {X : Tensor (Num F)} {st : TState F} {r}
    (h : NTUCKER.core topSv X st = .ok r) : NTUCKER.core (tot topSv) X st = .ok r :=
  bind_mono (fun _ h => h) (fun _ => bind_mono (fun _ => bind_mono (fun _ => mapM_mono fun _ _ => tot_ok) fun _ h => h)
    fun _ h => h) h

end TD.sp
