import Verif.Lemmas.SpecialMarks
import Verif.Lemmas.Float32
import Verif.Props.Inner
import Verif.Props.Kron
import Verif.Props.Khatri
import Verif.Props.Mul
import Verif.Props.Hadamard
import Verif.Props.Tucker
import Verif.Props.Rounding
import Verif.Props.Kruskal

/-!
# C124: overflow, infinities and NaN in the tensor operations

The same model functions, run on numbers of a bounded format with infinities and NaN, with the sums evaluated in any order.
-/
namespace TD.Props
open TD Tensor fl Spec ops sp Num
variable {F : Fmt}

theorem shows_of {x r : Num F} (h : ∀ P : Num F → Prop, Absorbing P → P x → P r) : Reveals x r :=
  ⟨h _ absorbing_infinite, h _ absorbing_nan⟩

/-! ### Entries that are numbers are the numbers computed with unbounded exponents -/

/-- **C124** (`mul`). -/
theorem C124_mul (A B : Tensor (Num F)) (a b : Axis) : Agrees (mul A B a b) (mul (wides A) (wides B) a b) :=
  agrees_of ((par_mark absorbing_nan).ops_mul (marks_input absorbing_nan A) (marks_input absorbing_nan B) a b)

/-- **C124** (`ttm`). -/
theorem C124_ttm (X : Tensor (Num F)) (ms : List (Tensor (Num F))) (axis : Option (List Nat)) (tr : Bool) (s : Skip) :
    Agrees (ttm X ms axis tr s) (ttm (wides X) (ms.map wides) axis tr s) := by
  have := (par_mark absorbing_nan).ops_ttm (marks_input absorbing_nan X) (runs3_rel absorbing_nan ms) axis tr s
  obtain ⟨t1, t2, -⟩ := runs3_maps (F := F) (fun x => x = .nan) ms
  rw [t1, t2] at this
  exact agrees_of this

/-- **C124** (`hadamard`). -/
theorem C124_hadamard (ms : List (Tensor (Num F))) (s : Skip) : Agrees (hadamard ms s) (hadamard (ms.map wides) s) := by
  have := (par_mark absorbing_nan).ops_hadamard (runs3_rel absorbing_nan ms) s
  obtain ⟨t1, t2, -⟩ := runs3_maps (F := F) (fun x => x = .nan) ms
  rw [t1, t2] at this
  exact agrees_of this

/-- **C124** (`kron`). -/
theorem C124_kron (ms : List (Tensor (Num F))) (s : Skip) (rev : Bool) : Agrees (kron ms s rev) (kron (ms.map wides) s rev) := by
  have := (par_mark absorbing_nan).ops_kron (runs3_rel absorbing_nan ms) s rev
  obtain ⟨t1, t2, -⟩ := runs3_maps (F := F) (fun x => x = .nan) ms
  rw [t1, t2] at this
  exact agrees_of this

/-- **C124** (`khatri`). -/
theorem C124_khatri (ms : List (Tensor (Num F))) (s : Skip) (rev : Bool) :
    Agrees (khatri ms s rev) (khatri (ms.map wides) s rev) := by
  have := (par_mark absorbing_nan).ops_khatri (runs3_rel absorbing_nan ms) s rev
  obtain ⟨t1, t2, -⟩ := runs3_maps (F := F) (fun x => x = .nan) ms
  rw [t1, t2] at this
  exact agrees_of this

/-- **C124** (`KTensor.extract`). -/
theorem C124_kruskal (k : KTensor (Num F)) : Agrees k.extract (onK wides k).extract := by
  have := (par_mark absorbing_nan).kextract (runs3_rel absorbing_nan k.U) (marks_input absorbing_nan k.lam) k.udtype k.ldtype
  obtain ⟨t1, t2, -⟩ := runs3_maps (F := F) (fun x => x = .nan) k.U
  rw [t1, t2] at this
  exact agrees_of this

/-- **C124** (`TTensor.extract`). -/
theorem C124_tucker (t : TTensor (Num F)) : Agrees t.extract (onT wides t).extract := by
  have := (par_mark absorbing_nan).textract (marks_input absorbing_nan t.g) (runs3_rel absorbing_nan t.U) t.gdtype t.udtype
  obtain ⟨t1, t2, -⟩ := runs3_maps (F := F) (fun x => x = .nan) t.U
  rw [t1, t2] at this
  exact agrees_of this

/-! ### Infinite operands and NaN show in every entry they enter -/

/-- **C124** (`inner`): the result is a number only if all entries are, it is then the number computed with unbounded exponents,
and a NaN in one of the tensors gives NaN. -/
theorem C124_inner (A B : Tensor (Num F)) (h : A.shape = B.shape) :
    ∃ r w, inner A B = .ok r ∧ inner (wides A) (wides B) = .ok w ∧ (r.Finite → IsNum r w) ∧
      ∀ i, InB A.shape i → Reveals (A.at_ i) r ∧ Reveals (B.at_ i) r := by
  have key : ∀ (P : Num F → Prop), Absorbing P → RelR (Mark P) (inner A B) (inner (wides A) (wides B))
      (inner (marks P A) (marks P B)) := fun P hP => (par_mark hP).ops_inner (marks_input hP A) (marks_input hP B)
  have hM : ∀ P : Num F → Prop, inner (marks P A) (marks P B) =
      .ok (boxSum A.shape fun i => (marks P A).at_ i * (marks P B).at_ i) := fun P =>
    inner_same (show (marks P A).shape = (marks P B).shape from h)
  have h1 := key _ absorbing_nan
  rw [hM] at h1
  cases hr : inner A B with
  | error e =>
      rw [hr] at h1
      cases hw : inner (wides A) (wides B) <;> rw [hw] at h1 <;> exact h1.elim
  | ok r =>
      rw [hr] at h1
      cases hw : inner (wides A) (wides B) with
      | error e => rw [hw] at h1; exact h1.elim
      | ok w =>
          rw [hw] at h1
          refine ⟨r, w, rfl, rfl, h1.1, fun i hi => ?_⟩
          have hB : InB B.shape i := h ▸ hi
          constructor <;> refine shows_of fun P hP hx => ?_
          all_goals
            have h2 := key P hP
            rw [hM, hr, hw] at h2
            refine h2.2 (boxSum_top hi ?_)
            rw [at_marks A hi, at_marks B hB]
            exact enat_mul_eq_top (mark_ne_zero _) (mark_ne_zero _) (by simp [mark_top hx])

/-- **C124** (`mul`): each entry shows what is wrong with the entries it is computed from. -/
theorem C124_mul_shows (A B : Tensor (Num F)) (a b : List Nat)
    (ha : a.Nodup) (ha' : ∀ i ∈ a, i < A.order) (hb : b.Nodup) (hb' : ∀ i ∈ b, i < B.order)
    (hd : (a.map fun k => A.shape.getD k 0) = b.map fun k => B.shape.getD k 0) :
    ∃ C, mul A B (.list a) (.list b) = .ok C ∧
      C.shape = ((freeAxes A.order a).map fun k => A.shape.getD k 0) ++ ((freeAxes B.order b).map fun k => B.shape.getD k 0) ∧
      ∀ fa fb c, InB ((freeAxes A.order a).map fun k => A.shape.getD k 0) fa →
        InB ((freeAxes B.order b).map fun k => B.shape.getD k 0) fb → InB (a.map fun k => A.shape.getD k 0) c →
        Reveals (A.at_ (place A.order a c fa)) (C.at_ (fa ++ fb)) ∧ Reveals (B.at_ (place B.order b c fb)) (C.at_ (fa ++ fb)) := by
  have key : ∀ (P : Num F → Prop), Absorbing P → ∃ (C : Tensor (Num F)) (T : Tensor ℕ∞), mul A B (.list a) (.list b) = .ok C ∧ C.shape = T.shape ∧
      (∀ i, T.at_ i = ⊤ → P (C.at_ i)) ∧
      T.shape = ((freeAxes A.order a).map fun k => A.shape.getD k 0) ++ ((freeAxes B.order b).map fun k => B.shape.getD k 0) ∧
      ∀ fa fb, InB ((freeAxes A.order a).map fun k => A.shape.getD k 0) fa →
        InB ((freeAxes B.order b).map fun k => B.shape.getD k 0) fb →
        T.at_ (fa ++ fb) = boxSum (a.map fun k => A.shape.getD k 0) fun c =>
          (marks P A).at_ (place A.order a c fa) * (marks P B).at_ (place B.order b c fb) := by
    intro P hP
    obtain ⟨T, hT, hs, he⟩ := C08_mul_entry (marks P A) (marks P B) a b ha ha' hb hb' hd
    obtain ⟨C, hC, hsh, hp⟩ := spoiled_of ((par_mark hP).ops_mul (marks_input hP A) (marks_input hP B) (.list a) (.list b)) hT
    exact ⟨C, T, hC, hsh, hp, hs, he⟩
  obtain ⟨C, T, hC, hs, -, hTs, -⟩ := key _ absorbing_nan
  refine ⟨C, hC, hs.trans hTs, fun fa fb c hfa hfb hc => ?_⟩
  have h1 : InB A.shape (place A.order a c fa) := place_inB ha ha' hc hfa
  have h2 : InB B.shape (place B.order b c fb) := place_inB hb hb' (hd ▸ hc) hfb
  constructor <;> refine shows_of fun P hP hx => ?_
  all_goals
    obtain ⟨C', T, hC', -, hp, -, he⟩ := key P hP
    rw [hC] at hC'
    obtain rfl := Except.ok.inj hC'
    refine hp _ ?_
    rw [he fa fb hfa hfb]
    refine boxSum_top hc ?_
    rw [at_marks A h1, at_marks B h2]
    exact enat_mul_eq_top (mark_ne_zero _) (mark_ne_zero _) (by simp [mark_top hx])

theorem marks_lists (P : Num F → Prop) (L : List (Tensor (Num F))) : rowDims (L.map (marks P)) = rowDims L ∧
    colDims (L.map (marks P)) = colDims L := by
  simp [rowDims, colDims, Function.comp_def, marks, tf.map]

theorem marks_mat {P : Num F → Prop} {L : List (Tensor (Num F))} (h : AllMat L) : AllMat (L.map (marks P)) := by
  intro M hM
  obtain ⟨A, hA, rfl⟩ := List.mem_map.1 hM
  exact h A hA

/-- **C124** (`kron`): the entry `[r, c]` shows what is wrong with each of the entries `[r_k, c_k]` it is the product of. -/
theorem C124_kron_shows (ms : List (Tensor (Num F))) (s : Skip) (rev : Bool) (L : List (Tensor (Num F)))
    (hL : L = if rev then (kept ms s).reverse else kept ms s) (hmat : AllMat L) (hne : L ≠ []) (hlen : L.length ≤ 13) :
    ∃ K, kron ms s rev = .ok K ∧ K.shape = [(rowDims L).prod, (colDims L).prod] ∧
      ∀ rs cs, InB (rowDims L) rs → InB (colDims L) cs → ∀ (k : Nat) (M : Tensor (Num F)), L[k]? = some M →
        Reveals (M.at_ [rs.getD k 0, cs.getD k 0]) (K.at_ [ravel (rowDims L) rs, ravel (colDims L) cs]) := by
  have key : ∀ (P : Num F → Prop), Absorbing P → ∃ (C : Tensor (Num F)) (T : Tensor ℕ∞), kron ms s rev = .ok C ∧ C.shape = T.shape ∧
      (∀ i, T.at_ i = ⊤ → P (C.at_ i)) ∧ T.shape = [(rowDims L).prod, (colDims L).prod] ∧
      ∀ rs cs, InB (rowDims L) rs → InB (colDims L) cs →
        T.at_ [ravel (rowDims L) rs, ravel (colDims L) cs] = kronEntry (L.map (marks P)) rs cs := by
    intro P hP
    obtain ⟨T, hT, hs, he⟩ := C16_kron_entry (ms.map (marks P)) s rev (L.map (marks P))
      (by rw [hL, kept_map]; cases rev <;> simp) (marks_mat hmat) (by simpa using hne) (by simpa using hlen)
    have := (par_mark hP).ops_kron (runs3_rel hP ms) s rev
    obtain ⟨t1, t2, t3⟩ := runs3_maps P ms
    rw [t1, t2, t3] at this
    obtain ⟨C, hC, hsh, hp⟩ := spoiled_of this hT
    rw [(marks_lists P L).1, (marks_lists P L).2] at hs he
    exact ⟨C, T, hC, hsh, hp, hs, he⟩
  obtain ⟨C, T, hC, hs, -, hTs, -⟩ := key _ absorbing_nan
  refine ⟨C, hC, hs.trans hTs, fun rs cs hr hc k M hk => shows_of fun P hP hx => ?_⟩
  obtain ⟨C', T, hC', -, hp, -, he⟩ := key P hP
  rw [hC] at hC'
  obtain rfl := Except.ok.inj hC'
  refine hp _ ?_
  rw [he rs cs hr hc]
  exact (kron_marks L rs cs hmat hr hc).2 k M hk hx

/-- **C124** (`khatri`). -/
theorem C124_khatri_shows (ms : List (Tensor (Num F))) (s : Skip) (rev : Bool) (R : Nat) (L : List (Tensor (Num F)))
    (hL : L = if rev then (kept ms s).reverse else kept ms s) (hmat : AllMat L) (hR : ∀ M ∈ L, M.shape.getD 1 0 = R)
    (hne : L ≠ []) (hlen : L.length ≤ 25) :
    ∃ K, khatri ms s rev = .ok K ∧ K.shape = [(rowDims L).prod, R] ∧
      ∀ is r, InB (rowDims L) is → r < R → ∀ (k : Nat) (M : Tensor (Num F)), L[k]? = some M →
        Reveals (M.at_ [is.getD k 0, r]) (K.at_ [ravel (rowDims L) is, r]) := by
  have key : ∀ (P : Num F → Prop), Absorbing P → ∃ (C : Tensor (Num F)) (T : Tensor ℕ∞), khatri ms s rev = .ok C ∧ C.shape = T.shape ∧
      (∀ i, T.at_ i = ⊤ → P (C.at_ i)) ∧ T.shape = [(rowDims L).prod, R] ∧
      ∀ is r, InB (rowDims L) is → r < R → T.at_ [ravel (rowDims L) is, r] = khatriEntry r (L.map (marks P)) is := by
    intro P hP
    obtain ⟨T, hT, hs, he⟩ := C18_khatri_entry (ms.map (marks P)) s rev R (L.map (marks P))
      (by rw [hL, kept_map]; cases rev <;> simp) (marks_mat hmat) (by
        intro M hM
        obtain ⟨A, hA, rfl⟩ := List.mem_map.1 hM
        exact hR A hA) (by simpa using hne) (by simpa using hlen)
    have := (par_mark hP).ops_khatri (runs3_rel hP ms) s rev
    obtain ⟨t1, t2, t3⟩ := runs3_maps P ms
    rw [t1, t2, t3] at this
    obtain ⟨C, hC, hsh, hp⟩ := spoiled_of this hT
    rw [(marks_lists P L).1] at hs he
    exact ⟨C, T, hC, hsh, hp, hs, he⟩
  obtain ⟨C, T, hC, hs, -, hTs, -⟩ := key _ absorbing_nan
  refine ⟨C, hC, hs.trans hTs, fun is r hi hr k M hk => shows_of fun P hP hx => ?_⟩
  obtain ⟨C', T, hC', -, hp, -, he⟩ := key P hP
  rw [hC] at hC'
  obtain rfl := Except.ok.inj hC'
  refine hp _ ?_
  rw [he is r hi hr]
  exact (khatri_marks r L is hmat hi (fun M hM => by rw [hR M hM]; exact hr)).2 k M hk hx

/-- **C124** (`hadamard`): each entry shows what is wrong with the entries at its position. -/
theorem C124_hadamard_shows (ms : List (Tensor (Num F))) (s : Skip) (sh : List Nat)
    (hne : kept ms s ≠ []) (h : ∀ M ∈ kept ms s, M.shape = sh) :
    ∃ H, hadamard ms s = .ok H ∧ H.shape = sh ∧ ∀ i, InB sh i → ∀ M ∈ kept ms s, Reveals (M.at_ i) (H.at_ i) := by
  have key : ∀ (P : Num F → Prop), Absorbing P → ∃ (C : Tensor (Num F)) (T : Tensor ℕ∞), hadamard ms s = .ok C ∧ C.shape = T.shape ∧
      (∀ i, T.at_ i = ⊤ → P (C.at_ i)) ∧ T.shape = sh ∧
      ∀ i, InB sh i → T.at_ i = (((kept ms s).map (marks P)).map (·.at_ i)).prod := by
    intro P hP
    obtain ⟨T, hT, hs, he⟩ := C15_hadamard_entry (ms.map (marks P)) s sh (by rw [kept_map]; simpa using hne) (by
      rw [kept_map]
      intro M hM
      obtain ⟨A, hA, rfl⟩ := List.mem_map.1 hM
      exact h A hA)
    have := (par_mark hP).ops_hadamard (runs3_rel hP ms) s
    obtain ⟨t1, t2, t3⟩ := runs3_maps P ms
    rw [t1, t2, t3] at this
    obtain ⟨C, hC, hsh, hp⟩ := spoiled_of this hT
    rw [kept_map] at he
    exact ⟨C, T, hC, hsh, hp, hs, he⟩
  obtain ⟨C, T, hC, hs, -, hTs, -⟩ := key _ absorbing_nan
  refine ⟨C, hC, hs.trans hTs, fun i hi M hM => shows_of fun P hP hx => ?_⟩
  obtain ⟨C', T, hC', -, hp, -, he⟩ := key P hP
  rw [hC] at hC'
  obtain rfl := Except.ok.inj hC'
  refine hp _ ?_
  rw [he i hi]
  exact (prod_marks _ i fun M hM => by rw [h M hM]; exact hi).2 M hM hx

/-- **C124** (`KTensor.extract`): the entry `i` shows what is wrong with row `i_k` of each factor `k` and with the weights. -/
theorem C124_kruskal_shows (k : KTensor (Num F)) (R : Nat) (hU : Factors k.U R) (hl : k.lam.shape = [R, 1])
    (hd : k.udtype = k.ldtype) :
    ∃ X, k.extract = .ok X ∧ X.shape = rowDims k.U ∧ ∀ i, InB (rowDims k.U) i → ∀ r < R,
      Reveals (k.lam.at_ [r, 0]) (X.at_ i) ∧ ∀ (n : Nat) (M : Tensor (Num F)), k.U[n]? = some M → Reveals (M.at_ [i.getD n 0, r]) (X.at_ i) := by
  obtain ⟨hne, hlen, hm, hR⟩ := hU
  have key : ∀ (P : Num F → Prop), Absorbing P → ∃ (C : Tensor (Num F)) (T : Tensor ℕ∞), k.extract = .ok C ∧ C.shape = T.shape ∧
      (∀ i, T.at_ i = ⊤ → P (C.at_ i)) ∧ T.shape = rowDims k.U ∧
      ∀ i, InB (rowDims k.U) i → T.at_ i = ∑ r ∈ Finset.range R, khatriEntry r (k.U.map (marks P)) i * (marks P k.lam).at_ [r, 0] := by
    intro P hP
    obtain ⟨T, hT, hs, he⟩ := KTensor.extract_core (⟨k.U.map (marks P), k.udtype, marks P k.lam, k.ldtype⟩ : KTensor ℕ∞) (R := R)
      (marks_mat hm) (by simpa using hne) (by simpa using hlen) (by
        intro M hM
        obtain ⟨A, hA, rfl⟩ := List.mem_map.1 hM
        exact hR A hA) hd hl
    have := (par_mark hP).kextract (runs3_rel hP k.U) (marks_input hP k.lam) k.udtype k.ldtype
    obtain ⟨t1, t2, t3⟩ := runs3_maps P k.U
    rw [t1, t2, t3] at this
    obtain ⟨C, hC, hsh, hp⟩ := spoiled_of this hT
    simp only [(marks_lists P k.U).1] at hs he
    exact ⟨C, T, hC, hsh, hp, hs, he⟩
  obtain ⟨C, T, hC, hs, -, hTs, -⟩ := key _ absorbing_nan
  refine ⟨C, hC, hs.trans hTs, fun i hi r hr => ?_⟩
  have hlam : InB k.lam.shape [r, 0] := by rw [hl]; exact InB_pair.2 ⟨_, _, rfl, hr, by omega⟩
  constructor
  · refine shows_of fun P hP hx => ?_
    obtain ⟨C', T, hC', -, hp, -, he⟩ := key P hP
    rw [hC] at hC'
    obtain rfl := Except.ok.inj hC'
    refine hp _ ?_
    rw [he i hi]
    refine range_top hr ?_
    rw [at_marks _ hlam]
    exact enat_mul_eq_top (khatri_marks r k.U i hm hi (fun M hM => by rw [hR M hM]; exact hr)).1 (mark_ne_zero _)
      (Or.inr (mark_top hx))
  · refine fun n M hn => shows_of fun P hP hx => ?_
    obtain ⟨C', T, hC', -, hp, -, he⟩ := key P hP
    rw [hC] at hC'
    obtain rfl := Except.ok.inj hC'
    refine hp _ ?_
    rw [he i hi]
    refine range_top hr ?_
    rw [at_marks _ hlam]
    have := khatri_marks (P := P) r k.U i hm hi (fun M hM => by rw [hR M hM]; exact hr)
    exact enat_mul_eq_top this.1 (mark_ne_zero _) (Or.inl (this.2 n M hn hx))

/-- **C124** (`TTensor.extract`): the entry `i` shows what is wrong with row `i_k` of each factor `k` and with the whole core. -/
theorem C124_tucker_shows (t : TTensor (Num F)) (hne : t.U ≠ []) (hN : t.U.length ≤ 13) (hm : AllMat t.U)
    (hG : t.g.shape = colDims t.U) (hd : t.gdtype = t.udtype) :
    ∃ X, t.extract = .ok X ∧ X.shape = rowDims t.U ∧ ∀ i j, InB (rowDims t.U) i → InB t.g.shape j →
      Reveals (t.g.at_ j) (X.at_ i) ∧
        ∀ (n : Nat) (M : Tensor (Num F)), t.U[n]? = some M → Reveals (M.at_ [i.getD n 0, j.getD n 0]) (X.at_ i) := by
  have key : ∀ (P : Num F → Prop), Absorbing P → ∃ (C : Tensor (Num F)) (T : Tensor ℕ∞), t.extract = .ok C ∧ C.shape = T.shape ∧
      (∀ i, T.at_ i = ⊤ → P (C.at_ i)) ∧ T.shape = rowDims t.U ∧
      ∀ i, InB (rowDims t.U) i → T.at_ i = boxSum t.g.shape fun j => (marks P t.g).at_ j * kronEntry (t.U.map (marks P)) i j := by
    intro P hP
    obtain ⟨t', T, ht', hT, hs, he⟩ := C27_extract_entry (marks P t.g) t.gdtype (t.U.map (marks P)) (by simpa using hne)
      (by simpa using hN) (marks_mat hm) (by rw [(marks_lists P t.U).2]; exact hG)
    have ht : t' = ⟨marks P t.g, t.gdtype, t.U.map (marks P), t.udtype⟩ := by
      cases hU : t.U with
      | nil => exact absurd hU hne
      | cons A L =>
          rw [hU] at ht'
          rw [← hd]
          exact (Except.ok.inj ht').symm
    have := (par_mark hP).textract (marks_input hP t.g) (runs3_rel hP t.U) t.gdtype t.udtype
    obtain ⟨t1, t2, t3⟩ := runs3_maps P t.U
    rw [t1, t2, t3] at this
    rw [ht] at hT
    obtain ⟨C, hC, hsh, hp⟩ := spoiled_of this hT
    rw [(marks_lists P t.U).1] at hs he
    exact ⟨C, T, hC, hsh, hp, hs, he⟩
  obtain ⟨C, T, hC, hs, -, hTs, -⟩ := key _ absorbing_nan
  refine ⟨C, hC, hs.trans hTs, fun i j hi hj => ?_⟩
  constructor
  · refine shows_of fun P hP hx => ?_
    obtain ⟨C', T, hC', -, hp, -, he⟩ := key P hP
    rw [hC] at hC'
    obtain rfl := Except.ok.inj hC'
    refine hp _ ?_
    rw [he i hi]
    refine boxSum_top hj ?_
    rw [at_marks _ hj]
    exact enat_mul_eq_top (mark_ne_zero _) (kron_marks t.U i j hm hi (hG ▸ hj)).1 (Or.inl (mark_top hx))
  · refine fun n M hn => shows_of fun P hP hx => ?_
    obtain ⟨C', T, hC', -, hp, -, he⟩ := key P hP
    rw [hC] at hC'
    obtain rfl := Except.ok.inj hC'
    refine hp _ ?_
    rw [he i hi]
    refine boxSum_top hj ?_
    rw [at_marks _ hj]
    have := kron_marks (P := P) t.U i j hm hi (hG ▸ hj)
    exact enat_mul_eq_top (mark_ne_zero _) this.1 (Or.inr (this.2 n M hn hx))

/-- **C124** (`ttm` along some modes): the entry `i` shows what is wrong with each of the entries multiplied and added to obtain it:
those of the tensor at the positions `j` that differ from `i` only on the given modes, and those of the matrices at
`[i_a, j_a]` (`[j_a, i_a]` with `transpose=True`). -/
theorem C124_ttm_shows (X : Tensor (Num F)) (ms : List (Tensor (Num F))) (axis : List Nat) (tr : Bool) (hN : X.order ≤ 13)
    (hne : axis ≠ []) (hnd : axis.Nodup) (hlt : ∀ i ∈ axis, i < X.order) (hc : Conformable X axis ms tr) :
    ∃ Y, ttm X ms (some axis) tr = .ok Y ∧ ∀ i j, InB Y.shape i → InB X.shape j → (∀ k, k ∉ axis → j.getD k 0 = i.getD k 0) →
      Reveals (X.at_ j) (Y.at_ i) ∧ ∀ p ∈ axis.zip ms,
        Reveals (p.2.at_ (if tr then [j.getD p.1 0, i.getD p.1 0] else [i.getD p.1 0, j.getD p.1 0])) (Y.at_ i) := by
  have hl : axis.length = ms.length := hc.1
  have key : ∀ (P : Num F → Prop), Absorbing P → ∃ (C : Tensor (Num F)) (T : Tensor ℕ∞), ttm X ms (some axis) tr = .ok C ∧ C.shape = T.shape ∧
      (∀ i, T.at_ i = ⊤ → P (C.at_ i)) ∧
      T = modeProds (marks P X) (axis.zip (if tr then (ms.map (marks P)).map matT else ms.map (marks P))) := by
    intro P hP
    have hT := C10_ttm_mode_products (marks P X) (ms.map (marks P)) axis tr hN hne hnd hlt ⟨by simpa using hl, by
      intro p hp
      rw [List.zip_map_right] at hp
      obtain ⟨q, hq, rfl⟩ := List.mem_map.1 hp
      exact hc.2 q hq⟩
    have := (par_mark hP).ops_ttm (marks_input hP X) (runs3_rel hP ms) (some axis) tr .none
    obtain ⟨t1, t2, t3⟩ := runs3_maps P ms
    rw [t1, t2, t3] at this
    obtain ⟨C, hC, hsh, hp⟩ := spoiled_of this hT
    exact ⟨C, _, hC, hsh, hp, rfl⟩
  obtain ⟨C, T0, hC, hs0, -⟩ := key _ absorbing_nan
  refine ⟨C, hC, fun i j hi hj hij => ?_⟩
  -- every factor of the product is a mark, and it is `⊤` if the number is spoiled
  have main : ∀ (P : Num F → Prop), Absorbing P →
      (P (X.at_ j) ∨ ∃ p ∈ axis.zip ms, P (p.2.at_ (if tr then [j.getD p.1 0, i.getD p.1 0] else [i.getD p.1 0, j.getD p.1 0]))) →
      P (C.at_ i) := by
    intro P hP hx
    obtain ⟨C', T, hC', hsh, hp, rfl⟩ := key P hP
    rw [hC] at hC'
    obtain rfl := Except.ok.inj hC'
    have hfst : ∀ L : List (Tensor ℕ∞), L.length = ms.length → (axis.zip L).map Prod.fst = axis := fun L hL =>
      List.map_fst_zip (by omega)
    have hlen' : (if tr then (ms.map (marks P)).map matT else ms.map (marks P)).length = ms.length := by cases tr <;> simp
    have hge := modeProds_ge _ (marks P X) i j (by rw [hfst _ hlen']; exact hnd)
      (fun p hp => hlt _ (List.of_mem_zip hp).1) (hsh ▸ hi) hj (fun k hk => hij k (by rwa [hfst _ hlen'] at hk))
    refine hp _ (top_le_iff.1 (le_trans (top_le_iff.2 ?_) hge))
    have hzip : axis.zip (if tr then (ms.map (marks P)).map matT else ms.map (marks P)) =
        (axis.zip ms).map fun p => (p.1, if tr then matT (marks P p.2) else marks P p.2) := by
      cases tr <;> simp [List.zip_map_right, Function.comp_def]
    rw [hzip, List.map_map]
    -- the entry of each matrix
    have hent : ∀ p ∈ axis.zip ms, (if tr then matT (marks P p.2) else marks P p.2).at_ [i.getD p.1 0, j.getD p.1 0] =
        mark P (p.2.at_ (if tr then [j.getD p.1 0, i.getD p.1 0] else [i.getD p.1 0, j.getD p.1 0])) := by
      intro p hp
      obtain ⟨J, hJ⟩ := hc.2 p hp
      have hpa : p.1 ∈ axis := (List.of_mem_zip hp).1
      have hjp : j.getD p.1 0 < X.shape.getD p.1 0 := (InB_iff_getD.1 hj).2 _ (hlt _ hpa)
      have hip : i.getD p.1 0 < J := by
        have hin := modeProds_shape_in (marks P X)
          (ps := axis.zip (if tr then (ms.map (marks P)).map matT else ms.map (marks P)))
          (by rw [hfst _ hlen']; exact hnd)
          (p := (p.1, if tr then matT (marks P p.2) else marks P p.2)) (by
            rw [hzip]; exact List.mem_map.2 ⟨p, hp, rfl⟩) (hlt _ hpa)
        have h1 : i.getD p.1 0 < C.shape.getD p.1 0 := (InB_iff_getD.1 hi).2 _ (by
          rw [hsh, modeProds_shape_length]; exact hlt _ hpa)
        rw [hsh, hin] at h1
        cases tr
        · simp only [Bool.false_eq_true, if_false] at h1 hJ
          change _ < p.2.shape.getD 0 0 at h1
          rwa [hJ] at h1
        · simp only [if_true] at h1 hJ
          change _ < p.2.shape.getD 1 0 at h1
          rwa [hJ] at h1
      cases tr
      · simp only [Bool.false_eq_true, if_false] at hJ ⊢
        exact at_marks _ (by rw [hJ]; exact InB_pair.2 ⟨_, _, rfl, hip, hjp⟩)
      · simp only [if_true] at hJ ⊢
        have hd0 : (marks P p.2).shape.getD 0 0 = X.shape.getD p.1 0 := by show p.2.shape.getD 0 0 = _; rw [hJ]; rfl
        have hd1 : (marks P p.2).shape.getD 1 0 = J := by show p.2.shape.getD 1 0 = _; rw [hJ]; rfl
        unfold matT
        rw [at_mat _ (by rw [hd1]; exact hip) (by rw [hd0]; exact hjp)]
        exact at_marks _ (by rw [hJ]; exact InB_pair.2 ⟨_, _, rfl, hjp, hip⟩)
    have hmap : ((axis.zip ms).map ((fun p : Nat × Tensor ℕ∞ => p.2.at_ [i.getD p.1 0, j.getD p.1 0]) ∘
        fun p => (p.1, if tr then matT (marks P p.2) else marks P p.2))) =
        (axis.zip ms).map fun p => mark P (p.2.at_ (if tr then [j.getD p.1 0, i.getD p.1 0] else [i.getD p.1 0, j.getD p.1 0])) :=
      List.map_congr_left hent
    rw [hmap, at_marks X hj]
    have hprod : ∀ (ps : List (Nat × Tensor (Num F))) (f : Nat × Tensor (Num F) → Num F),
        (ps.map fun p => mark P (f p)).prod ≠ 0 ∧ ((∃ p ∈ ps, P (f p)) → (ps.map fun p => mark P (f p)).prod = ⊤) := by
      intro ps f
      induction ps with
      | nil => simp
      | cons q ps ih =>
          simp only [List.map_cons, List.prod_cons]
          refine ⟨enat_mul_ne_zero (mark_ne_zero _) ih.1, ?_⟩
          rintro ⟨p, hp, hP'⟩
          rcases List.mem_cons.1 hp with rfl | hp
          · exact enat_mul_eq_top (mark_ne_zero _) ih.1 (Or.inl (mark_top hP'))
          · exact enat_mul_eq_top (mark_ne_zero _) ih.1 (Or.inr (ih.2 ⟨p, hp, hP'⟩))
    refine enat_mul_eq_top (hprod _ _).1 (mark_ne_zero _) ?_
    rcases hx with hx | hx
    · exact Or.inr (mark_top hx)
    · exact Or.inl ((hprod _ _).2 hx)
  exact ⟨shows_of fun P hP hx => main P hP (Or.inl hx), fun p hp => shows_of fun P hP hx => main P hP (Or.inr ⟨p, hp, hx⟩)⟩

/-! ### float32 cases -/

/-- `2¹⁰⁰` in float32, in a matrix with one entry. -/
noncomputable def large : Tensor (Num f32) := ⟨[1, 1], [num32 1 100 (by norm_num) (by norm_num)], rfl⟩

/-- An overflow: the operands are numbers, the inner product is infinite; with unbounded exponents it is a number. -/
example : ((large.at_ [0, 0]).Finite ∧ inner large large = .ok (.inf false)) := by
  refine ⟨trivial, ?_⟩
  have h : inner large large = .ok (Num.round f32 ((((1 : ℤ) : ℝ) * 2 ^ 100) * (((1 : ℤ) : ℝ) * 2 ^ 100))) := rfl
  rw [h, round32_over 1 200 (by norm_num) (by norm_num) (by norm_num)]
  have hneg : decide ((((1 : ℤ) : ℝ) * 2 ^ 100) * (((1 : ℤ) : ℝ) * 2 ^ 100) < 0) = false := by
    rw [decide_eq_false_iff_not, not_lt]; positivity
  rw [hneg]

/-- The hypotheses of the theorems are met by matrices with infinite entries and NaN. -/
noncomputable def spoilt : Tensor (Num f32) := ⟨[2, 2], [1, .inf true, .nan, 0], rfl⟩

example : Factors [spoilt, spoilt] 2 ∧ AllMat [spoilt, spoilt] ∧ (⟨[2, 1], [1, .nan], rfl⟩ : Tensor (Num f32)).shape = [2, 1] ∧
    spoilt.shape = colDims [spoilt, spoilt] ∧ Conformable spoilt [0, 1] [spoilt, spoilt] true ∧
    ¬ (spoilt.at_ [0, 1]).Finite ∧ spoilt.at_ [1, 0] = .nan ∧ (spoilt.at_ [0, 0]).Finite := by
  have hm : AllMat [spoilt, spoilt] := by intro M hM; simp at hM; subst hM; rfl
  refine ⟨⟨by simp, by simp, hm, by intro M hM; simp at hM; subst hM; rfl⟩, hm, rfl, rfl, ⟨rfl, ?_⟩, fun h => h, rfl, trivial⟩
  intro p hp
  simp at hp
  rcases hp with rfl | rfl <;> exact ⟨2, rfl⟩

end TD.Props
