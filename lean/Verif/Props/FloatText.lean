import Verif.Props.IntText
import Verif.Lemmas.FloatText

/-! # C135 : how the values of a file may be written -/
namespace TD.Props
open TD Tensor Spec reader

/-- `v` is a text for the value `x`: a number that rounds to `x`, or a word for an infinity or for NaN. -/
def ValueText {F : sp.Fmt} (v : List Char) (x : sp.Num F) : Prop :=
  (∃ q, NumText v q ∧ x = .round F q) ∨
  (∃ neg, (WordText v "inf".toList neg ∨ WordText v "infinity".toList neg) ∧ x = .inf neg) ∨
  (∃ neg, WordText v "nan".toList neg) ∧ x = .nan

theorem toFloat_iff {F : sp.Fmt} {v : List Char} {x : sp.Num F} : toFloat F v = some x ↔ ValueText v x := by
  unfold toFloat ValueText
  rw [Option.map_eq_some_iff]
  constructor
  · rintro ⟨l, hl, rfl⟩
    cases l with
    | num q => exact .inl ⟨q, pyFloat_num.1 hl, rfl⟩
    | inf neg => exact .inr (.inl ⟨neg, pyFloat_inf.1 hl, rfl⟩)
    | nan => exact .inr (.inr ⟨pyFloat_nan.1 hl, rfl⟩)
  · rintro (⟨q, h, rfl⟩ | ⟨neg, h, rfl⟩ | ⟨h, rfl⟩)
    · exact ⟨.num q, pyFloat_num.2 h, rfl⟩
    · exact ⟨.inf neg, pyFloat_inf.2 h, rfl⟩
    · exact ⟨.nan, pyFloat_nan.2 h, rfl⟩

/-- **C135** (no ambiguity): a text writes at most one number, and no text is both a number and a word. -/
theorem C135_unique {s : List Char} : (∀ q q', NumText s q → NumText s q' → q = q') ∧
    ∀ {F : sp.Fmt} (x y : sp.Num F), ValueText s x → ValueText s y → x = y := by
  constructor
  · intro q q' h h'
    exact Lit.num.inj (Option.some.inj ((pyFloat_num.2 h).symm.trans (pyFloat_num.2 h')))
  · intro F x y h h'
    exact Option.some.inj ((toFloat_iff.2 h).symm.trans (toFloat_iff.2 h'))

/-- **C135** (what is read): a file whose rows have `N` coordinates and a value, each written in any admissible way, is read as the
tensor with those values at those coordinates; where a coordinate occurs twice the last row counts. -/
theorem C135_read (F : sp.Fmt) (N : Nat) (hN : 1 ≤ N) (path content : List Char) (rows : List (List (List Char)))
    (entries : List (List Nat × sp.Num F)) (hp : Supported path) (hc : CsvOf content rows) (hne : rows ≠ [])
    (h : List.Forall₂ (fun row e => ∃ fields v, row = fields ++ [v] ∧ fields.length = N ∧
      List.Forall₂ (fun f (c : Nat) => IntText f (c : Int)) fields e.1 ∧ ValueText v e.2) rows entries) :
    ∃ sp T, reader.read (toFloat F) path content = .ok sp ∧
      sp.indices = entries.map (fun e => e.1.map fun c : Nat => (c : Int)) ∧ sp.values = entries.map Prod.snd ∧
      fullData (toFloat F) path content = .ok T ∧ T.order = N ∧
      (∀ i, InB T.shape i → T.at_ i = lastValue entries i) ∧ ∀ e ∈ entries, InB T.shape e.1 := by
  refine C35_read (toFloat F) N path content entries hp ⟨hN, ?_, rows, hc, ?_⟩
  · rintro rfl
    exact hne (List.forall₂_nil_right_iff.1 h)
  · refine h.imp ?_
    rintro row e ⟨fields, v, h1, h2, h3, h4⟩
    exact ⟨fields, v, h1, h2, h3, toFloat_iff.2 h4⟩

/-- **C135** (exactness): in a table with `N` integers and a value in every row, `read` succeeds exactly if each value is written
in an admissible way; otherwise it raises `ValueError`. -/
theorem C135_accepts (F : sp.Fmt) (N : Nat) (path content : List Char) (rows : List (List (List Char)))
    (hp : Supported path) (hc : CsvOf content rows) (hne : rows ≠ [])
    (h : ∀ row ∈ rows, ∃ fields v, row = fields ++ [v] ∧ fields.length = N ∧ ∀ f ∈ fields, ∃ i, IntText f i) :
    ((∃ sp, reader.read (toFloat F) path content = .ok sp) ↔
      ∀ row ∈ rows, ∃ v, row.getLast? = some v ∧ ∃ x : sp.Num F, ValueText v x) ∧
    ((∃ row ∈ rows, ∃ v, row.getLast? = some v ∧ ∀ x : sp.Num F, ¬ ValueText v x) →
      reader.read (toFloat F) path content = .error .valueError) := by
  have ht : fileType path = "csv".toList ∨ fileType path = "txt".toList := fileType_supported hp
  have hr : (csvRows content).filter (fun r => r.length ≠ 0) = rows := csvRows_spec hc
  have hfield : ∀ row ∈ rows, ∀ m < N, ∃ f i, row[m]? = some f ∧ IntText f i := by
    intro row hrow m hm
    obtain ⟨fields, v, rfl, rfl, hf⟩ := h row hrow
    obtain ⟨i, hi⟩ := hf fields[m] (List.getElem_mem hm)
    exact ⟨fields[m], i, by rw [List.getElem?_append_left hm, List.getElem?_eq_getElem hm], hi⟩
  have hlen : ∀ row ∈ rows, row.length - 1 = N := by
    intro row hrow
    obtain ⟨fields, v, rfl, rfl, -⟩ := h row hrow
    simp
  have main : (∃ sp, reader.read (toFloat F) path content = .ok sp) ↔
      ∀ row ∈ rows, ∃ v, row.getLast? = some v ∧ ∃ x : sp.Num F, ValueText v x := by
    rw [C39_accepts_iff_partial, hr]
    constructor
    · rintro ⟨-, first, rest, e, h1, -⟩ row hrow
      obtain ⟨v, x, hv, hx⟩ := (h1 row (e ▸ hrow)).2
      exact ⟨v, hv, x, toFloat_iff.1 hx⟩
    · intro hv
      refine ⟨ht, ?_⟩
      cases rows with
      | nil => exact absurd rfl hne
      | cons first rest =>
          refine ⟨first, rest, rfl, fun r hr' => ⟨?_, ?_⟩, by simp⟩
          · rw [hlen first (by simp)]
            exact hfield r hr'
          · obtain ⟨v, h1, x, h2⟩ := hv r hr'
            exact ⟨v, x, h1, toFloat_iff.2 h2⟩
  refine ⟨main, ?_⟩
  rintro ⟨row, hrow, v, hv, hx⟩
  have hno : ∀ sp, reader.read (toFloat F) path content ≠ .ok sp := by
    intro sp hsp
    obtain ⟨v', h1, x, h2⟩ := main.1 ⟨sp, hsp⟩ row hrow
    obtain rfl := Option.some.inj (hv.symm.trans h1)
    exact hx x h2
  have hentry : ∀ r ∈ rows, ∀ e, entry (toFloat F) N r = .error e → e = .valueError := by
    intro r hr' e he
    obtain ⟨fields, w, rfl, rfl, -⟩ := h r hr'
    have hi : ∀ m ∈ List.range fields.length, ∃ i, intField (fields ++ [w]) m = .ok i := by
      intro m hm
      obtain ⟨f, i, hf, hi⟩ := hfield _ hr' m (List.mem_range.1 hm)
      refine ⟨i, ?_⟩
      unfold intField
      simp only [hf, pyInt_iff.2 hi]
    obtain ⟨is, his⟩ := mapM_ok_iff.2 hi
    unfold entry at he
    rw [his, ok_bind] at he
    simp only [List.getLast?_append, List.getLast?_singleton, Option.some_or] at he
    cases hw : toFloat F w with
    | some x => simp [hw] at he
    | none => simp [hw] at he; exact he.symm
  have hmap : ∀ (l : List (List (List Char))), (∀ r ∈ l, r ∈ rows) → ∀ e, l.mapM (entry (toFloat F) N) = .error e → e = .valueError := by
    intro l
    induction l with
    | nil => intro _ e he; cases he
    | cons r l ih =>
        intro hl e he
        rw [List.mapM_cons] at he
        cases h1 : entry (toFloat F) N r with
        | error e' =>
            rw [h1, error_bind] at he
            cases he
            exact hentry r (hl r (by simp)) e h1
        | ok x =>
            rw [h1, ok_bind] at he
            cases h2 : l.mapM (entry (toFloat F) N) with
            | error e' =>
                rw [h2, error_bind] at he
                cases he
                exact ih (fun r hr => hl r (by simp [hr])) e h2
            | ok xs => rw [h2, ok_bind] at he; cases he
  cases hrows : rows with
  | nil => exact absurd hrows hne
  | cons first rest =>
      have hfirst := hlen first (by rw [hrows]; simp)
      cases hm : (first :: rest).mapM (entry (toFloat F) N) with
      | error e =>
          have he := hmap (first :: rest) (by rw [hrows]; exact fun r hr => hr) e hm
          subst he
          unfold reader.read reader.readAs
          rw [if_pos ht, hr, hrows]
          simp only [hfirst, hm, error_bind]
      | ok es =>
          exfalso
          apply hno
          unfold reader.read reader.readAs
          rw [if_pos ht, hr, hrows]
          simp only [hfirst, hm, ok_bind]
          rw [if_neg (by simp [maxDim])]

/-- The characters of a text for a value. -/
theorem valueText_chars {F : sp.Fmt} {v : List Char} {x : sp.Num F} (h : ValueText v x) :
    v ≠ [] ∧ ∀ c ∈ v, c ∉ blanks → c ∉ [',', '\n', '\r', '"'] := by
  have hb : ∀ c : Char, c ∉ blanks → c ∉ [',', '"'] → c ∉ [',', '\n', '\r', '"'] := by
    intro c h1 h2 h3
    simp only [blanks, List.mem_cons, List.not_mem_nil, or_false, not_or] at h1 h2 h3
    tauto
  have hsign : ∀ sign neg, SignText sign neg → ∀ c ∈ sign, c ∉ [',', '"'] := by
    rintro sign neg (⟨rfl | rfl, -⟩ | ⟨rfl, -⟩) <;> decide
  have hdig : ∀ l ds, DigitsText l ds → ∀ c ∈ l, c ∉ [',', '"'] := by
    intro l ds hl c hc
    rcases hl.chars c hc with h | rfl
    · simp only [decimals, List.mem_cons, List.not_mem_nil, or_false] at h
      rcases h with h | h | h | h | h | h | h | h | h | h <;> subst h <;> decide
    · decide
  have hword : ∀ w neg, (w = "inf".toList ∨ w = "infinity".toList ∨ w = "nan".toList) → WordText v w neg →
      v ≠ [] ∧ ∀ c ∈ v, c ∉ blanks → c ∉ [',', '\n', '\r', '"'] := by
    intro w neg hw hv
    have hl : ∀ l ∈ w, l ∈ "infinitynan".toList := by rcases hw with rfl | rfl | rfl <;> decide
    obtain ⟨pre, sign, body, post, rfl, hp, hq, hs, hbody⟩ := (word_iff hl).1 hv
    constructor
    · intro e
      simp only [List.append_eq_nil_iff] at e
      obtain ⟨⟨c, c1, -⟩, -⟩ := word_edges hw hbody
      rw [e.1.2] at c1
      simp at c1
    · intro c hc hcb
      apply hb c hcb
      simp only [List.mem_append] at hc
      rcases hc with ((hc | hc) | hc) | hc
      · exact absurd (hp c hc) hcb
      · exact hsign _ _ hs c hc
      · have : c.toLower ∈ w := by rw [← hbody]; exact List.mem_map_of_mem hc
        have key : ∀ l ∈ "infinitynan".toList, l ∉ [',', '"'] ∧ l.toUpper ∉ [',', '"'] := by decide +kernel
        rcases (toLower_word (hl _ this)).1 rfl with e | e
        · rw [e]; exact (key _ (hl _ this)).1
        · rw [e]; exact (key _ (hl _ this)).2
      · exact absurd (hq c hc) hcb
  rcases h with ⟨q, h, -⟩ | ⟨neg, h, -⟩ | ⟨⟨neg, h⟩, -⟩
  · obtain ⟨pre, sign, whole, frac, expo, post, dw, df, neg, e, rfl, hp, hq, hs, h1, h2, h3, h4, -⟩ := h
    constructor
    · intro e
      simp only [List.append_eq_nil_iff] at e
      apply h3
      obtain ⟨⟨⟨⟨-, e1⟩, e2⟩, -⟩, -⟩ := e
      rcases h1 with ⟨-, rfl⟩ | ⟨g, g1, g2, g3, -⟩
      · rcases h2 with ⟨-, rfl⟩ | ⟨l, rfl, -⟩
        · rfl
        · cases e2
      · have : DigitText whole _ := ⟨g, g3, g1, g2, rfl⟩
        obtain ⟨⟨c, c1, -⟩, -⟩ := this.edges
        rw [e1] at c1
        simp at c1
    · intro c hc hcb
      apply hb c hcb
      simp only [List.mem_append] at hc
      rcases hc with ((((hc | hc) | hc) | hc) | hc) | hc
      · exact absurd (hp c hc) hcb
      · exact hsign _ _ hs c hc
      · exact hdig _ _ h1 c hc
      · rcases h2 with ⟨rfl, -⟩ | ⟨l, rfl, hl⟩
        · simp at hc
        · rcases List.mem_cons.1 hc with rfl | hc
          · decide
          · exact hdig _ _ hl c hc
      · rcases h4 with ⟨rfl, -⟩ | ⟨mark, sg, digits, ds, ng, rfl, hm, hsg, hd, -, -⟩
        · simp at hc
        · rcases List.mem_cons.1 hc with rfl | hc
          · rcases hm with rfl | rfl <;> decide
          · rcases List.mem_append.1 hc with hc | hc
            · exact hsign _ _ hsg c hc
            · exact hdig _ _ hd c hc
      · exact absurd (hq c hc) hcb
  · rcases h with h | h
    · exact hword _ _ (.inl rfl) h
    · exact hword _ _ (.inr (.inl rfl)) h
  · exact hword _ _ (.inr (.inr rfl)) h

open Classical in
/-- **C135** (round trip): a printer that gives each value of the tensor a text of that value, without blanks - as Python's
`repr` does for floats, infinities and NaN included - loses nothing: the written file is read back as the tensor. -/
theorem C135_round_trip (F : sp.Fmt) (fmt : sp.Num F → List Char) (path : List Char) (hp : Supported path)
    (T : Tensor (sp.Num F)) (hT : 1 ≤ T.order)
    (hfmt : ∀ i, InB T.shape i → T.at_ i ≠ 0 → ValueText (fmt (T.at_ i)) (T.at_ i) ∧ ∀ c ∈ fmt (T.at_ i), c ∉ blanks)
    (rows : List (List Nat)) (hrows : rows.Perm ((indices T.shape).filter fun i => T.at_ i ≠ 0)) (hne : rows ≠ []) :
    fullData (toFloat F) path (writeFile fmt (rows.map fun i => (i, T.at_ i))) (some T.shape) = .ok T := by
  refine C38_round_trip (toFloat F) fmt path hp T hT (fun i hi h0 => ?_) rows hrows hne
  obtain ⟨h1, h2⟩ := hfmt i hi h0
  obtain ⟨h3, h4⟩ := valueText_chars h1
  exact ⟨toFloat_iff.2 h1, h3, fun c hc => h4 c hc (h2 c hc)⟩

/-- The decimal digits of a natural number. -/
theorem digitsText_toDigits (n : Nat) : DigitsText (Nat.toDigits 10 n) (Nat.toDigits 10 n) ∧ Nat.toDigits 10 n ≠ [] ∧
    decValue (Nat.toDigits 10 n) = n := by
  have h : ∀ c ∈ Nat.toDigits 10 n, c ∈ decimals := fun c hc =>
    isDigit_iff.1 (Nat.isDigit_of_mem_toDigits (by norm_num) (by norm_num) hc)
  have hd : DigitsText (Nat.toDigits 10 n) (Nat.toDigits 10 n) :=
    .inr ⟨[Nat.toDigits 10 n], by simp, by simpa [Nat.toDigits_ne_nil] using h, by simp [List.intercalate], by simp⟩
  refine ⟨hd, Nat.toDigits_ne_nil, ?_⟩
  have hi := pyInt_iff.1 (pyInt_digits n)
  have hi' : IntText (Nat.toDigits 10 n) (decValue (Nat.toDigits 10 n) : Int) :=
    ⟨[], [], [], [Nat.toDigits 10 n], by simp [List.intercalate], by simp, by simp, by simp,
      by simpa [Nat.toDigits_ne_nil] using h, .inl ⟨.inl rfl, by simp⟩⟩
  exact_mod_cast intText_unique hi' hi

/-- **C135** (every binary number can be written exactly): for every `m` and `e` there is a text without blanks that writes
`m * 2 ^ e`, so a number of a binary format can be written and is read back as itself. -/
theorem C135_exact_text (m e : Int) : ∃ s, NumText s ((m : ℚ) * 2 ^ e) ∧ (∀ c ∈ s, c ∉ blanks) ∧
    ∀ (F : sp.Fmt) (x : ℝ) (hx : F.arith.rnd x = x ∧ |x| ≤ F.big), x = (m : ℝ) * 2 ^ e → ValueText s (.fin x hx : sp.Num F) := by
  obtain ⟨a, k, ha⟩ : ∃ (a : Int) (k : Nat), (m : ℚ) * 2 ^ e = (a : ℚ) * 10 ^ (-(k : Int)) := by
    rcases le_or_gt 0 e with he | he
    · obtain ⟨n, rfl⟩ := Int.eq_ofNat_of_zero_le he
      refine ⟨m * 2 ^ n, 0, ?_⟩
      push_cast
      simp
    · obtain ⟨n, hn⟩ := Int.eq_ofNat_of_zero_le (show 0 ≤ -e by omega)
      obtain rfl : e = -(n : Int) := by omega
      refine ⟨m * 5 ^ n, n, ?_⟩
      push_cast
      rw [zpow_neg, zpow_neg, zpow_natCast, zpow_natCast, show (10 : ℚ) = 5 * 2 by norm_num, mul_pow]
      field_simp
  obtain ⟨d1, d2, d3⟩ := digitsText_toDigits a.natAbs
  obtain ⟨k1, k2, k3⟩ := digitsText_toDigits k
  let sign : List Char := if a < 0 then ['-'] else []
  have hs : SignText sign (decide (a < 0)) := by
    by_cases h : a < 0
    · exact .inr ⟨if_pos h, by simpa using h⟩
    · exact .inl ⟨.inl (if_neg h), by simpa using h⟩
  have hnum : NumText (sign ++ Nat.toDigits 10 a.natAbs ++ ('e' :: '-' :: Nat.toDigits 10 k)) ((m : ℚ) * 2 ^ e) := by
    refine ⟨[], sign, Nat.toDigits 10 a.natAbs, [], 'e' :: '-' :: Nat.toDigits 10 k, [], Nat.toDigits 10 a.natAbs, [],
      decide (a < 0), -(k : Int), by simp, by simp, by simp, hs, d1, .inl ⟨rfl, rfl⟩, by simpa using d2,
      .inr ⟨'e', ['-'], Nat.toDigits 10 k, Nat.toDigits 10 k, true, rfl, .inl rfl, .inr ⟨rfl, rfl⟩, k1, k2, by simp [k3]⟩, ?_⟩
    rw [ha, List.append_nil, d3]
    simp only [List.length_nil, Nat.cast_zero, sub_zero]
    congr 1
    by_cases h : a < 0
    · have : ((a.natAbs : Int) : ℚ) = -(a : ℚ) := by rw [Int.ofNat_natAbs_of_nonpos h.le]; push_cast; ring
      simp only [h, decide_true, if_true]
      rw [← Int.cast_natCast, this]; ring
    · have : ((a.natAbs : Int) : ℚ) = (a : ℚ) := by rw [Int.natAbs_of_nonneg (not_lt.1 h)]
      simp only [h, decide_false, Bool.false_eq_true, if_false]
      rw [← Int.cast_natCast, this]; ring
  refine ⟨_, hnum, ?_, ?_⟩
  · have hd : ∀ n, ∀ c ∈ Nat.toDigits 10 n, c ∉ blanks := fun n c hc =>
      (decimals_not_blank (isDigit_iff.1 (Nat.isDigit_of_mem_toDigits (by norm_num) (by norm_num) hc))).1
    intro c hc
    simp only [List.mem_append, List.mem_cons] at hc
    rcases hc with (hc | hc) | rfl | rfl | hc
    · have : c = '-' := by
        simp only [sign] at hc
        split at hc <;> simp_all
      rw [this]; decide
    · exact hd _ c hc
    · decide
    · decide
    · exact hd _ c hc
  · intro F x hx e'
    refine .inl ⟨_, hnum, ?_⟩
    have hq : (((m : ℚ) * 2 ^ e : ℚ) : ℝ) = x := by rw [e']; push_cast; rfl
    rw [hq]
    unfold sp.Num.round
    rw [dif_pos (by rw [hx.1]; exact hx.2)]
    simp only [hx.1]

/-! Ways to write numbers, and texts that write none. -/
example : NumText " +1_0.5e-1\t".toList (105 / 100) ∧ NumText ".5".toList (1 / 2) ∧ NumText "1.".toList 1 ∧
    NumText "-0012E+2".toList (-1200) ∧ WordText "-iNf".toList "inf".toList true ∧ WordText " Infinity".toList "infinity".toList false ∧
    (∃ neg, WordText "NaN".toList "nan".toList neg) ∧
    ∀ s ∈ ["1_.5".toList, ".".toList, "1e".toList, "0x1".toList, "".toList, "1 2".toList, "1e1.5".toList, "+-1".toList,
      "1__0".toList, "in".toList, "1,5".toList], ∀ (F : sp.Fmt) (x : sp.Num F), ¬ ValueText s x := by
  refine ⟨pyFloat_num.1 (by decide +kernel), pyFloat_num.1 (by decide +kernel), pyFloat_num.1 (by decide +kernel),
    pyFloat_num.1 (by decide +kernel), ?_, ?_, pyFloat_nan.1 (by decide +kernel), ?_⟩
  · exact (word_iff (by decide)).2 ⟨[], ['-'], "iNf".toList, [], rfl, by simp, by simp, .inr ⟨rfl, rfl⟩, by decide +kernel⟩
  · exact (word_iff (by decide)).2 ⟨[' '], [], "Infinity".toList, [], rfl, by decide, by simp, .inl ⟨.inl rfl, rfl⟩, by decide +kernel⟩
  · intro s hs F x h
    have h := toFloat_iff.2 h
    have hn : ∀ s ∈ ["1_.5".toList, ".".toList, "1e".toList, "0x1".toList, "".toList, "1 2".toList, "1e1.5".toList, "+-1".toList,
      "1__0".toList, "in".toList, "1,5".toList], pyFloat s = none := by decide +kernel
    unfold toFloat at h
    rw [hn s hs] at h
    simp at h

end TD.Props
