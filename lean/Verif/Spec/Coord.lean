import Verif.Spec.IntText

/-!
# Specification of coordinate files
-/
namespace TD.Spec

/-- Lines joined with newlines. -/
def unlines : List (List Char) → List Char
  | [] => []
  | [l] => l
  | l :: ls => l ++ '\n' :: unlines ls

/-- Fields joined with commas. -/
def commas : List (List Char) → List Char
  | [] => []
  | [w] => w
  | w :: ws => w ++ ',' :: commas ws

/-- `text` spells the field `f` in a comma separated file: as it is, if it holds no comma and no newline and does
not begin with a quote; or between quotes, each quote in it doubled. -/
inductive FieldText : List Char → List Char → Prop
  | plain (f : List Char) : ',' ∉ f → '\n' ∉ f → f.head? ≠ some '"' → FieldText f f
  | quoted (f : List Char) :
      FieldText ('"' :: (f.flatMap (fun c => if c = '"' then ['"', '"'] else [c]) ++ ['"'])) f

/-- `line` spells the non-empty row of fields `row`; it is not blank (a single empty field has to be quoted). -/
def RowText (line : List Char) (row : List (List Char)) : Prop :=
  line ≠ [] ∧ row ≠ [] ∧ ∃ texts, line = commas texts ∧ List.Forall₂ FieldText texts row

/-- `content` is made of `lines`, each but the last ended by a newline, a carriage return, or both.  (A "line" may
itself contain newlines, inside a quoted field.) -/
inductive Lines : List Char → List (List Char) → Prop
  | last (l : List Char) : '\r' ∉ l → Lines l [l]
  | lf (l t : List Char) (ls : List (List Char)) : '\r' ∉ l → Lines t ls → Lines (l ++ '\n' :: t) (l :: ls)
  | crlf (l t : List Char) (ls : List (List Char)) : '\r' ∉ l → Lines t ls →
      Lines (l ++ '\r' :: '\n' :: t) (l :: ls)
  | cr (l t : List Char) (ls : List (List Char)) : '\r' ∉ l → t.head? ≠ some '\n' → Lines t ls →
      Lines (l ++ '\r' :: t) (l :: ls)

/-- The lines of the file, apart from blank ones, spell `rows` in this order. -/
def CsvOf (content : List Char) (rows : List (List (List Char))) : Prop :=
  ∃ lines, Lines content lines ∧ List.Forall₂ RowText (lines.filter (· ≠ [])) rows

/-- A row `i_0,...,i_{N-1},value` stands for the entry `(coords, x)`: as many coordinate fields as
`N`, each a way to write the coordinate, and a last field read by `float()` as `x`. -/
def RowFor {α : Type} (pyFloat : List Char → Option α) (N : Nat) (row : List (List Char))
    (e : List Nat × α) : Prop :=
  ∃ fields v, row = fields ++ [v] ∧
    fields.length = N ∧ List.Forall₂ (fun f (c : Nat) => IntText f (c : Int)) fields e.1 ∧ pyFloat v = some e.2

/-- The rows of the file stand for `entries` in this order; there is at least one entry and the order is at
least 1. -/
def FileOf {α : Type} (pyFloat : List Char → Option α) (N : Nat) (content : List Char)
    (entries : List (List Nat × α)) : Prop :=
  1 ≤ N ∧ entries ≠ [] ∧ ∃ rows, CsvOf content rows ∧ List.Forall₂ (RowFor pyFloat N) rows entries

/-- The file name ends in `.csv` or `.txt`. -/
def Supported (path : List Char) : Prop :=
  ∃ stem, path = stem ++ ".csv".toList ∨ path = stem ++ ".txt".toList

/-- Value the file gives to index `i`: that of the last entry naming `i`, else 0. -/
def lastValue {α : Type} [Zero α] (entries : List (List Nat × α)) (i : List Nat) : α :=
  (((entries.filter fun e => e.1 = i).map Prod.snd).getLast?).getD 0

end TD.Spec
