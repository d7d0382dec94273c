import Mathlib.Data.List.Defs

/-!
# Specifications for text

What a query log says: every line holds the numbers of the sets of one query, in decimal, separated by blanks.
-/

namespace CBT.Spec

/-- The characters that separate numbers within a line. -/
def blanks : List Char := [' ', '\t', '\r', Char.ofNat 11, Char.ofNat 12]

/-- `line` consists of the given words, in order, separated by blanks, perhaps with blanks before and after. -/
inductive HasWords : (line : List Char) → (words : List (List Char)) → Prop
  | done {b : List Char} (hb : ∀ c ∈ b, c ∈ blanks) : HasWords b []
  | word {b w rest : List Char} {ws : List (List Char)} (hb : ∀ c ∈ b, c ∈ blanks) (hw : w ≠ [])
      (hw' : ∀ c ∈ w, c ∉ blanks ∧ c ≠ '\n') (hr : rest = [] ∨ ∃ c r, c ∈ blanks ∧ rest = c :: r) (h : HasWords rest ws) :
      HasWords (b ++ (w ++ rest)) (w :: ws)

/-- `w` is `n` in decimal, perhaps with leading zeros. -/
def Decimal (w : List Char) (n : Nat) : Prop := w ≠ [] ∧ (∀ c ∈ w, c.isDigit) ∧ Nat.ofDigitChars 10 w 0 = n

/-- `line` lists the numbers `q`. -/
def HasNumbers (line : List Char) (q : List Nat) : Prop := ∃ ws, HasWords line ws ∧ List.Forall₂ Decimal ws q

/-- `text` lists the queries `qs`, one per line; the last line may lack its newline. -/
inductive LogText : (text : List Char) → (qs : List (List Nat)) → Prop
  | nil : LogText [] []
  | last {line : List Char} {q : List Nat} (h : line ≠ []) (hl : HasNumbers line q) : LogText line [q]
  | line {line text : List Char} {q : List Nat} {qs : List (List Nat)} (hl : HasNumbers line q) (h : LogText text qs) :
      LogText (line ++ '\n' :: text) (q :: qs)

/-- A line with the numbers in decimal, separated by one space. -/
def numbersLine : List Nat → List Char
  | [] => []
  | [n] => Nat.toDigits 10 n
  | n :: q => Nat.toDigits 10 n ++ ' ' :: numbersLine q

/-- The queries, one per line. -/
def queriesText (qs : List (List Nat)) : List Char := qs.flatMap fun q => numbersLine q ++ ['\n']

end CBT.Spec
