/-!
# Specifications for the command line of the statistics tools
-/

namespace CBT.Spec

/-- The arguments of the statistics tools: any words, the name of the program and the collection among them, and the one option. -/
inductive LengthArg
  | word (w : List Char)
  | minLength (n : Nat)

/-- How an argument is written. -/
def LengthArg.words : LengthArg → List (List Char)
  | .word w => [w]
  | .minLength n => ["--min_length".toList, Nat.toDigits 10 n]

/-- What an argument sets. -/
def LengthArg.apply (m : Nat) : LengthArg → Nat
  | .word _ => m
  | .minLength n => n

/-- Words other than the option, and numbers in range. -/
def LengthArg.Ok : LengthArg → Prop
  | .word w => w ≠ "--min_length".toList
  | .minLength n => n < 2 ^ 64

end CBT.Spec
