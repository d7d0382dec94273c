import Mathlib.Data.Nat.Size
import Verif.SpecMeasures

/-!
# Specifications for the statistics tools
-/

namespace CBT.Spec

/-- The lists that `--min_length m`, or `--min_size m` of the encoding checkers, keeps: those longer than `m`. -/
def longer (m : Nat) (lists : List (List Nat)) : List (List Nat) := lists.filter fun l => decide (m < l.length)

/-- The total of a measure over lists, in 64 bits. -/
def total (f : List Nat → Nat) (lists : List (List Nat)) : Nat := (lists.map f).sum % 2 ^ 64

/-- A number of four bytes that held `old`, after the lowest `r` bytes of `new` have been stored in it. -/
def torn (r old new : Nat) : Nat := new % 256 ^ r + old / 256 ^ r * 256 ^ r

/-- The number that a loop repeats in `tornList`. -/
def tornValue (j before : Nat) (l : List Nat) : Nat := torn (j % 4) ((l.take (j / 4)).getLastD before) (l.getD (j / 4) 0)

/-- What a loop makes of a list of which only `j` bytes can be read and which keeps its variable when it reads nothing: the elements that
are complete, and then copies of a number, the first element that is not complete put over the one before it (`before` the list, 0 if
there is none). -/
def tornList (j before : Nat) (l : List Nat) : List Nat :=
  l.take (j / 4) ++ List.replicate (l.length - j / 4) (tornValue j before l)

/-- The gap code of a list. -/
def gapCost (l : List Nat) : Nat := ((gaps l).map bits).sum

/-- The number charged between a list whose last element is `last` (0 at the start) and a list whose first element is `first`: the
absences between them if the second follows the first at distance `u`, in 32 bits, and all ones if `last` is 0. -/
def joint (u last first : Nat) : Nat := if last = 0 then 2 ^ 32 - 1 else (u - last + first - 1) % 2 ^ 32

/-- The numbers charged between lists. -/
def joints (u : Nat) : (last : Nat) → List (List Nat) → List Nat
  | _, [] => []
  | last, l :: ls => joint u last (l.headD 0) :: joints u (l.getLastD 0) ls

/-- What remains of each element without the prefix it shares with the element before; the first one whole, as after 0. -/
def suffixes (l : List Nat) : List Nat := List.zipWith (fun y x => x % 2 ^ (x ^^^ y).size) (0 :: l) l

/-- Elias gamma for `x` after `y`, leaving out the common prefix: the highest bit where they differ and what follows it. -/
def suffixBits (y x : Nat) : Nat := 2 * (x ^^^ y).size - 1

/-- The cost of a list: the first element whole (as after 0), every other one without the prefix it shares with the element before. -/
def suffixCost (l : List Nat) : Nat := (List.zipWith suffixBits (0 :: l) l).sum

end CBT.Spec
