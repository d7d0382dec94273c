import Verif.Model.Basic

/-!
# The measures printed by the tools
-/

namespace CBT

/-- `floor(log2(g)) + 1` (tools/measures.cpp:25, 33, 69, 70). Simplification: the double computation is taken to be exact, which
it is for `g < 2^48`. -/
def logTerm (g : Nat) : Nat := Nat.log2 g + 1

/-- The loop of `Gap` (tools/measures.cpp:26-35) over the elements after `prev`. `x_i - x_i1 - 1` wraps. -/
def gapLoop : (prev gap : Nat) → List Nat → Nat
  | _, gap, [] => gap
  | prev, gap, x :: xs =>
    let g := (x + 2 ^ 64 - prev + 2 ^ 64 - 1) % 2 ^ 64
    let g := if g = 0 then 1 else g
    gapLoop x ((gap + logTerm g) % 2 ^ 64) xs

/-- `Gap` (tools/measures.cpp:15-37): `v[0]` needs an element; with 2^32 elements or more the `uint32_t` index never reaches the
end. -/
def gapMeasure : List Nat → R Nat
  | [] => .error .oob
  | x :: xs =>
    if 2 ^ 32 ≤ xs.length + 1 then .error .fuel
    else
      let g := if x = 0 then 1 else x
      .ok (gapLoop x (logTerm g) xs)

/-- The loop of `Rle` (tools/measures.cpp:58-74). `rle += double` is done in doubles and converted back, taken to be exact. -/
def rleLoop : (x run rle : Nat) → List Nat → Nat
  | _, _, rle, [] => rle
  | x, run, rle, y :: ys =>
    let delta := (y + 2 ^ 64 - x) % 2 ^ 64
    if delta = 1 then rleLoop y ((run + 1) % 2 ^ 64) rle ys
    else
      let sub0 := (delta + 2 ^ 64 - 2) % 2 ^ 64
      let sub1 := (run + 2 ^ 64 - 1) % 2 ^ 64
      let sub0 := if sub0 = 0 then 1 else sub0
      let sub1 := if sub1 = 0 then 1 else sub1
      rleLoop y 1 ((rle + logTerm sub0 + logTerm sub1) % 2 ^ 64) ys

/-- `Rle` (tools/measures.cpp:39-92). -/
def rleMeasure : List Nat → R Nat
  | [] => .error .oob
  | x :: xs => .ok (if x ≠ 0 then rleLoop 0 1 0 (x :: xs) else rleLoop x 1 0 xs)

/-- The loop of `prefixOf` (tools/pom.cpp:14-24), `i` bits to go; `x`, `y` and `mask` are 64-bit. A shift by 64 or more would be
undefined. -/
def prefixLoop (x y : Nat) : (i shift : Nat) → R Nat
  | 0, _ => .ok x
  | i + 1, shift =>
    if (x >>> i) &&& 1 = (y >>> i) &&& 1 then prefixLoop x y i ((shift + 1) % 2 ^ 16)
    else if shift < 64 then .ok (x &&& ((2 ^ 64 - 1) >>> shift)) else .error .shift

/-- `prefixOf<uint64_t>` (tools/pom.cpp:10-26). For more than 64 bits the first shift is undefined. -/
def prefixOf (x y nBits : Nat) : R Nat := if nBits ≤ 64 then prefixLoop x y nBits 0 else .error .shift

end CBT
