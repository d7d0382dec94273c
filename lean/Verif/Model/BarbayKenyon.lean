import Verif.Model.Basic

/-!
# The Barbay-Kenyon intersection

`uint64_t` arithmetic wraps; `fuel` bounds the number of iterations of each loop.
-/

namespace CBT

/-- One round of `binarySearch` (src/barbay_and_kenyon.cpp:8-20) and the exits (22-29). `mid` is an `int`: the conversion keeps
the low 32 bits, a negative value used as an index is out of bounds, `mid + 1` overflows at 2^31 - 1 and `mid - 1` of 0 becomes
2^64 - 1. The comparison `high < 0` of an unsigned value is false. -/
def binarySearch (a : List Nat) (x size : Nat) : (fuel low high : Nat) → R Nat
  | fuel, low, high =>
    if low ≤ high then
      match fuel with
      | 0 => .error .fuel
      | fuel + 1 => do
        let mid := (low + (high - low) / 2) % 2 ^ 32
        if 2 ^ 31 ≤ mid then .error .oob
        let y ← vGet a mid
        if y = x then .ok mid
        else if y < x then
          if mid + 1 = 2 ^ 31 then .error .conv else binarySearch a x size fuel (mid + 1) high
        else binarySearch a x size fuel low (if mid = 0 then 2 ^ 64 - 1 else mid - 1)
    else if (size + (2 ^ 64 - 1)) % 2 ^ 64 < low then .ok high
    else do
      let y ← vGet a low
      let z ← vGet a high
      .ok (if y < z then high else low)

/-- The doubling loop of `exponentialSearch` (src/barbay_and_kenyon.cpp:42-43). -/
def gallop (a : List Nat) (n x : Nat) : (fuel i : Nat) → R Nat
  | fuel, i =>
    if i < n then do
      let y ← vGet a i
      if y ≤ x then
        match fuel with
        | 0 => .error .fuel
        | fuel + 1 => gallop a n x fuel (i * 2 % 2 ^ 64)
      else .ok i
    else .ok i

/-- `exponentialSearch` (src/barbay_and_kenyon.cpp:33-45). -/
def exponentialSearch (fuel : Nat) (a : List Nat) (n x init : Nat) : R Nat := do
  let y ← vGet a init
  if y = x then .ok init
  else if x < y then .ok ((init + 1) % 2 ^ 64)
  else do
    let last ← vGet a ((n + (2 ^ 64 - 1)) % 2 ^ 64)
    if last < x then .ok ((n + (2 ^ 64 - 1)) % 2 ^ 64)
    else do
      let i ← gallop a n x fuel ((init + 1) % 2 ^ 64)
      binarySearch a x n fuel (i / 2) (min i ((n + (2 ^ 64 - 1)) % 2 ^ 64))

/-- The local variables of `barbayKenyon` (src/barbay_and_kenyon.cpp:49-57) and the output vector. `size` is always
`sets[i].size()`. -/
structure BKState where
  positions : List Nat
  e : Nat
  i : Nat
  occr : Nat
  out : List Nat
  deriving DecidableEq

/-- One iteration of the loop (src/barbay_and_kenyon.cpp:59-100); `none` when the function returns (79), with the output. -/
def bkStep (fuel : Nat) (sets : List (List Nat)) (k : Nat) (st : BKState) : R (List Nat × Option BKState) := do
  let s ← vGet sets st.i
  let p ← vGet st.positions st.i
  let pos ← exponentialSearch fuel s s.length st.e p
  let y ← vGet s pos
  let occr := if y = st.e then st.occr + 1 else st.occr
  let positions := if y = st.e then st.positions.set st.i pos else st.positions
  let out := if y = st.e ∧ occr = k then st.out ++ [st.e] else st.out
  if occr = k ∨ y ≠ st.e then do
    let next ← vGet positions st.i
    if next = (s.length + (2 ^ 64 - 1)) % 2 ^ 64 then .ok (out, none)
    else if occr = k then do
      let e ← vGet s ((pos + 1) % 2 ^ 64)
      .ok (out, some { positions := positions.set st.i ((pos + 1) % 2 ^ 64), e, i := (st.i + 1) % k, occr := 1, out })
    else .ok (out, some { positions := positions.set st.i pos, e := y, i := (st.i + 1) % k, occr := 1, out })
  else .ok (out, some { positions, e := st.e, i := (st.i + 1) % k, occr, out })

/-- The loop (src/barbay_and_kenyon.cpp:59-100): ends when `e` is 2^64 - 1, the value of `-1`, or on the `return`. Line 99 reads
`sets[i].size()` before the test. -/
def bkLoop (inner : Nat) (sets : List (List Nat)) (k : Nat) : (fuel : Nat) → BKState → R (List Nat)
  | fuel, st => do
    let _ ← vGet sets st.i
    if st.e ≠ 2 ^ 64 - 1 then
      match fuel with
      | 0 => .error .fuel
      | fuel + 1 => do
        match ← bkStep inner sets k st with
        | (out, none) => .ok out
        | (_, some st) => bkLoop inner sets k fuel st
    else .ok st.out

/-- `barbayKenyon` (src/barbay_and_kenyon.cpp:48-102). `k` is a `uint16_t`. `occr` (a `uint64_t`) cannot wrap within the rounds
considered. -/
def barbayKenyon (inner fuel : Nat) (sets : List (List Nat)) (k : Nat) (out : List Nat) : R (List Nat) := do
  let s ← vGet sets 0
  let e ← vGet s 0
  bkLoop inner sets k fuel { positions := List.replicate k 0, e, i := 1, occr := 1, out }

end CBT
