/-!
# The Barbay-Kenyon search: what it passes over in its first round, and how it goes on
-/

namespace CBT.Spec

/-- Where a search for `e` from the start of the vector ends up: at the first element that is at least `e`, else at the last. -/
def landing (e : Nat) (s : List Nat) : Nat := ((s.find? fun y => decide (e ≤ y)).orElse fun _ => s.getLast?).getD 0

/-- The vectors are visited once, in order. A vector starting above the current element is entered at its second element: its first
one is passed over. -/
def passedOver : Nat → List (List Nat) → List Nat
  | _, [] => []
  | _, [] :: _ => []
  | e, (a :: s) :: rest => if e < a then a :: passedOver (s.headD 0) rest else passedOver (landing e (a :: s)) rest

/-- Where a search for `e` in the rest of an increasing vector ends up: one element further if the rest starts above `e`, else at the
first element that is at least `e`, else at the last element. Nothing is left if there is nothing further. -/
def seek (e : Nat) : List Nat → List Nat
  | [] => []
  | a :: s =>
    if e < a then s
    else if (a :: s).dropWhile (fun y => decide (y < e)) = [] then (a :: s).drop s.length
    else (a :: s).dropWhile fun y => decide (y < e)

/-- The whole search. `vs` are the rests of the vectors, the next one to be searched first; `e` is looked for and starts `occr` of the last
ones. The outcome is what is reported, or `none` if the search leaves a vector. -/
inductive Walk : (vs : List (List Nat)) → (e occr : Nat) → (outcome : Option (List Nat)) → Prop
  /-- There is nothing further: the last element of the vector is above `e`. -/
  | leaves {s vs e occr} : seek e s = [] → Walk (s :: vs) e occr none
  /-- `e` is found, and there are more vectors to search. -/
  | found {s vs e occr t r} : seek e s = e :: t → occr < vs.length → Walk (vs ++ [e :: t]) e (occr + 1) r → Walk (s :: vs) e occr r
  /-- `e` is found in the last vector, and is the last element of it. -/
  | reportLast {s vs e occr} : seek e s = [e] → occr = vs.length → Walk (s :: vs) e occr (some [e])
  /-- `e` is found in the last vector, and the element after it is looked for next. -/
  | report {s vs e occr e' t r} : seek e s = e :: e' :: t → occr = vs.length → Walk (vs ++ [e' :: t]) e' 1 r →
      Walk (s :: vs) e occr (r.map (e :: ·))
  /-- Another element is found, and the search was at the last element before. -/
  | missLast {a vs e occr y t} : seek e [a] = y :: t → y ≠ e → Walk ([a] :: vs) e occr (some [])
  /-- Another element, above or below `e`, is found, and is looked for next. -/
  | miss {a b s vs e occr y t r} : seek e (a :: b :: s) = y :: t → y ≠ e → Walk (vs ++ [y :: t]) y 1 r → Walk ((a :: b :: s) :: vs) e occr r

end CBT.Spec
