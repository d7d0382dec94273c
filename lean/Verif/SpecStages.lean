import Verif.Model.Basic

/-!
# A caller that intersects any number of tries

`Intersect` takes at most 16 tries (C16). A caller with more of them intersects a first group, builds a trie from the
result, intersects that with the next group, and so on; it stops when a result is empty. This program is not part of
the repository: `inter` and `build` stand for the library functions it calls.
-/

namespace CBT.Spec

def inStages {N : Type} (inter : List N → R (List Nat)) (build : List Nat → R N) : List N → List (List N) → R (List Nat)
  | Ts, [] => inter Ts
  | Ts, group :: groups => do
    let A ← inter Ts
    if A = [] then .ok []
    else do
      let T ← build A
      inStages inter build (T :: group) groups

end CBT.Spec
