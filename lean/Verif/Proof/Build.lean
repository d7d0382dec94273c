import Verif.Proof.Word

/-!
# Groups of the constructors' queues

A queue entry is a contiguous slice of the input; a group is the slice with its position.
-/

namespace CBT

abbrev Group := Nat × List Nat

/-- The queue entry of a group. -/
def ent (g : Group) : Nat × Nat × Nat := (g.1, g.1 + g.2.length - 1, g.2.length)

/-- The group is a non-empty slice of `set`. -/
def At (set : List Nat) (g : Group) : Prop := g.2 ≠ [] ∧ ∃ P Q, set = P ++ g.2 ++ Q ∧ P.length = g.1

def loG (k : Nat) (g : Group) : Option Group := (nonEmpty (loPart k g.2)).map fun x => (g.1, x)
def hiG (k : Nat) (g : Group) : Option Group := (nonEmpty (hiPart k g.2)).map fun x => (g.1 + (loPart k g.2).length, x)

def splitG (k : Nat) (g : Group) : List Group := (loG k g).toList ++ (hiG k g).toList

theorem nonEmpty_eq_some {g x : List Nat} : nonEmpty g = some x ↔ g = x ∧ g ≠ [] := by
  unfold nonEmpty
  cases g with
  | nil => simp
  | cons a g => simp

theorem At.loG {set : List Nat} {k : Nat} {g g' : Group} (h : At set g) (hg : loG k g = some g') : At set g' := by
  unfold CBT.loG at hg
  obtain ⟨x, hx, rfl⟩ := Option.map_eq_some_iff.1 hg
  obtain ⟨hx, hne⟩ := nonEmpty_eq_some.1 hx
  subst hx
  obtain ⟨_, P, Q, e, hl⟩ := h
  refine ⟨hne, P, hiPart k g.2 ++ Q, ?_, hl⟩
  rw [e]; conv_lhs => rw [← lo_hi k g.2]
  simp

theorem At.hiG {set : List Nat} {k : Nat} {g g' : Group} (h : At set g) (hg : hiG k g = some g') : At set g' := by
  unfold CBT.hiG at hg
  obtain ⟨x, hx, rfl⟩ := Option.map_eq_some_iff.1 hg
  obtain ⟨hx, hne⟩ := nonEmpty_eq_some.1 hx
  subst hx
  obtain ⟨_, P, Q, e, hl⟩ := h
  refine ⟨hne, P ++ loPart k g.2, Q, ?_, by simp [hl]⟩
  rw [e]; conv_lhs => rw [← lo_hi k g.2]
  simp

theorem At.split {set : List Nat} {k : Nat} {g g' : Group} (h : At set g) (hg : g' ∈ splitG k g) : At set g' := by
  rcases List.mem_append.1 hg with hg | hg
  · exact h.loG (by simpa using hg)
  · exact h.hiG (by simpa using hg)

theorem vGet_append {α : Type} {P Q : List α} {x : α} : vGet (P ++ x :: Q) P.length = .ok x := by
  simp [vGet]

theorem scan_ok (sh : Nat) : ∀ (g P Q : List Nat) (left : Nat),
    scan (P ++ g ++ Q) sh g.length P.length left =
      .ok (left + (loPart sh g).length, (nonEmpty (hiPart sh g)).map fun _ => P.length + (loPart sh g).length)
  | [], P, Q, left => by simp [scan, loPart, hiPart, nonEmpty]
  | x :: g, P, Q, left => by
    have e : P ++ x :: g ++ Q = P ++ x :: (g ++ Q) := by simp
    rw [List.length_cons, scan, e, vGet_append]
    simp only [R_bind_ok]
    by_cases hx : (x >>> sh) &&& 1 = 1
    · have : bitIs0 sh x = false := by simp [bitIs0, hx]
      simp [hx, loPart, hiPart, nonEmpty, this]
    · have hb : bitIs0 sh x = true := by rw [bitIs0]; exact decide_eq_true hx
      have := scan_ok sh g (P ++ [x]) Q (left + 1)
      rw [show P ++ [x] ++ g ++ Q = P ++ x :: (g ++ Q) by simp] at this
      simp only [List.length_append, List.length_singleton] at this
      rw [if_neg hx, this]
      simp only [loPart, hiPart, List.takeWhile_cons, List.dropWhile_cons, hb, if_true, List.length_cons]
      congr 2
      · omega
      · congr 1; funext _; omega

/-- The scan of a group gives the entries of its two halves. -/
theorem scan_group {set : List Nat} {g : Group} (k : Nat) (h : At set g) (hlen : set.length < 2 ^ 64) :
    ∃ left right, scan set k ((g.1 + g.2.length - 1 + 1) % 2 ^ 64 - g.1) g.1 0 = .ok (left, right) ∧
      (if left > 0 then some (g.1, g.1 + left - 1, left) else none) = (loG k g).map ent ∧
      (right.map fun i => (i, g.1 + g.2.length - 1, g.1 + g.2.length - 1 - i + 1)) = (hiG k g).map ent := by
  obtain ⟨hne, P, Q, e, hl⟩ := h
  have hpos : 0 < g.2.length := List.length_pos_iff.2 hne
  have hsz : set.length = P.length + g.2.length + Q.length := by rw [e]; simp; omega
  have h1 : (g.1 + g.2.length - 1 + 1) % 2 ^ 64 - g.1 = g.2.length := by
    rw [Nat.mod_eq_of_lt (by omega)]; omega
  refine ⟨_, _, by rw [h1, e, ← hl]; exact scan_ok k g.2 P Q 0, ?_, ?_⟩
  · rw [loG]
    by_cases hlo : loPart k g.2 = []
    · simp [hlo, nonEmpty]
    · have : 0 < (loPart k g.2).length := List.length_pos_iff.2 hlo
      simp [nonEmpty, hlo, this, ent]
  · rw [hiG, ← hl]
    have hlh : (loPart k g.2).length + (hiPart k g.2).length = g.2.length := by
      rw [← List.length_append, lo_hi]
    by_cases hhi : hiPart k g.2 = []
    · simp [hhi, nonEmpty]
    · have : 0 < (hiPart k g.2).length := List.length_pos_iff.2 hhi
      simp only [nonEmpty, List.isEmpty_iff, hhi, if_false, Option.map_some, ent]
      congr 2
      · congr 1 <;> omega

theorem length_splitG_le (k : Nat) (g : Group) : (splitG k g).length ≤ 2 := by
  unfold splitG
  cases loG k g <;> cases hiG k g <;> simp

theorem splitG_ne_nil {set : List Nat} {k : Nat} {g : Group} (h : At set g) : splitG k g ≠ [] := by
  intro hc
  rw [splitG, List.append_eq_nil_iff] at hc
  obtain ⟨h1, h2⟩ := hc
  have h1 : loPart k g.2 = [] := by
    by_contra h'; simp [loG, nonEmpty, h'] at h1
  have h2 : hiPart k g.2 = [] := by
    by_contra h'; simp [hiG, nonEmpty, h'] at h2
  apply h.1
  rw [← lo_hi k g.2, h1, h2]; rfl

def splitAll (k : Nat) (G : List Group) : List Group := G.flatMap (splitG k)

theorem splitAll_append (k : Nat) (G H : List Group) : splitAll k (G ++ H) = splitAll k G ++ splitAll k H := by
  simp [splitAll]

theorem length_splitAll_le (k : Nat) (G : List Group) : (splitAll k G).length ≤ 2 * G.length := by
  induction G with
  | nil => simp [splitAll]
  | cons g G ih =>
    have := length_splitG_le k g
    simp only [splitAll, List.flatMap_cons, List.length_append, List.length_cons] at ih ⊢
    omega

theorem splitAll_ne_nil {set : List Nat} {k : Nat} {G : List Group} (h : ∀ g ∈ G, At set g) (hG : G ≠ []) :
    splitAll k G ≠ [] := by
  cases G with
  | nil => exact absurd rfl hG
  | cons g G =>
    intro hc
    rw [splitAll, List.flatMap_cons, List.append_eq_nil_iff] at hc
    exact splitG_ne_nil (h g (by simp)) hc.1

theorem At.splitAll {set : List Nat} {k : Nat} {G : List Group} (h : ∀ g ∈ G, At set g) :
    ∀ g ∈ splitAll k G, At set g := by
  intro g hg
  obtain ⟨a, ha, hg⟩ := List.mem_flatMap.1 hg
  exact (h a ha).split hg

/-- The bits written for a group. -/
def bitsG (k : Nat) (g : Group) : List Bool := [(loG k g).isSome, (hiG k g).isSome]

def bitsAll (k : Nat) (G : List Group) : List Bool := G.flatMap (bitsG k)

theorem length_bitsAll (k : Nat) (G : List Group) : (bitsAll k G).length = 2 * G.length := by
  induction G with
  | nil => rfl
  | cons g G ih => simp [bitsAll, bitsG] at ih ⊢; omega

/-! ## The tries of the groups -/

def trees (b : Nat) (lf : List Nat → Nat) (d : Nat) (G : List Group) : List (Tr d) := G.map fun g => mkTr b lf d g.2

theorem kidsOf_mkTr (b : Nat) (lf : List Nat → Nat) (d : Nat) (g : Group) :
    kidsOf (mkTr b lf (d + 1) g.2) = trees b lf d (splitG (d + b) g) := by
  rw [kidsOf, mkTr, Tr.l_mk, Tr.r_mk, trees, splitG, loG, hiG]
  cases nonEmpty (loPart (d + b) g.2) <;> cases nonEmpty (hiPart (d + b) g.2) <;> rfl

theorem kids_trees (b : Nat) (lf : List Nat → Nat) (d : Nat) (G : List Group) :
    kids (trees b lf (d + 1) G) = trees b lf d (splitAll (d + b) G) := by
  induction G with
  | nil => rfl
  | cons g G ih =>
    rw [trees, List.map_cons, kids_cons, kidsOf_mkTr, ← trees, ih]
    simp [trees, splitAll]

theorem bitsOf_trees (b : Nat) (lf : List Nat → Nat) (d : Nat) (G : List Group) :
    bitsOf (trees b lf (d + 1) G) = bitsAll (d + b) G := by
  induction G with
  | nil => rfl
  | cons g G ih =>
    rw [trees, List.map_cons, bitsOf_cons, ← trees, ih]
    simp [bitsAll, bitsG, loG, hiG, mkTr]

theorem bvSet_next {W : BV} {m : Nat} :
    bvSet (W ++ List.replicate (m + 1) false) W.length = .ok (W ++ [true] ++ List.replicate m false) := by
  simp [bvSet, List.replicate_succ]

theorem replicate_next {W : BV} {m : Nat} :
    W ++ List.replicate (m + 1) false = W ++ [false] ++ List.replicate m false := by
  simp [List.replicate_succ]

theorem bvResize_prefix {W : BV} {m : Nat} : bvResize (W ++ List.replicate m false) W.length = W := by
  simp [bvResize]

end CBT
