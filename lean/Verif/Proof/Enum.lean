import Mathlib.Data.List.Sort
import Mathlib.Data.List.Range

/-!
# Enumerations of the members of an aligned block
-/

namespace CBT

/-- The numbers `p + x` with `x < 2^k` and `P x`, in increasing order. -/
def enum (k : Nat) (P : Nat → Bool) (p : Nat) : List Nat :=
  ((List.range (2 ^ k)).filter P).map (p + ·)

theorem enum_congr {k : Nat} {P Q : Nat → Bool} {p : Nat} (h : ∀ x < 2 ^ k, P x = Q x) :
    enum k P p = enum k Q p := by
  unfold enum
  congr 1
  apply List.filter_congr
  intro x hx
  exact h x (List.mem_range.1 hx)

theorem enum_succ (k : Nat) (P : Nat → Bool) (p : Nat) :
    enum (k + 1) P p = enum k P p ++ enum k (fun x => P (2 ^ k + x)) (p + 2 ^ k) := by
  unfold enum
  have h : 2 ^ (k + 1) = 2 ^ k + 2 ^ k := by rw [Nat.pow_succ]; omega
  rw [h, List.range_add, List.filter_append, List.map_append, List.filter_map, List.map_map]
  congr 1
  apply List.map_congr_left
  intro x _
  simp [Nat.add_assoc]

theorem enum_false {k : Nat} {P : Nat → Bool} {p : Nat} (h : ∀ x < 2 ^ k, P x = false) : enum k P p = [] := by
  rw [enum_congr (Q := fun _ => false) h]
  simp [enum]

theorem enum_true {k : Nat} {P : Nat → Bool} {p : Nat} (h : ∀ x < 2 ^ k, P x = true) :
    enum k P p = List.range' p (2 ^ k) := by
  rw [enum_congr (Q := fun _ => true) h]
  simp [enum, List.range'_eq_map_range]

theorem mem_enum {k : Nat} {P : Nat → Bool} {p y : Nat} :
    y ∈ enum k P p ↔ ∃ x < 2 ^ k, P x = true ∧ y = p + x := by
  simp only [enum, List.mem_map, List.mem_filter, List.mem_range]
  constructor
  · rintro ⟨x, ⟨h1, h2⟩, rfl⟩; exact ⟨x, h1, h2, rfl⟩
  · rintro ⟨x, h1, h2, rfl⟩; exact ⟨x, ⟨h1, h2⟩, rfl⟩

theorem enum_sorted (k : Nat) (P : Nat → Bool) (p : Nat) : (enum k P p).Pairwise (· < ·) := by
  unfold enum
  rw [List.pairwise_map]
  apply List.Pairwise.imp (R := (· < ·))
  · intro a b h; omega
  · exact List.Pairwise.filter _ List.pairwise_lt_range

theorem sorted_ext {l1 l2 : List Nat} (h1 : l1.Pairwise (· < ·)) (h2 : l2.Pairwise (· < ·))
    (h : ∀ x, x ∈ l1 ↔ x ∈ l2) : l1 = l2 := by
  apply List.Perm.eq_of_pairwise (le := (· < ·)) _ h1 h2
  · rw [List.perm_ext_iff_of_nodup (h1.imp (fun h => Nat.ne_of_lt h)) (h2.imp (fun h => Nat.ne_of_lt h))]
    exact h
  · intro a b _ _ hab hba; omega

theorem enum_eq_of_sorted {k : Nat} {P : Nat → Bool} {p : Nat} {S : List Nat} (hs : S.Pairwise (· < ·))
    (hm : ∀ y, y ∈ S ↔ ∃ x < 2 ^ k, P x = true ∧ y = p + x) : enum k P p = S := by
  apply sorted_ext (enum_sorted k P p) hs
  intro x
  rw [mem_enum, hm]

end CBT
