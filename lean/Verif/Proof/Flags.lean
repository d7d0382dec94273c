import Verif.SpecFlags
import Verif.Proof.ExactList
import Verif.Proof.ParInter

/-!
# Reading run-encoded tries as if they were not

A plain traversal takes a collapsed node for one without numbers.
-/

namespace CBT

open Spec

/-- What a plain traversal finds: what is not below a collapsed node. -/
theorem has_eq_cov {b : Nat} : (d : Nat) → (t : Tr d) → (x : Nat) → has b d t x = (hasR b d t x && !cov b d t (b + 1) x)
  | 0, t, x => by simp [has, hasR, cov]
  | d + 1, t, x => by
    by_cases ht : t.bare = true
    · have hl : t.l = none ∧ t.r = none := by
        cases h1 : t.l <;> cases h2 : t.r <;> simp_all [Tr.bare]
      simp [has, cov, ht, hl.1, hl.2]
    · have ht' : t.bare = false := by simpa using ht
      simp only [has, hasR, cov, ht', Bool.false_eq_true, if_false, Bool.false_or]
      by_cases hx : x < 2 ^ (d + b)
      · simp only [hx, if_true]
        cases hl : t.l with
        | none => simp
        | some s =>
          simp only [Option.any_some, has_eq_cov d s x]
          by_cases hd : b + 1 ≤ d + b
          · simp [hd]
          · obtain rfl : d = 0 := by omega
            simp [cov]
      · simp only [hx, if_false]
        cases hl : t.r with
        | none => simp
        | some s =>
          simp only [Option.any_some, has_eq_cov d s _]
          by_cases hd : b + 1 ≤ d + b
          · simp [hd]
          · obtain rfl : d = 0 := by omega
            simp [cov]

/-- The elements outside the collapsed blocks. -/
theorem CTree.outside {b D : Nat} {c : Bool × List Nat} {t : Tr D} (h : CTree b D c t) :
    Holds (D + b) (has b D t) (Spec.outside (b + 1) c) := by
  intro x hx
  rw [has_eq_cov, h.holds x hx]
  have key : CBT.cov b D t (b + 1) x = Spec.collapsed c (b + 1) (x / 2 ^ (b + 1)) := by
    by_cases hD : D = 0
    · subst hD
      have hp : 2 ^ (b + 1) = 2 * 2 ^ b := by rw [Nat.pow_succ]; omega
      rw [Nat.zero_add] at hx
      have hx0 : x / 2 ^ (b + 1) = 0 := Nat.div_eq_of_lt (by omega)
      rw [CBT.cov, hx0, eq_comm, Bool.eq_false_iff]
      intro hc
      rw [Spec.collapsed, Bool.and_eq_true, List.all_eq_true] at hc
      have := hc.2 (2 ^ b) (List.mem_range.2 (by have := Nat.two_pow_pos b; omega))
      have h0 := h.1 (2 ^ b) (by simpa using this)
      rw [Nat.zero_add] at h0
      omega
    · exact h.cov (by omega) (by omega) hx
  rw [key, Bool.eq_iff_iff]
  simp [Spec.outside, List.mem_filter]

end CBT
