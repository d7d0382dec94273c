import Mathlib.Tactic.Common
import Verif.Model.Brute
import Verif.Proof.FlatCollapse

/-! # Lemmas on the reference intersection -/

namespace CBT

/-- What the merge keeps of two increasing vectors. -/
theorem setIntersection_spec : ∀ (as bs : List Nat), as.Pairwise (· < ·) → bs.Pairwise (· < ·) →
    (setIntersection as bs).Pairwise (· < ·) ∧ ∀ x, x ∈ setIntersection as bs ↔ x ∈ as ∧ x ∈ bs := by
  intro as bs
  induction as, bs using setIntersection.induct with
  | case1 bs => intro _ _; rw [setIntersection]; simp
  | case2 a as => intro _ _; rw [setIntersection]; simp
  | case3 a as b bs h ih =>
    intro ha hb
    rw [setIntersection, if_pos h]
    obtain ⟨i1, i2⟩ := ih (List.Pairwise.of_cons ha) hb
    refine ⟨i1, fun x => ?_⟩
    rw [i2, List.mem_cons (a := x) (b := a)]
    constructor
    · rintro ⟨h1, h2⟩; exact ⟨Or.inr h1, h2⟩
    · rintro ⟨h1 | h1, h2⟩
      · subst h1
        rcases List.mem_cons.mp h2 with h3 | h3
        · omega
        · have := List.rel_of_pairwise_cons hb h3; omega
      · exact ⟨h1, h2⟩
  | case4 a as b bs h h' ih =>
    intro ha hb
    rw [setIntersection, if_neg h, if_pos h']
    obtain ⟨i1, i2⟩ := ih ha (List.Pairwise.of_cons hb)
    refine ⟨i1, fun x => ?_⟩
    rw [i2, List.mem_cons (a := x) (b := b)]
    constructor
    · rintro ⟨h1, h2⟩; exact ⟨h1, Or.inr h2⟩
    · rintro ⟨h1, h2 | h2⟩
      · subst h2
        rcases List.mem_cons.mp h1 with h3 | h3
        · omega
        · have := List.rel_of_pairwise_cons ha h3; omega
      · exact ⟨h1, h2⟩
  | case5 a as b bs h h' ih =>
    intro ha hb
    rw [setIntersection, if_neg h, if_neg h']
    have e : a = b := by omega
    subst e
    obtain ⟨i1, i2⟩ := ih (List.Pairwise.of_cons ha) (List.Pairwise.of_cons hb)
    refine ⟨List.pairwise_cons.mpr ⟨fun x hx => List.rel_of_pairwise_cons ha ((i2 x).mp hx).1, i1⟩, fun x => ?_⟩
    rw [List.mem_cons, i2, List.mem_cons, List.mem_cons]
    tauto

theorem bruteLoop_spec (S : List (List Nat)) (hk : S.length < 2 ^ 16) (hS : ∀ s ∈ S, s.Pairwise (· < ·)) :
    ∀ (fuel i : Nat) (acc : List Nat), S.length ≤ i + fuel → acc.Pairwise (· < ·) →
      ∃ r, bruteLoop S fuel i acc = .ok r ∧ r.Pairwise (· < ·) ∧ ∀ x, x ∈ r ↔ x ∈ acc ∧ ∀ s ∈ S.drop i, x ∈ s := by
  intro fuel
  induction fuel with
  | zero =>
    intro i acc h ha
    rw [bruteLoop, if_neg (by omega)]
    refine ⟨acc, rfl, ha, fun x => ?_⟩
    rw [List.drop_eq_nil_of_le (by omega)]; simp
  | succ fuel ih =>
    intro i acc h ha
    rw [bruteLoop]
    split
    · rename_i hi
      have hs : S[i] ∈ S := List.getElem_mem hi
      obtain ⟨j1, j2⟩ := setIntersection_spec acc S[i] ha (hS _ hs)
      obtain ⟨r, h1, h2, h3⟩ := ih (i + 1) (setIntersection acc S[i]) (by omega) j1
      refine ⟨r, ?_, h2, fun x => ?_⟩
      · simp only [vGet, List.getElem?_eq_getElem hi, R_bind_ok]
        rw [Nat.mod_eq_of_lt (by omega)]
        exact h1
      · rw [h3, j2, List.drop_eq_getElem_cons hi]
        simp only [List.mem_cons, forall_eq_or_imp]
        tauto
    · rename_i hi
      refine ⟨acc, rfl, ha, fun x => ?_⟩
      rw [List.drop_eq_nil_of_le (by omega)]; simp

end CBT
