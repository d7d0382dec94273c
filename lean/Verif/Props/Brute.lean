import Verif.Proof.Brute
import Verif.Spec

/-!
# C23: the reference intersection
-/

namespace CBT

/-- C23. `forceBruteIntersection` on 1 to 65535 strictly increasing vectors returns their intersection in increasing order,
whatever order the sort left the vectors in, after at most as many rounds as there are vectors. -/
theorem C23_force_brute {S S' : List (List Nat)} (h0 : S ≠ []) (hk : S.length < 2 ^ 16) (hS : ∀ s ∈ S, s.Pairwise (· < ·))
    (hsort : SortedBySize S S') :
    ∃ r, (∀ fuel, S.length ≤ fuel → forceBrute fuel S' = .ok r) ∧ Spec.IsIntersection S r := by
  have hl := hsort.perm.length_eq
  have hS' : ∀ s ∈ S', s.Pairwise (· < ·) := fun s hs => hS s (hsort.perm.mem_iff.mp hs)
  have hpos : 0 < S'.length := by rw [hl]; exact List.length_pos_iff.mpr h0
  have key : ∀ fuel, S.length ≤ fuel → ∃ r, forceBrute fuel S' = .ok r ∧ Spec.IsIntersection S r := by
    intro fuel hf
    obtain ⟨r, h1, h2, h3⟩ := bruteLoop_spec S' (by omega) hS' fuel 1 S'[0] (by omega) (hS' _ (List.getElem_mem hpos))
    refine ⟨r, ?_, h2, fun x => ?_⟩
    · rw [forceBrute, vGet, List.getElem?_eq_getElem hpos]; exact h1
    · rw [h3]
      constructor
      · rintro ⟨i1, i2⟩ s hs
        have hs' := hsort.perm.mem_iff.mpr hs
        rw [← List.drop_zero (l := S'), List.drop_eq_getElem_cons hpos] at hs'
        rcases List.mem_cons.mp hs' with e | e
        · rw [e]; exact i1
        · exact i2 _ e
      · intro h
        exact ⟨h _ (hsort.perm.mem_iff.mp (List.getElem_mem hpos)),
          fun s hs => h s (hsort.perm.mem_iff.mp (List.mem_of_mem_drop hs))⟩
  obtain ⟨r, h1, h2⟩ := key S.length (Nat.le_refl _)
  refine ⟨r, fun fuel hf => ?_, h2⟩
  obtain ⟨r', h1', h2'⟩ := key fuel hf
  rw [h1']
  congr 1
  refine List.Perm.eq_of_pairwise (le := (· < ·)) (fun a b _ _ h h' => by omega) h2'.increasing h2.increasing ?_
  exact (List.perm_ext_iff_of_nodup (h2'.increasing.imp fun h => Nat.ne_of_lt h)
    (h2.increasing.imp fun h => Nat.ne_of_lt h)).mpr fun x => by rw [h2'.mem, h2.mem]

example : SortedBySize [[1, 2, 5, 9], [2, 9], [0, 2, 3, 9]] [[2, 9], [0, 2, 3, 9], [1, 2, 5, 9]] ∧
    (∀ s ∈ [[1, 2, 5, 9], [2, 9], [0, 2, 3, 9]], s.Pairwise (· < ·)) ∧
    forceBrute 3 [[2, 9], [0, 2, 3, 9], [1, 2, 5, 9]] = .ok [2, 9] := by
  refine ⟨⟨by decide, by decide⟩, by decide, ?_⟩
  simp [forceBrute, bruteLoop, vGet, setIntersection, R_bind_ok]

/-- C23, outside its range: without vectors the function reads past the end of its argument, and with 65536 or more it never
returns, because its loop counter has 16 bits. -/
theorem C23_limits (S : List (List Nat)) (fuel : Nat) :
    (S = [] → forceBrute fuel S = .error .oob) ∧ (2 ^ 16 ≤ S.length → forceBrute fuel S = .error .fuel) := by
  constructor
  · rintro rfl; rfl
  · intro h
    have key : ∀ fuel i acc, i < 2 ^ 16 → bruteLoop S fuel i acc = .error .fuel := by
      intro fuel
      induction fuel with
      | zero => intro i acc hi; rw [bruteLoop, if_pos (by omega)]
      | succ fuel ih =>
        intro i acc hi
        rw [bruteLoop, if_pos (by omega)]
        simp only [vGet, List.getElem?_eq_getElem (show i < S.length by omega), R_bind_ok]
        exact ih _ _ (Nat.mod_lt _ (by decide))
    rw [forceBrute, vGet, List.getElem?_eq_getElem (show 0 < S.length by omega)]
    exact key fuel 1 _ (by decide)

example : ([] : List (List Nat)) = [] ∧ 2 ^ 16 ≤ (List.replicate (2 ^ 16) [1]).length :=
  ⟨rfl, by rw [List.length_replicate]⟩

end CBT
