import Verif.Proof.Measures

/-!
# C37, C38, C39: the measures
-/

namespace CBT

/-- C37. `prefixOf(x, y, 64)` is `x` itself when `x = y`, and otherwise `x` cut down to the bits from the first differing bit
`d` downwards. -/
theorem C37_prefixOf (x y : Nat) (hx : x < 2 ^ 64) (hy : y < 2 ^ 64) :
    (x = y → prefixOf x y 64 = .ok x) ∧
    (∀ d, x.testBit d ≠ y.testBit d → (∀ j, d < j → x.testBit j = y.testBit j) → prefixOf x y 64 = .ok (x % 2 ^ (d + 1))) := by
  constructor
  · rintro rfl; exact prefixLoop_same 64 0
  · intro d hd hj
    refine prefixLoop_differ hd hj 64 0 (by omega) ?_
    by_contra h
    have e : ∀ z, z < 2 ^ 64 → z.testBit d = false := fun z hz =>
      Nat.testBit_lt_two_pow (Nat.lt_of_lt_of_le hz (Nat.pow_le_pow_right (by decide) (by omega)))
    exact hd (by rw [e x hx, e y hy])

example : prefixOf 0b110111 0b110001 64 = .ok 0b111 ∧ (0b110111).testBit 2 ≠ (0b110001).testBit 2 := by decide +kernel

/-- C37, what the value is good for: along an increasing sequence the previous element and the value determine the element. -/
theorem C37_prefixOf_decodable (x y : Nat) (hx : x < 2 ^ 64) (h : y < x) :
    ∃ p, prefixOf x y 64 = .ok p ∧ 0 < p ∧ x = y / 2 ^ (Nat.log2 p + 1) * 2 ^ (Nat.log2 p + 1) + p := by
  obtain ⟨d, h1, h2, h3⟩ := highest_differing h
  refine ⟨x % 2 ^ (d + 1), (C37_prefixOf x y hx (by omega)).2 d (by rw [h1, h2]; simp) h3, ?_⟩
  have hb : (x % 2 ^ (d + 1)).testBit d = true := by rw [Nat.testBit_mod_two_pow, h1]; simp
  have hge : 2 ^ d ≤ x % 2 ^ (d + 1) := Nat.ge_two_pow_of_testBit hb
  have hlt : x % 2 ^ (d + 1) < 2 ^ (d + 1) := Nat.mod_lt _ (Nat.two_pow_pos _)
  have hpos : 0 < x % 2 ^ (d + 1) := Nat.lt_of_lt_of_le (Nat.two_pow_pos _) hge
  have hl : Nat.log2 (x % 2 ^ (d + 1)) = d := (Nat.log2_eq_iff (by omega)).mpr ⟨hge, hlt⟩
  refine ⟨hpos, ?_⟩
  rw [hl]
  have e : y / 2 ^ (d + 1) = x / 2 ^ (d + 1) := by
    apply Nat.eq_of_testBit_eq
    intro j
    rw [Nat.testBit_div_two_pow, Nat.testBit_div_two_pow, h3 _ (by omega)]
  rw [e]
  exact (Nat.div_add_mod' x _).symm

example : prefixOf 0b110111 0b110001 64 = .ok 0b111 ∧
    0b110001 / 2 ^ (Nat.log2 0b111 + 1) * 2 ^ (Nat.log2 0b111 + 1) + 0b111 = 0b110111 := by decide +kernel

/-- C38. `Gap` of a non-empty strictly increasing vector is the number of bits of its first element and of its successive gaps
minus one, each at least one bit; so it is at least the number of elements. -/
theorem C38_gap {v : List Nat} (h0 : v ≠ []) (hp : v.Pairwise (· < ·)) (hb : ∀ x ∈ v, x < 2 ^ 64) (hn : v.length < 2 ^ 32) :
    gapMeasure v = .ok ((Spec.gaps v).map Spec.bits).sum ∧ v.length ≤ ((Spec.gaps v).map Spec.bits).sum := by
  cases v with
  | nil => exact absurd rfl h0
  | cons x xs =>
    have hx := bits_le (hb x (List.mem_cons_self ..))
    rw [List.length_cons] at hn
    constructor
    · rw [gapMeasure, if_neg (by omega)]
      simp only [logTerm_eq]
      rw [gapLoop_eq xs x _ hp hb (by omega)]
      simp only [Spec.gaps, List.map_cons, List.sum_cons]
    · have len : ∀ l : List Nat, l.length ≤ (l.map Spec.bits).sum := by
        intro l
        induction l with
        | nil => simp
        | cons a l ih => have := bits_pos a; simp only [List.length_cons, List.map_cons, List.sum_cons]; omega
      have := len (Spec.gaps (x :: xs))
      simp only [Spec.gaps, List.length_cons, List.length_zipWith] at this ⊢
      omega

example : gapMeasure [5, 6, 20] = .ok (3 + 1 + 4) ∧ Spec.gaps [5, 6, 20] = [5, 0, 13] ∧
    [5, 6, 20].Pairwise (· < ·) := by decide +kernel

/-- Every increasing vector has a description by maximal runs, so `C39_rle_partial` speaks about all of them. -/
theorem runs_exist {v : List Nat} (hp : v.Pairwise (· < ·)) : ∃ rs, Spec.MaximalRuns rs ∧ Spec.ofRuns 0 rs = v :=
  ofRuns_exists v 0 hp (fun _ _ => Nat.zero_le _)

example : Spec.MaximalRuns [(0, 3), (2, 1), (1, 2)] ∧ Spec.ofRuns 0 [(0, 3), (2, 1), (1, 2)] = [0, 1, 2, 5, 7, 8] := by
  decide +kernel

/-- C39 (partial). For a set that contains 0, `Rle` charges every run and every stretch of absences between runs except the
last run: `Rle` plus the cost of the last run is the cost of all. For a set without 0, `Rle` is that of the set with 0 added.
Missing: the last run, and the stretch of absences before the first run; see `C39_negation`. -/
theorem C39_rle_partial :
    (∀ (n : Nat) (rs : List (Nat × Nat)), Spec.MaximalRuns ((0, n) :: rs) → (∀ x ∈ Spec.ofRuns 0 ((0, n) :: rs), x + 1 < 2 ^ 64) →
      rs.length < 2 ^ 32 → ∃ c, rleMeasure (Spec.ofRuns 0 ((0, n) :: rs)) = .ok c ∧
        c + Spec.bits (((0, n) :: rs).getLast (by simp)).2.pred = Spec.bits (n - 1) + Spec.rleCost rs) ∧
    (∀ (x : Nat) (xs : List Nat), x ≠ 0 → rleMeasure (x :: xs) = rleMeasure (0 :: x :: xs)) := by
  constructor
  · intro n rs hm hb hl
    have hn : 1 ≤ n := hm.len (0, n) (List.mem_cons_self ..)
    obtain ⟨m, rfl⟩ : ∃ m, n = m + 1 := ⟨n - 1, by omega⟩
    -- the end of the last run
    have hend : ∀ (rs : List (Nat × Nat)) (base : Nat), rs ≠ [] → (∀ r ∈ rs, 1 ≤ r.2) → runsEnd base rs - 1 ∈ Spec.ofRuns base rs := by
      intro rs
      induction rs with
      | nil => intro base h; exact absurd rfl h
      | cons r rs ih =>
        obtain ⟨z, k⟩ := r
        intro base _ h
        have hk : 1 ≤ k := h (z, k) (List.mem_cons_self ..)
        rw [Spec.ofRuns, List.mem_append]
        by_cases c : rs = []
        · left
          subst c
          simp only [runsEnd]
          rw [List.mem_range'_1]; omega
        · right
          exact ih _ c (fun r hr => h r (List.mem_cons_of_mem _ hr))
    have hE := hb _ (hend ((0, m + 1) :: rs) 0 (by simp) hm.len)
    simp only [runsEnd] at hE
    have hle := le_runsEnd rs (0 + 0 + (m + 1))
    refine ⟨rleTerms (m + 1) rs, ?_, ?_⟩
    · rw [Spec.ofRuns, List.range'_succ, List.cons_append, rleMeasure]
      rw [if_neg (by simp), rleLoop_run m _ _ _ _ (by omega) (by omega)]
      have := rleLoop_runs rs (0 + 0 + m) (1 + m) 0
        (fun r hr => ⟨hm.gap r hr, hm.len r (List.mem_cons_of_mem _ hr)⟩) (by omega) (by omega)
        (by rw [show 0 + 0 + m + 1 = 0 + 0 + (m + 1) by omega]; omega) (by omega)
      rw [show 0 + 0 + (m + 1) = 0 + 0 + m + 1 by omega, this, Nat.zero_add, show 1 + m = m + 1 by omega]
    · have : ∀ (rs : List (Nat × Nat)) (run z : Nat), rleTerms run rs + Spec.bits (((z, run) :: rs).getLast (by simp)).2.pred =
          Spec.bits (run - 1) + Spec.rleCost rs := by
        intro rs
        induction rs with
        | nil => intro run z; simp [rleTerms, Spec.rleCost, Nat.pred_eq_sub_one]
        | cons r rs ih =>
          obtain ⟨z', k⟩ := r
          intro run z
          have := ih k z'
          rw [List.getLast_cons (by simp)]
          simp only [rleTerms, Spec.rleCost, List.map_cons, List.sum_cons] at this ⊢
          omega
      exact this rs (m + 1) 0
  · intro x xs hx
    simp [rleMeasure, hx]

example : Spec.MaximalRuns [(0, 3), (2, 1), (3, 9)] ∧
    rleMeasure (Spec.ofRuns 0 [(0, 3), (2, 1), (3, 9)]) = .ok 6 ∧ Spec.bits (9 - 1) = 4 ∧
    Spec.bits (3 - 1) + Spec.rleCost [(2, 1), (3, 9)] = 10 ∧ rleMeasure [1, 5] = rleMeasure [0, 1, 5] := by decide +kernel

/-- C39 (partial), for every set: let the set, with 0 added, have the maximal runs `(0, n) :: rs`. Then `Rle` charges them all except
the last run. -/
theorem C39_every_set_partial {v : List Nat} (hv : v ≠ []) (hp : v.Pairwise (· < ·)) (hb : ∀ x ∈ v, x + 1 < 2 ^ 64)
    (hl : v.length < 2 ^ 32) :
    ∃ n rs, Spec.MaximalRuns ((0, n) :: rs) ∧ (∀ x, x ∈ Spec.ofRuns 0 ((0, n) :: rs) ↔ x = 0 ∨ x ∈ v) ∧
      ∃ c, rleMeasure v = .ok c ∧ c + Spec.bits (((0, n) :: rs).getLast (by simp)).2.pred = Spec.bits (n - 1) + Spec.rleCost rs := by
  have main : ∀ w : List Nat, w.head? = some 0 → w.Pairwise (· < ·) → (∀ x ∈ w, x + 1 < 2 ^ 64) → w.length ≤ 2 ^ 32 →
      ∃ n rs, Spec.MaximalRuns ((0, n) :: rs) ∧ Spec.ofRuns 0 ((0, n) :: rs) = w ∧
        ∃ c, rleMeasure w = .ok c ∧ c + Spec.bits (((0, n) :: rs).getLast (by simp)).2.pred = Spec.bits (n - 1) + Spec.rleCost rs := by
    intro w h0 hw hbw hlw
    obtain ⟨rs, hm, e⟩ := runs_exist hw
    have hlen : ∀ (rs : List (Nat × Nat)) (base : Nat), (∀ r ∈ rs, 1 ≤ r.2) → rs.length ≤ (Spec.ofRuns base rs).length := by
      intro rs
      induction rs with
      | nil => intro _ _; exact Nat.zero_le _
      | cons r rs ih =>
        obtain ⟨z, k⟩ := r
        intro base h
        have h1 : 1 ≤ k := h (z, k) (List.mem_cons_self ..)
        have h2 := ih (base + z + k) (fun r hr => h r (List.mem_cons_of_mem _ hr))
        rw [Spec.ofRuns, List.length_append, List.length_range', List.length_cons]
        omega
    have hL := hlen rs 0 hm.len
    cases rs with
    | nil => rw [← e] at h0; cases h0
    | cons r rs =>
      obtain ⟨z, n⟩ := r
      have hn : 1 ≤ n := hm.len (z, n) (List.mem_cons_self ..)
      obtain ⟨m, rfl⟩ : ∃ m, n = m + 1 := ⟨n - 1, by omega⟩
      have hz : z = 0 := by
        rw [← e, Spec.ofRuns, List.range'_succ, List.cons_append, List.head?_cons] at h0
        injection h0 with h0; omega
      subst hz
      rw [e, List.length_cons] at hL
      obtain ⟨c, h1, h2⟩ := C39_rle_partial.1 (m + 1) rs hm (by rw [e]; exact hbw) (by omega)
      rw [e] at h1
      exact ⟨m + 1, rs, hm, e, c, h1, h2⟩
  cases v with
  | nil => exact absurd rfl hv
  | cons x xs =>
    by_cases hx : x = 0
    · subst hx
      obtain ⟨n, rs, hm, e, h⟩ := main _ rfl hp hb (Nat.le_of_lt hl)
      exact ⟨n, rs, hm, fun y => by rw [e]; simp, h⟩
    · have hp0 : (0 :: x :: xs).Pairwise (· < ·) := by
        refine List.pairwise_cons.2 ⟨fun y hy => ?_, hp⟩
        rcases List.mem_cons.1 hy with rfl | hy
        · omega
        · have := (List.pairwise_cons.1 hp).1 y hy; omega
      have hb0 : ∀ y ∈ 0 :: x :: xs, y + 1 < 2 ^ 64 := by
        intro y hy
        rcases List.mem_cons.1 hy with rfl | hy
        · decide
        · exact hb y hy
      obtain ⟨n, rs, hm, e, c, h1, h2⟩ := main _ rfl hp0 hb0 (by rw [List.length_cons]; omega)
      exact ⟨n, rs, hm, fun y => by rw [e]; exact List.mem_cons, c, (C39_rle_partial.2 x xs hx).trans h1, h2⟩

example : rleMeasure [1, 2, 5, 6, 7] = .ok 3 ∧ Spec.MaximalRuns [(0, 3), (2, 3)] ∧ Spec.ofRuns 0 [(0, 3), (2, 3)] = [0, 1, 2, 5, 6, 7] ∧
    Spec.bits (3 - 1) + Spec.rleCost [(2, 3)] = 3 + Spec.bits (3 - 1) := by decide +kernel

/-- C39 is false: a set that is a single run costs nothing, however long it is. -/
theorem C39_negation (n : Nat) (hn : n < 2 ^ 63) : rleMeasure (List.range' 0 (n + 1)) = .ok 0 := by
  have := rleLoop_run n 0 1 0 [] (by omega) (by omega)
  rw [List.append_nil] at this
  rw [List.range'_succ, rleMeasure, if_neg (by simp), this]
  rfl

example : rleMeasure [0, 1, 2, 3] = .ok 0 := by decide +kernel

end CBT
