import Mathlib.Data.Nat.Bitwise
import Mathlib.Tactic.Common
import Verif.Model.Measures
import Verif.SpecMeasures

/-! # Lemmas on the measures -/

namespace CBT

theorem logTerm_eq (g : Nat) : logTerm (if g = 0 then 1 else g) = Spec.bits g := by
  unfold logTerm Spec.bits
  split
  · subst_vars; simp [Nat.size_zero]; rfl
  · rename_i h
    have h1 : Nat.size g ≤ Nat.log2 g + 1 := by rw [Nat.size_le]; exact (Nat.log2_lt h).mp (by omega)
    have h2 : Nat.log2 g < Nat.size g := by rw [Nat.lt_size]; exact Nat.log2_self_le h
    omega

theorem bits_le {g : Nat} (h : g < 2 ^ 64) : Spec.bits g ≤ 64 := by
  have : Nat.size g ≤ 64 := Nat.size_le.mpr h
  unfold Spec.bits; omega

theorem bits_pos (g : Nat) : 1 ≤ Spec.bits g := by unfold Spec.bits; omega

theorem gapLoop_eq : ∀ (xs : List Nat) (prev gap : Nat), (prev :: xs).Pairwise (· < ·) → (∀ x ∈ prev :: xs, x < 2 ^ 64) →
    gap + 64 * xs.length < 2 ^ 64 →
    gapLoop prev gap xs = gap + ((List.zipWith (fun a b => b - a - 1) (prev :: xs) xs).map Spec.bits).sum := by
  intro xs
  induction xs with
  | nil => intro prev gap _ _ _; simp [gapLoop]
  | cons x xs ih =>
    intro prev gap hp hb hg
    have h1 : prev < x := List.rel_of_pairwise_cons hp (List.mem_cons_self ..)
    have h2 : x < 2 ^ 64 := hb x (by simp)
    have e : (x + 2 ^ 64 - prev + 2 ^ 64 - 1) % 2 ^ 64 = x - prev - 1 := by omega
    have hbl := bits_le (g := x - prev - 1) (by omega)
    rw [List.length_cons] at hg
    rw [gapLoop]
    simp only [e, logTerm_eq]
    rw [Nat.mod_eq_of_lt (by omega), ih x _ (List.Pairwise.of_cons hp) (fun y hy => hb y (List.mem_cons_of_mem _ hy)) (by omega)]
    simp only [List.zipWith_cons_cons, List.map_cons, List.sum_cons]
    omega

/-- Inside a run the loop only counts. -/
theorem rleLoop_run : ∀ (n x run rle : Nat) (L : List Nat), x + n < 2 ^ 64 → run + n < 2 ^ 64 →
    rleLoop x run rle (List.range' (x + 1) n ++ L) = rleLoop (x + n) (run + n) rle L := by
  intro n
  induction n with
  | zero => intro x run rle L _ _; simp
  | succ n ih =>
    intro x run rle L h1 h2
    rw [List.range'_succ, List.cons_append, rleLoop]
    simp only
    rw [if_pos (by omega), Nat.mod_eq_of_lt (by omega), ih (x + 1) (run + 1) rle L (by omega) (by omega)]
    congr 1 <;> omega

/-- The terms charged for the runs `rs` after a run of length `run`. -/
def rleTerms : (run : Nat) → List (Nat × Nat) → Nat
  | _, [] => 0
  | run, (z, n) :: rs => Spec.bits (z - 1) + Spec.bits (run - 1) + rleTerms n rs

/-- The end of the last run. -/
def runsEnd : (base : Nat) → List (Nat × Nat) → Nat
  | base, [] => base
  | base, (z, n) :: rs => runsEnd (base + z + n) rs

theorem le_runsEnd : ∀ (rs : List (Nat × Nat)) (base : Nat), base ≤ runsEnd base rs := by
  intro rs
  induction rs with
  | nil => intro base; exact Nat.le_refl _
  | cons r rs ih => intro base; obtain ⟨z, n⟩ := r; have := ih (base + z + n); simp only [runsEnd]; omega

theorem rleLoop_runs : ∀ (rs : List (Nat × Nat)) (x run rle : Nat), (∀ r ∈ rs, 1 ≤ r.1 ∧ 1 ≤ r.2) → 1 ≤ run → run < 2 ^ 64 →
    runsEnd (x + 1) rs ≤ 2 ^ 64 → rle + 128 * rs.length < 2 ^ 64 →
    rleLoop x run rle (Spec.ofRuns (x + 1) rs) = rle + rleTerms run rs := by
  intro rs
  induction rs with
  | nil => intro x run rle _ _ _ _ _; rfl
  | cons r rs ih =>
    obtain ⟨z, n⟩ := r
    intro x run rle h h1 h2 h3 h4
    obtain ⟨hz, hn⟩ := h (z, n) (List.mem_cons_self ..)
    simp only at hz hn
    simp only [runsEnd] at h3
    have := le_runsEnd rs (x + 1 + z + n)
    rw [List.length_cons] at h4
    obtain ⟨m, rfl⟩ : ∃ m, n = m + 1 := ⟨n - 1, by omega⟩
    rw [Spec.ofRuns, List.range'_succ, List.cons_append, rleLoop]
    have e1 : (x + 1 + z + 2 ^ 64 - x) % 2 ^ 64 = z + 1 := by omega
    simp only [e1]
    rw [if_neg (by omega)]
    have e2 : (z + 1 + 2 ^ 64 - 2) % 2 ^ 64 = z - 1 := by omega
    have e3 : (run + 2 ^ 64 - 1) % 2 ^ 64 = run - 1 := by omega
    simp only [e2, e3, logTerm_eq]
    have b1 := bits_le (g := z - 1) (by omega)
    have b2 := bits_le (g := run - 1) (by omega)
    rw [Nat.mod_eq_of_lt (by omega), rleLoop_run m _ _ _ _ (by omega) (by omega)]
    rw [show x + 1 + z + (m + 1) = x + 1 + z + m + 1 by omega,
      ih (x + 1 + z + m) (1 + m) _ (fun r hr => h r (List.mem_cons_of_mem _ hr)) (by omega) (by omega)
        (by rw [show x + 1 + z + m + 1 = x + 1 + z + (m + 1) by omega]; exact h3) (by omega)]
    rw [rleTerms, show 1 + m = m + 1 by omega]
    omega

theorem ofRuns_exists : ∀ (v : List Nat) (base : Nat), v.Pairwise (· < ·) → (∀ x ∈ v, base ≤ x) →
    ∃ rs, Spec.MaximalRuns rs ∧ Spec.ofRuns base rs = v := by
  intro v
  induction v with
  | nil => intro base _ _; exact ⟨[], ⟨by simp, by simp⟩, rfl⟩
  | cons x xs ih =>
    intro base hp hb
    obtain ⟨rs, h1, h2⟩ := ih (x + 1) (List.Pairwise.of_cons hp) (fun y hy => List.rel_of_pairwise_cons hp hy)
    have hx := hb x (List.mem_cons_self ..)
    have e : base + (x - base) = x := by omega
    cases rs with
    | nil =>
      rw [← h2]
      exact ⟨[(x - base, 1)], ⟨by simp, by simp⟩, by simp [Spec.ofRuns, e]⟩
    | cons r rs =>
      obtain ⟨z, n⟩ := r
      by_cases hz : z = 0
      · subst hz
        refine ⟨(x - base, n + 1) :: rs, ⟨fun r hr => ?_, fun r hr => h1.gap r hr⟩, ?_⟩
        · rcases List.mem_cons.mp hr with rfl | hr
          · simp
          · exact h1.len r (List.mem_cons_of_mem _ hr)
        · rw [Spec.ofRuns, e, List.range'_succ, List.cons_append, ← h2, Spec.ofRuns, Nat.add_zero,
            show x + (n + 1) = x + 1 + n by omega]
      · refine ⟨(x - base, 1) :: (z, n) :: rs, ⟨fun r hr => ?_, fun r hr => ?_⟩, ?_⟩
        · rcases List.mem_cons.mp hr with rfl | hr
          · simp
          · exact h1.len r hr
        · simp only [List.tail_cons] at hr
          rcases List.mem_cons.mp hr with rfl | hr
          · simp only; omega
          · exact h1.gap r hr
        · rw [Spec.ofRuns, e, h2]; rfl

theorem bit_eq {x y i : Nat} : ((x >>> i) &&& 1 = (y >>> i) &&& 1) ↔ x.testBit i = y.testBit i := by
  have h : ∀ z : Nat, (z >>> i) &&& 1 = (z.testBit i).toNat := by
    intro z
    rw [Nat.and_one_is_mod, Nat.shiftRight_eq_div_pow, ← Nat.toNat_testBit]
  rw [h, h]
  cases x.testBit i <;> cases y.testBit i <;> simp

theorem prefixLoop_differ {x y d : Nat} (hd : x.testBit d ≠ y.testBit d)
    (hj : ∀ j, d < j → x.testBit j = y.testBit j) : ∀ (i shift : Nat), i + shift = 64 → d < i →
    prefixLoop x y i shift = .ok (x % 2 ^ (d + 1)) := by
  intro i
  induction i with
  | zero => intro shift _ h; omega
  | succ i ih =>
    intro shift hs hi
    rw [prefixLoop]
    by_cases e : d = i
    · subst e
      rw [if_neg (by rw [bit_eq]; exact hd), if_pos (by omega)]
      congr 1
      have : (2 ^ 64 - 1) >>> shift = 2 ^ (d + 1) - 1 := by
        rw [Nat.shiftRight_eq_div_pow]
        have e64 : 2 ^ 64 = 2 ^ (d + 1) * 2 ^ shift := by rw [← Nat.pow_add]; congr 1; omega
        rw [e64]
        have p1 : 0 < 2 ^ shift := Nat.two_pow_pos _
        have p2 : 0 < 2 ^ (d + 1) := Nat.two_pow_pos _
        rw [show 2 ^ (d + 1) * 2 ^ shift - 1 = (2 ^ shift - 1) + 2 ^ shift * (2 ^ (d + 1) - 1) by
          rw [Nat.mul_sub, Nat.mul_one, Nat.mul_comm (2 ^ shift)]
          have : 2 ^ shift ≤ 2 ^ (d + 1) * 2 ^ shift := Nat.le_mul_of_pos_left _ p2
          omega, Nat.add_mul_div_left _ _ p1, Nat.div_eq_of_lt (by omega)]
        omega
      rw [this, Nat.and_two_pow_sub_one_eq_mod]
    · rw [if_pos (by rw [bit_eq]; exact hj i (by omega)), Nat.mod_eq_of_lt (by omega)]
      exact ih (shift + 1) (by omega) (by omega)

theorem prefixLoop_same {x : Nat} : ∀ (i shift : Nat), prefixLoop x x i shift = .ok x := by
  intro i
  induction i with
  | zero => intro shift; rfl
  | succ i ih => intro shift; rw [prefixLoop, if_pos rfl]; exact ih _

/-- The highest differing bit. -/
theorem highest_differing {x y : Nat} (h : y < x) : ∃ d, x.testBit d = true ∧ y.testBit d = false ∧
    ∀ j, d < j → x.testBit j = y.testBit j := by
  have hne : x ^^^ y ≠ 0 := fun e => by
    have := Nat.xor_eq_zero_iff.mp e; omega
  have hj : ∀ j, Nat.log2 (x ^^^ y) < j → x.testBit j = y.testBit j := by
    intro j hj
    have h1 : (x ^^^ y).testBit j = false := Nat.testBit_lt_two_pow ((Nat.log2_lt hne).mp hj)
    rw [Nat.testBit_xor] at h1
    simpa using h1
  have hd : x.testBit (Nat.log2 (x ^^^ y)) ≠ y.testBit (Nat.log2 (x ^^^ y)) := by
    have h1 : (x ^^^ y).testBit (Nat.log2 (x ^^^ y)) = true := Nat.testBit_log2 hne
    rw [Nat.testBit_xor] at h1
    simpa using h1
  refine ⟨Nat.log2 (x ^^^ y), ?_, ?_, hj⟩
  all_goals
    cases hx : x.testBit (Nat.log2 (x ^^^ y)) <;> cases hy : y.testBit (Nat.log2 (x ^^^ y))
    · exact absurd (by rw [hx, hy]) hd
    · have := Nat.lt_of_testBit _ hx hy hj
      omega
    · rfl
    · exact absurd (by rw [hx, hy]) hd

end CBT
