import Verif.SpecRuns

/-!
# Which common elements a run-aware parallel call returns
-/

namespace CBT

namespace Spec

variable {cs : List (Bool × List Nat)} {t j x : Nat}

theorem collapsed_mem {c : Bool × List Nat} (h : collapsed c j (x / 2 ^ j) = true) {y : Nat} (hy : y / 2 ^ j = x / 2 ^ j) : y ∈ c.2 := by
  simp only [collapsed, Bool.and_eq_true, List.all_eq_true, List.mem_range, decide_eq_true_eq] at h
  have := h.2 (y % 2 ^ j) (Nat.mod_lt _ (Nat.two_pow_pos j))
  rwa [← hy, Nat.mul_comm, Nat.div_add_mod] at this

theorem collapsed_mono {c : Bool × List Nat} {i : Nat} (hij : i ≤ j) (h : collapsed c j (x / 2 ^ j) = true) :
    collapsed c i (x / 2 ^ i) = true := by
  have h1 : c.1 = true := by
    simp only [collapsed, Bool.and_eq_true] at h
    exact h.1
  simp only [collapsed, h1, Bool.true_and, List.all_eq_true, List.mem_range, decide_eq_true_eq]
  intro y hy
  refine collapsed_mem h ?_
  obtain ⟨m, rfl⟩ := Nat.exists_eq_add_of_le hij
  have e : (x / 2 ^ i * 2 ^ i + y) / 2 ^ i = x / 2 ^ i := by
    rw [Nat.add_comm, Nat.add_mul_div_right _ _ (Nat.two_pow_pos i), Nat.div_eq_of_lt hy, Nat.zero_add]
  rw [Nat.pow_add, ← Nat.div_div_eq_div_mul, ← Nat.div_div_eq_div_mul, e]

theorem allCollapsed_mono {i : Nat} (hij : i ≤ j) (h : allCollapsed cs j (x / 2 ^ j) = true) : allCollapsed cs i (x / 2 ^ i) = true := by
  rw [allCollapsed, List.all_eq_true] at h ⊢
  exact fun c hc => collapsed_mono hij (h c hc)

theorem allCollapsed_common (h : allCollapsed cs j (x / 2 ^ j) = true) : ∀ c ∈ cs, x ∈ c.2 := by
  rw [allCollapsed, List.all_eq_true] at h
  exact fun c hc => collapsed_mem (h c hc) rfl

theorem exposed_spec : exposed cs t j (x / 2 ^ j) = true ↔ ∀ i, j < i → i ≤ t → someCollapsed cs i (x / 2 ^ i) = false := by
  simp only [exposed, List.all_eq_true, List.mem_range, Bool.not_eq_true']
  constructor
  · intro h i h1 h2
    have := h (i - j - 1) (by omega)
    rwa [Nat.div_div_eq_div_mul, ← Nat.pow_add, show j + 1 + (i - j - 1) = i by omega, show j + (i - j - 1 + 1) = i by omega] at this
  · intro h i hi
    rw [Nat.div_div_eq_div_mul, ← Nat.pow_add, show j + (i + 1) = j + 1 + i by omega]
    exact h _ (by omega) (by omega)

theorem reported_spec : reported cs t j x = true ↔ ∃ i, j < i ∧ i ≤ t ∧ allCollapsed cs i (x / 2 ^ i) = true ∧
    ∀ i', i < i' → i' ≤ t → someCollapsed cs i' (x / 2 ^ i') = false := by
  simp only [reported, List.any_eq_true, List.mem_range, Bool.and_eq_true]
  constructor
  · rintro ⟨i, h1, h2, h3⟩
    exact ⟨j + 1 + i, by omega, by omega, h2, exposed_spec.1 h3⟩
  · rintro ⟨i, h1, h2, h3, h4⟩
    refine ⟨i - j - 1, by omega, ?_⟩
    rw [show j + 1 + (i - j - 1) = i by omega]
    exact ⟨h3, exposed_spec.2 h4⟩

theorem reached_spec (hc : ∀ c ∈ cs, x ∈ c.2) : reached cs t j (x / 2 ^ j) = exposed cs t j (x / 2 ^ j) := by
  have : meetsAll (cs.map Prod.snd) j (x / 2 ^ j) = true := by
    simp only [meetsAll, List.all_eq_true, List.mem_map, List.any_eq_true, decide_eq_true_eq]
    rintro S ⟨c, hc', rfl⟩
    exact ⟨x, hc c hc', rfl⟩
  rw [reached, this, Bool.and_true]

/-- Elements in blocks that are not uneven are reported, or their block is reached. -/
theorem even_cases (hu : ¬ uneven cs t (j + 1) x) : reported cs t j x = true ∨ exposed cs t j (x / 2 ^ j) = true := by
  have key : ∀ n, ∀ i, i + n = t → j ≤ i → (∃ i', i < i' ∧ i' ≤ t ∧ allCollapsed cs i' (x / 2 ^ i') = true ∧
      ∀ i'', i' < i'' → i'' ≤ t → someCollapsed cs i'' (x / 2 ^ i'') = false) ∨
      ∀ i', i < i' → i' ≤ t → someCollapsed cs i' (x / 2 ^ i') = false := by
    intro n
    induction n with
    | zero => intro i hi _; exact .inr fun i' h1 h2 => by omega
    | succ n ih =>
      intro i hi hj
      rcases ih (i + 1) (by omega) (by omega) with ⟨i', h1, h2⟩ | h
      · exact .inl ⟨i', by omega, h2⟩
      · cases hs : someCollapsed cs (i + 1) (x / 2 ^ (i + 1)) with
        | false =>
          refine .inr fun i' h1 h2 => ?_
          rcases Nat.eq_or_lt_of_le (show i + 1 ≤ i' from h1) with rfl | h3
          · exact hs
          · exact h i' h3 h2
        | true =>
          cases ha : allCollapsed cs (i + 1) (x / 2 ^ (i + 1)) with
          | true => exact .inl ⟨i + 1, by omega, by omega, ha, h⟩
          | false => exact (hu ⟨i + 1, by omega, by omega, hs, ha⟩).elim
  by_cases hjt : j ≤ t
  · rcases key (t - j) j (by omega) (Nat.le_refl _) with h | h
    · exact .inl (reported_spec.2 h)
    · exact .inr (exposed_spec.2 h)
  · exact .inr (exposed_spec.2 fun i h1 h2 => by omega)

theorem reported_even {l : Nat} (h : reported cs t j x = true) : ¬ uneven cs t l x ∧ ∀ c ∈ cs, x ∈ c.2 := by
  obtain ⟨i, h1, h2, h3, h4⟩ := reported_spec.1 h
  refine ⟨?_, allCollapsed_common h3⟩
  rintro ⟨i', g1, g2, g3, g4⟩
  by_cases hi : i' ≤ i
  · rw [allCollapsed_mono hi h3] at g4
    cases g4
  · rw [h4 i' (by omega) g2] at g3
    cases g3

theorem mem_runsResult {cut : Nat} (hj : 1 ≤ j) (hx : x < 2 ^ (j + cut)) :
    x ∈ runsResult cs j cut ↔
      (∀ c ∈ cs, x ∈ c.2) ∧ ¬ uneven cs (j + cut) (if isSplit cs j cut (x / 2 ^ j) then j else j + 1) x := by
  have hall : (cs.all fun c => decide (x ∈ c.2)) = true ↔ ∀ c ∈ cs, x ∈ c.2 := by simp
  simp only [runsResult, List.mem_append, List.mem_filter, List.mem_range, hx, true_and, Bool.and_eq_true, hall]
  cases hs : isSplit cs j cut (x / 2 ^ j) with
  | false =>
    simp only [Bool.false_eq_true, if_false, false_and, or_false]
    constructor
    · rintro (h | ⟨h1, h2⟩)
      · exact (reported_even h).symm
      · rw [reached_spec h1, exposed_spec] at h2
        refine ⟨h1, ?_⟩
        rintro ⟨i, g1, g2, g3, -⟩
        rw [h2 i (by omega) g2] at g3
        cases g3
    · rintro ⟨h1, h2⟩
      rw [reached_spec h1]
      exact (even_cases h2).imp id fun h => ⟨h1, h⟩
  | true =>
    have hr : reached cs (j + cut) j (x / 2 ^ j) = true := by
      rw [isSplit, decide_eq_true_eq] at hs
      exact (List.mem_filter.1 (List.mem_of_mem_take hs)).2
    have he : exposed cs (j + cut) j (x / 2 ^ j) = true := by
      rw [reached, Bool.and_eq_true] at hr
      exact hr.1
    have he' := exposed_spec.1 he
    simp only [if_true, true_and]
    constructor
    · rintro ((h | h) | ⟨h1, h2⟩)
      · exact (reported_even h).symm
      · refine ⟨allCollapsed_common h, ?_⟩
        rintro ⟨i, g1, g2, g3, g4⟩
        rcases Nat.eq_or_lt_of_le g1 with rfl | g5
        · rw [h] at g4
          cases g4
        · rw [he' i g5 g2] at g3
          cases g3
      · rw [reached_spec h1, exposed_spec] at h2
        refine ⟨h1, ?_⟩
        rintro ⟨i, g1, g2, g3, -⟩
        rw [h2 i (by omega) g2] at g3
        cases g3
    · rintro ⟨h1, h2⟩
      have e : j - 1 + 1 = j := by omega
      rcases even_cases (j := j - 1) (by rw [e]; exact h2) with h | h
      · left
        obtain ⟨i, i1, i2, i3, i4⟩ := reported_spec.1 h
        right
        exact allCollapsed_mono (by omega) i3
      · right
        rw [reached_spec h1]
        exact ⟨h1, h⟩

end Spec

end CBT
