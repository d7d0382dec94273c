import Verif.SpecAdaptive
import Verif.Proof.CostInter

/-!
# Partition certificates and the blocks that all sets meet
-/

namespace CBT

open Spec

theorem tiles_le : {I : List (Nat × Nat)} → {a b : Nat} → Tiles a I b → a ≤ b ∧ ∀ p ∈ I, p.2 ≤ b
  | [], _, _, h => ⟨Nat.le_of_eq h, by simp⟩
  | p :: I, a, b, h => by
    obtain ⟨h1, h2, h3⟩ := h
    obtain ⟨h4, h5⟩ := tiles_le h3
    refine ⟨by omega, fun q hq => ?_⟩
    rcases List.mem_cons.1 hq with rfl | hq
    · exact h4
    · exact h5 q hq

theorem tiles_covers : {I : List (Nat × Nat)} → {a b : Nat} → Tiles a I b → ∀ x, a ≤ x → x < b → ∃ p ∈ I, p.1 ≤ x ∧ x < p.2
  | [], a, b, h, x, h1, h2 => by
    have : a = b := h
    omega
  | p :: I, a, b, h, x, h1, h2 => by
    obtain ⟨h3, h4, h5⟩ := h
    by_cases hx : x < p.2
    · exact ⟨p, List.mem_cons_self, by omega, hx⟩
    · obtain ⟨q, hq, hq'⟩ := tiles_covers h5 x (by omega) h2
      exact ⟨q, List.mem_cons_of_mem _ hq, hq'⟩

theorem tiles_append : {I : List (Nat × Nat)} → {J : List (Nat × Nat)} → {a b c : Nat} → Tiles a I b → Tiles b J c → Tiles a (I ++ J) c
  | [], _, a, b, _, h, h' => by
    have : a = b := h
    rw [this]
    exact h'
  | _ :: _, _, _, _, _, h, h' => ⟨h.1, h.2.1, tiles_append h.2.2 h'⟩

/-- The ends of intervals before the end of the universe. -/
def cuts (I : List (Nat × Nat)) (u : Nat) : List Nat := (I.filter fun p => decide (p.2 < u)).map Prod.snd

theorem cuts_length {I : List (Nat × Nat)} {u : Nat} (h : Tiles 0 I u) (hu : 0 < u) : (cuts I u).length < I.length := by
  rw [cuts, List.length_map, List.length_filter_lt_length_iff_exists]
  obtain ⟨p, hp, h1, h2⟩ := tiles_covers h (u - 1) (by omega) (by omega)
  exact ⟨p, hp, by simp only [decide_eq_true_eq]; omega⟩

theorem mem_cuts {I : List (Nat × Nat)} {u : Nat} {p : Nat × Nat} (hp : p ∈ I) (h : p.2 < u) : p.2 ∈ cuts I u :=
  List.mem_map.2 ⟨p, List.mem_filter.2 ⟨hp, by simpa using h⟩, rfl⟩

/-- An interval around the first element of a block either ends in the block or contains it. -/
theorem interval_block {I : List (Nat × Nat)} {t j k : Nat} (h : Tiles 0 I (2 ^ t)) (hjt : j ≤ t) (hk : k < 2 ^ (t - j)) :
    (∃ q ∈ cuts I (2 ^ t), q / 2 ^ j = k) ∨ ∃ p ∈ I, p.1 ≤ k * 2 ^ j ∧ (k + 1) * 2 ^ j ≤ p.2 := by
  have hpos : 0 < 2 ^ j := Nat.two_pow_pos _
  have e : (k + 1) * 2 ^ j ≤ 2 ^ t := by
    calc (k + 1) * 2 ^ j ≤ 2 ^ (t - j) * 2 ^ j := Nat.mul_le_mul_right _ hk
      _ = 2 ^ t := by rw [← pow_add]; congr 1; omega
  rw [Nat.add_mul, Nat.one_mul] at e
  obtain ⟨p, hp, h1, h2⟩ := tiles_covers h (k * 2 ^ j) (Nat.zero_le _) (by omega)
  by_cases hq : p.2 < (k + 1) * 2 ^ j
  · refine .inl ⟨p.2, mem_cuts hp ?_, ?_⟩
    · rw [Nat.add_mul, Nat.one_mul] at hq
      omega
    · rw [Nat.div_eq_iff hpos]
      rw [Nat.add_mul, Nat.one_mul] at hq
      omega
  · exact .inr ⟨p, hp, h1, by omega⟩

theorem block_mem {j k x : Nat} (h : x / 2 ^ j = k) : k * 2 ^ j ≤ x ∧ x < (k + 1) * 2 ^ j := by
  have hpos : 0 < 2 ^ j := Nat.two_pow_pos _
  have := (Nat.div_eq_iff hpos).1 h
  rw [Nat.add_mul, Nat.one_mul]
  omega

/-- An avoided interval contains no block that every set meets. -/
theorem avoided_block {sets : List (List Nat)} {p : Nat × Nat} (h : Avoided sets p) {j k : Nat} (hm : meetsAll sets j k = true)
    (h1 : p.1 ≤ k * 2 ^ j) (h2 : (k + 1) * 2 ^ j ≤ p.2) : False := by
  obtain ⟨S, hS, hS'⟩ := h
  obtain ⟨x, hx, hx'⟩ := meetsAll_iff.1 hm S hS
  have := block_mem hx'
  exact hS' x hx ⟨by omega, by omega⟩

/-- Every block larger than 1 that all sets meet contains the end of an interval. -/
theorem commonCount_lt_certificate {sets : List (List Nat)} {t : Nat} {I : List (Nat × Nat)} (h : Certificate sets (2 ^ t) I) {j : Nat}
    (hj : 1 ≤ j) (hjt : j ≤ t) : commonCount sets t j < I.length := by
  refine Nat.lt_of_le_of_lt ?_ (cuts_length h.tiles (Nat.two_pow_pos _))
  rw [commonCount, ← List.length_map (as := cuts I (2 ^ t)) (· / 2 ^ j)]
  refine (List.Nodup.subperm (List.Nodup.filter _ List.nodup_range) fun k hk => ?_).length_le
  obtain ⟨hk, hm⟩ := List.mem_filter.1 hk
  rcases interval_block h.tiles hjt (List.mem_range.1 hk) with ⟨q, hq, hq'⟩ | ⟨p, hp, h1, h2⟩
  · exact List.mem_map.2 ⟨q, hq, hq'⟩
  · rcases h.proves p hp with ha | ⟨ha, -⟩
    · exact (avoided_block ha hm h1 h2).elim
    · have : 2 ^ 1 ≤ 2 ^ j := Nat.pow_le_pow_right (by norm_num) hj
      rw [Nat.add_mul, Nat.one_mul] at h2
      omega

theorem commonCount_le_pow (sets : List (List Nat)) (t j : Nat) : commonCount sets t j ≤ 2 ^ (t - j) := by
  have := List.length_filter_le (meetsAll sets j) (List.range (2 ^ (t - j)))
  rwa [List.length_range] at this

/-! ## Levels of a binary tree -/

theorem sum_levels_pow : (n : Nat) → (f : Nat → Nat) → (∀ i < n, f i ≤ 2 ^ (n - 1 - i)) → ((List.range n).map f).sum < 2 ^ n
  | 0, _, _ => by simp
  | n + 1, f, h => by
    have := sum_levels_pow n (fun i => f (i + 1)) fun i hi => by
      have := h (i + 1) (by omega)
      rwa [show n + 1 - 1 - (i + 1) = n - 1 - i by omega] at this
    have h0 := h 0 (by omega)
    rw [show n + 1 - 1 - 0 = n by omega] at h0
    rw [List.range_succ_eq_map, List.map_cons, List.sum_cons, List.map_map, pow_succ]
    have e : f ∘ Nat.succ = fun i => f (i + 1) := rfl
    rw [e]
    omega

theorem sum_levels_aux {D : Nat} (hD : D ≠ 0) : (m : Nat) → (f : Nat → Nat) →
    (∀ i < Nat.log2 D + m, f i ≤ 2 ^ (Nat.log2 D + m - 1 - i) ∧ f i ≤ D) → ((List.range (Nat.log2 D + m)).map f).sum ≤ D * m + D
  | 0, f, h => by
    have := sum_levels_pow (Nat.log2 D + 0) f fun i hi => (h i hi).1
    have := Nat.log2_self_le hD
    rw [Nat.mul_zero]
    simp only [Nat.add_zero] at *
    omega
  | m + 1, f, h => by
    have := sum_levels_aux hD m (fun i => f (i + 1)) fun i hi => by
      have := h (i + 1) (by omega)
      rwa [show Nat.log2 D + (m + 1) - 1 - (i + 1) = Nat.log2 D + m - 1 - i by omega] at this
    have h0 := (h 0 (by omega)).2
    rw [← Nat.add_assoc, List.range_succ_eq_map, List.map_cons, List.sum_cons, List.map_map]
    have e : f ∘ Nat.succ = fun i => f (i + 1) := rfl
    rw [e, Nat.mul_add, Nat.mul_one]
    omega

/-- At most `2^(n-1-i)` and at most `D` on level `i`. -/
theorem sum_levels {D : Nat} (hD : D ≠ 0) (n : Nat) (f : Nat → Nat) (h : ∀ i < n, f i ≤ 2 ^ (n - 1 - i) ∧ f i ≤ D) :
    ((List.range n).map f).sum ≤ treePart D n := by
  rw [treePart]
  by_cases hn : Nat.log2 D ≤ n
  · have := sum_levels_aux hD (n - Nat.log2 D) f (by rwa [show Nat.log2 D + (n - Nat.log2 D) = n by omega])
    rw [show Nat.log2 D + (n - Nat.log2 D) = n by omega] at this
    rwa [Nat.mul_add, Nat.mul_one]
  · have h1 := sum_levels_pow n f fun i hi => (h i hi).1
    have h2 := Nat.log2_self_le hD
    have h3 : 2 ^ n ≤ 2 ^ Nat.log2 D := Nat.pow_le_pow_right (by norm_num) (by omega)
    rw [show n - Nat.log2 D = 0 by omega]
    omega

theorem certificate_ne {I : List (Nat × Nat)} {t : Nat} (h : Tiles 0 I (2 ^ t)) : I.length ≠ 0 := by
  have := cuts_length h (Nat.two_pow_pos _)
  omega

theorem commonAbove_certificate {sets : List (List Nat)} {t : Nat} {I : List (Nat × Nat)} (h : Certificate sets (2 ^ t) I) (b : Nat) :
    commonAbove sets t b ≤ treePart I.length (t - b) := by
  refine sum_levels (certificate_ne h.tiles) _ _ fun i hi => ⟨?_, ?_⟩
  · have := commonCount_le_pow sets t (b + 1 + i)
    rwa [show t - (b + 1 + i) = t - b - 1 - i by omega] at this
  · exact Nat.le_of_lt (commonCount_lt_certificate h (by omega) (by omega))

theorem forksAbove_certificate {sets : List (List Nat)} {t : Nat} {I : List (Nat × Nat)} (h : Certificate sets (2 ^ t) I) (b : Nat) :
    forksAbove sets t b ≤ treePart I.length (t - b) := by
  refine Nat.le_trans ?_ (commonAbove_certificate h b)
  have := sum_le_scaled (f := fun i => forkCount sets t (b + 1 + i)) (g := fun i => commonCount sets t (b + 1 + i)) (n := 1)
    (fun i => by rw [Nat.one_mul]; exact forkCount_le sets t _) (List.range (t - b))
  rwa [Nat.one_mul] at this

/-! ## With all tries run-encoded -/

theorem collapsed_of_run {cs : List (Bool × List Nat)} (hr : ∀ c ∈ cs, c.1 = true) {p : Nat × Nat}
    (h : ∀ x, p.1 ≤ x → x < p.2 → ∀ S ∈ cs.map Prod.snd, x ∈ S) {j k : Nat} (h1 : p.1 ≤ k * 2 ^ j) (h2 : (k + 1) * 2 ^ j ≤ p.2) :
    ∀ c ∈ cs, Spec.collapsed c j k = true := by
  intro c hc
  rw [Spec.collapsed, hr c hc, Bool.true_and, List.all_eq_true]
  intro i hi
  rw [List.mem_range] at hi
  rw [Nat.add_mul, Nat.one_mul] at h2
  simpa using h (k * 2 ^ j + i) (by omega) (by omega) c.2 (List.mem_map_of_mem hc)

/-- The blocks with an open trie. -/
def openBlocks (cs : List (Bool × List Nat)) (t j : Nat) : List Nat :=
  (commonBlocks (cs.map Prod.snd) j (t - j)).filter fun k => decide (openCount cs t j k ≠ 0)

theorem openBlocks_le_pow (cs : List (Bool × List Nat)) (t j : Nat) : (openBlocks cs t j).length ≤ 2 ^ (t - j) :=
  Nat.le_trans (List.length_filter_le _ _) (commonCount_le_pow _ t j)

theorem sum_filter_ne_zero (f : Nat → Nat) (M : Nat) (h : ∀ i, f i ≤ M) : (l : List Nat) →
    (l.map f).sum ≤ M * (l.filter fun k => decide (f k ≠ 0)).length
  | [] => by simp
  | a :: l => by
    have ih := sum_filter_ne_zero f M h l
    have ha := h a
    rw [List.map_cons, List.sum_cons, List.filter_cons]
    by_cases h0 : f a = 0
    · simpa [h0] using ih
    · rw [if_pos (by simpa using h0), List.length_cons, Nat.mul_add, Nat.mul_one]
      omega

theorem openAt_le_blocks (cs : List (Bool × List Nat)) (t j : Nat) : openAt cs t j ≤ cs.length * (openBlocks cs t j).length :=
  sum_filter_ne_zero _ _ (openCount_le cs t j) _

theorem meetsAll_half {sets : List (List Nat)} {j k : Nat} (h : meetsAll sets j k = true) : meetsAll sets (j + 1) (k / 2) = true := by
  rw [meetsAll_iff] at h ⊢
  intro S hS
  obtain ⟨x, hx, hx'⟩ := h S hS
  exact ⟨x, hx, by rw [pow_succ, ← Nat.div_div_eq_div_mul, hx']⟩

theorem openBlocks_certificate {cs : List (Bool × List Nat)} (hr : ∀ c ∈ cs, c.1 = true) {t : Nat} {I : List (Nat × Nat)}
    (h : RunCertificate (cs.map Prod.snd) (2 ^ t) I) {j : Nat} (hjt : j ≤ t) : (openBlocks cs t j).length ≤ 2 * I.length := by
  rcases Nat.lt_or_ge j t with hjt' | hjt'
  · have e : (openBlocks cs t j).length ≤ ((cuts I (2 ^ t)).flatMap fun q => [2 * (q / 2 ^ (j + 1)), 2 * (q / 2 ^ (j + 1)) + 1]).length := by
      refine (List.Nodup.subperm (List.Nodup.filter _ (List.Nodup.filter _ List.nodup_range)) fun k hk => ?_).length_le
      obtain ⟨hk, ho⟩ := List.mem_filter.1 hk
      obtain ⟨hk, hm⟩ := List.mem_filter.1 hk
      have hk' : k / 2 < 2 ^ (t - (j + 1)) := by
        rw [Nat.div_lt_iff_lt_mul (by norm_num), ← pow_succ, show t - (j + 1) + 1 = t - j by omega]
        exact List.mem_range.1 hk
      rcases interval_block h.tiles (show j + 1 ≤ t by omega) hk' with ⟨q, hq, hq'⟩ | ⟨p, hp, h1, h2⟩
      · refine List.mem_flatMap.2 ⟨q, hq, ?_⟩
        rw [hq']
        simp only [List.mem_cons, List.not_mem_nil, or_false]
        omega
      · rcases h.proves p hp with ha | ha
        · exact (avoided_block ha (meetsAll_half hm) h1 h2).elim
        · have hc := collapsed_of_run hr ha h1 h2
          simp only [ne_eq, decide_eq_true_eq] at ho
          refine (ho ?_).elim
          rw [openCount, List.countP_eq_zero]
          intro c hcm hex
          rw [exposed, List.all_eq_true] at hex
          have := hex 0 (List.mem_range.2 (by omega))
          simp [someCollapsed, hc c hcm] at this
    have l2 : ∀ L : List Nat, (L.flatMap fun q => [2 * (q / 2 ^ (j + 1)), 2 * (q / 2 ^ (j + 1)) + 1]).length = 2 * L.length := by
      intro L
      induction L with
      | nil => rfl
      | cons a L ih => rw [List.flatMap_cons, List.length_append, ih, List.length_cons, List.length_cons, List.length_cons, List.length_nil]; omega
    rw [l2] at e
    have := cuts_length h.tiles (Nat.two_pow_pos _)
    omega
  · have := openBlocks_le_pow cs t j
    rw [show t - j = 0 by omega] at this
    have := certificate_ne h.tiles
    omega

theorem openAbove_certificate {cs : List (Bool × List Nat)} (hr : ∀ c ∈ cs, c.1 = true) {t : Nat} {I : List (Nat × Nat)}
    (h : RunCertificate (cs.map Prod.snd) (2 ^ t) I) (b : Nat) : openAbove cs t b ≤ cs.length * treePart (2 * I.length) (t - b) := by
  refine Nat.le_trans (sum_le_scaled (fun i => openAt_le_blocks cs t (b + 1 + i)) _) (Nat.mul_le_mul_left _ ?_)
  have := certificate_ne h.tiles
  refine sum_levels (by omega) _ _ fun i hi => ⟨?_, ?_⟩
  · have := openBlocks_le_pow cs t (b + 1 + i)
    rwa [show t - (b + 1 + i) = t - b - 1 - i by omega] at this
  · exact openBlocks_certificate hr h (by omega)

theorem exposed_half {cs : List (Bool × List Nat)} {t j k : Nat} (h : exposed cs t j (2 * k) = true) : exposed cs t (j + 1) k = true := by
  rw [exposed, List.all_eq_true] at h ⊢
  intro i hi
  rw [List.mem_range] at hi
  have := h (i + 1) (List.mem_range.2 (by omega))
  rwa [show 2 * k / 2 ^ (i + 1 + 1) = k / 2 ^ (i + 1) by
    rw [pow_succ' 2 (i + 1), ← Nat.div_div_eq_div_mul, Nat.mul_div_cancel_left _ (by norm_num)],
    show j + 1 + (i + 1) = j + 1 + 1 + i by omega] at this

theorem openForkAt_le_openAt (cs : List (Bool × List Nat)) (t j : Nat) : openForkAt cs t (j + 1) ≤ openAt cs t (j + 1) := by
  have h1 : ∀ k, openCount cs t j (2 * k) ≤ openCount cs t (j + 1) k := fun k =>
    List.countP_mono_left fun c _ h => exposed_half h
  have h2 : ∀ (q : Nat → Bool) (L : List Nat), ((L.filter q).map fun k => openCount cs t j (2 * k)).sum ≤ (L.map (openCount cs t (j + 1))).sum := by
    intro q L
    induction L with
    | nil => exact Nat.le_refl _
    | cons a L ih =>
      rw [List.filter_cons, List.map_cons, List.sum_cons]
      split
      · rw [List.map_cons, List.sum_cons]
        have := h1 a
        omega
      · omega
  exact h2 _ _

theorem openForksAbove_certificate {cs : List (Bool × List Nat)} (hr : ∀ c ∈ cs, c.1 = true) {t : Nat} {I : List (Nat × Nat)}
    (h : RunCertificate (cs.map Prod.snd) (2 ^ t) I) (b : Nat) : openForksAbove cs t b ≤ cs.length * treePart (2 * I.length) (t - b) := by
  refine Nat.le_trans ?_ (openAbove_certificate hr h b)
  have := sum_le_scaled (f := fun i => openForkAt cs t (b + 1 + i)) (g := fun i => openAt cs t (b + 1 + i)) (n := 1)
    (fun i => by rw [Nat.one_mul, show b + 1 + i = b + i + 1 by omega]; exact openForkAt_le_openAt cs t _) (List.range (t - b))
  rwa [Nat.one_mul] at this

theorem openAt_certificate {cs : List (Bool × List Nat)} (hr : ∀ c ∈ cs, c.1 = true) {t : Nat} {I : List (Nat × Nat)}
    (h : RunCertificate (cs.map Prod.snd) (2 ^ t) I) {j : Nat} (hjt : j ≤ t) : openAt cs t j ≤ cs.length * (2 * I.length) :=
  Nat.le_trans (openAt_le_blocks cs t j) (Nat.mul_le_mul_left _ (openBlocks_certificate hr h hjt))

/-! ## A certificate from the blocks read -/

/-- What `f` adds up to on the blocks larger than 1 inside block `k` of size `2^j`. -/
def below (f : Nat → Nat → Nat) (j k : Nat) : Nat :=
  ((List.range j).map fun i => ((List.range' (k * 2 ^ (j - 1 - i)) (2 ^ (j - 1 - i))).map (f (i + 1))).sum).sum

theorem sum_add_levels (f g : Nat → Nat) : (l : List Nat) → (l.map f).sum + (l.map g).sum = (l.map fun i => f i + g i).sum
  | [] => rfl
  | a :: l => by
    have := sum_add_levels f g l
    simp only [List.map_cons, List.sum_cons]
    omega

theorem below_succ (f : Nat → Nat → Nat) (j k : Nat) : below f (j + 1) k = f (j + 1) k + below f j (2 * k) + below f j (2 * k + 1) := by
  rw [below, List.range_succ, List.map_append, List.sum_append, Nat.add_comm]
  have e1 : (List.map (fun i => (List.map (f (i + 1)) (List.range' (k * 2 ^ (j + 1 - 1 - i)) (2 ^ (j + 1 - 1 - i)))).sum) [j]).sum = f (j + 1) k := by
    simp
  rw [e1, Nat.add_assoc]
  congr 1
  rw [below, below, sum_add_levels]
  congr 1
  refine List.map_congr_left fun i hi => ?_
  rw [List.mem_range] at hi
  obtain ⟨m, hm⟩ : ∃ m, j = m + 1 + i := ⟨j - 1 - i, by omega⟩
  rw [show j + 1 - 1 - i = m + 1 by omega, show j - 1 - i = m by omega, pow_succ, Nat.mul_two,
    show k * (2 ^ m + 2 ^ m) = 2 * k * 2 ^ m by ring, show (2 * k + 1) * 2 ^ m = 2 * k * 2 ^ m + 2 ^ m by ring,
    ← List.range'_append_1, List.map_append, List.sum_append]

/-- Recursion over the blocks, as long as they prove nothing themselves. -/
theorem tiles_below {Q : Nat × Nat → Prop} {f : Nat → Nat → Nat} (h0 : ∀ k, Q (k, k + 1))
    (hf : ∀ j k, Q (k * 2 ^ (j + 1), (k + 1) * 2 ^ (j + 1)) ∨ 1 ≤ f (j + 1) k) :
    (j k : Nat) → ∃ I, Tiles (k * 2 ^ j) I ((k + 1) * 2 ^ j) ∧ (∀ p ∈ I, Q p) ∧ I.length ≤ 1 + below f j k
  | 0, k => ⟨[(k, k + 1)], by simp [Tiles], by simpa using h0 k, by simp⟩
  | j + 1, k => by
    rcases hf j k with h | h
    · have : 0 < 2 ^ (j + 1) := Nat.two_pow_pos _
      refine ⟨[(k * 2 ^ (j + 1), (k + 1) * 2 ^ (j + 1))], ⟨rfl, ?_, rfl⟩, by simpa using h, by simp⟩
      rw [Nat.add_mul, Nat.one_mul]
      omega
    · obtain ⟨I, i1, i2, i3⟩ := tiles_below h0 hf j (2 * k)
      obtain ⟨J, j1, j2, j3⟩ := tiles_below h0 hf j (2 * k + 1)
      refine ⟨I ++ J, ?_, ?_, ?_⟩
      · refine tiles_append (b := (2 * k + 1) * 2 ^ j) ?_ ?_
        · rwa [pow_succ, show k * (2 ^ j * 2) = 2 * k * 2 ^ j by ring]
        · rwa [pow_succ, show (k + 1) * (2 ^ j * 2) = (2 * k + 1 + 1) * 2 ^ j by ring]
      · intro p hp
        rcases List.mem_append.1 hp with hp | hp
        · exact i2 p hp
        · exact j2 p hp
      · rw [List.length_append, below_succ]
        omega

theorem not_meets_avoided {sets : List (List Nat)} {j k : Nat} (h : ¬ meetsAll sets j k = true) :
    Avoided sets (k * 2 ^ j, (k + 1) * 2 ^ j) := by
  rw [meetsAll_iff] at h
  simp only [AllMeet, not_forall, not_exists, not_and] at h
  obtain ⟨S, hS, h⟩ := h
  refine ⟨S, hS, fun x hx hx' => h x hx ?_⟩
  rw [Nat.div_eq_iff (Nat.two_pow_pos _)]
  simp only [Nat.add_mul, Nat.one_mul] at hx'
  omega

theorem sum_ite_filter (q : Nat → Bool) (g : Nat → Nat) : (l : List Nat) → (l.map fun k => if q k then g k else 0).sum = ((l.filter q).map g).sum
  | [] => rfl
  | a :: l => by
    have := sum_ite_filter q g l
    rw [List.map_cons, List.sum_cons, List.filter_cons, this]
    split
    · rw [List.map_cons, List.sum_cons]
    · omega

theorem below_top (q : Nat → Nat → Bool) (g : Nat → Nat → Nat) (t : Nat) : below (fun j k => if q j k then g j k else 0) t 0 =
    ((List.range (t - 0)).map fun i => (((List.range (2 ^ (t - (0 + 1 + i)))).filter (q (0 + 1 + i))).map (g (0 + 1 + i))).sum).sum := by
  rw [below, Nat.sub_zero]
  congr 1
  refine List.map_congr_left fun i _ => ?_
  rw [sum_ite_filter, Nat.zero_mul, ← List.range_eq_range', show 0 + 1 + i = i + 1 by omega, show t - (i + 1) = t - 1 - i by omega]

/-- Some certificate has at most one interval more than there are blocks to read. -/
theorem certificate_exists (sets : List (List Nat)) (t : Nat) : ∃ I, Certificate sets (2 ^ t) I ∧ I.length ≤ commonAbove sets t 0 + 1 := by
  obtain ⟨I, h1, h2, h3⟩ := tiles_below (Q := fun p => Avoided sets p ∨ p.2 = p.1 + 1 ∧ ∀ S ∈ sets, p.1 ∈ S)
    (f := fun j k => if meetsAll sets j k then 1 else 0)
    (fun k => by
      by_cases h : meetsAll sets 0 k = true
      · refine .inr ⟨rfl, fun S hS => ?_⟩
        obtain ⟨x, hx, hx'⟩ := meetsAll_iff.1 h S hS
        rw [pow_zero, Nat.div_one] at hx'
        exact hx' ▸ hx
      · have := not_meets_avoided h
        rw [pow_zero, Nat.mul_one, Nat.mul_one] at this
        exact .inl this)
    (fun j k => by
      by_cases h : meetsAll sets (j + 1) k = true
      · exact .inr (by simp [h])
      · exact .inl (.inl (not_meets_avoided h))) t 0
  rw [Nat.zero_mul, Nat.zero_add, Nat.one_mul] at h1
  refine ⟨I, ⟨h1, h2⟩, ?_⟩
  rw [below_top] at h3
  have e : commonAbove sets t 0 = ((List.range (t - 0)).map fun i =>
      (((List.range (2 ^ (t - (0 + 1 + i)))).filter (meetsAll sets (0 + 1 + i))).map fun _ => 1).sum).sum := by
    rw [commonAbove]
    congr 1
    refine List.map_congr_left fun i _ => ?_
    rw [commonCount, commonBlocks]
    simp
  rw [e]
  omega

theorem collapsed_block_mem {c : Bool × List Nat} {j k x : Nat} (h : Spec.collapsed c j k = true) (hx : x / 2 ^ j = k) : x ∈ c.2 := by
  rw [Spec.collapsed, Bool.and_eq_true, List.all_eq_true] at h
  have h1 := block_mem hx
  rw [Nat.add_mul, Nat.one_mul] at h1
  have := h.2 (x - k * 2 ^ j) (List.mem_range.2 (by omega))
  rw [decide_eq_true_eq, show k * 2 ^ j + (x - k * 2 ^ j) = x by omega] at this
  exact this

/-- The same with runs: a block that nobody reads consists of common elements. -/
theorem runCertificate_exists (cs : List (Bool × List Nat)) (t : Nat) :
    ∃ I, RunCertificate (cs.map Prod.snd) (2 ^ t) I ∧ I.length ≤ openAbove cs t 0 + 1 := by
  obtain ⟨I, h1, h2, h3⟩ := tiles_below
    (Q := fun p => Avoided (cs.map Prod.snd) p ∨ ∀ x, p.1 ≤ x → x < p.2 → ∀ S ∈ cs.map Prod.snd, x ∈ S)
    (f := fun j k => if meetsAll (cs.map Prod.snd) j k then openCount cs t j k else 0)
    (fun k => by
      by_cases h : meetsAll (cs.map Prod.snd) 0 k = true
      · refine .inr fun y h1 h2 S hS => ?_
        obtain ⟨x, hx, hx'⟩ := meetsAll_iff.1 h S hS
        rw [pow_zero, Nat.div_one] at hx'
        simp only at h1 h2
        rwa [show y = x by omega]
      · have := not_meets_avoided h
        rw [pow_zero, Nat.mul_one, Nat.mul_one] at this
        exact .inl this)
    (fun j k => by
      by_cases h : meetsAll (cs.map Prod.snd) (j + 1) k = true
      · simp only [h, if_true]
        by_cases ho : openCount cs t (j + 1) k = 0
        · refine .inl (.inr fun x h1 h2 S hS => ?_)
          obtain ⟨c, hc, rfl⟩ := List.mem_map.1 hS
          rw [openCount, List.countP_eq_zero] at ho
          have := ho c hc
          rw [exposed, List.all_eq_true] at this
          push Not at this
          obtain ⟨i, -, hi⟩ := this
          simp only [someCollapsed, List.any_cons, List.any_nil, Bool.or_false, ne_eq, Bool.not_eq_true', Bool.not_eq_false] at hi
          refine collapsed_block_mem hi ?_
          have hx : x / 2 ^ (j + 1) = k := by
            rw [Nat.div_eq_iff (Nat.two_pow_pos _)]
            simp only [Nat.add_mul, Nat.one_mul] at h1 h2
            omega
          rw [← hx, Nat.div_div_eq_div_mul, ← pow_add]
          congr 2
          omega
        · exact .inr (by omega)
      · exact .inl (.inl (not_meets_avoided h))) t 0
  rw [Nat.zero_mul, Nat.zero_add, Nat.one_mul] at h1
  refine ⟨I, ⟨h1, h2⟩, ?_⟩
  rw [below_top] at h3
  rw [Nat.add_comm]
  exact h3

end CBT
