import Verif.Proof.CostRunsParSets
import Verif.Props.MoreSets
import Verif.Proof.WorkPlain

/-!
# How the blocks a run-aware parallel call visits depend on the sets

Order of the sets, more sets, and comparison with a sequential call.
-/

namespace CBT

open Spec

theorem visited_above_iff {cs : List (Bool × List Nat)} {J cut i k : Nat} : visited cs J cut i k = true ↔
    meetsAll (cs.map Prod.snd) i k = true ∧ ∀ m, i < m → m ≤ J + cut → early cs J cut m (k * 2 ^ i / 2 ^ m) = true →
      someCollapsed cs m (k * 2 ^ i / 2 ^ m) = false := by
  have := visited_spec (cs := cs) (J := J) (cut := cut) (i := i) (x := k * 2 ^ i)
  rwa [Nat.mul_div_cancel _ (Nat.two_pow_pos i)] at this

/-! ## Order -/

theorem someCollapsed_perm {cs cs' : List (Bool × List Nat)} (h : cs.Perm cs') (j k : Nat) : someCollapsed cs j k = someCollapsed cs' j k :=
  h.any_eq

theorem allCollapsed_perm {cs cs' : List (Bool × List Nat)} (h : cs.Perm cs') (j k : Nat) : allCollapsed cs j k = allCollapsed cs' j k :=
  h.all_eq

theorem meetsAll_perm {cs cs' : List (Bool × List Nat)} (h : cs.Perm cs') (j k : Nat) :
    meetsAll (cs.map Prod.snd) j k = meetsAll (cs'.map Prod.snd) j k := (h.map _).all_eq

theorem exposed_perm {cs cs' : List (Bool × List Nat)} (h : cs.Perm cs') (t j k : Nat) : exposed cs t j k = exposed cs' t j k := by
  rw [exposed, exposed, funext fun i => funext fun k => someCollapsed_perm h i k]

theorem reached_perm {cs cs' : List (Bool × List Nat)} (h : cs.Perm cs') (t j k : Nat) : reached cs t j k = reached cs' t j k := by
  rw [reached, reached, exposed_perm h, meetsAll_perm h]

theorem taskBlocks_perm {cs cs' : List (Bool × List Nat)} (h : cs.Perm cs') (j cut : Nat) : taskBlocks cs j cut = taskBlocks cs' j cut := by
  rw [taskBlocks, taskBlocks, show reached cs (j + cut) j = reached cs' (j + cut) j from funext fun k => reached_perm h _ j k]

theorem isSplit_perm {cs cs' : List (Bool × List Nat)} (h : cs.Perm cs') (j cut k : Nat) : isSplit cs j cut k = isSplit cs' j cut k := by
  rw [isSplit, isSplit, splitBlocks, splitBlocks, taskBlocks_perm h,
    show halvesReached cs (j + cut) (j - 1) = halvesReached cs' (j + cut) (j - 1) from
      funext fun k => by rw [halvesReached, halvesReached, reached_perm h, reached_perm h]]

theorem visited_perm {cs cs' : List (Bool × List Nat)} (h : cs.Perm cs') (J cut i : Nat) : visited cs J cut i = visited cs' J cut i := by
  funext k
  rw [visited, visited, meetsAll_perm h, isSplit_perm h]
  simp only [exposed_perm h]

theorem visitedAt_perm {cs cs' : List (Bool × List Nat)} (h : cs.Perm cs') (J cut i : Nat) : visitedAt cs J cut i = visitedAt cs' J cut i := by
  rw [visitedAt, visitedAt, visited_perm h, show openCount cs (J + cut) i = openCount cs' (J + cut) i from funext fun k => openCount_perm h _ i k]

theorem visitedForkAt_perm {cs cs' : List (Bool × List Nat)} (h : cs.Perm cs') (J cut i : Nat) :
    visitedForkAt cs J cut i = visitedForkAt cs' J cut i := by
  rw [visitedForkAt, visitedForkAt, visited_perm h, show (fun k => openCount cs (J + cut) (i - 1) (2 * k)) =
    fun k => openCount cs' (J + cut) (i - 1) (2 * k) from funext fun k => openCount_perm h _ _ _]

theorem visitedAbove_perm {cs cs' : List (Bool × List Nat)} (h : cs.Perm cs') (J cut b : Nat) : visitedAbove cs J cut b = visitedAbove cs' J cut b := by
  rw [visitedAbove, visitedAbove, show (fun i => visitedAt cs J cut (b + 1 + i)) = fun i => visitedAt cs' J cut (b + 1 + i) from
    funext fun i => visitedAt_perm h _ _ _]

theorem visitedForksAbove_perm {cs cs' : List (Bool × List Nat)} (h : cs.Perm cs') (J cut b : Nat) :
    visitedForksAbove cs J cut b = visitedForksAbove cs' J cut b := by
  rw [visitedForksAbove, visitedForksAbove, show (fun i => visitedForkAt cs J cut (b + 1 + i)) = fun i => visitedForkAt cs' J cut (b + 1 + i) from
    funext fun i => visitedForkAt_perm h _ _ _]

theorem runsResult_perm {cs cs' : List (Bool × List Nat)} (h : cs.Perm cs') (j cut : Nat) : runsResult cs j cut = runsResult cs' j cut := by
  have e1 : reported cs (j + cut) j = reported cs' (j + cut) j := by
    funext x
    rw [reported, reported, funext fun i => funext fun k => allCollapsed_perm h i k,
      funext fun i => funext fun k => exposed_perm h (j + cut) i k]
  have e2 : (fun x => cs.all fun c => decide (x ∈ c.2)) = fun x => cs'.all fun c => decide (x ∈ c.2) := funext fun x => h.all_eq
  rw [runsResult, runsResult, e1, funext fun k => isSplit_perm h j cut k, funext fun i => funext fun k => allCollapsed_perm h i k,
    funext fun i => funext fun k => reached_perm h (j + cut) i k]
  congr 1
  refine List.filter_congr fun x _ => ?_
  rw [congrFun e2 x]

/-! ## More sets -/

/-- Fewer tasks with fewer halves: what was replaced still is. -/
theorem replaced_sub {n : Nat} {f f' : Nat → Nat} (hf : ∀ k, f' k ≤ f k) {l l' : List Nat} (h : l'.Sublist l) : ∀ {c c' : Nat}, c' ≤ c → l.Nodup →
    ∀ q ∈ l', q ∈ l.take (replaced n (l.length + c) (l.map f)) → q ∈ l'.take (replaced n (l'.length + c') (l'.map f')) := by
  induction h with
  | slnil => intro c c' _ _ q hq; cases hq
  | @cons l' l a hs ih =>
    intro c c' hc hn q hq hm
    rw [List.map_cons, List.length_cons, replaced] at hm
    split at hm
    · rw [Nat.add_comm 1, List.take_succ_cons, List.mem_cons] at hm
      have ha : q ≠ a := by
        rintro rfl
        exact (List.nodup_cons.1 hn).1 (hs.subset hq)
      refine ih (c := c + f a) (c' := c') (by omega) (List.nodup_cons.1 hn).2 q hq ?_
      rw [show l.length + (c + f a) = l.length + 1 + c + f a - 1 by omega]
      exact hm.resolve_left ha
    · rw [List.take_zero] at hm; cases hm
  | @cons_cons l' l a hs ih =>
    intro c c' hc hn q hq hm
    have := hs.length_le
    have := hf a
    rw [List.map_cons, List.length_cons, replaced] at hm ⊢
    split at hm
    next hlt =>
      rw [if_pos (by omega), Nat.add_comm 1, List.take_succ_cons, List.mem_cons]
      rw [Nat.add_comm 1, List.take_succ_cons, List.mem_cons] at hm
      rcases hm with e | hm
      · exact .inl e
      · rcases List.mem_cons.1 hq with e | hq
        · exact .inl e
        · refine .inr ?_
          rw [show l'.length + 1 + c' + f' a - 1 = l'.length + (c' + f' a) by omega]
          refine ih (c := c + f a) (by omega) (List.nodup_cons.1 hn).2 q hq ?_
          rwa [show l.length + (c + f a) = l.length + 1 + c + f a - 1 by omega]
    next => rw [List.take_zero] at hm; cases hm

theorem someCollapsed_add {cs ds : List (Bool × List Nat)} {j k : Nat} (h : someCollapsed cs j k = true) : someCollapsed (cs ++ ds) j k = true := by
  rw [someCollapsed, List.any_append]
  simp only [someCollapsed] at h
  rw [h, Bool.true_or]

theorem meetsAll_add {cs ds : List (Bool × List Nat)} {j k : Nat} (h : meetsAll ((cs ++ ds).map Prod.snd) j k = true) :
    meetsAll (cs.map Prod.snd) j k = true := meetsAll_mono (sets_sub cs ds) h

theorem reached_add {cs ds : List (Bool × List Nat)} {t j k : Nat} (h : reached (cs ++ ds) t j k = true) : reached cs t j k = true := by
  simp only [reached, Bool.and_eq_true] at h ⊢
  refine ⟨?_, meetsAll_add h.2⟩
  have h1 := h.1
  simp only [exposed, List.all_eq_true, List.mem_range, Bool.not_eq_true'] at h1 ⊢
  intro i hi
  have := h1 i hi
  rw [← Bool.not_eq_true] at this ⊢
  exact fun H => this (someCollapsed_add H)

theorem halvesReached_add (cs ds : List (Bool × List Nat)) (t j k : Nat) : halvesReached (cs ++ ds) t j k ≤ halvesReached cs t j k := by
  have key : ∀ q, (if reached (cs ++ ds) t j q = true then 1 else 0) ≤ if reached cs t j q = true then 1 else 0 := by
    intro q
    by_cases h : reached (cs ++ ds) t j q = true
    · rw [if_pos h, if_pos (reached_add h)]
    · rw [if_neg h]; exact Nat.zero_le _
  exact Nat.add_le_add (key _) (key _)

theorem isSplit_add {cs ds : List (Bool × List Nat)} {j cut k : Nat} (h : isSplit cs j cut k = true) (hr : reached (cs ++ ds) (j + cut) j k = true) :
    isSplit (cs ++ ds) j cut k = true := by
  rw [isSplit, decide_eq_true_eq] at h ⊢
  have hk : k < 2 ^ cut := List.mem_range.1 (List.mem_filter.1 (List.mem_of_mem_take h)).1
  exact replaced_sub (c := 0) (c' := 0) (halvesReached_add cs ds (j + cut) (j - 1))
    (List.monotone_filter_right _ fun _ hk => reached_add hk) (Nat.le_refl _) (List.nodup_range.filter _) k
    (List.mem_filter.2 ⟨List.mem_range.2 hk, hr⟩) h

theorem meetsAll_bigger {sets : List (List Nat)} {i x m : Nat} (him : i ≤ m) (h : meetsAll sets i (x / 2 ^ i) = true) :
    meetsAll sets m (x / 2 ^ m) = true := by
  obtain ⟨d, rfl⟩ := Nat.exists_eq_add_of_le him
  refine meetsAll_iff.2 fun S hS => ?_
  obtain ⟨y, hy, e⟩ := meetsAll_iff.1 h S hS
  refine ⟨y, hy, ?_⟩
  rw [Nat.pow_add, ← Nat.div_div_eq_div_mul, ← Nat.div_div_eq_div_mul, e]

/-- With more sets, nothing more is visited. -/
theorem visited_add {cs ds : List (Bool × List Nat)} {J cut i k : Nat} (h : visited (cs ++ ds) J cut i k = true) : visited cs J cut i k = true := by
  rw [visited_above_iff] at h ⊢
  obtain ⟨h1, h2⟩ := h
  refine ⟨meetsAll_add h1, fun m hi hm he => ?_⟩
  have h0 : early (cs ++ ds) J cut m (k * 2 ^ i / 2 ^ m) = true → someCollapsed cs m (k * 2 ^ i / 2 ^ m) = false := by
    intro he'
    have := h2 m hi hm he'
    rw [← Bool.not_eq_true] at this ⊢
    exact fun H => this (someCollapsed_add H)
  have h1' : meetsAll ((cs ++ ds).map Prod.snd) i (k * 2 ^ i / 2 ^ i) = true := by rwa [Nat.mul_div_cancel _ (Nat.two_pow_pos i)]
  simp only [early, Bool.or_eq_true, Bool.and_eq_true, decide_eq_true_eq] at he
  rcases he with he | ⟨rfl, he⟩
  · exact h0 (by simp [early, he])
  · refine h0 ?_
    rw [early, isSplit_add he]
    · simp
    · rw [reached, Bool.and_eq_true]
      exact ⟨exposed_spec.2 fun m' g1 g2 => h2 m' (by omega) g2 (by simp [early, g1]), meetsAll_bigger (by omega) h1'⟩

theorem visited_meets {cs : List (Bool × List Nat)} {J cut i k : Nat} (h : visited cs J cut i k = true) : meetsAll (cs.map Prod.snd) i k = true :=
  (visited_above_iff.1 h).1

theorem visitedBlocks_sublist (cs : List (Bool × List Nat)) (J cut i : Nat) :
    ((List.range (2 ^ (J + cut - i))).filter (visited cs J cut i)).Sublist (commonBlocks (cs.map Prod.snd) i (J + cut - i)) :=
  List.monotone_filter_right _ fun _ => visited_meets

theorem visitedAt_add (cs ds : List (Bool × List Nat)) (J cut i : Nat) :
    visitedAt (cs ++ ds) J cut i ≤ visitedAt cs J cut i + ds.length * commonCount ((cs ++ ds).map Prod.snd) (J + cut) i := by
  have h1 := sum_levels_le (f := openCount (cs ++ ds) (J + cut) i) (g := fun k => openCount cs (J + cut) i k + ds.length)
    (openCount_add cs ds (J + cut) i) ((List.range (2 ^ (J + cut - i))).filter (visited (cs ++ ds) J cut i))
  rw [sum_add_const] at h1
  have h2 := sum_sublist_le (f := openCount cs (J + cut) i) (List.monotone_filter_right (List.range (2 ^ (J + cut - i)))
    (fun k => visited_add (cs := cs) (ds := ds) (J := J) (cut := cut) (i := i) (k := k)))
  have h3 := Nat.mul_le_mul_left ds.length (visitedBlocks_sublist (cs ++ ds) J cut i).length_le
  rw [visitedAt, visitedAt, commonCount]
  omega

theorem visitedForks_sublist (cs : List (Bool × List Nat)) (J cut i : Nat) (hi : 0 < i) :
    ((List.range (2 ^ (J + cut - i))).filter fun k => visited cs J cut (i - 1) (2 * k) || visited cs J cut (i - 1) (2 * k + 1)).Sublist
      ((commonBlocks (cs.map Prod.snd) i (J + cut - i)).filter fun k => decide (commonHalves (cs.map Prod.snd) (i - 1) k ≠ 0)) := by
  rw [commonBlocks, List.filter_filter]
  refine List.monotone_filter_right _ fun k hk => ?_
  rw [Bool.or_eq_true] at hk
  rw [Bool.and_eq_true, decide_eq_true_eq]
  obtain ⟨i, rfl⟩ : ∃ e, i = e + 1 := ⟨i - 1, by omega⟩
  rw [Nat.add_sub_cancel] at hk ⊢
  rcases hk with hk | hk
  · have := visited_meets hk
    exact ⟨by rw [commonHalves, if_pos this]; omega, meetsAll_up (.inl rfl) this⟩
  · have := visited_meets hk
    exact ⟨by rw [commonHalves, if_pos this]; omega, meetsAll_up (.inr rfl) this⟩

theorem visitedForkAt_add (cs ds : List (Bool × List Nat)) (J cut i : Nat) (hi : 0 < i) :
    visitedForkAt (cs ++ ds) J cut i ≤ visitedForkAt cs J cut i + ds.length * forkCount ((cs ++ ds).map Prod.snd) (J + cut) i := by
  have h1 := sum_levels_le (f := fun k => openCount (cs ++ ds) (J + cut) (i - 1) (2 * k))
    (g := fun k => openCount cs (J + cut) (i - 1) (2 * k) + ds.length) (fun k => openCount_add cs ds (J + cut) (i - 1) (2 * k))
    ((List.range (2 ^ (J + cut - i))).filter fun k => visited (cs ++ ds) J cut (i - 1) (2 * k) || visited (cs ++ ds) J cut (i - 1) (2 * k + 1))
  rw [sum_add_const (fun k => openCount cs (J + cut) (i - 1) (2 * k))] at h1
  have h2 := sum_sublist_le (f := fun k => openCount cs (J + cut) (i - 1) (2 * k)) (List.monotone_filter_right (List.range (2 ^ (J + cut - i)))
    (p := fun k => visited (cs ++ ds) J cut (i - 1) (2 * k) || visited (cs ++ ds) J cut (i - 1) (2 * k + 1))
    (q := fun k => visited cs J cut (i - 1) (2 * k) || visited cs J cut (i - 1) (2 * k + 1)) fun k hk => by
      rw [Bool.or_eq_true] at hk ⊢
      exact hk.imp visited_add visited_add)
  have h3 := Nat.mul_le_mul_left ds.length (visitedForks_sublist (cs ++ ds) J cut i hi).length_le
  rw [visitedForkAt, visitedForkAt, forkCount]
  omega

theorem visitedAbove_add (cs ds : List (Bool × List Nat)) (J cut b : Nat) :
    visitedAbove (cs ++ ds) J cut b ≤ visitedAbove cs J cut b + ds.length * commonAbove ((cs ++ ds).map Prod.snd) (J + cut) b :=
  sum_levels_add (fun i => visitedAt_add cs ds J cut (b + 1 + i)) _

theorem visitedForksAbove_add (cs ds : List (Bool × List Nat)) (J cut b : Nat) :
    visitedForksAbove (cs ++ ds) J cut b ≤ visitedForksAbove cs J cut b + ds.length * forksAbove ((cs ++ ds).map Prod.snd) (J + cut) b :=
  sum_levels_add (fun i => visitedForkAt_add cs ds J cut (b + 1 + i) (by omega)) _

/-! ## Comparison with sequential calls -/

theorem openCount_zero {cs : List (Bool × List Nat)} {t i m x : Nat} (him : i < m) (hm : m ≤ t) (h : allCollapsed cs m (x / 2 ^ m) = true) :
    openCount cs t i (x / 2 ^ i) = 0 := by
  rw [openCount, List.countP_eq_zero]
  intro c hc H
  have := exposed_spec.1 H m him hm
  simp only [someCollapsed, List.any_cons, List.any_nil, Bool.or_false] at this
  rw [allCollapsed, List.all_eq_true] at h
  rw [h c hc] at this
  cases this

/-- Blocks that are dealt with early are uneven, or no trie is open below. -/
theorem visited_even {cs : List (Bool × List Nat)} {J cut i k : Nat} (hu : ¬ ∃ x, x < 2 ^ (J + cut) ∧ uneven cs (J + cut) J x) (hk : k < 2 ^ (J + cut - i))
    (h : meetsAll (cs.map Prod.snd) i k = true) : visited cs J cut i k = true ∨ openCount cs (J + cut) i k = 0 := by
  by_cases hv : visited cs J cut i k = true
  · exact .inl hv
  · refine .inr ?_
    rw [visited_above_iff] at hv
    simp only [h, true_and] at hv
    push Not at hv
    obtain ⟨m, h1, h2, h3, h4⟩ := hv
    have h4 : someCollapsed cs m (k * 2 ^ i / 2 ^ m) = true := by simpa using h4
    have hJ : J ≤ m := by
      simp only [early, Bool.or_eq_true, Bool.and_eq_true, decide_eq_true_eq] at h3
      omega
    have hx : k * 2 ^ i < 2 ^ (J + cut) := by
      rw [show J + cut = J + cut - i + i by omega, Nat.pow_add]
      exact (Nat.mul_lt_mul_right (Nat.two_pow_pos i)).2 hk
    have h5 : allCollapsed cs m (k * 2 ^ i / 2 ^ m) = true := by
      by_contra h5
      exact hu ⟨k * 2 ^ i, hx, m, hJ, h2, h4, by simpa using h5⟩
    have := openCount_zero (i := i) h1 h2 h5
    rwa [Nat.mul_div_cancel _ (Nat.two_pow_pos i)] at this

theorem sum_filter_eq {f : Nat → Nat} {p q : Nat → Bool} (hpq : ∀ k, p k = true → q k = true) : (l : List Nat) →
    (∀ k ∈ l, q k = true → p k = true ∨ f k = 0) → ((l.filter p).map f).sum = ((l.filter q).map f).sum
  | [], _ => rfl
  | a :: l, h => by
    have ih := sum_filter_eq hpq l fun k hk => h k (List.mem_cons_of_mem _ hk)
    by_cases hp : p a = true
    · rw [List.filter_cons_of_pos hp, List.filter_cons_of_pos (hpq a hp), List.map_cons, List.map_cons, List.sum_cons, List.sum_cons, ih]
    · rw [List.filter_cons_of_neg hp, ih]
      by_cases hq : q a = true
      · rw [List.filter_cons_of_pos hq, List.map_cons, List.sum_cons, (h a List.mem_cons_self hq).resolve_left hp, Nat.zero_add]
      · rw [List.filter_cons_of_neg hq]

theorem visitedAt_even {cs : List (Bool × List Nat)} {J cut : Nat} (hu : ¬ ∃ x, x < 2 ^ (J + cut) ∧ uneven cs (J + cut) J x) (i : Nat) :
    visitedAt cs J cut i = openAt cs (J + cut) i := by
  rw [visitedAt, openAt, commonBlocks]
  exact sum_filter_eq (fun _ => visited_meets) _ fun k hk h => visited_even hu (List.mem_range.1 hk) h

theorem visitedForkAt_even {cs : List (Bool × List Nat)} {J cut : Nat} (hu : ¬ ∃ x, x < 2 ^ (J + cut) ∧ uneven cs (J + cut) J x) (i : Nat)
    (hi : 0 < i) (hit : i ≤ J + cut) : visitedForkAt cs J cut i = openForkAt cs (J + cut) i := by
  obtain ⟨i, rfl⟩ : ∃ e, i = e + 1 := ⟨i - 1, by omega⟩
  rw [visitedForkAt, openForkAt, commonBlocks, List.filter_filter, Nat.add_sub_cancel]
  have hop : ∀ k, openCount cs (J + cut) i (2 * k + 1) = openCount cs (J + cut) i (2 * k) := by
    intro k
    have key : ∀ c, exposed [c] (J + cut) i (2 * k + 1) = exposed [c] (J + cut) i (2 * k) := by
      intro c
      have : ∀ m, (2 * k + 1) / 2 ^ (m + 1) = 2 * k / 2 ^ (m + 1) := by
        intro m
        rw [Nat.pow_succ, Nat.mul_comm (2 ^ m), ← Nat.div_div_eq_div_mul, ← Nat.div_div_eq_div_mul, show (2 * k + 1) / 2 = k by omega,
          show 2 * k / 2 = k by omega]
      simp only [exposed, this]
    rw [openCount, openCount, funext key]
  refine sum_filter_eq (fun k hk => ?_) _ fun k hk h => ?_
  · rw [Bool.or_eq_true] at hk
    rw [Bool.and_eq_true, decide_eq_true_eq]
    rcases hk with hk | hk
    · have := visited_meets hk
      exact ⟨by rw [commonHalves, if_pos this]; omega, meetsAll_up (.inl rfl) this⟩
    · have := visited_meets hk
      exact ⟨by rw [commonHalves, if_pos this]; omega, meetsAll_up (.inr rfl) this⟩
  · rw [Bool.and_eq_true, decide_eq_true_eq] at h
    have hk := List.mem_range.1 hk
    have hp : 2 ^ (J + cut - i) = 2 * 2 ^ (J + cut - (i + 1)) := by rw [show J + cut - i = J + cut - (i + 1) + 1 by omega, Nat.pow_succ]; omega
    by_cases h1 : meetsAll (cs.map Prod.snd) i (2 * k) = true
    · rcases visited_even hu (by omega) h1 with h | h
      · exact .inl (by rw [h, Bool.true_or])
      · exact .inr h
    · by_cases h2 : meetsAll (cs.map Prod.snd) i (2 * k + 1) = true
      · rcases visited_even hu (by omega) h2 with h | h
        · exact .inl (by rw [h, Bool.or_true])
        · exact .inr (by rw [← hop, h])
      · exact (h.1 (by rw [commonHalves, if_neg h1, if_neg h2])).elim

theorem visitedAbove_even {cs : List (Bool × List Nat)} {J cut : Nat} (hu : ¬ ∃ x, x < 2 ^ (J + cut) ∧ uneven cs (J + cut) J x) (b : Nat) :
    visitedAbove cs J cut b = openAbove cs (J + cut) b := by
  rw [visitedAbove, openAbove, show (fun i => visitedAt cs J cut (b + 1 + i)) = fun i => openAt cs (J + cut) (b + 1 + i) from
    funext fun i => visitedAt_even hu _]

theorem visitedForksAbove_even {cs : List (Bool × List Nat)} {J cut : Nat} (hu : ¬ ∃ x, x < 2 ^ (J + cut) ∧ uneven cs (J + cut) J x) (b : Nat) :
    visitedForksAbove cs J cut b = openForksAbove cs (J + cut) b := by
  rw [visitedForksAbove, openForksAbove]
  congr 1
  refine List.map_congr_left fun i hi => visitedForkAt_even hu _ (by omega) ?_
  have := List.mem_range.1 hi
  omega

theorem visitedAbove_zero (cs : List (Bool × List Nat)) (J cut : Nat) (h : 0 < J + cut) :
    visitedAbove cs J cut 0 = visitedAbove cs J cut 1 + visitedAt cs J cut 1 := by
  obtain ⟨t, ht⟩ : ∃ t, J + cut = t + 1 := ⟨J + cut - 1, by omega⟩
  rw [visitedAbove, visitedAbove, ht, Nat.add_sub_cancel, Nat.sub_zero, List.range_succ_eq_map, List.map_cons, List.sum_cons, List.map_map,
    Nat.add_comm]
  congr 2
  refine List.map_congr_left fun i _ => ?_
  simp only [Function.comp_apply, Nat.succ_eq_add_one]
  congr 1
  omega

end CBT
