import Verif.Proof.VisitedSets
import Verif.Proof.ShortLists

/-!
# How the result of a run-aware parallel call depends on the sets and on the number of threads
-/

namespace CBT

open Spec

/-! ## Only which sets there are matters -/

theorem any_members {α : Type} {l l' : List α} (h : ∀ a, a ∈ l ↔ a ∈ l') (p : α → Bool) : l.any p = l'.any p := by
  rw [Bool.eq_iff_iff, List.any_eq_true, List.any_eq_true]
  exact ⟨fun ⟨a, h1, h2⟩ => ⟨a, (h a).1 h1, h2⟩, fun ⟨a, h1, h2⟩ => ⟨a, (h a).2 h1, h2⟩⟩

theorem all_members {α : Type} {l l' : List α} (h : ∀ a, a ∈ l ↔ a ∈ l') (p : α → Bool) : l.all p = l'.all p := by
  rw [Bool.eq_iff_iff, List.all_eq_true, List.all_eq_true]
  exact ⟨fun H a ha => H a ((h a).2 ha), fun H a ha => H a ((h a).1 ha)⟩

/-- Neither the order of the tries nor how often each occurs matters. -/
theorem runsResult_members {cs cs' : List (Bool × List Nat)} (h : ∀ c, c ∈ cs ↔ c ∈ cs') (j cut : Nat) : runsResult cs j cut = runsResult cs' j cut := by
  have e1 : someCollapsed cs = someCollapsed cs' := funext fun i => funext fun k => any_members h _
  have e2 : allCollapsed cs = allCollapsed cs' := funext fun i => funext fun k => all_members h _
  have e3 : ∀ i k, meetsAll (cs.map Prod.snd) i k = meetsAll (cs'.map Prod.snd) i k := fun i k =>
    all_members (fun S => by simp only [List.mem_map, h]) _
  have e4 : exposed cs = exposed cs' := funext fun t => funext fun i => funext fun k => by rw [exposed, exposed, e1]
  have e5 : reached cs = reached cs' := funext fun t => funext fun i => funext fun k => by rw [reached, reached, e4, e3]
  have e6 : reported cs = reported cs' := funext fun t => funext fun i => funext fun k => by rw [reported, reported, e4, e2]
  have e7 : taskBlocks cs = taskBlocks cs' := funext fun i => funext fun c => by rw [taskBlocks, taskBlocks, e5]
  have e8 : isSplit cs = isSplit cs' := funext fun i => funext fun c => funext fun k => by
    rw [isSplit, isSplit, splitBlocks, splitBlocks, e7, show halvesReached cs = halvesReached cs' from
      funext fun t => funext fun i => funext fun k => by rw [halvesReached, halvesReached, e5]]
  rw [runsResult, runsResult, e6, e8, e2, e5]
  congr 1
  refine List.filter_congr fun x _ => ?_
  rw [all_members h]

/-! ## More sets, more threads -/

theorem runsResult_lt {cs : List (Bool × List Nat)} {j cut x : Nat} (h : x ∈ runsResult cs j cut) : x < 2 ^ (j + cut) := by
  simp only [runsResult, List.mem_append, List.mem_filter, List.mem_range] at h
  tauto

theorem uneven_add {cs ds : List (Bool × List Nat)} {t j x : Nat} (h : uneven cs t j x) : uneven (cs ++ ds) t j x := by
  obtain ⟨i, h1, h2, h3, h4⟩ := h
  refine ⟨i, h1, h2, someCollapsed_add h3, ?_⟩
  rw [← Bool.not_eq_true] at h4 ⊢
  intro H
  rw [allCollapsed, List.all_append, Bool.and_eq_true] at H
  exact h4 H.1

theorem uneven_anti {cs : List (Bool × List Nat)} {t j j' x : Nat} (hj : j' ≤ j) (h : uneven cs t j x) : uneven cs t j' x := by
  obtain ⟨i, h1, h2, h3⟩ := h
  exact ⟨i, Nat.le_trans hj h1, h2, h3⟩

/-- With more sets, nothing that was lost is found. -/
theorem runsResult_add {cs ds : List (Bool × List Nat)} {j cut x : Nat} (hj : 1 ≤ j) (h : x ∈ runsResult (cs ++ ds) j cut) : x ∈ runsResult cs j cut := by
  have hx := runsResult_lt h
  rw [mem_runsResult hj hx] at h ⊢
  obtain ⟨h1, h2⟩ := h
  refine ⟨fun c hc => h1 c (List.mem_append_left _ hc), fun hu => h2 ?_⟩
  cases hs' : isSplit (cs ++ ds) j cut (x / 2 ^ j) with
  | true =>
    rw [if_pos rfl]
    exact uneven_add (uneven_anti (by split <;> omega) hu)
  | false =>
    rw [hs'] at h2
    simp only [Bool.false_eq_true, if_false] at h2 ⊢
    obtain ⟨i, i1, i2, i3, i4⟩ := hu
    by_cases hi : j + 1 ≤ i
    · exact uneven_add ⟨i, hi, i2, i3, i4⟩
    · cases hs : isSplit cs j cut (x / 2 ^ j) with
      | false => rw [hs] at i1; simp only [Bool.false_eq_true, if_false] at i1; omega
      | true =>
        rw [hs, if_pos rfl] at i1
        obtain rfl : i = j := by omega
        refine absurd (isSplit_add (ds := ds) hs ?_) (by rw [hs']; decide)
        rw [reached_spec h1, exposed_spec]
        intro m m1 m2
        by_contra H
        have H : someCollapsed (cs ++ ds) m (x / 2 ^ m) = true := by simpa using H
        cases ha : allCollapsed (cs ++ ds) m (x / 2 ^ m) with
        | false => exact h2 ⟨m, m1, m2, H, ha⟩
        | true =>
          have := allCollapsed_mono (x := x) (Nat.le_of_lt m1) ha
          rw [allCollapsed, List.all_append, Bool.and_eq_true] at this
          rw [allCollapsed, this.1] at i4
          cases i4

/-- With more threads neither. -/
theorem runsResult_threads {cs : List (Bool × List Nat)} {j cut j' cut' x : Nat} (ht : j' + cut' = j + cut) (hc : cut ≤ cut') (hj : 1 ≤ j')
    (h : x ∈ runsResult cs j' cut') : x ∈ runsResult cs j cut := by
  rcases Nat.eq_or_lt_of_le hc with rfl | hc
  · rwa [show j = j' by omega]
  · have hx := runsResult_lt h
    rw [mem_runsResult hj hx] at h
    rw [ht] at hx
    rw [mem_runsResult (by omega) hx]
    refine ⟨h.1, fun hu => h.2 ?_⟩
    rw [ht]
    exact uneven_anti (by split <;> split <;> omega) hu

theorem runsResult_common {cs : List (Bool × List Nat)} {j cut x : Nat} (hj : 1 ≤ j) (h : x ∈ runsResult cs j cut) : ∀ c ∈ cs, x ∈ c.2 :=
  ((mem_runsResult hj (runsResult_lt h)).1 h).1

end CBT
