import Verif.Proof.Adaptive
import Verif.Proof.Built
import Verif.Proof.Count
import Verif.SpecSpace

/-!
# The size of tries in terms of blocks and runs
-/

namespace CBT

open Spec

/-! ## Counting the nodes of a tree -/

/-- The nodes above the leaves. -/
def nodesOf : (d : Nat) → Tr d → Nat
  | 0, _ => 0
  | d + 1, t => 1 + (t.l.elim 0 (nodesOf d)) + (t.r.elim 0 (nodesOf d))

theorem kids_nodesOf {d : Nat} (f : List (Tr (d + 1))) :
    f.length + ((kids f).map (nodesOf d)).sum = (f.map (nodesOf (d + 1))).sum := by
  induction f with
  | nil => rfl
  | cons t f ih =>
    rw [kids_cons, List.map_append, List.sum_append, List.map_cons, List.sum_cons, List.length_cons, ← ih, nodesOf, kidsOf]
    cases t.l <;> cases t.r <;> simp <;> omega

theorem length_flatBits_nodesOf : (d : Nat) → (f : List (Tr d)) → (flatBits d f).length = 2 * (f.map (nodesOf d)).sum
  | 0, f => by
    have : f.map (nodesOf 0) = f.map fun _ => 0 := rfl
    rw [this]
    simp [flatBits]
  | d + 1, f => by
    rw [flatBits, List.length_append, length_bitsOf, length_flatBits_nodesOf d (kids f), ← kids_nodesOf]
    omega

/-- Counts the leaves. -/
def leafCost (n : Nat) : Cost := ⟨0 * n, 0 * n, 1 * n⟩

theorem treeCostR_single : (d : Nat) → (t : Tr d) →
    (treeCostR leafCost d [t]).nodes = nodesOf d t ∧ (treeCostR leafCost d [t]).words = (leaves d [t]).length
  | 0, t => ⟨rfl, rfl⟩
  | d + 1, t => by
    have hn := treeCostR_nil (lc := leafCost) rfl d
    rw [treeCostR, nodesOf, leaves_single]
    cases hl : t.l with
    | none =>
      cases hr : t.r with
      | none => simp [inner, allL, allR, lefts, rights, Tr.bare, hl, hr, Cost.add, Cost.zero, hn]
      | some r =>
        obtain ⟨h1, h2⟩ := treeCostR_single d r
        simp [inner, allL, allR, rights, Tr.bare, hl, hr, Cost.add, Cost.zero, h1, h2]
    | some l =>
      obtain ⟨h1, h2⟩ := treeCostR_single d l
      cases hr : t.r with
      | none => simp [inner, allL, allR, lefts, Tr.bare, hl, hr, Cost.add, Cost.zero, h1, h2]
      | some r =>
        obtain ⟨h3, h4⟩ := treeCostR_single d r
        simp [inner, allL, allR, lefts, rights, Tr.bare, hl, hr, Cost.add, h1, h2, h3, h4]

/-! ## Blocks -/

theorem storedAt_eq (runs : Bool) (S : List Nat) (t j : Nat) : storedAt runs S t j = openAt [(runs, S)] t j := by
  have h : ∀ (p q : Nat → Bool) (l : List Nat),
      (l.filter fun k => p k && q k).length = ((l.filter p).map fun k => if q k then 1 else 0).sum := by
    intro p q l
    induction l with
    | nil => rfl
    | cons a l ih =>
      rw [List.filter_cons, List.filter_cons]
      cases hp : p a <;> cases hq : q a <;> simp [ih, hq, Nat.add_comm]
  rw [storedAt, h, openAt, commonBlocks]
  have e1 : (meetsAll ([(runs, S)].map Prod.snd) j) = fun k => S.any fun x => decide (x / 2 ^ j = k) := by
    funext k
    simp [meetsAll]
  rw [e1]
  congr 1
  refine List.map_congr_left fun k _ => ?_
  rw [openCount, List.countP_cons, List.countP_nil, Nat.zero_add]
  congr 2
  simp only [exposed, someCollapsed, Spec.collapsed, List.any_cons, List.any_nil, Bool.or_false]
  cases runs
  · simp
  · simp [List.not_any_eq_all_not]

theorem storedAbove_eq (runs : Bool) (S : List Nat) (t b : Nat) : storedAbove runs S t b = openAbove [(runs, S)] t b := by
  rw [storedAbove, openAbove]
  congr 1
  exact List.map_congr_left fun i _ => storedAt_eq runs S t _

theorem storedAbove_zero (runs : Bool) (S : List Nat) (d : Nat) :
    storedAbove runs S (d + 1) 0 = storedAbove runs S (d + 1) 1 + storedAt runs S (d + 1) 1 := above_zero (storedAt runs S (d + 1)) d

/-- The encoded size of the tree of a set. -/
theorem CTree.size {b d : Nat} {runs : Bool} {S : List Nat} {t : Tr d} (h : CTree b d (runs, S) t) :
    (flatBits d [t]).length = 2 * storedAbove runs S (d + b) b ∧ (leaves d [t]).length = storedAt runs S (d + b) b := by
  obtain ⟨h1, h2⟩ := treeCostR_single d t
  have h3 := treeCostR_sets (cs := [(runs, S)]) (.cons h .nil) (by simp) ⟨0, 0, 1⟩
  rw [show treeCostR leafCost d [t] = _ from h3] at h1 h2
  simp only [Nat.zero_mul, Nat.one_mul, Nat.add_zero] at h1 h2
  rw [length_flatBits_nodesOf, storedAbove_eq, storedAt_eq, h1, ← h2]
  simp

theorem storedAt_le (runs : Bool) (S : List Nat) (t j : Nat) : storedAt runs S t j ≤ S.length ∧ storedAt runs S t j ≤ 2 ^ (t - j) := by
  have := openAt_le [(runs, S)] t j
  rw [storedAt_eq]
  simp only [List.length_singleton, Nat.one_mul, List.map_cons, List.map_nil] at this
  exact ⟨Nat.le_trans this (commonCount_le (by simp) t j), Nat.le_trans this (commonCount_le_pow _ t j)⟩

theorem storedAbove_le {S : List Nat} (hne : S ≠ []) (runs : Bool) (t b : Nat) : storedAbove runs S t b ≤ treePart S.length (t - b) := by
  refine sum_levels (by simpa using hne) _ _ fun i hi => ?_
  have := storedAt_le runs S t (b + 1 + i)
  rw [show t - (b + 1 + i) = t - b - 1 - i by omega] at this
  exact ⟨this.2, this.1⟩

theorem storedAbove_certificate {S : List Nat} {t : Nat} {I : List (Nat × Nat)} (h : RunCertificate [S] (2 ^ t) I) (b : Nat) :
    storedAbove true S t b ≤ treePart (2 * I.length) (t - b) := by
  have := openAbove_certificate (cs := [(true, S)]) (by simp) h b
  rwa [List.length_singleton, Nat.one_mul, ← storedAbove_eq] at this

theorem storedAt_certificate {S : List Nat} {t j : Nat} {I : List (Nat × Nat)} (h : RunCertificate [S] (2 ^ t) I) (hj : j ≤ t) :
    storedAt true S t j ≤ 2 * I.length := by
  have := openAt_certificate (cs := [(true, S)]) (by simp) h hj
  rwa [List.length_singleton, Nat.one_mul, ← storedAt_eq] at this

/-! ## Runs -/

/-- The starts of runs below `u`. -/
def startsBelow (S : List Nat) (u : Nat) : Nat := ((List.range u).filter fun x => decide (x ∈ S ∧ (x = 0 ∨ x - 1 ∉ S))).length

theorem startsBelow_le (S : List Nat) (u : Nat) : startsBelow S u ≤ runCount S := by
  refine (List.Nodup.subperm (List.Nodup.filter _ List.nodup_range) fun x hx => ?_).length_le
  have := (List.mem_filter.1 hx).2
  rw [decide_eq_true_eq] at this
  exact List.mem_filter.2 ⟨this.1, by rw [decide_eq_true_eq]; exact this.2⟩

theorem startsBelow_succ (S : List Nat) (u : Nat) :
    startsBelow S (u + 1) = startsBelow S u + if u ∈ S ∧ (u = 0 ∨ u - 1 ∉ S) then 1 else 0 := by
  rw [startsBelow, List.range_succ, List.filter_append, List.length_append, startsBelow]
  congr 1
  by_cases h : u ∈ S ∧ (u = 0 ∨ u - 1 ∉ S) <;> simp [h]

theorem tiles_snoc {q : Nat × Nat} (hq : q.1 < q.2) : (a : Nat) → (I : List (Nat × Nat)) → Tiles a I q.1 → Tiles a (I ++ [q]) q.2
  | _, [], h => ⟨h.symm, hq, rfl⟩
  | _, _ :: I, h => ⟨h.1, h.2.1, tiles_snoc hq _ I h.2.2⟩

theorem tiles_extend {c : Nat} {q : Nat × Nat} (hc : q.2 < c) : (a : Nat) → (I : List (Nat × Nat)) → Tiles a (I ++ [q]) q.2 →
    Tiles a (I ++ [(q.1, c)]) c
  | _, [], h => ⟨h.1, Nat.lt_trans h.2.1 hc, rfl⟩
  | _, _ :: I, h => ⟨h.1, h.2.1, tiles_extend hc _ I h.2.2⟩

/-- All numbers of the interval are elements, or none is. -/
def Uniform (S : List Nat) (p : Nat × Nat) : Prop := (∀ x, p.1 ≤ x → x < p.2 → x ∉ S) ∨ ∀ x, p.1 ≤ x → x < p.2 → x ∈ S

/-- The universe cut where the runs begin and end. -/
theorem cut_runs (S : List Nat) : (u : Nat) → ∃ I q, Tiles 0 (I ++ [q]) (u + 1) ∧ q.2 = u + 1 ∧ q.1 ≤ u ∧ (∀ p ∈ I ++ [q], Uniform S p) ∧
    (I ++ [q]).length ≤ 2 * startsBelow S (u + 1) + if u ∈ S then 0 else 1
  | 0 => by
    refine ⟨[], (0, 1), ⟨rfl, by simp, rfl⟩, rfl, Nat.le_refl _, ?_, ?_⟩
    · intro p hp
      obtain rfl : p = (0, 1) := by simpa using hp
      by_cases h : 0 ∈ S
      · exact .inr fun x _ h2 => by obtain rfl : x = 0 := by simpa using h2
                                    exact h
      · exact .inl fun x _ h2 => by obtain rfl : x = 0 := by simpa using h2
                                    exact h
    · rw [startsBelow_succ]
      by_cases h : 0 ∈ S
      · simp [h]
        omega
      · simp [h]
  | u + 1 => by
    obtain ⟨I, q, h1, h2, h3, h4, h5⟩ := cut_runs S u
    rw [startsBelow_succ]
    by_cases hs : u ∈ S ↔ u + 1 ∈ S
    · refine ⟨I, (q.1, u + 2), tiles_extend (by omega) 0 I (by rwa [h2]), rfl, by simp only []; omega, ?_, ?_⟩
      · intro p hp
        rcases List.mem_append.1 hp with hp | hp
        · exact h4 p (by simp [hp])
        · obtain rfl : p = (q.1, u + 2) := by simpa using hp
          rcases h4 q (by simp) with hq | hq
          · refine .inl fun x hx hx' => ?_
            rcases Nat.lt_or_ge x (u + 1) with hlt | hge
            · exact hq x hx (by omega)
            · obtain rfl : x = u + 1 := by simp only [] at hx'; omega
              exact fun h => hq u h3 (by omega) (hs.2 h)
          · refine .inr fun x hx hx' => ?_
            rcases Nat.lt_or_ge x (u + 1) with hlt | hge
            · exact hq x hx (by omega)
            · obtain rfl : x = u + 1 := by simp only [] at hx'; omega
              exact hs.1 (hq u h3 (by omega))
      · rw [List.length_append, List.length_singleton] at h5 ⊢
        simp only [hs] at h5
        omega
    · refine ⟨I ++ [q], (u + 1, u + 2), tiles_snoc (by simp) 0 _ h1, rfl, Nat.le_refl _, ?_, ?_⟩
      · intro p hp
        rcases List.mem_append.1 hp with hp | hp
        · exact h4 p hp
        · obtain rfl : p = (u + 1, u + 2) := by simpa using hp
          have e : ∀ x, u + 1 ≤ x → x < u + 2 → x = u + 1 := fun x _ _ => by omega
          by_cases h : u + 1 ∈ S
          · exact .inr fun x hx hx' => e x hx hx' ▸ h
          · exact .inl fun x hx hx' => e x hx hx' ▸ h
      · rw [List.length_append, List.length_singleton]
        by_cases h : u + 1 ∈ S
        · have h' : u ∉ S := fun h' => hs ⟨fun _ => h, fun _ => h'⟩
          simp only [h, h', if_false, if_true, Nat.add_sub_cancel, not_false_eq_true, or_true, and_self] at h5 ⊢
          omega
        · have h' : u ∈ S := by
            by_contra h'
            exact hs ⟨fun x => (h' x).elim, fun x => (h x).elim⟩
          simp only [h, h', if_false, if_true, false_and] at h5 ⊢
          omega

/-- `r` runs cut the universe into at most `2r + 1` intervals. -/
theorem runCertificate_runs (S : List Nat) (t : Nat) : ∃ I, RunCertificate [S] (2 ^ t) I ∧ I.length ≤ 2 * runCount S + 1 := by
  obtain ⟨I, q, h1, -, -, h2, h3⟩ := cut_runs S (2 ^ t - 1)
  have := Nat.two_pow_pos t
  rw [show 2 ^ t - 1 + 1 = 2 ^ t by omega] at h1 h3
  have h4 := startsBelow_le S (2 ^ t)
  refine ⟨_, ⟨h1, fun p hp => ?_⟩, ?_⟩
  · rcases h2 p hp with h | h
    · exact .inl ⟨S, by simp, fun x hx hp' => h x hp'.1 hp'.2 hx⟩
    · exact .inr fun x h5 h6 S' hS' => by
        obtain rfl : S' = S := by simpa using hS'
        exact h x h5 h6
  · split at h3 <;> omega

theorem storedAt_runs (S : List Nat) {t j : Nat} (hj : j ≤ t) : storedAt true S t j ≤ 2 * (2 * runCount S + 1) := by
  obtain ⟨I, h1, h2⟩ := runCertificate_runs S t
  have := storedAt_certificate h1 hj
  omega

theorem storedAbove_runs (S : List Nat) (t b : Nat) : storedAbove true S t b ≤ treePart (2 * (2 * runCount S + 1)) (t - b) := by
  refine sum_levels (by omega) _ _ fun i hi => ?_
  have := (storedAt_le true S t (b + 1 + i)).2
  rw [show t - (b + 1 + i) = t - b - 1 - i by omega] at this
  exact ⟨this, storedAt_runs S (by omega)⟩

/-- Every run needs an interval of its own. -/
theorem runCount_le {S : List Nat} {t : Nat} (hs : S.Pairwise (· < ·)) (hb : ∀ x ∈ S, x < 2 ^ t) {I : List (Nat × Nat)}
    (h : RunCertificate [S] (2 ^ t) I) : runCount S ≤ I.length := by
  rw [← List.length_map (as := I) Prod.fst]
  have hn : S.Nodup := hs.imp fun h => Nat.ne_of_lt h
  refine (List.Nodup.subperm (List.Nodup.filter _ hn) fun x hx => ?_).length_le
  obtain ⟨hx, hx'⟩ := List.mem_filter.1 hx
  rw [decide_eq_true_eq] at hx'
  obtain ⟨p, hp, h1, h2⟩ := tiles_covers h.tiles x (Nat.zero_le x) (hb x hx)
  rcases h.proves p hp with ⟨S', hS', hav⟩ | hall
  · obtain rfl : S' = S := by simpa using hS'
    exact (hav x hx ⟨h1, h2⟩).elim
  · refine List.mem_map.2 ⟨p, hp, ?_⟩
    by_contra hne
    have := hall (x - 1) (by omega) (by omega) S (by simp)
    rcases hx' with h0 | h0
    · omega
    · exact h0 this

theorem runCount_le_stored {S : List Nat} {t : Nat} (hs : S.Pairwise (· < ·)) (hb : ∀ x ∈ S, x < 2 ^ t) (runs : Bool) :
    runCount S ≤ storedAbove runs S t 0 + 1 := by
  obtain ⟨I, h1, h2⟩ := runCertificate_exists [(runs, S)] t
  rw [← storedAbove_eq] at h2
  exact Nat.le_trans (runCount_le hs hb h1) h2

end CBT
