import Mathlib.Tactic.Common
import Verif.Model.BarbayKenyon
import Verif.Proof.FlatCollapse

/-! # Lemmas on the Barbay-Kenyon intersection -/

namespace CBT

theorem vGet_of_lt {α : Type} {v : List α} {i : Nat} (h : i < v.length) : vGet v i = .ok v[i] := by
  simp [vGet, List.getElem?_eq_getElem h]

theorem vGet_ok {α : Type} {v : List α} {i : Nat} {x : α} (h : vGet v i = .ok x) : ∃ h' : i < v.length, v[i] = x := by
  unfold vGet at h
  split at h
  · rename_i y e
    obtain ⟨h', e'⟩ := List.getElem?_eq_some_iff.mp e
    exact ⟨h', by rw [e']; injection h⟩
  · exact absurd h (by simp)

theorem inc_lt {a : List Nat} (ha : a.Pairwise (· < ·)) {i j : Nat} (hj : j < a.length) (h : i < j) :
    a[i]'(by omega) < a[j] := List.pairwise_iff_getElem.mp ha i j (by omega) hj h

theorem inc_le {a : List Nat} (ha : a.Pairwise (· < ·)) {i j : Nat} (hj : j < a.length) (h : i ≤ j) :
    a[i]'(by omega) ≤ a[j] := by
  rcases Nat.lt_or_eq_of_le h with h | h
  · exact Nat.le_of_lt (inc_lt ha hj h)
  · subst h; exact Nat.le_refl _

/-- `pos` is the position of the first element of `a` that is at least `x`. -/
structure Succ (a : List Nat) (x pos : Nat) : Prop where
  lt : pos < a.length
  ge : x ≤ a[pos]
  first : ∀ j, (h : j < pos) → a[j]'(by omega) < x

theorem binarySearch_spec {a : List Nat} (ha : a.Pairwise (· < ·)) (hn : a.length < 2 ^ 31) {x : Nat}
    (hlast : ∀ h : a.length - 1 < a.length, x ≤ a[a.length - 1]) :
    ∀ (fuel low high : Nat), high < a.length → low ≤ high + 1 → (∀ j, (h : j < low) → (h' : j < a.length) → a[j] < x) →
      (∀ j, (h' : j < a.length) → high < j → x < a[j]) → (∀ h : 0 < a.length, a[0] ≤ x) →
      (∃ pos, binarySearch a x a.length fuel low high = .ok pos ∧ Succ a x pos) ∨
      (binarySearch a x a.length fuel low high = .error .fuel ∧ fuel < high + 1 - low) := by
  intro fuel
  induction fuel with
  | zero =>
    intro low high hh hle h1 h2 h0
    rw [binarySearch]
    split
    · exact Or.inr ⟨rfl, by omega⟩
    · have e : low = high + 1 := by omega
      left
      rw [show (a.length + (2 ^ 64 - 1)) % 2 ^ 64 = a.length - 1 by omega]
      have hl := hlast (by omega)
      by_cases hc : a.length - 1 < low
      · exact absurd (h1 (a.length - 1) hc (by omega)) (by omega)
      · rw [if_neg hc, vGet_of_lt (show low < a.length by omega), vGet_of_lt hh]
        refine ⟨low, ?_, by omega, ?_, fun j h => h1 j h (by omega)⟩
        · simp only [R_bind_ok]
          rw [if_neg]
          have := inc_le ha (i := high) (j := low) (by omega) (by omega)
          omega
        · exact Nat.le_of_lt (h2 low (by omega) (by omega))
  | succ fuel ih =>
    intro low high hh hle h1 h2 h0
    rw [binarySearch]
    split
    · rename_i hc
      have em : (low + (high - low) / 2) % 2 ^ 32 = low + (high - low) / 2 := Nat.mod_eq_of_lt (by omega)
      simp only [em]
      generalize hm : low + (high - low) / 2 = mid
      have m1 : mid ≤ high := by omega
      have m2 : low ≤ mid := by omega
      rw [if_neg (by omega), vGet_of_lt (show mid < a.length by omega)]
      simp only [R_bind_ok]
      change (∃ pos, (if a[mid] = x then _ else _) = _ ∧ _) ∨ _
      split
      · rename_i e
        exact Or.inl ⟨mid, rfl, by omega, by omega, fun j h => by have := inc_lt ha (i := j) (j := mid) (by omega) h; omega⟩
      · rename_i ne
        split
        · rename_i hy
          rw [if_neg (by omega)]
          rcases ih (mid + 1) high hh (by omega) (fun j h h' => by
            have := inc_le ha (i := j) (j := mid) (by omega) (by omega); omega) h2 h0 with h | ⟨h, h'⟩
          · exact Or.inl h
          · exact Or.inr ⟨h, by omega⟩
        · rename_i hy
          have hm0 : mid ≠ 0 := by
            intro e
            have := h0 (by omega)
            subst e; omega
          rw [if_neg hm0]
          rcases ih low (mid - 1) (by omega) (by omega) h1 (fun j h' h => by
            have := inc_le ha (i := mid) (j := j) h' (by omega); omega) h0 with h | ⟨h, h'⟩
          · exact Or.inl h
          · exact Or.inr ⟨h, by omega⟩
    · have e : low = high + 1 := by omega
      left
      rw [show (a.length + (2 ^ 64 - 1)) % 2 ^ 64 = a.length - 1 by omega]
      have hl := hlast (by omega)
      by_cases hc : a.length - 1 < low
      · exact absurd (h1 (a.length - 1) hc (by omega)) (by omega)
      · rw [if_neg hc, vGet_of_lt (show low < a.length by omega), vGet_of_lt hh]
        refine ⟨low, ?_, by omega, ?_, fun j h => h1 j h (by omega)⟩
        · simp only [R_bind_ok]
          rw [if_neg]
          have := inc_le ha (i := high) (j := low) (by omega) (by omega)
          omega
        · exact Nat.le_of_lt (h2 low (by omega) (by omega))

theorem gallop_spec {a : List Nat} (hn : a.length < 2 ^ 31) {x : Nat} :
    ∀ (fuel i : Nat), 0 < i → i ≤ a.length → (∀ h : i / 2 < a.length, a[i / 2] ≤ x) →
      (∃ i', gallop a a.length x fuel i = .ok i' ∧ i' / 2 < a.length ∧ 0 < i' ∧ (∀ h : i' / 2 < a.length, a[i' / 2] ≤ x) ∧
        (∀ h : i' < a.length, x < a[i'])) ∨
      (gallop a a.length x fuel i = .error .fuel ∧ fuel < a.length - i) := by
  have gen : ∀ (fuel i : Nat), 0 < i → i / 2 < a.length → (∀ h : i / 2 < a.length, a[i / 2] ≤ x) →
      (∃ i', gallop a a.length x fuel i = .ok i' ∧ i' / 2 < a.length ∧ 0 < i' ∧ (∀ h : i' / 2 < a.length, a[i' / 2] ≤ x) ∧
        (∀ h : i' < a.length, x < a[i'])) ∨
      (gallop a a.length x fuel i = .error .fuel ∧ fuel < a.length - i) := by
    intro fuel
    induction fuel with
    | zero =>
      intro i hi hl h
      rw [gallop]
      split
      · rename_i hlt
        rw [vGet_of_lt hlt, R_bind_ok]
        split
        · exact Or.inr ⟨rfl, by omega⟩
        · exact Or.inl ⟨i, rfl, hl, hi, h, fun _ => by omega⟩
      · exact Or.inl ⟨i, rfl, hl, hi, h, fun h' => by omega⟩
    | succ fuel ih =>
      intro i hi hl h
      rw [gallop]
      split
      · rename_i hlt
        rw [vGet_of_lt hlt, R_bind_ok]
        split
        · rename_i hy
          rw [Nat.mod_eq_of_lt (by omega)]
          have e : i * 2 / 2 = i := by omega
          rcases ih (i * 2) (by omega) (by omega) (by intro h'; simp only [e]; exact hy) with h1 | ⟨h1, h2⟩
          · exact Or.inl h1
          · exact Or.inr ⟨h1, by omega⟩
        · exact Or.inl ⟨i, rfl, hl, hi, h, fun _ => by omega⟩
      · exact Or.inl ⟨i, rfl, hl, hi, h, fun h' => by omega⟩
  intro fuel i hi hle h
  by_cases hl : i / 2 < a.length
  · exact gen fuel i hi hl h
  · omega

/-- What `exponentialSearch` finds when started at or before the sought value and not past the end. -/
theorem exponentialSearch_spec {a : List Nat} (ha : a.Pairwise (· < ·)) (hn : a.length < 2 ^ 31) {x init : Nat}
    (hi : init < a.length) (h1 : a[init] ≤ x) (h2 : x ≤ a[a.length - 1]) (fuel : Nat) :
    (∃ pos, exponentialSearch fuel a a.length x init = .ok pos ∧ Succ a x pos) ∨
    (exponentialSearch fuel a a.length x init = .error .fuel ∧ fuel < a.length) := by
  rw [exponentialSearch, vGet_of_lt hi, R_bind_ok]
  split
  · rename_i e
    exact Or.inl ⟨init, rfl, hi, by omega, fun j h => by have := inc_lt ha hi h; omega⟩
  · rename_i ne
    rw [if_neg (by omega), show (a.length + (2 ^ 64 - 1)) % 2 ^ 64 = a.length - 1 by omega,
      vGet_of_lt (show a.length - 1 < a.length by omega), R_bind_ok, if_neg (by omega), Nat.mod_eq_of_lt (by omega)]
    rcases gallop_spec (x := x) hn fuel (init + 1) (by omega) (by omega) (by
      intro h; have := inc_le ha (i := (init + 1) / 2) (j := init) hi (by omega); omega) with
      ⟨i', g1, g2, g3, g4, g5⟩ | ⟨g1, g2⟩
    · rw [g1, R_bind_ok]
      rcases binarySearch_spec ha hn (x := x) (fun _ => h2) fuel (i' / 2) (min i' (a.length - 1)) (by omega) (by omega)
        (fun j h h' => by
          have := g4 g2
          have := inc_lt ha (i := j) (j := i' / 2) g2 h; omega)
        (fun j h' h => by
          have := inc_lt ha (i := i') (j := j) h' (by omega)
          have := g5 (by omega); omega)
        (fun h => by have := inc_le ha (i := 0) (j := init) hi (by omega); omega) with h | ⟨h, h'⟩
      · exact Or.inl h
      · exact Or.inr ⟨h, by omega⟩
    · rw [g1]; exact Or.inr ⟨rfl, by omega⟩

end CBT
