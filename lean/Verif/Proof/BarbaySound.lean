import Verif.Proof.BarbayKenyon
import Verif.Proof.Reach

/-! # What the Barbay-Kenyon loop reports -/

namespace CBT

/-- The set visited `m + 1` rounds before set `i`, in cyclic order. -/
def before (k i m : Nat) : Nat := (i + k - 1 - m) % k

theorem before_lt {k i m : Nat} (hk : 0 < k) : before k i m < k := Nat.mod_lt _ hk

theorem before_ne {k i m : Nat} (hi : i < k) (hm : m + 1 < k) : before k i m ≠ i := by
  unfold before
  by_cases h : i ≤ m
  · rw [Nat.mod_eq_of_lt (by omega)]; omega
  · rw [show i + k - 1 - m = (i - 1 - m) + k by omega, Nat.add_mod_right, Nat.mod_eq_of_lt (by omega)]; omega

theorem before_zero {k i : Nat} (hi : i < k) : before k ((i + 1) % k) 0 = i := by
  unfold before
  by_cases h : i + 1 = k
  · rw [h, Nat.mod_self, Nat.mod_eq_of_lt (by omega)]; omega
  · rw [Nat.mod_eq_of_lt (show i + 1 < k by omega), show i + 1 + k - 1 - 0 = i + k by omega, Nat.add_mod_right,
      Nat.mod_eq_of_lt hi]

theorem before_succ {k i m : Nat} (hi : i < k) (hm : m + 1 < k) : before k ((i + 1) % k) (m + 1) = before k i m := by
  unfold before
  by_cases h : i + 1 = k
  · rw [h, Nat.mod_self, show i + k - 1 - m = (0 + k - 1 - (m + 1)) + k by omega, Nat.add_mod_right]
  · rw [Nat.mod_eq_of_lt (show i + 1 < k by omega)]
    congr 1; omega

/-- Every set is `i` or one of the `k - 1` sets visited before. -/
theorem before_all {k i j : Nat} (hi : i < k) (hj : j < k) (h : j ≠ i) : ∃ m, m + 1 < k ∧ before k i m = j := by
  unfold before
  by_cases c : j < i
  · refine ⟨i - 1 - j, by omega, ?_⟩
    rw [show i + k - 1 - (i - 1 - j) = j + k by omega, Nat.add_mod_right, Nat.mod_eq_of_lt hj]
  · refine ⟨i + k - 1 - j, by omega, ?_⟩
    rw [show i + k - 1 - (i + k - 1 - j) = j by omega, Nat.mod_eq_of_lt hj]

/-- Set `j` contains `e` at its current position. -/
def HasAt (sets : List (List Nat)) (positions : List Nat) (j e : Nat) : Prop :=
  ∃ s p, sets[j]? = some s ∧ positions[j]? = some p ∧ s[p]? = some e

/-- `x` is in each of the first `k` sets. -/
def Common (sets : List (List Nat)) (k x : Nat) : Prop := ∀ j, j < k → ∃ s, sets[j]? = some s ∧ x ∈ s

theorem HasAt.mem {sets : List (List Nat)} {positions : List Nat} {j e : Nat} (h : HasAt sets positions j e) :
    ∃ s, sets[j]? = some s ∧ e ∈ s := by
  obtain ⟨s, p, h1, _, h3⟩ := h
  exact ⟨s, h1, List.mem_of_getElem? h3⟩

theorem HasAt.set_ne {sets : List (List Nat)} {positions : List Nat} {i j e p : Nat} (h : HasAt sets positions j e) (hij : j ≠ i) :
    HasAt sets (positions.set i p) j e := by
  obtain ⟨s, q, h1, h2, h3⟩ := h
  exact ⟨s, q, h1, by rw [List.getElem?_set_ne (Ne.symm hij)]; exact h2, h3⟩

/-- Invariant of the loop: the last `occr` sets visited contain `e`, `A` has been reported. -/
structure BKState.Ok (sets : List (List Nat)) (k : Nat) (out0 A : List Nat) (st : BKState) : Prop where
  i_lt : st.i < k
  occr_pos : 1 ≤ st.occr
  occr_lt : st.occr < k
  seen : ∀ m, m < st.occr → HasAt sets st.positions (before k st.i m) st.e
  out : st.out = out0 ++ A
  common : ∀ x ∈ A, Common sets k x

theorem BKState.Ok.all {sets : List (List Nat)} {k : Nat} {out0 A : List Nat} {st : BKState} (h : st.Ok sets k out0 A)
    (ho : st.occr + 1 = k) {s : List Nat} (hs : sets[st.i]? = some s) (he : st.e ∈ s) : Common sets k st.e := by
  intro j hj
  by_cases e : j = st.i
  · subst e; exact ⟨s, hs, he⟩
  · obtain ⟨m, hm, rfl⟩ := before_all h.i_lt hj e
    exact (h.seen m (by omega)).mem

theorem vGet_some {α : Type} {v : List α} {i : Nat} {x : α} (h : vGet v i = .ok x) : v[i]? = some x := by
  obtain ⟨h', e⟩ := vGet_ok h
  rw [List.getElem?_eq_getElem h', e]

/-- What one round of the loop does, case by case, whenever it is defined. -/
inductive BKOut (sets : List (List Nat)) (k : Nat) (st : BKState) (s : List Nat) (p pos y : Nat) :
    List Nat × Option BKState → Prop where
  | found : y = st.e → st.occr + 1 ≠ k →
      BKOut sets k st s p pos y (st.out, some ⟨st.positions.set st.i pos, st.e, (st.i + 1) % k, st.occr + 1, st.out⟩)
  | reportEnd : y = st.e → st.occr + 1 = k → pos + 1 = s.length → BKOut sets k st s p pos y (st.out ++ [st.e], none)
  | report (e' : Nat) : y = st.e → st.occr + 1 = k → s[pos + 1]? = some e' →
      BKOut sets k st s p pos y (st.out ++ [st.e],
        some ⟨(st.positions.set st.i pos).set st.i (pos + 1), e', (st.i + 1) % k, 1, st.out ++ [st.e]⟩)
  | missEnd : y ≠ st.e → p + 1 = s.length → BKOut sets k st s p pos y (st.out, none)
  | miss : y ≠ st.e → p + 1 ≠ s.length →
      BKOut sets k st s p pos y (st.out, some ⟨st.positions.set st.i pos, y, (st.i + 1) % k, 1, st.out⟩)

theorem bkStep_cases {inner : Nat} {sets : List (List Nat)} {k : Nat} {st : BKState} {r : List Nat × Option BKState}
    (hocc : st.occr < k) (hlen : ∀ s ∈ sets, s.length < 2 ^ 64) (h : bkStep inner sets k st = .ok r) :
    ∃ s p pos y, sets[st.i]? = some s ∧ st.positions[st.i]? = some p ∧
      exponentialSearch inner s s.length st.e p = .ok pos ∧ s[pos]? = some y ∧ BKOut sets k st s p pos y r := by
  unfold bkStep at h
  obtain ⟨s, hs, h⟩ := bind_ok h
  obtain ⟨p, hp, h⟩ := bind_ok h
  obtain ⟨pos, hpos, h⟩ := bind_ok h
  obtain ⟨y, hy, h⟩ := bind_ok h
  have hs' := vGet_some hs
  have hp' := vGet_some hp
  have hy' := vGet_some hy
  have hL := hlen s (List.mem_of_getElem? hs')
  obtain ⟨hposlt, _⟩ := vGet_ok hy
  have hm : (s.length + (2 ^ 64 - 1)) % 2 ^ 64 = s.length - 1 := by omega
  have hi : st.i < st.positions.length := (vGet_ok hp).1
  refine ⟨s, p, pos, y, hs', hp', hpos, hy', ?_⟩
  rw [hm] at h
  by_cases hye : y = st.e
  · simp only [hye, if_true, true_and, ne_eq, not_true, or_false] at h
    by_cases hk : st.occr + 1 = k
    · simp only [hk, if_true] at h
      rw [vGet_of_lt (by simpa using hi), R_bind_ok, List.getElem_set_self] at h
      by_cases he : pos = s.length - 1
      · rw [if_pos he] at h
        injection h with h; subst h
        exact .reportEnd hye hk (by omega)
      · rw [if_neg he] at h
        obtain ⟨e', he', h⟩ := bind_ok h
        rw [Nat.mod_eq_of_lt (by omega)] at he' h
        injection h with h; subst h
        exact .report e' hye hk (vGet_some he')
    · simp only [hk, if_false] at h
      injection h with h; subst h
      exact .found hye hk
  · have hk : st.occr ≠ k := by omega
    simp only [hye, if_false, false_and, ne_eq, not_false_eq_true, or_true, if_true, hk] at h
    rw [hp, R_bind_ok] at h
    by_cases he : p = s.length - 1
    · rw [if_pos he] at h
      injection h with h; subst h
      exact .missEnd hye (by omega)
    · rw [if_neg he] at h
      injection h with h; subst h
      exact .miss hye (by omega)

/-- The position kept for the set visited holds the element looked for. -/
theorem HasAt.set_self {sets : List (List Nat)} {positions : List Nat} {i e pos : Nat} {s : List Nat} (hs : sets[i]? = some s)
    (hi : i < positions.length) (h : s[pos]? = some e) : HasAt sets (positions.set i pos) i e :=
  ⟨s, pos, hs, by rw [List.getElem?_set_self hi], h⟩

theorem lt_of_getElem?_some {α : Type} {l : List α} {i : Nat} {x : α} (h : l[i]? = some x) : i < l.length :=
  (List.getElem?_eq_some_iff.mp h).1

/-- A round keeps the invariant. -/
theorem BKOut.ok {sets : List (List Nat)} {k : Nat} {out0 A : List Nat} {st : BKState} {s : List Nat} {p pos y : Nat}
    {r : List Nat × Option BKState} (hst : st.Ok sets k out0 A) (hs : sets[st.i]? = some s)
    (hp : st.positions[st.i]? = some p) (hy : s[pos]? = some y) (h : BKOut sets k st s p pos y r) :
    ∃ A', A <+: A' ∧ r.1 = out0 ++ A' ∧ (∀ x ∈ A', Common sets k x) ∧ ∀ st', r.2 = some st' → st'.Ok sets k out0 A' := by
  have hi := lt_of_getElem?_some hp
  have hik := hst.i_lt
  have hk1 := hst.occr_pos
  have hk2 := hst.occr_lt
  have hlt : (st.i + 1) % k < k := Nat.mod_lt _ (by omega)
  have common' : y = st.e → st.occr + 1 = k → ∀ x ∈ A ++ [st.e], Common sets k x := by
    intro hye ho x hx
    rcases List.mem_append.mp hx with hx | hx
    · exact hst.common x hx
    · rw [List.mem_singleton] at hx
      subst hx
      exact hst.all ho hs (by rw [← hye]; exact List.mem_of_getElem? hy)
  cases h with
  | found hye hk =>
    refine ⟨A, List.prefix_rfl, hst.out, hst.common, fun st' e => ?_⟩
    injection e with e; subst e
    refine ⟨hlt, by simp, by simp only; omega, fun m hm => ?_, hst.out, hst.common⟩
    simp only at hm ⊢
    cases m with
    | zero => rw [before_zero hik]; exact HasAt.set_self hs hi (by rw [hy, hye])
    | succ m =>
      rw [before_succ hik (by omega)]
      exact (hst.seen m (by omega)).set_ne (before_ne hik (by omega))
  | reportEnd hye hk hl =>
    refine ⟨A ++ [st.e], List.prefix_append _ _, ?_, common' hye hk, fun st' e => by simp at e⟩
    rw [hst.out, List.append_assoc]
  | report e' hye hk he' =>
    refine ⟨A ++ [st.e], List.prefix_append _ _, ?_, common' hye hk, fun st' e => ?_⟩
    · rw [hst.out, List.append_assoc]
    · injection e with e; subst e
      refine ⟨hlt, by simp, by simp only; omega, fun m hm => ?_, ?_, common' hye hk⟩
      · simp only at hm ⊢
        obtain rfl : m = 0 := by omega
        rw [before_zero hik]
        exact HasAt.set_self hs (by simpa using hi) he'
      · simp only [hst.out, List.append_assoc]
  | missEnd hye hl => exact ⟨A, List.prefix_rfl, hst.out, hst.common, fun st' e => by simp at e⟩
  | miss hye hl =>
    refine ⟨A, List.prefix_rfl, hst.out, hst.common, fun st' e => ?_⟩
    injection e with e; subst e
    refine ⟨hlt, by simp, by simp only; omega, fun m hm => ?_, hst.out, hst.common⟩
    simp only at hm ⊢
    obtain rfl : m = 0 := by omega
    rw [before_zero hik]
    exact HasAt.set_self hs hi hy

theorem bkLoop_sound {inner : Nat} {sets : List (List Nat)} {k : Nat} {out0 : List Nat}
    (hlen : ∀ s ∈ sets, s.length < 2 ^ 64) : ∀ (fuel : Nat) (st : BKState) (A r : List Nat), st.Ok sets k out0 A →
      bkLoop inner sets k fuel st = .ok r → ∃ A', r = out0 ++ A' ∧ ∀ x ∈ A', Common sets k x := by
  intro fuel
  induction fuel with
  | zero =>
    intro st A r hst h
    rw [bkLoop] at h
    obtain ⟨_, _, h⟩ := bind_ok h
    split at h
    · simp at h
    · injection h with h; subst h; exact ⟨A, hst.out, hst.common⟩
  | succ fuel ih =>
    intro st A r hst h
    rw [bkLoop] at h
    obtain ⟨_, _, h⟩ := bind_ok h
    split at h
    · obtain ⟨⟨o, n⟩, h1, h⟩ := bind_ok h
      obtain ⟨s, p, pos, y, e1, e2, _, e4, e5⟩ := bkStep_cases hst.occr_lt hlen h1
      obtain ⟨A', _, a2, a3, a4⟩ := e5.ok hst e1 e2 e4
      cases n with
      | none =>
        simp only at h
        injection h with h; subst h
        exact ⟨A', a2, a3⟩
      | some st' => exact ih st' A' r (a4 st' rfl) h
    · injection h with h; subst h; exact ⟨A, hst.out, hst.common⟩

end CBT
