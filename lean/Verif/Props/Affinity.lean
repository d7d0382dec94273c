import Verif.Proof.Affinity
import Verif.Props.Memory

/-!
# C57: macOS
-/

namespace CBT

open Spec

/-- C57. `Intersect` with the `parallel_for` of macOS is `Intersect` with that of Linux, on fewer than 64 hardware threads: for tries in
any state, with and without runs. So everything proved of `intersect` holds on macOS. -/
theorem C57_mac_partial (Ts : List Nav) (runs parallel : Bool) {env : Env} (h : env.hw < 64) :
    macIntersect Ts runs parallel env = intersect Ts runs parallel env := by
  cases Ts with
  | nil => rfl
  | cons T Ts => rw [macIntersect, intersect, macBody_small _ _ _ _ _ h]

theorem C57_fast_mac_partial (lg : Nat) (Ts : List FNav) (runs parallel : Bool) {env : Env} (h : env.hw < 64) :
    macFastIntersect lg Ts runs parallel env = fastIntersect lg Ts runs parallel env := by
  cases Ts with
  | nil => rfl
  | cons T Ts => rw [macFastIntersect, fastIntersect, macBody_small _ _ _ _ _ h]

example : macIntersect [Ex.flat.nav 0, Ex.level.nav true 0] false true ⟨63, [1, 0, 2, 1, 1], [1, 0, 0]⟩ = .ok [1, 2, 3, 5, 14] ∧
    macIntersect [Ex.flat.nav 0, Ex.level.nav true 0] false true ⟨4, [1, 0, 2, 1, 1], [1, 0, 0]⟩ = .ok [1, 2, 3, 5, 14] := by decide +kernel

/-- C57, sequential calls, on any number of hardware threads. -/
theorem C57_mac_sequential_partial (Ts : List Nav) (runs : Bool) (env : Env) :
    macIntersect Ts runs false env = intersect Ts runs false env := by
  cases Ts with
  | nil => rfl
  | cons T Ts => rw [macIntersect, intersect, macBody_seq]

theorem C57_fast_mac_sequential_partial (lg : Nat) (Ts : List FNav) (runs : Bool) (env : Env) :
    macFastIntersect lg Ts runs false env = fastIntersect lg Ts runs false env := by
  cases Ts with
  | nil => rfl
  | cons T Ts => rw [macFastIntersect, fastIntersect, macBody_seq]

/-- Threads of a parallel call that cuts at level `cut`, where blocks have `2^(j+1)` elements. -/
def threadsUsed (sets : List (List Nat)) (cut j : Nat) : Nat :=
  threadCount (2 ^ cut) (commonBlocks sets (j + 1) cut).length ((commonBlocks sets (j + 1) cut).map (commonHalves sets j))

/-- C57, exactly: a parallel call on plain tries is undefined on macOS if and only if it uses more than 32 threads. -/
theorem C57_mac_exact_partial {pad h : Nat} {sets : List (List Nat)} {Ts : List Nav} (runs : Bool)
    (hTs : List.Forall₂ (PlainTrie pad h) sets Ts) (hne : Ts ≠ []) (hlen : Ts.length ≤ 16)
    (env : Env) (hw : env.hw ≠ 0) (hw2 : env.hw < 2 ^ 16) (hcut : Nat.log2 env.hw + 2 ≤ h) :
    macIntersect Ts runs true env =
      if threadsUsed sets (Nat.log2 env.hw) (h - Nat.log2 env.hw - 1) ≤ 32 then intersect Ts runs true env else .error .shift := by
  obtain ⟨d, hd⟩ : ∃ d, h - 1 = d + 1 + Nat.log2 env.hw := ⟨h - 2 - Nat.log2 env.hw, by omega⟩
  obtain ⟨e, rfl⟩ : ∃ e, h = e + 1 := ⟨h - 1, by omega⟩
  rw [Nat.add_sub_cancel] at hd
  subst hd
  have hH : List.Forall₂ (HoldsP (d + 1 + Nat.log2 env.hw)) sets Ts := hTs.imp fun _ _ H => H.holds
  obtain ⟨ts, h1, h2, h3⟩ := HoldsP.trees hH
  have hd : d + 1 + Nat.log2 env.hw ≤ 62 := by
    cases hH with
    | nil => exact (hne rfl).elim
    | cons h _ => exact h.depth
  have hb := forall2_imp_left hH fun _ _ h => h.below
  obtain ⟨e1, e2⟩ := sub_sets h2 h3 hb
  have hh := forall2_imp_right hH fun _ _ h => h.height
  have := macBody_plain id leafF (runs := runs) (b := 1) (c := flatCfg (d + 1 + Nat.log2 env.hw + 1)) (height := d + 1 + Nat.log2 env.hw + 1)
    hne h1 hlen h2 (by rfl) (show d + 1 + Nat.log2 env.hw + 1 < 64 by omega) hw hw2 (by omega)
  rw [List.map_id, e1, e2] at this
  rw [threadsUsed, show d + 1 + Nat.log2 env.hw + 1 - Nat.log2 env.hw - 1 = d + 1 by omega]
  cases Ts with
  | nil => exact (hne rfl).elim
  | cons T Ts =>
    have h0 := hh T List.mem_cons_self
    have hall : ¬ (T :: Ts).any (fun T' => T'.height ≠ T.height) = true := by
      simp only [List.any_eq_true, not_exists, not_and]
      intro T' hT'
      rw [hh T' hT', h0]
      simp
    rw [macIntersect, intersect, if_neg hall, if_neg hall, h0]
    exact this

/-- C57, exactly, for fast tries. -/
theorem C57_fast_mac_exact_partial {lg pad h : Nat} (hlg : 3 ≤ lg ∧ lg ≤ 6) {sets : List (List Nat)} {Ts : List FNav} (runs : Bool)
    (hTs : List.Forall₂ (FastPlain lg pad h) sets Ts) (hne : Ts ≠ []) (hlen : Ts.length ≤ 16)
    (env : Env) (hw : env.hw ≠ 0) (hw2 : env.hw < 2 ^ 16) (hcut : Nat.log2 env.hw + 2 ≤ h) :
    macFastIntersect lg Ts runs true env =
      if threadsUsed sets (Nat.log2 env.hw) (h - 2 - Nat.log2 env.hw + lg) ≤ 32 then fastIntersect lg Ts runs true env
      else .error .shift := by
  obtain ⟨d, hd⟩ : ∃ d, h - 1 = d + 1 + Nat.log2 env.hw := ⟨h - 2 - Nat.log2 env.hw, by omega⟩
  obtain ⟨e, rfl⟩ : ∃ e, h = e + 1 := ⟨h - 1, by omega⟩
  rw [Nat.add_sub_cancel] at hd
  subst hd
  have hH : List.Forall₂ (FHoldsP lg (d + 1 + Nat.log2 env.hw)) sets Ts := hTs.imp fun _ _ H => H.holds hlg
  obtain ⟨ts, h1, h2, h3⟩ := FHoldsP.trees hH
  have hd : d + 1 + Nat.log2 env.hw + lg ≤ 62 := by
    cases hH with
    | nil => exact (hne rfl).elim
    | cons h _ => exact h.depth
  have hb := forall2_imp_left hH fun _ _ h => h.below
  obtain ⟨e1, e2⟩ := sub_sets h2 h3 hb
  have hh := forall2_imp_right hH fun _ _ h => h.height
  have := macBody_plain FNav.toNav (leafW lg) (runs := runs) (b := lg) (c := fastCfg lg Ts (d + 1 + Nat.log2 env.hw + 1))
    (height := d + 1 + Nat.log2 env.hw + 1) hne h1 hlen h2 (by simp only [fastCfg]; omega)
    (by simp only [fastCfg]; omega) hw hw2 (by omega)
  rw [e1, e2] at this
  rw [threadsUsed, show d + 1 + Nat.log2 env.hw + 1 - 2 - Nat.log2 env.hw + lg = d + lg by omega]
  rw [Nat.add_right_comm d 1 lg] at this
  cases Ts with
  | nil => exact (hne rfl).elim
  | cons T Ts =>
    have h0 := hh T List.mem_cons_self
    have hall : ¬ (T :: Ts).any (fun T' => T'.height ≠ T.height) = true := by
      simp only [List.any_eq_true, not_exists, not_and]
      intro T' hT'
      rw [hh T' hT', h0]
      simp
    rw [macFastIntersect, fastIntersect, if_neg hall, if_neg hall, h0, if_neg (Nat.succ_ne_zero _), if_neg (Nat.succ_ne_zero _)]
    exact this

/-- C57. Below 32, thread `i` is bound to processor `i`; from there on, binding it is undefined. -/
theorem C57_pin_partial (i : Nat) : pinThread i = if i < 32 then .ok i else .error .shift := by
  split
  · exact pinThread_lt ‹_›
  · exact pinThread_ge (by omega)

/-- The multiples of 4 below 256 have an element in each of the 64 blocks of 4. -/
def Ex.fours : List Nat := (List.range 64).map (4 * ·)

theorem Ex.fours_valid : ValidSet Ex.fours 256 := ⟨by decide +kernel, by decide +kernel, by decide +kernel⟩

/-- C57 is false in general. -/
theorem C57_negation : ¬ ∀ (pad h : Nat) (sets : List (List Nat)) (Ts : List Nav) (env : Env),
    List.Forall₂ (PlainTrie pad h) sets Ts → Ts ≠ [] → Ts.length ≤ 16 → env.hw ≠ 0 → env.hw < 2 ^ 16 → 2 ≤ h →
    macIntersect Ts false true env = intersect Ts false true env := by
  intro hall
  obtain ⟨T, ht, -⟩ := flat_built Ex.fours_valid (by decide +kernel) (by decide) (by decide)
  have hp : PlainTrie 0 8 Ex.fours ((flatOf _ T 0 false).nav 0) :=
    .flat Ex.fours_valid (by decide +kernel) (by decide) (by decide) ht rfl
  have h1 := hall 0 8 [Ex.fours] [(flatOf _ T 0 false).nav 0] ⟨64, [], []⟩ (.cons hp .nil) (by simp) (by simp) (by decide) (by decide) (by decide)
  obtain ⟨R, e, -⟩ := C11_parallel_plain (by decide) (.cons hp .nil) (by simp) (by simp) ⟨64, [], []⟩ ⟨64, [], []⟩ (by decide) (by decide) (by decide)
  rw [C57_mac_exact_partial false (.cons hp .nil) (by simp) (by simp) ⟨64, [], []⟩ (by decide) (by decide) (by decide), if_neg, e] at h1
  · cases h1
  · decide +kernel

/-- Nothing is lost below: the same set on 63 hardware threads, with 32 threads. -/
example : threadsUsed [Ex.fours] 6 1 = 64 ∧ threadsUsed [Ex.fours] 5 2 = 32 ∧ threadsUsed [[0, 1, 2, 3, 40, 41], [0, 3, 40]] 4 3 = 2 := by
  decide +kernel

end CBT
