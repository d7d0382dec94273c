import Verif.SpecStrict
import Verif.Proof.Strict
import Verif.Proof.Inter

/-!
# Indeterminate values read, in terms of the sets
-/

namespace CBT

open Spec

theorem allMeet_blk {b d n : Nat} {sets : List (List Nat)} {ts : List (Tr d)}
    (h : List.Forall₂ (fun S t => Holds n (has b d t) S) sets ts) (hb : ∀ S ∈ sets, ∀ x ∈ S, x < 2 ^ n) {j k : Nat} (hj : j ≤ n)
    (hk : k < 2 ^ (n - j)) : Blk b d ts j k ↔ AllMeet sets j k := by
  have hlt : ∀ y < 2 ^ j, k * 2 ^ j + y < 2 ^ n := by
    intro y hy
    rw [show n = (n - j) + j by omega, Nat.pow_add]
    calc k * 2 ^ j + y < (k + 1) * 2 ^ j := by rw [Nat.add_mul]; omega
      _ ≤ _ := Nat.mul_le_mul_right _ hk
  have hpos := Nat.two_pow_pos j
  induction h with
  | nil => simp [Blk, AllMeet]
  | @cons S t sets ts h _ ih =>
    have ih := ih fun S hS => hb S (List.mem_cons_of_mem _ hS)
    rw [blk_cons, AllMeet, List.forall_mem_cons]
    refine and_congr ?_ ih
    constructor
    · rintro ⟨y, hy, hh⟩
      rw [h _ (hlt y hy)] at hh
      refine ⟨_, by simpa using hh, ?_⟩
      rw [Nat.mul_comm, Nat.mul_add_div hpos, Nat.div_eq_of_lt hy, Nat.add_zero]
    · rintro ⟨x, hx, rfl⟩
      refine ⟨x % 2 ^ j, Nat.mod_lt _ hpos, ?_⟩
      have e : x / 2 ^ j * 2 ^ j + x % 2 ^ j = x := Nat.div_add_mod' x _
      rw [e, h _ (hb S List.mem_cons_self x hx)]
      simpa using hx

theorem allMeet_lt {n : Nat} {sets : List (List Nat)} (hne : sets ≠ []) (hb : ∀ S ∈ sets, ∀ x ∈ S, x < 2 ^ n) {j k : Nat} (hj : j ≤ n)
    (h : AllMeet sets j k) : k < 2 ^ (n - j) := by
  obtain ⟨S, hS⟩ := List.exists_mem_of_ne_nil _ hne
  obtain ⟨x, hx, rfl⟩ := h S hS
  rw [Nat.div_lt_iff_lt_mul (Nat.two_pow_pos j), ← Nat.pow_add, show n - j + j = n by omega]
  exact hb S hS x hx

theorem quiet_blk {b b' d n : Nat} {sets : List (List Nat)} {ts : List (Tr d)} (hne : sets ≠ [])
    (h : List.Forall₂ (fun S t => Holds n (has b d t) S) sets ts) (hb : ∀ S ∈ sets, ∀ x ∈ S, x < 2 ^ n) :
    QuietB b' n (Blk b d ts) ↔ LeftFirst b' n sets := by
  rw [QuietB.congr (B' := AllMeet sets) fun j k hj hk => allMeet_blk h hb (by omega) hk]
  constructor
  · intro H j k hj hj'
    by_cases hk : k < 2 ^ (n - 1 - j)
    · obtain ⟨h1, h2⟩ := H j hj hj' k hk
      refine ⟨h1, fun h3 => (h2 h3).imp id ?_⟩
      rintro ⟨w, hw, h4⟩
      refine ⟨_, ?_, h4⟩
      rw [Nat.mul_comm, Nat.mul_add_div (Nat.two_pow_pos _), Nat.div_eq_of_lt hw, Nat.add_zero]
    · have e : 2 ^ (n - j) = 2 * 2 ^ (n - 1 - j) := two_pow_half (by omega)
      constructor
      · intro h1
        have := allMeet_lt hne hb (by omega) h1
        omega
      · intro h1
        have := allMeet_lt hne hb (by omega) h1
        omega
  · intro H j hj hj' k hk
    obtain ⟨h1, h2⟩ := H j k hj hj'
    refine ⟨h1, fun h3 => (h2 h3).imp id ?_⟩
    rintro ⟨w, hw, h4⟩
    refine ⟨w % 2 ^ (j - b'), Nat.mod_lt _ (Nat.two_pow_pos _), ?_⟩
    rw [← hw, Nat.div_add_mod']
    exact h4

theorem leftFirst_low {b n : Nat} {S : List Nat} (h : LeftFirst b n [S]) (hb : ∀ x ∈ S, x < 2 ^ n) :
    ∀ x, x ∈ S → ∃ y ∈ S, y < 2 ^ b := by
  intro x
  induction x using Nat.strongRecOn with
  | _ x ih =>
    intro hx
    by_cases hlt : x < 2 ^ b
    · exact ⟨x, hx, hlt⟩
    have h0 : x / 2 ^ b ≠ 0 := (Nat.div_pos (by omega) (Nat.two_pow_pos b)).ne'
    obtain ⟨i, hi⟩ := Nat.exists_testBit_of_ne_zero h0
    rw [Nat.testBit_div_two_pow] at hi
    have hin : b + i < n := by
      by_contra hge
      rw [Nat.testBit_lt_two_pow (Nat.lt_of_lt_of_le (hb x hx) (Nat.pow_le_pow_right (by omega) (by omega)))] at hi
      cases hi
    have hodd : x / 2 ^ (b + i) = 2 * (x / 2 ^ (b + i) / 2) + 1 := by
      rw [Nat.add_comm, Nat.testBit_eq_decide_div_mod_eq, decide_eq_true_eq] at hi
      omega
    obtain ⟨y, hy, hy'⟩ := (h (b + i) (x / 2 ^ (b + i) / 2) (by omega) hin).1 (by
      intro S' hS'
      rw [List.mem_singleton.1 hS']
      exact ⟨x, hx, hodd⟩) S List.mem_cons_self
    refine ih y ?_ hy
    by_contra hge
    have := Nat.div_le_div_right (c := 2 ^ (b + i)) (Nat.le_of_not_lt hge)
    omega

variable {α : Type} (nav : α → Nav) (leaf : α → Nat → Nat → Nat → Prop)

theorem strict_seq {as : List α} {c : Cfg} {b e d height : Nat} {ts : List (Tr d)} {env : Env} {lv : List (Tr 0) → Option Bool}
    (hc : LeafOKb nav leaf as c b e lv)
    (hts : List.Forall₂ (fun a t => Rep (nav a) (leaf a) d 0 t 0) as ts) (hlen : as.length ≤ 16) (hstop : c.stop = d + e)
    (htop : c.top = d + b) (h64 : c.top ≤ 64) (hw : env.hw ≠ 0) :
    strictBody (as.map nav) c height false env = match val lv d ts with
      | some _ => .ok (enum (d + b) (allHas b d ts) 0)
      | none => .error .uninit := by
  rw [strictBody]
  simp only [hw, if_false, Bool.false_eq_true, false_and, hstop]
  rw [ANDb_reps nav leaf hc h64 d 0 ts _ 0 [] (Reps.root nav leaf 16 hlen hts) (by omega) (dvd_zero _)]
  cases val lv d ts <;> rfl

theorem strict_intersect_seq {d : Nat} {sets : List (List Nat)} {Ts : List Nav} (h : List.Forall₂ (HoldsP d) sets Ts)
    (hne : Ts ≠ []) (hlen : Ts.length ≤ 16) {env : Env} (hw : env.hw ≠ 0) :
    (LeftFirst 0 (d + 1) sets → ∃ R, strictIntersect Ts false env = .ok R ∧ IsIntersection sets R) ∧
    (¬ LeftFirst 0 (d + 1) sets → strictIntersect Ts false env = .error .uninit) := by
  obtain ⟨ts, h1, h2, h3⟩ := HoldsP.trees h
  have hd : d ≤ 62 := by
    cases h with
    | nil => exact (hne rfl).elim
    | cons h _ => exact h.depth
  have hsne : sets ≠ [] := by
    rintro rfl
    cases h
    exact hne rfl
  have hb : ∀ S ∈ sets, ∀ x ∈ S, x < 2 ^ (d + 1) := forall2_imp_left h fun _ _ h => h.below
  have hv := val_ok (by omega) flatLv_ok d ts h2
  rw [ValOK, quiet_blk hsne h3 hb] at hv
  have e : strictIntersect Ts false env = strictBody Ts (flatCfg (d + 1)) (d + 1) false env := by
    have := forall2_imp_right h fun _ _ h => h.height
    cases Ts with
    | nil => exact (hne rfl).elim
    | cons T Ts =>
      have h0 := this T List.mem_cons_self
      rw [strictIntersect, if_neg, h0]
      simp only [List.any_eq_true, not_exists, not_and]
      intro T' hT'
      rw [this T' hT', h0]
      simp
  have := strict_seq id leafF (height := d + 1) (flat_leafOKb Ts (d + 1)) h1 hlen (by rfl) (by rfl) (show d + 1 ≤ 64 by omega) hw
  rw [List.map_id] at this
  rw [e, this]
  refine ⟨fun hq => ?_, fun hq => ?_⟩
  · obtain ⟨x, hx, _⟩ := hv.1 hq
    rw [hx]
    exact ⟨_, rfl, isIntersection_enum hsne hb h3⟩
  · rw [hv.2 hq]

theorem strict_fast_seq {lg d : Nat} (hlg : lg ≤ 6) {sets : List (List Nat)} {Ts : List FNav}
    (h : List.Forall₂ (FHoldsP lg d) sets Ts)
    (hne : Ts ≠ []) (hlen : Ts.length ≤ 16) {env : Env} (hw : env.hw ≠ 0) :
    (LeftFirst lg (d + lg) sets → ∃ R, strictFastIntersect lg Ts false env = .ok R ∧ IsIntersection sets R) ∧
    (¬ LeftFirst lg (d + lg) sets → strictFastIntersect lg Ts false env = .error .uninit) := by
  obtain ⟨ts, h1, h2, h3⟩ := FHoldsP.trees h
  have hd : d + lg ≤ 62 := by
    cases h with
    | nil => exact (hne rfl).elim
    | cons h _ => exact h.depth
  have hsne : sets ≠ [] := by
    rintro rfl
    cases h
    exact hne rfl
  have hb : ∀ S ∈ sets, ∀ x ∈ S, x < 2 ^ (d + lg) := forall2_imp_left h fun _ _ h => h.below
  have hv := val_ok (Nat.le_refl lg) fastLv_ok d ts h2
  rw [ValOK, quiet_blk hsne h3 hb] at hv
  have e : strictFastIntersect lg Ts false env =
      strictBody (Ts.map FNav.toNav) (fastCfg lg Ts (d + 1)) (d + 1) false env := by
    have := forall2_imp_right h fun _ _ h => h.height
    cases Ts with
    | nil => exact (hne rfl).elim
    | cons T Ts =>
      have h0 := this T List.mem_cons_self
      rw [strictFastIntersect, if_neg, if_neg (by omega), h0]
      simp only [List.any_eq_true, not_exists, not_and]
      intro T' hT'
      rw [this T' hT', h0]
      simp
  have := strict_seq FNav.toNav (leafW lg) (height := d + 1) (fast_leafOKb hlg Ts (d + 1)) h1 hlen (by rfl)
    (by simp only [fastCfg]; omega) (by simp only [fastCfg]; omega) hw
  rw [e, this]
  refine ⟨fun hq => ?_, fun hq => ?_⟩
  · obtain ⟨x, hx, _⟩ := hv.1 hq
    rw [hx]
    exact ⟨_, rfl, isIntersection_enum hsne hb h3⟩
  · rw [hv.2 hq]

end CBT
