import Verif.Proof.Unreadable
import Verif.Proof.ExactRuns
import Verif.Proof.StrictPar

/-!
# Parallel run-aware intersection of tries some nodes of which cannot be read
-/

namespace CBT

open Spec

section
variable {α : Type} (nav : α → Nav) (bad : α → Nat → Nat → Prop) (leaf : α → Nat → Nat → Nat → Prop) (b : Nat)

/-- Like `Reps`. -/
def RepsP (d ℓ p : Nat) : List α → List (Tr d) → List (Option Nat) → Prop
  | [], [], _ => True
  | a :: as, t :: ts, some id :: os => RepB (nav a) (bad a) (leaf a) b d ℓ t id p ∧ RepsP d ℓ p as ts os
  | _, _, _ => False

theorem RepsP.rec' {d ℓ p : Nat} {motive : List α → List (Tr d) → List (Option Nat) → Prop}
    (hnil : ∀ os, motive [] [] os)
    (hcons : ∀ a as t ts id os, RepB (nav a) (bad a) (leaf a) b d ℓ t id p → RepsP nav bad leaf b d ℓ p as ts os →
      motive as ts os → motive (a :: as) (t :: ts) (some id :: os)) :
    ∀ as ts os, RepsP nav bad leaf b d ℓ p as ts os → motive as ts os
  | [], [], os, _ => hnil os
  | a :: as, t :: ts, some id :: os, h => hcons a as t ts id os h.1 h.2 (RepsP.rec' hnil hcons as ts os h.2)
  | [], _ :: _, _, h => by simp [RepsP] at h
  | _ :: _, [], _, h => by simp [RepsP] at h
  | _ :: _, _ :: _, [], h => by simp [RepsP] at h
  | _ :: _, _ :: _, none :: _, h => by simp [RepsP] at h

theorem RepsP.length_le {d ℓ p : Nat} : ∀ (as : List α) (ts : List (Tr d)) (os : List (Option Nat)),
    RepsP nav bad leaf b d ℓ p as ts os → as.length ≤ os.length := by
  apply RepsP.rec'
  · intro os; simp
  · intro a as t ts id os _ _ ih; simpa using ih

theorem RepsP.take {d ℓ p : Nat} : ∀ (as : List α) (ts : List (Tr d)) (os : List (Option Nat)),
    RepsP nav bad leaf b d ℓ p as ts os → RepsP nav bad leaf b d ℓ p as ts (os.take as.length) := by
  apply RepsP.rec'
  · intro os; trivial
  · intro a as t ts id os h _ ih; exact ⟨h, ih⟩

theorem RepsP.root {d : Nat} : {as : List α} → {ts : List (Tr d)} → (n : Nat) → as.length ≤ n →
    List.Forall₂ (fun a t => RepB (nav a) (bad a) (leaf a) b d 0 t 0 0) as ts →
    RepsP nav bad leaf b d 0 0 as ts (List.replicate n (some 0))
  | _, _, _, _, .nil => trivial
  | a :: as, t :: ts, 0, h, .cons _ _ => by simp at h
  | a :: as, t :: ts, n + 1, h, .cons h1 h2 => by
    rw [List.replicate_succ]
    exact ⟨h1, RepsP.root n (by simpa using h) h2⟩

/-- As arguments of `runsAND`. -/
theorem RepsP.toB {d ℓ p : Nat} : ∀ (as : List α) (ts : List (Tr d)) (os : List (Option Nat)),
    RepsP nav bad leaf b d ℓ p as ts os → ∀ act, as.length ≤ act.length → (∀ a ∈ act, a = true) →
    RepsB nav bad leaf b d ℓ p as (ts.map some) os act := by
  apply RepsP.rec'
  · intro os act _ _; trivial
  · intro a as t ts id os h _ ih act hl ha
    cases act with
    | nil => simp at hl
    | cons x act =>
      obtain rfl : x = true := ha x List.mem_cons_self
      exact ⟨h, ih act (by simpa using hl) fun y hy => ha y (List.mem_cons_of_mem _ hy)⟩

/-- One of the nodes read at the block starting at `p` cannot be. -/
def HitNowP {d : Nat} (p : Nat) (as : List α) (ts : List (Tr (d + 1))) : Prop :=
  ∃ a t, (a, t) ∈ as.zip ts ∧ t.bare = true ∧ bad a (d + 1 + b) p

theorem partialNodes_hit {d ℓ p : Nat} : ∀ (as : List α) (ts : List (Tr (d + 1))) (os : List (Option Nat)),
    RepsP nav bad leaf b (d + 1) ℓ p as ts os → ∀ act, ActOK true as.length act → HitNowP bad b p as ts → ∀ (an orr : Nat),
    partialNodes true (as.map nav) os act ℓ an orr = .error .oob := by
  apply RepsP.rec'
  · rintro os act _ ⟨a, t, h, _⟩; simp at h
  · intro a as t ts id os hr hrs ih act ha hh an orr
    have ha' := ha rfl
    cases act with
    | nil => simp at ha'
    | cons x act =>
      obtain rfl : x = true := ha'.2 x (by simp)
      have hat : ActOK true as.length act := fun _ => ⟨by simpa using ha'.1, fun y hy => ha'.2 y (by simp [hy])⟩
      rw [List.map_cons, partialNodes]
      simp only [if_true, readRoot, R_bind_ok]
      by_cases hc : t.bare = true ∧ bad a (d + 1 + b) p
      · rw [hr.1 hc.1 hc.2]; rfl
      · rw [hr.2.1 hc, R_bind_ok]
        have hh' : HitNowP bad b p as ts := by
          obtain ⟨a', t', h1, h2⟩ := hh
          rw [List.zip_cons_cons, List.mem_cons] at h1
          rcases h1 with h1 | h1
          · injection h1 with e1 e2
            subst e1 e2
            exact (hc h2).elim
          · exact ⟨a', t', h1, h2⟩
        rw [ih act hat hh']
        rfl

theorem partialNodes_repsP {d ℓ p : Nat} : ∀ (as : List α) (ts : List (Tr (d + 1))) (os : List (Option Nat)),
    RepsP nav bad leaf b (d + 1) ℓ p as ts os → ∀ act, ActOK true as.length act → ¬ HitNowP bad b p as ts → ∀ (A B C D : Bool),
    ∃ tmp, partialNodes true (as.map nav) os act ℓ (node2 A B) (node2 C D) =
      .ok (tmp, node2 (A && allL ts) (B && allR ts), node2 (C || anyL ts) (D || anyR ts)) ∧
      ActOK true as.length tmp := by
  apply RepsP.rec'
  · intro os act _ _ A B C D
    exact ⟨[], by simp [partialNodes, allL, allR, anyL, anyR], fun _ => by simp⟩
  · intro a as t ts id os hr hrs ih act ha hh A B C D
    have ha' := ha rfl
    have hn := hr.2.1 fun hc => hh ⟨a, t, List.mem_cons_self, hc⟩
    cases act with
    | nil => simp at ha'
    | cons x act =>
      obtain rfl : x = true := ha'.2 x (by simp)
      obtain ⟨tmp, e, h1⟩ := ih act (fun _ => ⟨by simpa using ha'.1, fun a ha => ha'.2 a (by simp [ha])⟩)
        (fun ⟨a', t', h1, h2⟩ => hh ⟨a', t', List.mem_cons_of_mem _ h1, h2⟩)
        (A && t.l.isSome) (B && t.r.isSome) (C || t.l.isSome) (D || t.r.isSome)
      refine ⟨true :: tmp, ?_, fun _ => ?_⟩
      · rw [List.map_cons, partialNodes]
        simp only [readRoot, R_bind_ok, hn, and_node2, or_node2, if_true, Bool.or_true, e]
        simp [allL, allR, anyL, anyR, Bool.and_assoc, Bool.or_assoc]
      · have h1 := h1 rfl
        exact ⟨by simpa using h1.1, by simpa using h1.2⟩

theorem children_leftP {d ℓ p : Nat} : ∀ (as : List α) (ts : List (Tr (d + 1))) (os : List (Option Nat)),
    RepsP nav bad leaf b (d + 1) ℓ p as ts os → allL ts = true →
    ∃ cs, children Nav.getLeftChild false ℓ (as.map nav) os = .ok cs ∧ RepsP nav bad leaf b d (ℓ + 1) p as (lefts ts) cs ∧
      (allR ts = true → RepsP nav bad leaf b d (ℓ + 1) (p + 2 ^ (d + b)) as (rights ts) (succRoots cs)) := by
  apply RepsP.rec'
  · intro os _
    exact ⟨[], rfl, trivial, fun _ => trivial⟩
  · intro a as t ts id os hr hrs ih hl
    simp only [allL, List.all_cons, Bool.and_eq_true] at hl
    obtain ⟨cs, e, h1, h2⟩ := ih hl.2
    cases hs : t.l with
    | none => rw [hs] at hl; simp at hl
    | some s =>
      obtain ⟨c, hc, hR, hR'⟩ := hr.2.2.1 s hs
      refine ⟨some c :: cs, ?_, ?_, ?_⟩
      · rw [List.map_cons, children]
        simp [readRoot, hc, e]
      · simp only [lefts, List.filterMap_cons, hs]
        exact ⟨hR, h1⟩
      · intro hr'
        simp only [allR, List.all_cons, Bool.and_eq_true] at hr'
        cases hs' : t.r with
        | none => rw [hs'] at hr'; simp at hr'
        | some s' =>
          simp only [rights, List.filterMap_cons, hs', succRoots, List.map_cons, Option.map_some]
          exact ⟨hR' s' hs', h2 hr'.2⟩

theorem children_rightP {d ℓ p : Nat} : ∀ (as : List α) (ts : List (Tr (d + 1))) (os : List (Option Nat)),
    RepsP nav bad leaf b (d + 1) ℓ p as ts os → allR ts = true →
    ∃ cs, children Nav.getRightChild false ℓ (as.map nav) os = .ok cs ∧
      RepsP nav bad leaf b d (ℓ + 1) (p + 2 ^ (d + b)) as (rights ts) cs := by
  apply RepsP.rec'
  · intro os _
    exact ⟨[], rfl, trivial⟩
  · intro a as t ts id os hr hrs ih hl
    simp only [allR, List.all_cons, Bool.and_eq_true] at hl
    obtain ⟨cs, e, h1⟩ := ih hl.2
    cases hs : t.r with
    | none => rw [hs] at hl; simp at hl
    | some s =>
      obtain ⟨c, hc, hR⟩ := hr.2.2.2 s hs
      refine ⟨some c :: cs, ?_, ?_⟩
      · rw [List.map_cons, children]
        simp [readRoot, hc, e]
      · simp only [rights, List.filterMap_cons, hs]
        exact ⟨hR, h1⟩

/-- A node that cannot be read is met in the first `k` levels. -/
def HitsP : (k : Nat) → {d : Nat} → Nat → List α → List (Tr (d + k)) → Prop
  | 0, _, _, _, _ => False
  | k + 1, d, p, as, ts => HitNowP (d := d + k) bad b p as ts ∨
    allL (d := d + k) ts = true ∧ HitsP k p as (lefts (d := d + k) ts) ∨
    allR (d := d + k) ts = true ∧ HitsP k (p + 2 ^ (d + k + b)) as (rights (d := d + k) ts)

/-- The task walks the trees in the block. -/
def TaskRB (as : List α) (d ℓ : Nat) (T : Task) (v : Nat × List (Tr d)) : Prop :=
  RepsP nav bad leaf b d ℓ v.1 as v.2 T.roots ∧ ActOK true as.length T.active ∧ T.part = v.1 ∧ 2 ^ (d + b) ∣ v.1

theorem partialAND_hits {as : List α} {c : Cfg} (htop : c.top < 64) (hne : as ≠ []) :
    ∀ (k d ℓ : Nat) (ts : List (Tr (d + k))) (os : List (Option Nat)) (act : List Bool) (part : Nat) (s : PSt),
    RepsP nav bad leaf b (d + k) ℓ part as ts os → ActOK true as.length act → c.top = ℓ + (d + k) + b → 2 ^ (d + k + b) ∣ part →
    (HitsP bad b k part as ts → partialAND (as.map nav) c true k ℓ os act part s = .error .oob) ∧
    (¬ HitsP bad b k part as ts →
      ∃ new, partialAND (as.map nav) c true k ℓ os act part s = .ok ⟨s.r ++ enum (d + k + b) (rp b k ts) part, s.tasks ++ new⟩ ∧
        List.Forall₂ (TaskRB nav bad leaf b as d (ℓ + k)) new (walk b k part ts)) := by
  intro k
  induction k with
  | zero =>
    intro d ℓ ts os act part s hr ha ht hd
    refine ⟨fun h => h.elim, fun _ => ?_⟩
    refine ⟨[⟨part, os.take (as.map nav).length, act.take (as.map nav).length⟩], ?_, .cons ⟨?_, ?_, rfl, hd⟩ .nil⟩
    · rw [partialAND, if_neg, enum_false (P := rp b 0 ts) (fun _ _ => rfl), List.append_nil]
      · simp only [if_true]
      · rintro (h | ⟨h1, h2⟩)
        · rw [List.length_map] at h
          have := RepsP.length_le nav bad leaf b _ _ _ hr
          omega
        · rw [List.length_map] at h2
          have := (ha h1).1
          omega
    · simpa using RepsP.take nav bad leaf b _ _ _ hr
    · intro h
      have := ha h
      simp only [List.length_map]
      exact ⟨by simpa using this.1, fun a ha => this.2 a (List.mem_of_mem_take ha)⟩
  | succ k ih =>
    intro d ℓ ts os act part s hr ha ht hd
    have hd' : 2 ^ (d + k + b + 1) ∣ part := by rwa [show d + k + b + 1 = d + (k + 1) + b by omega]
    have hs : shl1 (c.top - ℓ - 1) = .ok (2 ^ (d + k + b)) := by
      rw [ht, show ℓ + (d + (k + 1)) + b - ℓ - 1 = d + k + b by omega]; exact shl1_ok (by omega)
    by_cases hn : HitNowP (d := d + k) bad b part as ts
    · refine ⟨fun _ => ?_, fun h => (h (Or.inl hn)).elim⟩
      rw [partialAND, partialNodes_hit nav bad leaf b (d := d + k) as ts os hr act ha hn]
      rfl
    have hH : HitsP bad b (k + 1) part as ts ↔ allL (d := d + k) ts = true ∧ HitsP bad b k part as (lefts (d := d + k) ts) ∨
        allR (d := d + k) ts = true ∧ HitsP bad b k (part + 2 ^ (d + k + b)) as (rights (d := d + k) ts) := by
      rw [HitsP]
      exact ⟨fun h => h.resolve_left hn, Or.inr⟩
    obtain ⟨tmp, h3, hat⟩ := partialNodes_repsP nav bad leaf b (d := d + k) as ts os hr act ha hn true true false false
    rw [Bool.true_and, Bool.true_and, Bool.false_or, Bool.false_or, node2_tt, node2_ff] at h3
    rw [hH, partialAND, h3]
    simp only [R_bind_ok, hs, or_two_pow hd', Bool.not_true, Bool.false_eq_true, false_and, if_false, true_and]
    rw [show ℓ + (k + 1) = ℓ + 1 + k by omega]
    by_cases hfull : anyL (d := d + k) ts = false ∧ anyR (d := d + k) ts = false
    · obtain ⟨h1, h2⟩ := hfull
      have hL : allL (d := d + k) ts = false ∧ allR (d := d + k) ts = false := by
        cases ts with
        | nil => cases as with
          | nil => exact (hne rfl).elim
          | cons _ _ => simp [RepsP] at hr
        | cons t ts =>
          simp only [anyL, anyR, List.any_cons, Bool.or_eq_false_iff] at h1 h2
          exact ⟨by simp only [allL, List.all_cons, h1.1, Bool.false_and], by simp only [allR, List.all_cons, h2.1, Bool.false_and]⟩
      refine ⟨fun h => ?_, fun _ => ?_⟩
      · rw [hL.1, hL.2] at h
        simp at h
      simp only [h1, h2, node2_ff, if_true]
      rw [ht, show ℓ + (d + (k + 1)) + b - ℓ = d + (k + 1) + b by omega, fillRange_ok s.r (by omega) hd (fun x _ => rfl), R_bind_ok,
        rp_bare (by simp [allBare, h1, h2])]
      refine ⟨[], by rw [List.append_nil], ?_⟩
      rw [walk, hL.1, hL.2]
      exact .nil
    · have hn00 : node2 (anyL (d := d + k) ts) (anyR (d := d + k) ts) ≠ 0 := by
        intro h2
        rw [node2_eq_zero] at h2
        exact hfull h2
      have hnb : allBare (d := d + k) ts = false := by
        cases hb : allBare (d := d + k) ts with
        | false => rfl
        | true =>
          rw [allBare, Bool.and_eq_true, Bool.not_eq_true', Bool.not_eq_true'] at hb
          exact (hfull hb).elim
      simp only [hn00, if_false]
      rw [rp_split hnb, walk]
      cases hL : allL (d := d + k) ts with
      | false =>
        cases hR : allR (d := d + k) ts with
        | false =>
          simp only [node2_ff, Nat.reduceEqDiff, if_false, Bool.false_eq_true, List.append_nil, false_and, or_self, IsEmpty.forall_iff,
            not_false_iff, true_and, forall_true_left]
          exact ⟨[], by simp, .nil⟩
        | true =>
          obtain ⟨cs, e1, h1⟩ := children_rightP nav bad leaf b (d := d + k) as ts os hr hR
          simp only [node2_ft, Nat.reduceEqDiff, if_false, if_true, e1, R_bind_ok, Bool.false_eq_true, List.nil_append, false_and, false_or,
            true_and]
          exact ih d (ℓ + 1) _ cs tmp _ s h1 hat (by omega) (dvd_hi hd')
      | true =>
        obtain ⟨cs, e1, h1, h2⟩ := children_leftP nav bad leaf b (d := d + k) as ts os hr hL
        obtain ⟨ih1, ih2⟩ := ih d (ℓ + 1) _ cs tmp part s h1 hat (by omega) (dvd_lo hd')
        cases hR : allR (d := d + k) ts with
        | false =>
          simp only [node2_tf, Nat.reduceEqDiff, if_false, if_true, e1, R_bind_ok, Bool.false_eq_true,
            List.append_nil, false_and, or_false, true_and]
          exact ⟨ih1, ih2⟩
        | true =>
          simp only [node2_tt, Nat.reduceEqDiff, if_false, if_true, e1, R_bind_ok, true_and]
          by_cases hl : HitsP bad b k part as (lefts (d := d + k) ts)
          · refine ⟨fun _ => ?_, fun h => (h (Or.inl hl)).elim⟩
            rw [ih1 hl]
            rfl
          obtain ⟨new, e2, h4⟩ := ih2 hl
          rw [e2]
          simp only [R_bind_ok, hl, false_or]
          obtain ⟨ih1', ih2'⟩ := ih d (ℓ + 1) _ _ tmp _ ⟨s.r ++ enum (d + k + b) (rp b k (lefts (d := d + k) ts)) part, s.tasks ++ new⟩
            (h2 hR) hat (by omega) (dvd_hi hd')
          refine ⟨ih1', fun h => ?_⟩
          obtain ⟨new', e2', h4'⟩ := ih2' h
          refine ⟨new ++ new', ?_, List.rel_append h4 h4'⟩
          rw [e2', List.append_assoc, List.append_assoc]

theorem fillThreads_hits {as : List α} {c : Cfg} {d cut n total : Nat} (htop : c.top < 64)
    (hne : as ≠ []) (hct : c.top = cut + (d + 1) + b) (hth : n < 2 ^ 16) :
    ∀ (todo : List Task) (us : List (Nat × List (Tr (d + 1)))) (i used : Nat) (s : PSt),
    List.Forall₂ (TaskRB nav bad leaf b as (d + 1) cut) todo us → used = todo.length + s.tasks.length → used ≤ n →
    total = todo.length + i →
    ((∃ u ∈ us.take (replaced n used (us.map fun u => (walk b 1 u.1 u.2).length)), HitNowP bad b u.1 as u.2) →
      fillThreads (as.map nav) c true cut n total todo i used s = .error .oob) ∧
    (¬ (∃ u ∈ us.take (replaced n used (us.map fun u => (walk b 1 u.1 u.2).length)), HitNowP bad b u.1 as u.2) →
    ∃ new, fillThreads (as.map nav) c true cut n total todo i used s =
        .ok (todo.drop (replaced n used (us.map fun u => (walk b 1 u.1 u.2).length)),
          threadCount n used (us.map fun u => (walk b 1 u.1 u.2).length),
          ⟨s.r ++ (us.take (replaced n used (us.map fun u => (walk b 1 u.1 u.2).length))).flatMap fun u => enum (d + 1 + b) (rp b 1 u.2) u.1,
            s.tasks ++ new⟩) ∧
      List.Forall₂ (TaskRB nav bad leaf b as d (cut + 1)) new
        ((us.take (replaced n used (us.map fun u => (walk b 1 u.1 u.2).length))).flatMap fun u => walk b 1 u.1 u.2) ∧
      threadCount n used (us.map fun u => (walk b 1 u.1 u.2).length) = (s.tasks ++ new).length +
        (todo.drop (replaced n used (us.map fun u => (walk b 1 u.1 u.2).length))).length ∧
      threadCount n used (us.map fun u => (walk b 1 u.1 u.2).length) ≤ n) := by
  have hone : ∀ u : Nat × List (Tr (d + 1)), HitsP bad b 1 (d := d) u.1 as u.2 ↔ HitNowP bad b u.1 as u.2 := by
    intro u
    rw [HitsP]
    simp only [HitsP, and_false, or_false]
  intro todo
  induction todo with
  | nil =>
    intro us i used s h hu hle ht
    cases h
    refine ⟨fun h => by simp at h, fun _ => ⟨[], ?_, .nil, ?_, ?_⟩⟩
    · rw [fillThreads, hu]
      simp [threadCount, replaced]
    · simpa [threadCount, replaced] using hu
    · simpa [threadCount] using hle
  | cons T todo ih =>
    intro us i used s h hu hle ht
    cases h with
    | @cons _ u _ us hto h =>
      rw [fillThreads]
      have hmod : (n + 2 ^ 32 - used) % 2 ^ 32 = n - used := by omega
      rw [hmod]
      simp only [List.length_cons] at hu ht
      rw [List.map_cons, replaced, threadCount]
      by_cases hgt : used + 1 < n
      · rw [if_pos hgt, if_pos hgt, if_pos (show n - used > 1 by omega)]
        obtain ⟨h1, h2, h3, h4⟩ := hto
        obtain ⟨e0, e⟩ := partialAND_hits nav bad leaf b (as := as) (c := c) htop hne 1 d cut
          u.2 T.roots T.active T.part s (h3 ▸ h1) h2 (by omega) (h3 ▸ h4)
        rw [h3] at e0 e
        rw [h3, Nat.add_comm 1, List.take_succ_cons, List.drop_succ_cons, List.flatMap_cons, List.flatMap_cons]
        simp only [List.mem_cons, exists_eq_or_imp]
        by_cases hn : HitNowP bad b u.1 as u.2
        · refine ⟨fun _ => ?_, fun h => (h (Or.inl hn)).elim⟩
          rw [e0 ((hone u).2 hn)]
          rfl
        obtain ⟨new, e, g1⟩ := e fun h => hn ((hone u).1 h)
        rw [e, R_bind_ok]
        have hl : new.length = (walk b 1 u.1 u.2).length := g1.length_eq
        have hl2 := walk_length_le b 1 u.1 u.2
        have hu' : (total + (s.tasks ++ new).length - (i + 1)) % 2 ^ 16 = todo.length + (s.tasks ++ new).length := by
          rw [List.length_append]; omega
        dsimp only
        rw [hu']
        have hlast : used + (walk b 1 u.1 u.2).length - 1 = todo.length + (s.tasks ++ new).length := by
          rw [List.length_append]; omega
        rw [hlast]
        obtain ⟨ih1, ih2⟩ := ih us (i + 1) _ ⟨s.r ++ enum (d + 1 + b) (rp b 1 u.2) u.1, s.tasks ++ new⟩ h rfl
          (by rw [List.length_append]; omega) (by omega)
        refine ⟨fun h => ih1 (h.resolve_left hn), fun h => ?_⟩
        obtain ⟨new', e', k1, k2, k3⟩ := ih2 fun h' => h (Or.inr h')
        dsimp only at k2 e'
        rw [e']
        refine ⟨new ++ new', ?_, ?_, ?_, k3⟩
        · rw [List.append_assoc, List.append_assoc]
        · exact List.rel_append g1 k1
        · rw [k2, List.append_assoc]
      · rw [if_neg hgt, if_neg hgt, if_neg (show ¬ n - used > 1 by omega)]
        refine ⟨fun h => by simp at h, fun _ => ⟨[], ?_, .nil, ?_, hle⟩⟩
        · simp
        · simp; omega

/-- A node that cannot be read is met by a parallel call. -/
def HitsPar {d k : Nat} (as : List α) (ts : List (Tr (d + 1 + k))) : Prop :=
  HitsP bad b k 0 as ts ∨ (∃ u ∈ (walk b k 0 ts).take (splitCount b ts), HitNowP bad b u.1 as u.2) ∨
  (∃ u ∈ (walk b k 0 ts).take (splitCount b ts), ∃ v ∈ walk b 1 u.1 u.2, Hits bad b d v.1 as (v.2.map some)) ∨
  ∃ u ∈ (walk b k 0 ts).drop (splitCount b ts), Hits bad b (d + 1) u.1 as (u.2.map some)

open Classical in
theorem taskRB_run {as : List α} {c : Cfg} {e d ℓ : Nat} (hR : LeafOKR nav leaf as c b e) (htop : c.top < 64) (hstop : c.stop = ℓ + d + e)
    (ht : c.top = ℓ + d + b) {T : Task} {v : Nat × List (Tr d)} (h : TaskRB nav bad leaf b as d ℓ T v) :
    runsAND (as.map nav) c (c.stop - ℓ) ℓ T.roots T.active T.part [] =
      if Hits bad b d v.1 as (v.2.map some) then .error .oob else .ok (taskOut b v) := by
  obtain ⟨h1, h2, h3, h4⟩ := h
  rw [hstop, show ℓ + d + e - ℓ = d + e by omega, h3,
    runsAND_hits nav bad leaf b hR htop d ℓ (v.2.map some) _ _ _ _ (RepsP.toB nav bad leaf b _ _ _ h1 _ (h2 rfl).1 (h2 rfl).2) ht h4,
    taskOut, allS_true]
  rfl

open Classical in
/-- The parallel path with runs. -/
theorem par_body_hits {as : List α} {c : Cfg} {e d height : Nat} {env : Env} {ts : List (Tr (d + 1 + Nat.log2 env.hw))}
    (hne : as ≠ []) (hR : LeafOKR nav leaf as c b e)
    (hts : List.Forall₂ (fun a t => RepB (nav a) (bad a) (leaf a) b (d + 1 + Nat.log2 env.hw) 0 t 0 0) as ts) (hlen : as.length ≤ 16)
    (hstop : c.stop = d + 1 + Nat.log2 env.hw + e)
    (htop : c.top = d + 1 + Nat.log2 env.hw + b) (h64 : c.top < 64) (hw : env.hw ≠ 0) (hw' : env.hw < 2 ^ 16)
    (hh : Nat.log2 env.hw ≤ (height + 2 ^ 64 - 2) % 2 ^ 64) :
    intersectBody (as.map nav) c height true true env = if HitsPar bad b as ts then .error .oob else .ok (exactOut b ts) := by
  have hthr : 2 ^ Nat.log2 env.hw ≤ env.hw := Nat.log2_self_le hw
  rw [intersectBody, if_neg hw]
  simp only [hh, and_self, if_true]
  generalize Nat.log2 env.hw = cut at *
  obtain ⟨e0, e1⟩ := partialAND_hits nav bad leaf b (as := as) (c := c) h64 hne cut (d + 1) 0
    ts _ (List.replicate 16 true) 0 ⟨[], []⟩ (RepsP.root nav bad leaf b 16 hlen hts) (fun _ => ⟨by simpa using hlen, by simp⟩) (by omega)
    (dvd_zero _)
  by_cases hp : HitsP bad b cut 0 as ts
  · rw [if_pos (show HitsPar bad b as ts from Or.inl hp), e0 hp]
    rfl
  obtain ⟨tasks, e1, h1⟩ := e1 hp
  rw [Nat.zero_add] at h1
  rw [e1, R_bind_ok]
  simp only [List.nil_append]
  have hle := walk_length_le b cut 0 ts
  have hl := h1.length_eq
  by_cases h0 : tasks.length = 0
  · have hw0 : walk b cut 0 ts = [] := List.length_eq_zero_iff.1 (hl.symm.trans h0)
    rw [if_pos h0, if_neg (show ¬ HitsPar bad b as ts by rw [HitsPar, hw0]; simpa using hp), exactOut, hw0]
    simp
  rw [if_neg h0]
  have hmod : tasks.length % 2 ^ 16 = tasks.length := Nat.mod_eq_of_lt (by omega)
  rw [hmod, List.take_length]
  obtain ⟨e2', e2⟩ := fillThreads_hits nav bad leaf b (n := 2 ^ cut) (total := tasks.length) h64 hne (by omega) (by omega) tasks _ 0
    tasks.length ⟨enum (d + 1 + cut + b) (rp b cut ts) 0, []⟩ h1 (by simp) (by omega) (by simp)
  rw [hl] at e2' e2
  rw [← hl] at e2' e2
  by_cases hf : ∃ u ∈ (walk b cut 0 ts).take (splitCount b ts), HitNowP bad b u.1 as u.2
  · rw [if_pos (show HitsPar bad b as ts from Or.inr (Or.inl hf)), e2']
    · rfl
    · rw [splitCount, ← hl] at hf
      exact hf
  obtain ⟨new, e2, k1, k2, k3⟩ := e2 (by rw [splitCount, ← hl] at hf; exact hf)
  have hpar : HitsPar bad b as ts ↔
      (∃ u ∈ (walk b cut 0 ts).take (splitCount b ts), ∃ v ∈ walk b 1 u.1 u.2, Hits bad b d v.1 as (v.2.map some)) ∨
      ∃ u ∈ (walk b cut 0 ts).drop (splitCount b ts), Hits bad b (d + 1) u.1 as (u.2.map some) := by
    rw [HitsPar]
    exact ⟨fun h => (h.resolve_left hp).resolve_left hf, fun h => Or.inr (Or.inr h)⟩
  rw [e2, R_bind_ok, exactOut]
  simp only [hpar]
  rw [splitCount]
  simp only [List.nil_append] at k2 ⊢
  rw [hl] at k1 k2 k3 ⊢
  generalize hus : walk b cut 0 ts = us at *
  generalize hm : replaced (2 ^ cut) us.length (us.map fun u => (walk b 1 u.1 u.2).length) = m at *
  rw [k2]
  have hok2 := List.forall₂_drop m h1
  have hl1 := k1.length_eq
  have hl2 := hok2.length_eq
  generalize hrest : tasks.drop m = rest at *
  by_cases hz : (new ++ rest).length = 0
  · rw [if_pos hz]
    rw [List.length_eq_zero_iff, List.append_eq_nil_iff] at hz
    obtain ⟨rfl, rfl⟩ := hz
    cases h3 : us.drop m with
    | cons _ _ => rw [h3] at hl2; simp at hl2
    | nil =>
      cases h2 : (us.take m).flatMap fun u => walk b 1 u.1 u.2 with
      | cons _ _ => rw [h2] at hl1; simp at hl1
      | nil =>
        rw [if_neg]
        · simp
        · rintro (⟨u, hu, v, hv, -⟩ | ⟨u, hu, -⟩)
          · have : v ∈ (us.take m).flatMap fun u => walk b 1 u.1 u.2 := List.mem_flatMap.2 ⟨u, hu, hv⟩
            rw [h2] at this
            simp at this
          · simp at hu
  rw [if_neg hz]
  have hfm : (∃ u ∈ us.take m, ∃ v ∈ walk b 1 u.1 u.2, Hits bad b d v.1 as (v.2.map some)) ↔
      ∃ v ∈ (us.take m).flatMap fun u => walk b 1 u.1 u.2, Hits bad b d v.1 as (v.2.map some) := by
    constructor
    · rintro ⟨u, hu, v, hv, h⟩
      exact ⟨v, List.mem_flatMap.2 ⟨u, hu, hv⟩, h⟩
    · rintro ⟨v, hv, h⟩
      obtain ⟨u, hu, hv⟩ := List.mem_flatMap.1 hv
      exact ⟨u, hu, v, hv, h⟩
  simp only [hfm]
  generalize hvs : ((us.take m).flatMap fun u => walk b 1 u.1 u.2) = vs at *
  generalize hws : us.drop m = ws at *
  -- what thread `t` does
  have hbody : ∀ t < new.length + rest.length, ∃ (H : Prop) (out : List Nat),
      (do
        let task ← vGet (new ++ rest) t
        let level ← vGet (List.replicate new.length (cut + 1) ++ List.replicate rest.length cut) t
        let out ← runsAND (as.map nav) c (c.stop - level) level task.roots task.active task.part []
        pure (out.map fun x => (t, x))) = (if H then .error .oob else .ok (out.map fun x => (t, x)) : R (List (Nat × Nat))) ∧
      (vs.map (taskOut b) ++ ws.map (taskOut b))[t]? = some out ∧
      ((vs.map fun v => Hits bad b d v.1 as (v.2.map some)) ++ ws.map fun v => Hits bad b (d + 1) v.1 as (v.2.map some))[t]? = some H := by
    intro t ht
    by_cases htn : t < new.length
    · have e3 : vGet (new ++ rest) t = .ok new[t] := by
        rw [vGet, List.getElem?_append_left htn, List.getElem?_eq_getElem htn]
      have e4 : vGet (List.replicate new.length (cut + 1) ++ List.replicate rest.length cut) t = .ok (cut + 1) := by
        rw [vGet, List.getElem?_append_left (by simpa using htn), List.getElem?_replicate, if_pos htn]
      have htv : t < vs.length := by omega
      have hrel : TaskRB nav bad leaf b as d (cut + 1) new[t] vs[t] := k1.get htn htv
      refine ⟨Hits bad b d vs[t].1 as (vs[t].2.map some), taskOut b vs[t], ?_, ?_, ?_⟩
      · rw [e3, e4]
        simp only [R_bind_ok]
        rw [taskRB_run nav bad leaf b hR h64 (by omega) (by omega) hrel]
        split <;> rfl
      · rw [List.getElem?_append_left (by simpa using htv), List.getElem?_map, List.getElem?_eq_getElem htv]; rfl
      · rw [List.getElem?_append_left (by simpa using htv), List.getElem?_map, List.getElem?_eq_getElem htv]; rfl
    · have htr : t - new.length < rest.length := by omega
      have e3 : vGet (new ++ rest) t = .ok rest[t - new.length] := by
        rw [vGet, List.getElem?_append_right (by omega), List.getElem?_eq_getElem htr]
      have e4 : vGet (List.replicate new.length (cut + 1) ++ List.replicate rest.length cut) t = .ok cut := by
        rw [vGet, List.getElem?_append_right (by simpa using htn), List.getElem?_replicate, if_pos (by simp; omega)]
      have htw : t - new.length < ws.length := by omega
      have hrel : TaskRB nav bad leaf b as (d + 1) cut rest[t - new.length] ws[t - new.length] := hok2.get htr htw
      refine ⟨Hits bad b (d + 1) ws[t - new.length].1 as (ws[t - new.length].2.map some), taskOut b ws[t - new.length], ?_, ?_, ?_⟩
      · rw [e3, e4]
        simp only [R_bind_ok]
        rw [taskRB_run nav bad leaf b hR h64 (by omega) (by omega) hrel]
        split <;> rfl
      · rw [List.getElem?_append_right (by simp; omega), List.length_map, ← hl1, List.getElem?_map, List.getElem?_eq_getElem htw]; rfl
      · rw [List.getElem?_append_right (by simp; omega), List.length_map, ← hl1, List.getElem?_map, List.getElem?_eq_getElem htw]; rfl
  rw [List.length_append] at hz
  by_cases hx : (∃ v ∈ vs, Hits bad b d v.1 as (v.2.map some)) ∨ ∃ u ∈ ws, Hits bad b (d + 1) u.1 as (u.2.map some)
  · rw [if_pos hx, parallelFor_fails (e := .oob) (by omega)]
    · rfl
    · intro t ht
      obtain ⟨H, out, h5, -, -⟩ := hbody t ht
      rw [h5]
      by_cases hH : H
      · rw [if_pos hH]; exact .inr rfl
      · rw [if_neg hH]; exact .inl ⟨_, rfl⟩
    · have : ∃ t < new.length + rest.length, ∃ H : Prop, H ∧
          ((vs.map fun v => Hits bad b d v.1 as (v.2.map some)) ++ ws.map fun v => Hits bad b (d + 1) v.1 as (v.2.map some))[t]? = some H := by
        rcases hx with ⟨v, hv, h⟩ | ⟨v, hv, h⟩
        · obtain ⟨t, ht, rfl⟩ := List.mem_iff_getElem.1 hv
          exact ⟨t, by omega, _, h, by rw [List.getElem?_append_left (by simpa using ht), List.getElem?_map, List.getElem?_eq_getElem ht]; rfl⟩
        · obtain ⟨t, ht, rfl⟩ := List.mem_iff_getElem.1 hv
          refine ⟨vs.length + t, by omega, _, h, ?_⟩
          rw [List.getElem?_append_right (by simp), List.length_map, Nat.add_sub_cancel_left, List.getElem?_map, List.getElem?_eq_getElem ht]
          rfl
      obtain ⟨t, ht, H, hH, hget⟩ := this
      obtain ⟨H', out, h5, -, h7⟩ := hbody t ht
      rw [hget] at h7
      cases h7
      exact ⟨t, ht, by rw [h5, if_pos hH]⟩
  · rw [if_neg hx]
    have hnil : vs.map (taskOut b) ++ ws.map (taskOut b) ≠ [] := by
      rw [← List.length_pos_iff, List.length_append, List.length_map, List.length_map]
      omega
    have hused : new.length + rest.length = (vs.map (taskOut b) ++ ws.map (taskOut b)).length := by simp [hl1, hl2]
    rw [hused, parallelFor_push hnil, R_bind_ok, gather_ok _ _ _ hnil]
    · rw [List.flatten_append, List.flatMap_def, List.flatMap_def, List.append_assoc, List.append_assoc]
      simp [List.flatMap_def]
    · intro t ht
      obtain ⟨H, out, h5, h6, h7⟩ := hbody t (by omega)
      rw [h5]
      have hH : ¬ H := by
        intro hH
        apply hx
        have := List.mem_of_getElem? h7
        rw [List.mem_append, List.mem_map, List.mem_map] at this
        rcases this with ⟨v, hv, rfl⟩ | ⟨v, hv, rfl⟩
        · exact .inl ⟨v, hv, hH⟩
        · exact .inr ⟨v, hv, hH⟩
      rw [if_neg hH]
      rw [List.getElem?_eq_getElem ht] at h6
      cases h6
      rfl

end

end CBT
