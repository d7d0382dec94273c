import Verif.Proof.RunsAnd

/-!
# Run-aware intersection of tries some nodes of which cannot be read
-/

namespace CBT

/-- Like `Rep`, for the block starting at `p`; but a node without children cannot be read if its block is in `bad`: `bad j p` for the
block of size `2^j` starting at `p`. -/
def RepB (n : Nav) (bad : Nat → Nat → Prop) (leaf : (w id level : Nat) → Prop) (b : Nat) : (d ℓ : Nat) → Tr d → (id p : Nat) → Prop
  | 0, ℓ, t, id, _ => leaf t.word id ℓ
  | d + 1, ℓ, t, id, p =>
    (t.bare = true → bad (d + 1 + b) p → n.getNode id ℓ = .error .oob) ∧
    (¬ (t.bare = true ∧ bad (d + 1 + b) p) → n.getNode id ℓ = .ok (node2 t.l.isSome t.r.isSome)) ∧
    (∀ s, t.l = some s → ∃ c, n.getLeftChild id ℓ = .ok c ∧ RepB n bad leaf b d (ℓ + 1) s c p ∧
      ∀ s', t.r = some s' → RepB n bad leaf b d (ℓ + 1) s' (c + 1) (p + 2 ^ (d + b))) ∧
    (∀ s', t.r = some s' → ∃ c, n.getRightChild id ℓ = .ok c ∧ RepB n bad leaf b d (ℓ + 1) s' c (p + 2 ^ (d + b)))

theorem Rep.toB {n : Nav} {bad : Nat → Nat → Prop} {leaf : Nat → Nat → Nat → Prop} {b : Nat} (hb : ∀ j x, ¬ bad j x) : ∀ {d ℓ : Nat} {t : Tr d}
    {id p : Nat}, Rep n leaf d ℓ t id → RepB n bad leaf b d ℓ t id p
  | 0, _, _, _, _, h => h
  | d + 1, ℓ, t, id, p, h => by
    refine ⟨fun _ h => (hb _ _ h).elim, fun _ => h.1, fun s hs => ?_, fun s' hs' => ?_⟩
    · obtain ⟨c, h1, h2, h3⟩ := h.2.1 s hs
      exact ⟨c, h1, h2.toB hb, fun s' hs' => (h3 s' hs').toB hb⟩
    · obtain ⟨c, h1, h2⟩ := h.2.2 s' hs'
      exact ⟨c, h1, h2.toB hb⟩

section
variable {α : Type} (nav : α → Nav) (bad : α → Nat → Nat → Prop) (leaf : α → Nat → Nat → Nat → Prop) (b : Nat)

/-- Like `RepsA`. -/
def RepsB (d ℓ p : Nat) : List α → List (Option (Tr d)) → List (Option Nat) → List Bool → Prop
  | [], [], _, _ => True
  | a :: as, some t :: ts, some id :: os, true :: bs => RepB (nav a) (bad a) (leaf a) b d ℓ t id p ∧ RepsB d ℓ p as ts os bs
  | _ :: as, none :: ts, _ :: os, false :: bs => RepsB d ℓ p as ts os bs
  | _, _, _, _ => False

theorem RepsB.rec' {d ℓ p : Nat} {motive : List α → List (Option (Tr d)) → List (Option Nat) → List Bool → Prop}
    (hnil : ∀ os bs, motive [] [] os bs)
    (hsome : ∀ a as t ts id os bs, RepB (nav a) (bad a) (leaf a) b d ℓ t id p → RepsB nav bad leaf b d ℓ p as ts os bs →
      motive as ts os bs → motive (a :: as) (some t :: ts) (some id :: os) (true :: bs))
    (hnone : ∀ a as ts o os bs, RepsB nav bad leaf b d ℓ p as ts os bs → motive as ts os bs →
      motive (a :: as) (none :: ts) (o :: os) (false :: bs)) :
    ∀ as ts os bs, RepsB nav bad leaf b d ℓ p as ts os bs → motive as ts os bs
  | [], [], os, bs, _ => hnil os bs
  | a :: as, some t :: ts, some id :: os, true :: bs, h =>
    hsome a as t ts id os bs h.1 h.2 (RepsB.rec' hnil hsome hnone as ts os bs h.2)
  | a :: as, none :: ts, o :: os, false :: bs, h =>
    hnone a as ts o os bs (by simpa [RepsB] using h) (RepsB.rec' hnil hsome hnone as ts os bs (by simpa [RepsB] using h))
  | [], _ :: _, _, _, h => by simp [RepsB] at h
  | _ :: _, [], _, _, h => by simp [RepsB] at h
  | _ :: _, some _ :: _, [], _, h => by simp [RepsB] at h
  | _ :: _, none :: _, [], _, h => by simp [RepsB] at h
  | _ :: _, some _ :: _, none :: _, _, h => by simp [RepsB] at h
  | _ :: _, some _ :: _, some _ :: _, [], h => by simp [RepsB] at h
  | _ :: _, some _ :: _, some _ :: _, false :: _, h => by simp [RepsB] at h
  | _ :: _, none :: _, _ :: _, [], h => by simp [RepsB] at h
  | _ :: _, none :: _, _ :: _, true :: _, h => by simp [RepsB] at h

theorem RepsB.leaves {ℓ p : Nat} : ∀ (as : List α) (ts : List (Option (Tr 0))) (os : List (Option Nat)) (bs : List Bool),
    RepsB nav bad leaf b 0 ℓ p as ts os bs → RepsA nav leaf 0 ℓ as ts os bs := by
  apply RepsB.rec'
  · intro os bs; trivial
  · intro a as t ts id os bs h _ ih; exact ⟨h, ih⟩
  · intro a as ts o os bs _ ih; simpa [RepsA] using ih

/-- One of the nodes read at the block starting at `p` cannot be. -/
def HitNow {d : Nat} (p : Nat) (as : List α) (ts : List (Option (Tr (d + 1)))) : Prop :=
  ∃ a t, (a, some t) ∈ as.zip ts ∧ t.bare = true ∧ bad a (d + 1 + b) p

theorem runsNodes_hit {d ℓ p : Nat} : ∀ (as : List α) (ts : List (Option (Tr (d + 1)))) (os : List (Option Nat)) (bs : List Bool),
    RepsB nav bad leaf b (d + 1) ℓ p as ts os bs → HitNow bad b p as ts → ∀ (an orr : Nat),
    runsNodes (as.map nav) os bs ℓ an orr = .error .oob := by
  apply RepsB.rec'
  · rintro os bs ⟨a, t, h, _⟩; simp at h
  · intro a as t ts id os bs hr hrs ih hh an orr
    rw [List.map_cons, runsNodes]
    simp only [if_true, readRoot, R_bind_ok]
    by_cases hc : t.bare = true ∧ bad a (d + 1 + b) p
    · rw [hr.1 hc.1 hc.2]; rfl
    · rw [hr.2.1 hc, R_bind_ok]
      have hh' : HitNow bad b p as ts := by
        obtain ⟨a', t', h1, h2⟩ := hh
        rw [List.zip_cons_cons, List.mem_cons] at h1
        rcases h1 with h1 | h1
        · injection h1 with e1 e2
          injection e2 with e2
          subst e1 e2
          exact (hc h2).elim
        · exact ⟨a', t', h1, h2⟩
      split
      · rw [ih hh']; rfl
      · rw [ih hh']; rfl
  · intro a as ts o os bs hrs ih hh an orr
    have hh' : HitNow bad b p as ts := by
      obtain ⟨a', t', h1, h2⟩ := hh
      rw [List.zip_cons_cons, List.mem_cons] at h1
      rcases h1 with h1 | h1
      · injection h1 with e1 e2; cases e2
      · exact ⟨a', t', h1, h2⟩
    rw [List.map_cons, runsNodes]
    simp only [Bool.false_eq_true, if_false]
    rw [ih hh']; rfl

theorem runsNodes_repsB {d ℓ p : Nat} : ∀ (as : List α) (ts : List (Option (Tr (d + 1)))) (os : List (Option Nat)) (bs : List Bool),
    RepsB nav bad leaf b (d + 1) ℓ p as ts os bs → ¬ HitNow bad b p as ts → ∀ (A B C D : Bool), ∃ tmp,
    runsNodes (as.map nav) os bs ℓ (node2 A B) (node2 C D) =
      .ok (tmp, node2 (A && allLO (deact ts)) (B && allRO (deact ts)), node2 (C || anyLO ts) (D || anyRO ts)) ∧
    RepsB nav bad leaf b (d + 1) ℓ p as (deact ts) os tmp := by
  apply RepsB.rec'
  · intro os bs _ A B C D
    exact ⟨[], by simp [runsNodes, deact, allLO, allRO, anyLO, anyRO], trivial⟩
  · intro a as t ts id os bs hr hrs ih hh A B C D
    have ih := ih fun ⟨a', t', h1, h2⟩ => hh ⟨a', t', List.mem_cons_of_mem _ h1, h2⟩
    have hn := hr.2.1 fun hc => hh ⟨a, t, List.mem_cons_self, hc⟩
    cases hb : t.bare with
    | true =>
      obtain ⟨h1, h2⟩ := Tr.bare_eq hb
      obtain ⟨tmp, e, h⟩ := ih A B C D
      refine ⟨false :: tmp, ?_, ?_⟩
      · rw [h1, h2] at hn
        rw [List.map_cons, runsNodes]
        simp only [if_true, readRoot, R_bind_ok, hn, Option.isSome_none, node2_ff, ne_eq, not_true, if_false, Nat.or_zero, e]
        simp [deact, allLO, allRO, anyLO, anyRO, Option.filter, hb, h1, h2]
      · simpa [deact, Option.filter, hb, RepsB] using h
    | false =>
      obtain ⟨tmp, e, h⟩ := ih (A && t.l.isSome) (B && t.r.isSome) (C || t.l.isSome) (D || t.r.isSome)
      refine ⟨true :: tmp, ?_, ?_⟩
      · have hne : node2 t.l.isSome t.r.isSome ≠ 0 := by
          intro h0
          rw [node2_eq_zero] at h0
          simp [Tr.bare] at hb
          cases hl : t.l with
          | none => rw [hl] at h0 hb; simp at hb; simp [hb] at h0
          | some s => rw [hl] at h0; simp at h0
        rw [List.map_cons, runsNodes]
        simp only [if_true, readRoot, R_bind_ok, hn, ne_eq, hne, not_false_iff, and_node2, or_node2, e]
        simp [deact, allLO, allRO, anyLO, anyRO, Option.filter, hb, Bool.and_assoc, Bool.or_assoc]
      · simpa [deact, Option.filter, hb, RepsB] using ⟨hr, h⟩
  · intro a as ts o os bs hrs ih hh A B C D
    obtain ⟨tmp, e, h⟩ := ih (fun ⟨a', t', h1, h2⟩ => hh ⟨a', t', List.mem_cons_of_mem _ h1, h2⟩) A B C D
    refine ⟨false :: tmp, ?_, ?_⟩
    · rw [List.map_cons, runsNodes]
      simp only [Bool.false_eq_true, if_false, e, R_bind_ok]
      simp [deact, allLO, allRO, anyLO, anyRO, Option.filter]
    · simpa [deact, RepsB] using h

theorem childrenActive_leftB {d ℓ p : Nat} : ∀ (as : List α) (ts : List (Option (Tr (d + 1)))) (os : List (Option Nat)) (bs : List Bool),
    RepsB nav bad leaf b (d + 1) ℓ p as ts os bs → allLO ts = true →
    ∃ cs, childrenActive Nav.getLeftChild false ℓ (as.map nav) os bs = .ok cs ∧
      RepsB nav bad leaf b d (ℓ + 1) p as (leftsO ts) cs bs ∧
      (allRO ts = true → RepsB nav bad leaf b d (ℓ + 1) (p + 2 ^ (d + b)) as (rightsO ts) (succRoots cs) bs) := by
  apply RepsB.rec'
  · intro os bs _
    exact ⟨[], rfl, trivial, fun _ => trivial⟩
  · intro a as t ts id os bs hr hrs ih hl
    simp only [allLO, List.all_cons, Bool.and_eq_true, Option.all_some] at hl
    obtain ⟨cs, e, h1, h2⟩ := ih hl.2
    cases hs : t.l with
    | none => rw [hs] at hl; simp at hl
    | some s =>
      obtain ⟨c, hc, hR, hR'⟩ := hr.2.2.1 s hs
      refine ⟨some c :: cs, ?_, ?_, ?_⟩
      · rw [List.map_cons, childrenActive]
        simp [readRoot, hc, e]
      · simp only [leftsO, List.map_cons, Option.bind_some, hs]
        exact ⟨hR, h1⟩
      · intro hr'
        simp only [allRO, List.all_cons, Bool.and_eq_true, Option.all_some] at hr'
        cases hs' : t.r with
        | none => rw [hs'] at hr'; simp at hr'
        | some s' =>
          simp only [rightsO, List.map_cons, Option.bind_some, hs', succRoots, Option.map_some]
          exact ⟨hR' s' hs', h2 hr'.2⟩
  · intro a as ts o os bs hrs ih hl
    obtain ⟨cs, e, h1, h2⟩ := ih (by simpa [allLO] using hl)
    refine ⟨none :: cs, ?_, ?_, ?_⟩
    · rw [List.map_cons, childrenActive]
      simp [e]
    · simpa [leftsO, RepsB] using h1
    · intro hr'
      have := h2 (by simpa [allRO] using hr')
      simpa [rightsO, RepsB, succRoots] using this

theorem childrenActive_rightB {d ℓ p : Nat} : ∀ (as : List α) (ts : List (Option (Tr (d + 1)))) (os : List (Option Nat)) (bs : List Bool),
    RepsB nav bad leaf b (d + 1) ℓ p as ts os bs → allRO ts = true →
    ∃ cs, childrenActive Nav.getRightChild false ℓ (as.map nav) os bs = .ok cs ∧
      RepsB nav bad leaf b d (ℓ + 1) (p + 2 ^ (d + b)) as (rightsO ts) cs bs := by
  apply RepsB.rec'
  · intro os bs _
    exact ⟨[], rfl, trivial⟩
  · intro a as t ts id os bs hr hrs ih hl
    simp only [allRO, List.all_cons, Bool.and_eq_true, Option.all_some] at hl
    obtain ⟨cs, e, h1⟩ := ih hl.2
    cases hs : t.r with
    | none => rw [hs] at hl; simp at hl
    | some s =>
      obtain ⟨c, hc, hR⟩ := hr.2.2.2 s hs
      refine ⟨some c :: cs, ?_, ?_⟩
      · rw [List.map_cons, childrenActive]
        simp [readRoot, hc, e]
      · simp only [rightsO, List.map_cons, Option.bind_some, hs]
        exact ⟨hR, h1⟩
  · intro a as ts o os bs hrs ih hl
    obtain ⟨cs, e, h1⟩ := ih (by simpa [allRO] using hl)
    refine ⟨none :: cs, ?_, ?_⟩
    · rw [List.map_cons, childrenActive]
      simp [e]
    · simpa [rightsO, RepsB] using h1

/-- A node that cannot be read is met at or below the block starting at `p`. -/
def Hits : (d p : Nat) → List α → List (Option (Tr d)) → Prop
  | 0, _, _, _ => False
  | d + 1, p, as, ts => HitNow bad b p as ts ∨
    allLO (deact ts) = true ∧ Hits d p as (leftsO (deact ts)) ∨
    allRO (deact ts) = true ∧ Hits d (p + 2 ^ (d + b)) as (rightsO (deact ts))

theorem not_hits_none : ∀ (d p : Nat) (as : List α) (ts : List (Option (Tr d))), (∀ t ∈ ts, t = none) → ¬ Hits bad b d p as ts
  | 0, _, _, _, _, h => h
  | d + 1, p, as, ts, hn, h => by
    have h1 : ∀ t ∈ leftsO (deact ts), t = none := by
      intro t ht
      simp only [leftsO, deact, List.map_map, List.mem_map] at ht
      obtain ⟨o, ho, e⟩ := ht
      rw [hn o ho] at e
      exact e.symm
    have h2 : ∀ t ∈ rightsO (deact ts), t = none := by
      intro t ht
      simp only [rightsO, deact, List.map_map, List.mem_map] at ht
      obtain ⟨o, ho, e⟩ := ht
      rw [hn o ho] at e
      exact e.symm
    rcases h with ⟨a, t, h, _⟩ | ⟨_, h⟩ | ⟨_, h⟩
    · have := hn _ (List.of_mem_zip h).2
      cases this
    · exact not_hits_none d _ _ _ h1 h
    · exact not_hits_none d _ _ _ h2 h

theorem deact_none {d : Nat} {ts : List (Option (Tr (d + 1)))} (h1 : anyLO ts = false) (h2 : anyRO ts = false) :
    ∀ t ∈ deact ts, t = none := by
  intro t ht
  obtain ⟨o, ho, rfl⟩ := List.mem_map.1 ht
  cases o with
  | none => rfl
  | some t =>
    simp only [anyLO, anyRO, List.any_eq_false] at h1 h2
    have h1 := h1 _ ho
    have h2 := h2 _ ho
    simp only [Option.any_some, Bool.not_eq_true, Option.isSome_eq_false_iff] at h1 h2
    simp [Option.filter, Tr.bare, h1, h2]

open Classical in
theorem runsAND_hits {as : List α} {c : Cfg} {e : Nat} (hc : LeafOKR nav leaf as c b e) (htop : c.top < 64) :
    ∀ (d ℓ : Nat) (ts : List (Option (Tr d))) (os : List (Option Nat)) (bs : List Bool) (pref : Nat) (r : List Nat),
    RepsB nav bad leaf b d ℓ pref as ts os bs → c.top = ℓ + d + b → 2 ^ (d + b) ∣ pref →
    runsAND (as.map nav) c (d + e) ℓ os bs pref r =
      if Hits bad b d pref as ts then .error .oob else .ok (r ++ enum (d + b) (allO b d ts) pref) := by
  intro d
  induction d with
  | zero =>
    intro ℓ ts os bs pref r hr ht hd
    rw [Nat.zero_add, Nat.zero_add, if_neg (show ¬ Hits bad b 0 pref as ts from fun h => h)]
    exact hc.leafAnd ℓ ts os bs pref r (RepsB.leaves nav bad leaf b _ _ _ _ hr) (by omega) (by simpa using hd)
  | succ d ih =>
    intro ℓ ts os bs pref r hr ht hd
    have hd' : 2 ^ (d + b + 1) ∣ pref := by rwa [show d + b + 1 = d + 1 + b by omega]
    have hs : shl1 (c.top - ℓ - 1) = .ok (2 ^ (d + b)) := by
      rw [ht, show ℓ + (d + 1) + b - ℓ - 1 = d + b by omega]; exact shl1_ok (by omega)
    have hskip : (c.skipLast && decide (d + e = 0)) = false := by
      rcases hc.skip with h | h
      · rw [h]; rfl
      · rw [decide_eq_false (by omega)]; simp
    rw [show d + 1 + e = (d + e) + 1 by omega, runsAND]
    by_cases hn : HitNow bad b pref as ts
    · rw [if_pos (show Hits bad b (d + 1) pref as ts from Or.inl hn), runsNodes_hit nav bad leaf b as ts os bs hr hn]
      rfl
    obtain ⟨tmp, h3, hrt⟩ := runsNodes_repsB nav bad leaf b as ts os bs hr hn true true false false
    rw [Bool.true_and, Bool.true_and, Bool.false_or, Bool.false_or, node2_tt, node2_ff] at h3
    rw [h3]
    simp only [R_bind_ok, hskip, hs, or_two_pow hd']
    by_cases h0 : node2 (anyLO ts) (anyRO ts) = 0
    · obtain ⟨h1, h2⟩ := node2_eq_zero.1 h0
      have hnone := deact_none h1 h2
      have hno : ¬ Hits bad b (d + 1) pref as ts := by
        rintro (h | ⟨_, h⟩ | ⟨_, h⟩)
        · exact hn h
        · refine not_hits_none bad b _ _ _ _ ?_ h
          intro t ht
          obtain ⟨o, ho, rfl⟩ := List.mem_map.1 ht
          rw [hnone o ho]; rfl
        · refine not_hits_none bad b _ _ _ _ ?_ h
          intro t ht
          obtain ⟨o, ho, rfl⟩ := List.mem_map.1 ht
          rw [hnone o ho]; rfl
      rw [h0, if_neg hno]
      simp only [ne_eq, not_true, and_false, if_false, if_true]
      rw [ht, show ℓ + (d + 1) + b - ℓ = d + 1 + b by omega]
      exact fillRange_ok r (by omega) hd (fun x _ => allO_none h1 h2)
    · simp only [ne_eq, h0, not_false_iff, and_true, if_false]
      rw [enum_allO]
      have hH : Hits bad b (d + 1) pref as ts ↔ allLO (deact ts) = true ∧ Hits bad b d pref as (leftsO (deact ts)) ∨
          allRO (deact ts) = true ∧ Hits bad b d (pref + 2 ^ (d + b)) as (rightsO (deact ts)) := by
        rw [Hits]
        exact ⟨fun h => h.resolve_left hn, Or.inr⟩
      cases hL : allLO (deact ts) with
      | false =>
        cases hR : allRO (deact ts) with
        | false =>
          rw [if_neg (show ¬ Hits bad b (d + 1) pref as ts by rw [hH, hL, hR]; simp)]
          simp [node2_ff]
        | true =>
          obtain ⟨cs, e1, h1⟩ := childrenActive_rightB nav bad leaf b as _ os tmp hrt hR
          simp only [node2_ft, one_ne_zero, Nat.reduceEqDiff, if_false, if_true, e1, R_bind_ok]
          rw [ih (ℓ + 1) _ cs _ _ r h1 (by omega) (dvd_hi hd')]
          by_cases h : Hits bad b d (pref + 2 ^ (d + b)) as (rightsO (deact ts))
          · rw [if_pos h, if_pos (hH.2 (Or.inr ⟨hR, h⟩))]
          · rw [if_neg h, if_neg (by rw [hH, hL, hR]; simpa using h)]
            simp
      | true =>
        obtain ⟨cs, e1, h1, h2⟩ := childrenActive_leftB nav bad leaf b as _ os tmp hrt hL
        cases hR : allRO (deact ts) with
        | false =>
          simp only [node2_tf, OfNat.ofNat_ne_zero, Nat.reduceEqDiff, if_false, if_true, e1, R_bind_ok]
          rw [ih (ℓ + 1) _ cs _ _ r h1 (by omega) (dvd_lo hd')]
          by_cases h : Hits bad b d pref as (leftsO (deact ts))
          · rw [if_pos h, if_pos (hH.2 (Or.inl ⟨hL, h⟩))]
          · rw [if_neg h, if_neg (by rw [hH, hL, hR]; simpa using h)]
            simp
        | true =>
          simp only [node2_tt, OfNat.ofNat_ne_zero, Nat.reduceEqDiff, if_false, if_true, e1, R_bind_ok]
          rw [ih (ℓ + 1) _ cs _ _ r h1 (by omega) (dvd_lo hd')]
          by_cases h : Hits bad b d pref as (leftsO (deact ts))
          · rw [if_pos h, if_pos (hH.2 (Or.inl ⟨hL, h⟩))]
            rfl
          · rw [if_neg h, R_bind_ok, ih (ℓ + 1) _ _ _ _ _ (h2 hR) (by omega) (dvd_hi hd')]
            by_cases h' : Hits bad b d (pref + 2 ^ (d + b)) as (rightsO (deact ts))
            · rw [if_pos h', if_pos (hH.2 (Or.inr ⟨hR, h'⟩))]
            · rw [if_neg h', if_neg (by rw [hH, hL, hR]; simp [h, h'])]
              simp

end

end CBT
