import Verif.Proof.And

/-!
# Sequential intersection of represented tries with collapsed full subtrees
-/

namespace CBT

section
variable {α : Type} (nav : α → Nav) (leaf : α → Nat → Nat → Nat → Prop)

/-- The first entries of `roots` and `active` are the nodes representing `ts`; `none` stands for an inactive trie,
which is inside a full subtree. -/
def RepsA (d ℓ : Nat) : List α → List (Option (Tr d)) → List (Option Nat) → List Bool → Prop
  | [], [], _, _ => True
  | a :: as, some t :: ts, some id :: os, true :: bs => Rep (nav a) (leaf a) d ℓ t id ∧ RepsA d ℓ as ts os bs
  | _ :: as, none :: ts, _ :: os, false :: bs => RepsA d ℓ as ts os bs
  | _, _, _, _ => False

/-- Case analysis on `RepsA`. -/
theorem RepsA.rec' {d ℓ : Nat} {motive : List α → List (Option (Tr d)) → List (Option Nat) → List Bool → Prop}
    (hnil : ∀ os bs, motive [] [] os bs)
    (hsome : ∀ a as t ts id os bs, Rep (nav a) (leaf a) d ℓ t id → RepsA nav leaf d ℓ as ts os bs → motive as ts os bs →
      motive (a :: as) (some t :: ts) (some id :: os) (true :: bs))
    (hnone : ∀ a as ts o os bs, RepsA nav leaf d ℓ as ts os bs → motive as ts os bs →
      motive (a :: as) (none :: ts) (o :: os) (false :: bs)) :
    ∀ as ts os bs, RepsA nav leaf d ℓ as ts os bs → motive as ts os bs
  | [], [], os, bs, _ => hnil os bs
  | a :: as, some t :: ts, some id :: os, true :: bs, h =>
    hsome a as t ts id os bs h.1 h.2 (RepsA.rec' hnil hsome hnone as ts os bs h.2)
  | a :: as, none :: ts, o :: os, false :: bs, h =>
    hnone a as ts o os bs (by simpa [RepsA] using h) (RepsA.rec' hnil hsome hnone as ts os bs (by simpa [RepsA] using h))
  | [], _ :: _, _, _, h => by simp [RepsA] at h
  | _ :: _, [], _, _, h => by simp [RepsA] at h
  | _ :: _, some _ :: _, [], _, h => by simp [RepsA] at h
  | _ :: _, none :: _, [], _, h => by simp [RepsA] at h
  | _ :: _, some _ :: _, none :: _, _, h => by simp [RepsA] at h
  | _ :: _, some _ :: _, some _ :: _, [], h => by simp [RepsA] at h
  | _ :: _, some _ :: _, some _ :: _, false :: _, h => by simp [RepsA] at h
  | _ :: _, none :: _, _ :: _, [], h => by simp [RepsA] at h
  | _ :: _, none :: _, _ :: _, true :: _, h => by simp [RepsA] at h

/-- Member of an optional trie. -/
def hasO (b d : Nat) (t : Option (Tr d)) (x : Nat) : Bool := t.all fun t => hasR b d t x

def allO (b d : Nat) (ts : List (Option (Tr d))) (x : Nat) : Bool := ts.all fun t => hasO b d t x

/-- A trie stays active while its node has children. -/
def deact {d : Nat} (ts : List (Option (Tr (d + 1)))) : List (Option (Tr (d + 1))) := ts.map (Option.filter fun t => !t.bare)

def allLO {d : Nat} (ts : List (Option (Tr (d + 1)))) : Bool := ts.all fun t => t.all fun t => t.l.isSome
def allRO {d : Nat} (ts : List (Option (Tr (d + 1)))) : Bool := ts.all fun t => t.all fun t => t.r.isSome
def anyLO {d : Nat} (ts : List (Option (Tr (d + 1)))) : Bool := ts.any fun t => t.any fun t => t.l.isSome
def anyRO {d : Nat} (ts : List (Option (Tr (d + 1)))) : Bool := ts.any fun t => t.any fun t => t.r.isSome
def leftsO {d : Nat} (ts : List (Option (Tr (d + 1)))) : List (Option (Tr d)) := ts.map fun t => t.bind Tr.l
def rightsO {d : Nat} (ts : List (Option (Tr (d + 1)))) : List (Option (Tr d)) := ts.map fun t => t.bind Tr.r

theorem allO_deact {b d x : Nat} (ts : List (Option (Tr (d + 1)))) : allO b (d + 1) (deact ts) x = allO b (d + 1) ts x := by
  simp only [allO, deact, List.all_map]
  congr 1
  funext t
  cases t with
  | none => rfl
  | some t =>
    cases hb : t.bare with
    | true => simp [Option.filter, hasO, hb, hasR_bare hb]
    | false => simp [Option.filter, hasO, hb]

/-- No node without children. -/
def NoBare {d : Nat} (ts : List (Option (Tr (d + 1)))) : Prop := ∀ t, some t ∈ ts → t.bare = false

theorem noBare_deact {d : Nat} (ts : List (Option (Tr (d + 1)))) : NoBare (deact ts) := by
  intro t ht
  obtain ⟨o, _, ho⟩ := List.mem_map.1 ht
  rw [Option.filter_eq_some_iff] at ho
  simpa using ho.2

theorem allO_lo {b d x : Nat} (hx : x < 2 ^ (d + b)) : (ts : List (Option (Tr (d + 1)))) → NoBare ts →
    allO b (d + 1) ts x = (allLO ts && allO b d (leftsO ts) x)
  | [], _ => rfl
  | t :: ts, h => by
    have ih := allO_lo (b := b) hx ts (fun t ht => h t (List.mem_cons_of_mem _ ht))
    simp only [allO, allLO, leftsO, List.all_cons, List.map_cons] at ih ⊢
    rw [ih]
    cases t with
    | none => simp [hasO]
    | some t =>
      have hb := h t (by simp)
      have := hasR_lo hx hb
      cases hs : t.l with
      | none => simp [hasO, this, hs]
      | some s =>
        simp only [hasO, this, hs, Option.all_some, Option.any_some, Option.bind_some, Option.isSome_some, Bool.true_and]
        cases hasR b d s x <;> simp

theorem allO_hi {b d x : Nat} : (ts : List (Option (Tr (d + 1)))) → NoBare ts →
    allO b (d + 1) ts (2 ^ (d + b) + x) = (allRO ts && allO b d (rightsO ts) x)
  | [], _ => rfl
  | t :: ts, h => by
    have ih := allO_hi (b := b) (x := x) ts (fun t ht => h t (List.mem_cons_of_mem _ ht))
    simp only [allO, allRO, rightsO, List.all_cons, List.map_cons] at ih ⊢
    rw [ih]
    cases t with
    | none => simp [hasO]
    | some t =>
      have hb := h t (by simp)
      have := hasR_hi (b := b) (x := x) hb
      cases hs : t.r with
      | none => simp [hasO, this, hs]
      | some s =>
        simp only [hasO, this, hs, Option.all_some, Option.any_some, Option.bind_some, Option.isSome_some, Bool.true_and]
        cases hasR b d s x <;> simp

theorem enum_allO {b d : Nat} (ts : List (Option (Tr (d + 1)))) (p : Nat) :
    enum (d + 1 + b) (allO b (d + 1) ts) p =
      (if allLO (deact ts) then enum (d + b) (allO b d (leftsO (deact ts))) p else []) ++
      (if allRO (deact ts) then enum (d + b) (allO b d (rightsO (deact ts))) (p + 2 ^ (d + b)) else []) := by
  rw [enum_congr (fun x _ => (allO_deact ts).symm), show d + 1 + b = d + b + 1 by omega, enum_succ,
    enum_congr (fun x hx => allO_lo hx _ (noBare_deact ts)), enum_congr (fun x _ => allO_hi _ (noBare_deact ts)),
    enum_and, enum_and]

/-- All tries inactive. -/
theorem allO_none {b d x : Nat} {ts : List (Option (Tr (d + 1)))} (h1 : anyLO ts = false) (h2 : anyRO ts = false) :
    allO b (d + 1) ts x = true := by
  simp only [allO, List.all_eq_true]
  intro o ho
  cases o with
  | none => rfl
  | some t =>
    simp only [anyLO, anyRO, List.any_eq_false] at h1 h2
    have h1 := h1 _ ho
    have h2 := h2 _ ho
    simp only [Option.any_some, Bool.not_eq_true, Option.isSome_eq_false_iff] at h1 h2
    exact hasR_bare (by simp [Tr.bare, h1, h2])

theorem node2_eq_zero {a b : Bool} : node2 a b = 0 ↔ a = false ∧ b = false := by
  cases a <;> cases b <;> decide

theorem runsNodes_reps {d ℓ : Nat} : ∀ (as : List α) (ts : List (Option (Tr (d + 1)))) (os : List (Option Nat)) (bs : List Bool),
    RepsA nav leaf (d + 1) ℓ as ts os bs → ∀ (A B C D : Bool), ∃ tmp,
    runsNodes (as.map nav) os bs ℓ (node2 A B) (node2 C D) =
      .ok (tmp, node2 (A && allLO (deact ts)) (B && allRO (deact ts)), node2 (C || anyLO ts) (D || anyRO ts)) ∧
    RepsA nav leaf (d + 1) ℓ as (deact ts) os tmp := by
  apply RepsA.rec'
  · intro os bs A B C D
    exact ⟨[], by simp [runsNodes, deact, allLO, allRO, anyLO, anyRO], trivial⟩
  · intro a as t ts id os bs hr hrs ih A B C D
    cases hb : t.bare with
    | true =>
      obtain ⟨h1, h2⟩ := Tr.bare_eq hb
      obtain ⟨tmp, e, h⟩ := ih A B C D
      refine ⟨false :: tmp, ?_, ?_⟩
      · have hn := hr.1
        rw [h1, h2] at hn
        rw [List.map_cons, runsNodes]
        simp only [if_true, readRoot, R_bind_ok, hn, Option.isSome_none, node2_ff, ne_eq, not_true, if_false, Nat.or_zero, e]
        simp [deact, allLO, allRO, anyLO, anyRO, Option.filter, hb, h1, h2]
      · simpa [deact, Option.filter, hb, RepsA] using h
    | false =>
      obtain ⟨tmp, e, h⟩ := ih (A && t.l.isSome) (B && t.r.isSome) (C || t.l.isSome) (D || t.r.isSome)
      refine ⟨true :: tmp, ?_, ?_⟩
      · have hne : node2 t.l.isSome t.r.isSome ≠ 0 := by
          intro h0
          rw [node2_eq_zero] at h0
          simp [Tr.bare] at hb
          cases hl : t.l with
          | none => rw [hl] at h0 hb; simp at hb; simp [hb] at h0
          | some s => rw [hl] at h0; simp at h0
        rw [List.map_cons, runsNodes]
        simp only [if_true, readRoot, R_bind_ok, hr.1, ne_eq, hne, not_false_iff, and_node2, or_node2, e]
        simp [deact, allLO, allRO, anyLO, anyRO, Option.filter, hb, Bool.and_assoc, Bool.or_assoc]
      · simpa [deact, Option.filter, hb, RepsA] using ⟨hr, h⟩
  · intro a as ts o os bs hrs ih A B C D
    obtain ⟨tmp, e, h⟩ := ih A B C D
    refine ⟨false :: tmp, ?_, ?_⟩
    · rw [List.map_cons, runsNodes]
      simp only [Bool.false_eq_true, if_false, e, R_bind_ok]
      simp [deact, allLO, allRO, anyLO, anyRO, Option.filter]
    · simpa [deact, RepsA] using h

theorem childrenActive_left {d ℓ : Nat} : ∀ (as : List α) (ts : List (Option (Tr (d + 1)))) (os : List (Option Nat)) (bs : List Bool),
    RepsA nav leaf (d + 1) ℓ as ts os bs → allLO ts = true →
    ∃ cs, childrenActive Nav.getLeftChild false ℓ (as.map nav) os bs = .ok cs ∧
      RepsA nav leaf d (ℓ + 1) as (leftsO ts) cs bs ∧
      (allRO ts = true → RepsA nav leaf d (ℓ + 1) as (rightsO ts) (succRoots cs) bs) := by
  apply RepsA.rec'
  · intro os bs _
    exact ⟨[], rfl, trivial, fun _ => trivial⟩
  · intro a as t ts id os bs hr hrs ih hl
    simp only [allLO, List.all_cons, Bool.and_eq_true, Option.all_some] at hl
    obtain ⟨cs, e, h1, h2⟩ := ih hl.2
    cases hs : t.l with
    | none => rw [hs] at hl; simp at hl
    | some s =>
      obtain ⟨c, hc, hR, hR'⟩ := hr.2.1 s hs
      refine ⟨some c :: cs, ?_, ?_, ?_⟩
      · rw [List.map_cons, childrenActive]
        simp [readRoot, hc, e]
      · simp only [leftsO, List.map_cons, Option.bind_some, hs]
        exact ⟨hR, h1⟩
      · intro hr'
        simp only [allRO, List.all_cons, Bool.and_eq_true, Option.all_some] at hr'
        cases hs' : t.r with
        | none => rw [hs'] at hr'; simp at hr'
        | some s' =>
          simp only [rightsO, List.map_cons, Option.bind_some, hs', succRoots, Option.map_some]
          exact ⟨hR' s' hs', h2 hr'.2⟩
  · intro a as ts o os bs hrs ih hl
    obtain ⟨cs, e, h1, h2⟩ := ih (by simpa [allLO] using hl)
    refine ⟨none :: cs, ?_, ?_, ?_⟩
    · rw [List.map_cons, childrenActive]
      simp [e]
    · simpa [leftsO, RepsA] using h1
    · intro hr'
      have := h2 (by simpa [allRO] using hr')
      simpa [rightsO, RepsA, succRoots] using this

theorem childrenActive_right {d ℓ : Nat} : ∀ (as : List α) (ts : List (Option (Tr (d + 1)))) (os : List (Option Nat)) (bs : List Bool),
    RepsA nav leaf (d + 1) ℓ as ts os bs → allRO ts = true →
    ∃ cs, childrenActive Nav.getRightChild false ℓ (as.map nav) os bs = .ok cs ∧
      RepsA nav leaf d (ℓ + 1) as (rightsO ts) cs bs := by
  apply RepsA.rec'
  · intro os bs _
    exact ⟨[], rfl, trivial⟩
  · intro a as t ts id os bs hr hrs ih hl
    simp only [allRO, List.all_cons, Bool.and_eq_true, Option.all_some] at hl
    obtain ⟨cs, e, h1⟩ := ih hl.2
    cases hs : t.r with
    | none => rw [hs] at hl; simp at hl
    | some s =>
      obtain ⟨c, hc, hR⟩ := hr.2.2 s hs
      refine ⟨some c :: cs, ?_, ?_⟩
      · rw [List.map_cons, childrenActive]
        simp [readRoot, hc, e]
      · simp only [rightsO, List.map_cons, Option.bind_some, hs]
        exact ⟨hR, h1⟩
  · intro a as ts o os bs hrs ih hl
    obtain ⟨cs, e, h1⟩ := ih (by simpa [allRO] using hl)
    refine ⟨none :: cs, ?_, ?_⟩
    · rw [List.map_cons, childrenActive]
      simp [e]
    · simpa [rightsO, RepsA] using h1

/-- What the configuration has to do on the last `e` levels. -/
structure LeafOKR (as : List α) (c : Cfg) (b e : Nat) : Prop where
  skip : c.skipLast = false ∨ e ≠ 0
  leafAnd : ∀ (ℓ : Nat) (ts : List (Option (Tr 0))) (os : List (Option Nat)) (bs : List Bool) (pref : Nat) (r : List Nat),
    RepsA nav leaf 0 ℓ as ts os bs →
    c.top = ℓ + b → 2 ^ b ∣ pref → runsAND (as.map nav) c e ℓ os bs pref r = .ok (r ++ enum b (allO b 0 ts) pref)

theorem anyLO_deact {d : Nat} (ts : List (Option (Tr (d + 1)))) : anyLO (deact ts) = anyLO ts := by
  simp only [anyLO, deact, List.any_map]
  congr 1
  funext o
  cases o with
  | none => rfl
  | some t =>
    cases hb : t.bare with
    | true => simp [Option.filter, hb, (Tr.bare_eq hb).1]
    | false => simp [Option.filter, hb]

theorem runsAND_reps {as : List α} {c : Cfg} {b e : Nat} (hc : LeafOKR nav leaf as c b e) (htop : c.top < 64) :
    ∀ (d ℓ : Nat) (ts : List (Option (Tr d))) (os : List (Option Nat)) (bs : List Bool) (pref : Nat) (r : List Nat),
    RepsA nav leaf d ℓ as ts os bs → c.top = ℓ + d + b → 2 ^ (d + b) ∣ pref →
    runsAND (as.map nav) c (d + e) ℓ os bs pref r = .ok (r ++ enum (d + b) (allO b d ts) pref) := by
  intro d
  induction d with
  | zero =>
    intro ℓ ts os bs pref r hr ht hd
    rw [Nat.zero_add, Nat.zero_add]
    exact hc.leafAnd ℓ ts os bs pref r hr (by omega) (by simpa using hd)
  | succ d ih =>
    intro ℓ ts os bs pref r hr ht hd
    have hd' : 2 ^ (d + b + 1) ∣ pref := by rwa [show d + b + 1 = d + 1 + b by omega]
    have hs : shl1 (c.top - ℓ - 1) = .ok (2 ^ (d + b)) := by
      rw [ht, show ℓ + (d + 1) + b - ℓ - 1 = d + b by omega]; exact shl1_ok (by omega)
    have hskip : (c.skipLast && decide (d + e = 0)) = false := by
      rcases hc.skip with h | h
      · rw [h]; rfl
      · rw [decide_eq_false (by omega)]; simp
    obtain ⟨tmp, h3, hrt⟩ := runsNodes_reps nav leaf as ts os bs hr true true false false
    rw [Bool.true_and, Bool.true_and, Bool.false_or, Bool.false_or, node2_tt, node2_ff] at h3
    rw [show d + 1 + e = (d + e) + 1 by omega, runsAND, h3]
    simp only [R_bind_ok, hskip, hs, or_two_pow hd']
    by_cases h0 : node2 (anyLO ts) (anyRO ts) = 0
    · obtain ⟨h1, h2⟩ := node2_eq_zero.1 h0
      rw [h0]
      simp only [ne_eq, not_true, and_false, if_false, if_true]
      rw [ht, show ℓ + (d + 1) + b - ℓ = d + 1 + b by omega]
      exact fillRange_ok r (by omega) hd (fun x _ => allO_none h1 h2)
    · simp only [ne_eq, h0, not_false_iff, and_true, if_false]
      rw [enum_allO]
      cases hL : allLO (deact ts) with
      | false =>
        cases hR : allRO (deact ts) with
        | false => simp [node2_ff]
        | true =>
          obtain ⟨cs, e1, h1⟩ := childrenActive_right nav leaf as _ os tmp hrt hR
          simp only [node2_ft, one_ne_zero, Nat.reduceEqDiff, if_false, if_true, e1, R_bind_ok]
          rw [ih (ℓ + 1) _ cs _ _ r h1 (by omega) (dvd_hi hd')]
          simp
      | true =>
        obtain ⟨cs, e1, h1, h2⟩ := childrenActive_left nav leaf as _ os tmp hrt hL
        cases hR : allRO (deact ts) with
        | false =>
          simp only [node2_tf, OfNat.ofNat_ne_zero, Nat.reduceEqDiff, if_false, if_true, e1, R_bind_ok]
          rw [ih (ℓ + 1) _ cs _ _ r h1 (by omega) (dvd_lo hd')]
          simp
        | true =>
          simp only [node2_tt, OfNat.ofNat_ne_zero, Nat.reduceEqDiff, if_false, if_true, e1, R_bind_ok]
          rw [ih (ℓ + 1) _ cs _ _ r h1 (by omega) (dvd_lo hd'), R_bind_ok,
            ih (ℓ + 1) _ _ _ _ _ (h2 hR) (by omega) (dvd_hi hd')]
          simp


/-- At the start all tries are active. -/
theorem RepsA.of_reps {d ℓ : Nat} : (as : List α) → (ts : List (Tr d)) → (os : List (Option Nat)) → (bs : List Bool) →
    Reps nav leaf d ℓ as ts os → as.length ≤ bs.length → (∀ b ∈ bs, b = true) → RepsA nav leaf d ℓ as (ts.map some) os bs
  | [], [], _, _, _, _, _ => trivial
  | a :: as, t :: ts, some i :: os, b :: bs, h, hl, hb => by
    have := hb b (by simp)
    subst this
    exact ⟨h.1, RepsA.of_reps as ts os bs h.2 (by simpa using hl) (fun b h => hb b (by simp [h]))⟩
  | _ :: _, _ :: _, some _ :: _, [], _, hl, _ => by simp at hl
  | [], _ :: _, _, _, h, _, _ => by simp [Reps] at h
  | _ :: _, [], _, _, h, _, _ => by simp [Reps] at h
  | _ :: _, _ :: _, [], _, h, _, _ => by simp [Reps] at h
  | _ :: _, _ :: _, none :: _, _, h, _, _ => by simp [Reps] at h

end

/-! ## The last level of the flat and level-wise tries -/

theorem runsNodes_leaf {ℓ : Nat} : ∀ (as : List Nav) (ts : List (Option (Tr 0))) (os : List (Option Nat)) (bs : List Bool),
    RepsA id leafF 0 ℓ as ts os bs → ∀ (A B C D : Bool),
    runsNodes (as.map id) os bs ℓ (node2 A B) (node2 C D) =
      .ok (bs.take as.length, node2 (A && allO 1 0 ts 0) (B && allO 1 0 ts 1),
        node2 (C || ts.any fun t => t.any fun t => t.word.testBit 0) (D || ts.any fun t => t.any fun t => t.word.testBit 1)) := by
  apply RepsA.rec'
  · intro os bs A B C D
    simp [runsNodes, allO]
  · intro a as t ts i os bs hr hrs ih A B C D
    have hn : a.getNode i ℓ = .ok (node2 (t.word.testBit 0) (t.word.testBit 1)) := hr.2.1
    have hw := word_bits hr.1
    have hne : node2 (t.word.testBit 0) (t.word.testBit 1) ≠ 0 := by
      intro h0
      rw [node2_eq_zero] at h0
      simp [h0.1, h0.2] at hw
    rw [List.map_cons, runsNodes]
    simp only [if_true, readRoot, R_bind_ok, id_eq, hn, ne_eq, hne, not_false_iff, and_node2, or_node2, ih]
    simp [allO, hasO, hasR, Bool.and_assoc, Bool.or_assoc]
  · intro a as ts o os bs hrs ih A B C D
    rw [List.map_cons, runsNodes]
    simp only [Bool.false_eq_true, if_false, ih, R_bind_ok]
    simp [allO, hasO]

theorem childrenActive_skip {d ℓ : Nat} {α : Type} {nav : α → Nav} {leaf : α → Nat → Nat → Nat → Prop} (get : Nav → Nat → Nat → R Nat) :
    ∀ (as : List α) (ts : List (Option (Tr d))) (os : List (Option Nat)) (bs : List Bool), RepsA nav leaf d ℓ as ts os bs →
    childrenActive get true ℓ (as.map nav) os (bs.take as.length) = .ok (List.replicate as.length none) := by
  apply RepsA.rec'
  · intro os bs
    rfl
  · intro a as t ts i os bs hr hrs ih
    rw [List.map_cons, List.length_cons, List.take_succ_cons, childrenActive]
    simp [ih, List.replicate_succ]
  · intro a as ts o os bs hrs ih
    rw [List.map_cons, List.length_cons, List.take_succ_cons, childrenActive]
    simp [ih, List.replicate_succ]

theorem allO_leaf_none {x : Nat} {ts : List (Option (Tr 0))} (h : ∀ t ∈ ts, t = none) : allO 1 0 ts x = true := by
  simp only [allO, List.all_eq_true]
  intro o ho
  rw [h o ho]; rfl

theorem flat_leafOKR (as : List Nav) (height : Nat) : LeafOKR id leafF as (flatCfg height) 1 1 := by
  refine ⟨Or.inr (by simp), ?_⟩
  intro ℓ ts os bs pref r hr ht hd
  have hht : height = ℓ + 1 := ht
  have hs : shl1 (height - ℓ - 1) = .ok (2 ^ 0) := by
    rw [hht, show ℓ + 1 - ℓ - 1 = 0 by omega]; exact shl1_ok (by omega)
  have h3 := runsNodes_leaf as ts os bs hr true true false false
  rw [Bool.true_and, Bool.true_and, Bool.false_or, Bool.false_or, node2_tt, node2_ff] at h3
  have ho : pref ||| 2 ^ 0 = pref + 1 := or_two_pow (k := 0) (by simpa using hd)
  have hsk : ∀ get, childrenActive get true ℓ as os (bs.take as.length) = .ok (List.replicate as.length none) := by
    intro get
    have := childrenActive_skip get as ts os bs hr
    rwa [List.map_id] at this
  have htop : (flatCfg height).top = height := rfl
  have hany : ∀ (as : List Nav) (ts : List (Option (Tr 0))) (os : List (Option Nat)) (bs : List Bool), RepsA id leafF 0 ℓ as ts os bs →
      (ts.any fun t => t.any fun t => t.word.testBit 0) = false → (ts.any fun t => t.any fun t => t.word.testBit 1) = false →
      ∀ t ∈ ts, t = none := by
    apply RepsA.rec'
    · simp
    · intro a as t ts i os bs hr hrs ih h0 h1
      have hw := word_bits hr.1
      simp only [List.any_cons, Option.any_some, Bool.or_eq_false_iff] at h0 h1
      rw [h0.1, h1.1] at hw
      simp at hw
    · intro a as ts o os bs hrs ih h0 h1
      simp only [List.any_cons, Option.any_none, Bool.false_or] at h0 h1
      intro t ht
      rcases List.mem_cons.1 ht with rfl | ht
      · rfl
      · exact ih h0 h1 t ht
  rw [runsAND, h3]
  rw [List.map_id]
  simp only [R_bind_ok, htop, hs, ho]
  by_cases h0 : node2 (ts.any fun t => t.any fun t => t.word.testBit 0) (ts.any fun t => t.any fun t => t.word.testBit 1) = 0
  · have hnone := hany as ts os bs hr (node2_eq_zero.1 h0).1 (node2_eq_zero.1 h0).2
    rw [h0]
    simp only [ne_eq, not_true, and_false, if_false, if_true]
    rw [hht, show ℓ + 1 - ℓ = 1 by omega]
    exact fillRange_ok r (by omega) hd (fun x _ => allO_leaf_none hnone)
  · simp only [ne_eq, h0, not_false_iff, and_true, if_false]
    rw [enum_one]
    cases allO 1 0 ts 0 <;> cases allO 1 0 ts 1 <;> simp [node2, runsAND, flatCfg, hsk]

/-! ## The words of the fast tries -/

theorem andWordsActive_ok {lg ℓ : Nat} : ∀ (as : List FNav) (ts : List (Option (Tr 0))) (os : List (Option Nat)) (bs : List Bool),
    RepsA FNav.toNav (leafW lg) 0 ℓ as ts os bs → ∀ w < 2 ^ 2 ^ lg,
    ∃ w', andWordsActive as os bs w = .ok w' ∧ w' < 2 ^ 2 ^ lg ∧ ∀ x, w'.testBit x = (w.testBit x && allO lg 0 ts x) := by
  apply RepsA.rec'
  · intro os bs w hw
    exact ⟨w, by simp [andWordsActive], hw, fun x => by simp [allO]⟩
  · intro a as t ts i os bs hr hrs ih w hw
    obtain ⟨w', e, h1, h2⟩ := ih (w &&& t.word) (Nat.lt_of_le_of_lt Nat.and_le_left hw)
    refine ⟨w', ?_, h1, ?_⟩
    · rw [andWordsActive]
      have hn : a.getWord i = .ok t.word := hr.2
      simp only [if_true, readRoot, R_bind_ok, hn]
      exact e
    · intro x
      rw [h2, Nat.testBit_and]
      simp only [allO, List.all_cons, hasO, hasR, Option.all_some, Bool.and_assoc]
  · intro a as ts o os bs hrs ih w hw
    obtain ⟨w', e, h1, h2⟩ := ih w hw
    refine ⟨w', ?_, h1, ?_⟩
    · rw [andWordsActive]
      simpa using e
    · intro x
      rw [h2]
      simp [allO, hasO]

theorem fast_leafOKR {lg : Nat} (hlg : lg ≤ 6) (as : List FNav) (height : Nat) :
    LeafOKR FNav.toNav (leafW lg) as (fastCfg lg as height) lg 0 := by
  refine ⟨Or.inl rfl, ?_⟩
  intro ℓ ts os bs pref r hr ht hd
  have hpos := Nat.two_pow_pos (2 ^ lg)
  obtain ⟨w, e, h1, h2⟩ := andWordsActive_ok as ts os bs hr (2 ^ 2 ^ lg - 1) (by omega)
  rw [runsAND, fastCfg]
  simp only [e, R_bind_ok]
  rw [emitWord_ok hlg r h1]
  congr 2
  apply enum_congr
  intro x hx
  rw [h2, testBit_full hx, Bool.true_and]

end CBT
