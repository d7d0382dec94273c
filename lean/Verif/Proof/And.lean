import Verif.Proof.Built
import Verif.Model.Intersect

/-!
# Sequential intersection of represented tries
-/

namespace CBT

section
variable {α : Type} (nav : α → Nav) (leaf : α → Nat → Nat → Nat → Prop)

/-- The first entries of `roots` are the nodes representing `ts`. -/
def Reps (d ℓ : Nat) : List α → List (Tr d) → List (Option Nat) → Prop
  | [], [], _ => True
  | a :: as, t :: ts, some id :: os => Rep (nav a) (leaf a) d ℓ t id ∧ Reps d ℓ as ts os
  | _, _, _ => False

theorem Reps.length {d ℓ : Nat} : {as : List α} → {ts : List (Tr d)} → {os : List (Option Nat)} →
    Reps nav leaf d ℓ as ts os → as.length = ts.length
  | [], [], _, _ => rfl
  | _ :: _, _ :: _, some _ :: _, h => by simpa using h.2.length

theorem Reps.length_le {d ℓ : Nat} : {as : List α} → {ts : List (Tr d)} → {os : List (Option Nat)} →
    Reps nav leaf d ℓ as ts os → as.length ≤ os.length
  | [], [], _, _ => Nat.zero_le _
  | _ :: _, _ :: _, some _ :: _, h => by simpa using h.2.length_le
  | [], _ :: _, _, h => by simp [Reps] at h
  | _ :: _, [], _, h => by simp [Reps] at h
  | _ :: _, _ :: _, [], h => by simp [Reps] at h
  | _ :: _, _ :: _, none :: _, h => by simp [Reps] at h

theorem Reps.take {d ℓ : Nat} : {as : List α} → {ts : List (Tr d)} → {os : List (Option Nat)} →
    Reps nav leaf d ℓ as ts os → Reps nav leaf d ℓ as ts (os.take as.length)
  | [], [], _, _ => trivial
  | _ :: _, _ :: _, some _ :: _, h => ⟨h.1, h.2.take⟩
  | [], _ :: _, _, h => by simp [Reps] at h
  | _ :: _, [], _, h => by simp [Reps] at h
  | _ :: _, _ :: _, [], h => by simp [Reps] at h
  | _ :: _, _ :: _, none :: _, h => by simp [Reps] at h

theorem Reps.root {d : Nat} : {as : List α} → {ts : List (Tr d)} → (n : Nat) → as.length ≤ n →
    List.Forall₂ (fun a t => Rep (nav a) (leaf a) d 0 t 0) as ts → Reps nav leaf d 0 as ts (List.replicate n (some 0))
  | _, _, _, _, .nil => trivial
  | a :: as, t :: ts, 0, h, .cons _ _ => by simp at h
  | a :: as, t :: ts, n + 1, h, .cons h1 h2 => by
    rw [List.replicate_succ]
    exact ⟨h1, Reps.root n (by simpa using h) h2⟩

/-- Member of every trie. -/
def allHas (b d : Nat) (ts : List (Tr d)) (x : Nat) : Bool := ts.all fun t => has b d t x

def allL {d : Nat} (ts : List (Tr (d + 1))) : Bool := ts.all fun t => t.l.isSome
def allR {d : Nat} (ts : List (Tr (d + 1))) : Bool := ts.all fun t => t.r.isSome
def lefts {d : Nat} (ts : List (Tr (d + 1))) : List (Tr d) := ts.filterMap Tr.l
def rights {d : Nat} (ts : List (Tr (d + 1))) : List (Tr d) := ts.filterMap Tr.r

theorem allHas_lo {b d x : Nat} (hx : x < 2 ^ (d + b)) : (ts : List (Tr (d + 1))) →
    allHas b (d + 1) ts x = (allL ts && allHas b d (lefts ts) x)
  | [] => rfl
  | t :: ts => by
    have ih := allHas_lo hx ts
    simp only [allHas, allL, lefts] at ih ⊢
    rw [List.all_cons, List.all_cons, ih, has_lo hx, List.filterMap_cons]
    cases t.l with
    | none => simp
    | some s => simp; cases has b d s x <;> simp

theorem allHas_hi {b d x : Nat} : (ts : List (Tr (d + 1))) →
    allHas b (d + 1) ts (2 ^ (d + b) + x) = (allR ts && allHas b d (rights ts) x)
  | [] => rfl
  | t :: ts => by
    have ih := allHas_hi (b := b) (x := x) ts
    simp only [allHas, allR, rights] at ih ⊢
    rw [List.all_cons, List.all_cons, ih, has_hi, List.filterMap_cons]
    cases t.r with
    | none => simp
    | some s => simp; cases has b d s x <;> simp

theorem enum_and {k : Nat} (A : Bool) (P : Nat → Bool) (p : Nat) :
    enum k (fun x => A && P x) p = if A then enum k P p else [] := by
  cases A with
  | true => simp
  | false => simpa using enum_false (fun _ _ => rfl)

theorem enum_allHas {b d : Nat} (ts : List (Tr (d + 1))) (p : Nat) :
    enum (d + 1 + b) (allHas b (d + 1) ts) p =
      (if allL ts then enum (d + b) (allHas b d (lefts ts)) p else []) ++
      (if allR ts then enum (d + b) (allHas b d (rights ts)) (p + 2 ^ (d + b)) else []) := by
  rw [show d + 1 + b = d + b + 1 by omega, enum_succ, enum_congr (fun x hx => allHas_lo hx ts),
    enum_congr (fun x _ => allHas_hi ts), enum_and, enum_and]

theorem and_node2 (a b c d : Bool) : node2 a b &&& node2 c d = node2 (a && c) (b && d) := by
  cases a <;> cases b <;> cases c <;> cases d <;> rfl

theorem or_node2 (a b c d : Bool) : node2 a b ||| node2 c d = node2 (a || c) (b || d) := by
  cases a <;> cases b <;> cases c <;> cases d <;> rfl

theorem andNodes_reps {d ℓ : Nat} : (as : List α) → (ts : List (Tr (d + 1))) → (os : List (Option Nat)) →
    Reps nav leaf (d + 1) ℓ as ts os → (A B : Bool) →
    andNodes (as.map nav) os ℓ (node2 A B) = .ok (node2 (A && allL ts) (B && allR ts))
  | [], [], os, _, A, B => by simp [andNodes, allL, allR]
  | a :: as, t :: ts, some id :: os, h, A, B => by
    have := andNodes_reps as ts os h.2 (A && t.l.isSome) (B && t.r.isSome)
    rw [List.map_cons, andNodes]
    simp only [readRoot, R_bind_ok, h.1.1, and_node2]
    rw [this]
    simp [allL, allR, Bool.and_assoc]
  | [], _ :: _, _, h, _, _ => by simp [Reps] at h
  | _ :: _, [], _, h, _, _ => by simp [Reps] at h
  | _ :: _, _ :: _, [], h, _, _ => by simp [Reps] at h
  | _ :: _, _ :: _, none :: _, h, _, _ => by simp [Reps] at h

theorem children_left {d ℓ : Nat} : (as : List α) → (ts : List (Tr (d + 1))) → (os : List (Option Nat)) →
    Reps nav leaf (d + 1) ℓ as ts os → allL ts = true →
    ∃ cs, children Nav.getLeftChild false ℓ (as.map nav) os = .ok cs ∧ Reps nav leaf d (ℓ + 1) as (lefts ts) cs ∧
      (allR ts = true → Reps nav leaf d (ℓ + 1) as (rights ts) (succRoots cs))
  | [], [], os, _, _ => ⟨[], rfl, trivial, fun _ => trivial⟩
  | a :: as, t :: ts, some id :: os, h, hl => by
    simp only [allL, List.all_cons, Bool.and_eq_true] at hl
    obtain ⟨cs, e, h1, h2⟩ := children_left as ts os h.2 hl.2
    cases hs : t.l with
    | none => rw [hs] at hl; simp at hl
    | some s =>
      obtain ⟨c, hc, hr, hr'⟩ := h.1.2.1 s hs
      refine ⟨some c :: cs, ?_, ?_, ?_⟩
      · rw [List.map_cons, children]
        simp [readRoot, hc, e]
      · simp only [lefts, List.filterMap_cons, hs]
        exact ⟨hr, h1⟩
      · intro hR
        simp only [allR, List.all_cons, Bool.and_eq_true] at hR
        cases hs' : t.r with
        | none => rw [hs'] at hR; simp at hR
        | some s' =>
          simp only [rights, List.filterMap_cons, hs', succRoots, List.map_cons, Option.map_some]
          exact ⟨hr' s' hs', h2 hR.2⟩
  | [], _ :: _, _, h, _ => by simp [Reps] at h
  | _ :: _, [], _, h, _ => by simp [Reps] at h
  | _ :: _, _ :: _, [], h, _ => by simp [Reps] at h
  | _ :: _, _ :: _, none :: _, h, _ => by simp [Reps] at h

theorem children_right {d ℓ : Nat} : (as : List α) → (ts : List (Tr (d + 1))) → (os : List (Option Nat)) →
    Reps nav leaf (d + 1) ℓ as ts os → allR ts = true →
    ∃ cs, children Nav.getRightChild false ℓ (as.map nav) os = .ok cs ∧ Reps nav leaf d (ℓ + 1) as (rights ts) cs
  | [], [], os, _, _ => ⟨[], rfl, trivial⟩
  | a :: as, t :: ts, some id :: os, h, hl => by
    simp only [allR, List.all_cons, Bool.and_eq_true] at hl
    obtain ⟨cs, e, h1⟩ := children_right as ts os h.2 hl.2
    cases hs : t.r with
    | none => rw [hs] at hl; simp at hl
    | some s =>
      obtain ⟨c, hc, hr⟩ := h.1.2.2 s hs
      refine ⟨some c :: cs, ?_, ?_⟩
      · rw [List.map_cons, children]
        simp [readRoot, hc, e]
      · simp only [rights, List.filterMap_cons, hs]
        exact ⟨hr, h1⟩
  | [], _ :: _, _, h, _ => by simp [Reps] at h
  | _ :: _, [], _, h, _ => by simp [Reps] at h
  | _ :: _, _ :: _, [], h, _ => by simp [Reps] at h
  | _ :: _, _ :: _, none :: _, h, _ => by simp [Reps] at h

/-- What the configuration has to do on the last `e` levels. -/
structure LeafOK (as : List α) (c : Cfg) (b e : Nat) : Prop where
  skip : c.skipLast = false ∨ e ≠ 0
  leafAnd : ∀ (ℓ : Nat) (ts : List (Tr 0)) (os : List (Option Nat)) (pref : Nat) (r : List Nat), Reps nav leaf 0 ℓ as ts os →
    c.top = ℓ + b → 2 ^ b ∣ pref → AND (as.map nav) c e ℓ os pref r = .ok (r ++ enum b (allHas b 0 ts) pref)

theorem AND_reps {as : List α} {c : Cfg} {b e : Nat} (hc : LeafOK nav leaf as c b e) (htop : c.top ≤ 64) :
    ∀ (d ℓ : Nat) (ts : List (Tr d)) (os : List (Option Nat)) (pref : Nat) (r : List Nat), Reps nav leaf d ℓ as ts os →
    c.top = ℓ + d + b → 2 ^ (d + b) ∣ pref →
    AND (as.map nav) c (d + e) ℓ os pref r = .ok (r ++ enum (d + b) (allHas b d ts) pref) := by
  intro d
  induction d with
  | zero =>
    intro ℓ ts os pref r hr ht hd
    rw [Nat.zero_add, Nat.zero_add]
    exact hc.leafAnd ℓ ts os pref r hr (by omega) (by simpa using hd)
  | succ d ih =>
    intro ℓ ts os pref r hr ht hd
    have hd' : 2 ^ (d + b + 1) ∣ pref := by rwa [show d + b + 1 = d + 1 + b by omega]
    have hs : shl1 (c.top - ℓ - 1) = .ok (2 ^ (d + b)) := by
      rw [ht, show ℓ + (d + 1) + b - ℓ - 1 = d + b by omega]; exact shl1_ok (by omega)
    have hskip : (c.skipLast && decide (d + e = 0)) = false := by
      rcases hc.skip with h | h
      · rw [h]; rfl
      · rw [decide_eq_false (by omega)]; simp
    have h3 : andNodes (as.map nav) os ℓ 3 = .ok (node2 (allL ts) (allR ts)) := by
      have := andNodes_reps nav leaf as ts os hr true true
      rw [Bool.true_and, Bool.true_and] at this
      exact this
    rw [show d + 1 + e = (d + e) + 1 by omega, AND, h3, enum_allHas]
    simp only [R_bind_ok, hskip, hs, or_two_pow hd']
    cases hL : allL ts with
    | false =>
      cases hR : allR ts with
      | false => simp [node2_ff]
      | true =>
        obtain ⟨cs, e1, h1⟩ := children_right nav leaf as ts os hr hR
        simp only [node2_ft, Nat.reduceEqDiff, if_false, if_true, e1, R_bind_ok]
        rw [ih (ℓ + 1) _ cs _ r h1 (by omega) (dvd_hi hd')]
        simp
    | true =>
      obtain ⟨cs, e1, h1, h2⟩ := children_left nav leaf as ts os hr hL
      cases hR : allR ts with
      | false =>
        simp only [node2_tf, Nat.reduceEqDiff, if_false, if_true, e1, R_bind_ok]
        rw [ih (ℓ + 1) _ cs _ r h1 (by omega) (dvd_lo hd')]
        simp
      | true =>
        simp only [node2_tt, Nat.reduceEqDiff, if_false, if_true, e1, R_bind_ok]
        rw [ih (ℓ + 1) _ cs _ r h1 (by omega) (dvd_lo hd'), R_bind_ok,
          ih (ℓ + 1) _ _ _ _ (h2 hR) (by omega) (dvd_hi hd')]
        simp

end

/-! ## The last level of the flat and level-wise tries -/

theorem andNodes_leaf {ℓ : Nat} : (as : List Nav) → (ts : List (Tr 0)) → (os : List (Option Nat)) →
    Reps id leafF 0 ℓ as ts os → (A B : Bool) →
    andNodes as os ℓ (node2 A B) = .ok (node2 (A && allHas 1 0 ts 0) (B && allHas 1 0 ts 1))
  | [], [], os, _, A, B => by simp [andNodes, allHas]
  | a :: as, t :: ts, some i :: os, h, A, B => by
    have := andNodes_leaf as ts os h.2 (A && t.word.testBit 0) (B && t.word.testBit 1)
    rw [andNodes]
    have hn : a.getNode i ℓ = .ok (node2 (t.word.testBit 0) (t.word.testBit 1)) := h.1.2.1
    simp only [readRoot, R_bind_ok, hn, and_node2]
    rw [this]
    simp only [allHas, List.all_cons, has, Bool.and_assoc]
  | [], _ :: _, _, h, _, _ => by simp [Reps] at h
  | _ :: _, [], _, h, _, _ => by simp [Reps] at h
  | _ :: _, _ :: _, [], h, _, _ => by simp [Reps] at h
  | _ :: _, _ :: _, none :: _, h, _, _ => by simp [Reps] at h

theorem children_skip {d ℓ : Nat} {α : Type} {nav : α → Nav} {leaf : α → Nat → Nat → Nat → Prop} (get : Nav → Nat → Nat → R Nat) :
    (as : List α) → (ts : List (Tr d)) → (os : List (Option Nat)) → Reps nav leaf d ℓ as ts os →
    children get true ℓ (as.map nav) os = .ok (List.replicate as.length none)
  | [], [], os, _ => rfl
  | a :: as, t :: ts, some i :: os, h => by
    rw [List.map_cons, children]
    simp [children_skip get as ts os h.2, List.replicate_succ]
  | [], _ :: _, _, h => by simp [Reps] at h
  | _ :: _, [], _, h => by simp [Reps] at h
  | _ :: _, _ :: _, [], h => by simp [Reps] at h
  | _ :: _, _ :: _, none :: _, h => by simp [Reps] at h

theorem flat_leafOK (as : List Nav) (height : Nat) : LeafOK id leafF as (flatCfg height) 1 1 := by
  refine ⟨Or.inr (by simp), ?_⟩
  intro ℓ ts os pref r hr ht hd
  have hs : shl1 (height - ℓ - 1) = .ok (2 ^ 0) := by
    have : height = ℓ + 1 := ht
    rw [this, show ℓ + 1 - ℓ - 1 = 0 by omega]; exact shl1_ok (by omega)
  have h3 : andNodes (as.map id) os ℓ 3 = .ok (node2 (allHas 1 0 ts 0) (allHas 1 0 ts 1)) := by
    rw [List.map_id]
    have := andNodes_leaf as ts os hr true true
    rw [Bool.true_and, Bool.true_and] at this
    exact this
  have ho : pref ||| 2 ^ 0 = pref + 1 := or_two_pow (k := 0) (by simpa using hd)
  rw [AND, h3, enum_one]
  have hsk : ∀ get, children get true ℓ as os = .ok (List.replicate as.length none) := by
    intro get
    have := children_skip get as ts os hr
    rwa [List.map_id] at this
  have htop : (flatCfg height).top = height := rfl
  simp only [R_bind_ok, htop, hs, ho]
  cases allHas 1 0 ts 0 <;> cases allHas 1 0 ts 1 <;> simp [node2, AND, flatCfg, hsk]

/-! ## The words of the fast tries -/

theorem andWords_ok {lg ℓ : Nat} : (as : List FNav) → (ts : List (Tr 0)) → (os : List (Option Nat)) →
    Reps FNav.toNav (leafW lg) 0 ℓ as ts os → (w : Nat) → w < 2 ^ 2 ^ lg →
    ∃ w', andWords as os w = .ok w' ∧ w' < 2 ^ 2 ^ lg ∧ ∀ x, w'.testBit x = (w.testBit x && allHas lg 0 ts x)
  | [], [], os, _, w, hw => ⟨w, rfl, hw, fun x => by simp [allHas]⟩
  | a :: as, t :: ts, some i :: os, h, w, hw => by
    obtain ⟨w', e, h1, h2⟩ := andWords_ok as ts os h.2 (w &&& t.word) (Nat.lt_of_le_of_lt Nat.and_le_left hw)
    refine ⟨w', ?_, h1, ?_⟩
    · rw [andWords]
      have hn : a.getWord i = .ok t.word := h.1.2
      simp only [readRoot, R_bind_ok, hn]
      exact e
    · intro x
      rw [h2, Nat.testBit_and]
      simp only [allHas, List.all_cons, has, Bool.and_assoc]
  | [], _ :: _, _, h, _, _ => by simp [Reps] at h
  | _ :: _, [], _, h, _, _ => by simp [Reps] at h
  | _ :: _, _ :: _, [], h, _, _ => by simp [Reps] at h
  | _ :: _, _ :: _, none :: _, h, _, _ => by simp [Reps] at h

theorem fast_leafOK {lg : Nat} (hlg : lg ≤ 6) (as : List FNav) (height : Nat) :
    LeafOK FNav.toNav (leafW lg) as (fastCfg lg as height) lg 0 := by
  refine ⟨Or.inl rfl, ?_⟩
  intro ℓ ts os pref r hr ht hd
  have hpos := Nat.two_pow_pos (2 ^ lg)
  obtain ⟨w, e, h1, h2⟩ := andWords_ok as ts os hr (2 ^ 2 ^ lg - 1) (by omega)
  rw [AND, fastCfg]
  simp only [e, R_bind_ok]
  rw [emitWord_ok hlg r h1]
  congr 2
  apply enum_congr
  intro x hx
  rw [h2, testBit_full hx, Bool.true_and]

end CBT
