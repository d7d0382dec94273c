import Verif.Model.Strict
import Verif.Proof.Mono
import Verif.Proof.Inter

/-!
# `AND` with its result
-/

namespace CBT

/-- Whatever the strict version returns, the other one returns. -/
theorem ANDb_le (Ts : List Nav) (c : Cfg) : (rem level : Nat) → (roots : List (Option Nat)) → (pref : Nat) → (r : List Nat) →
    Le (ANDb Ts c rem level roots pref r >>= fun p => .ok p.2) (AND Ts c rem level roots pref r)
  | 0, _, roots, pref, r => by
    rw [ANDb, AND]
    intro a ha
    obtain ⟨p, hp, ha⟩ := bind_ok ha
    obtain ⟨r', hr, hp⟩ := bind_ok hp
    cases hp
    cases ha
    exact hr
  | rem + 1, level, roots, pref, r => by
    have key : ∀ level roots pref r b r', ANDb Ts c rem level roots pref r = .ok (b, r') → AND Ts c rem level roots pref r = .ok r' := by
      intro level roots pref r b r' h
      exact ANDb_le Ts c rem level roots pref r r' (by rw [h]; rfl)
    rw [ANDb, AND]
    intro a ha
    obtain ⟨⟨b, r'⟩, hp, ha⟩ := bind_ok ha
    cases ha
    obtain ⟨res, h1, hp⟩ := bind_ok hp
    rw [h1, R_bind_ok]
    dsimp only at hp ⊢
    split at hp
    · rw [if_pos ‹_›]; cases hp; rfl
    rw [if_neg ‹_›]
    split at hp
    · rw [if_pos ‹_›]
      obtain ⟨ln, h2, hp⟩ := bind_ok hp
      obtain ⟨⟨el, r1⟩, h3, hp⟩ := bind_ok hp
      rw [h2, R_bind_ok, key _ _ _ _ _ _ h3]
      dsimp only at hp
      split at hp
      · cases hp; rfl
      · cases hp
    rw [if_neg ‹_›]
    split at hp
    · obtain ⟨s, h2, hp⟩ := bind_ok hp
      obtain ⟨rn, h3, hp⟩ := bind_ok hp
      obtain ⟨_, _, hp⟩ := bind_ok hp
      cases hp
    rw [if_neg ‹_›]
    split at hp
    · rw [if_pos ‹_›]
      obtain ⟨s, h2, hp⟩ := bind_ok hp
      obtain ⟨ln, h3, hp⟩ := bind_ok hp
      obtain ⟨⟨el, r1⟩, h4, hp⟩ := bind_ok hp
      obtain ⟨⟨er, r2⟩, h5, hp⟩ := bind_ok hp
      cases hp
      rw [h2, R_bind_ok, h3, R_bind_ok, key _ _ _ _ _ _ h4, R_bind_ok]
      exact key _ _ _ _ _ _ h5
    · cases hp

theorem strictBody_le (Ts : List Nav) (c : Cfg) (height : Nat) (parallel : Bool) (env : Env) :
    Le (strictBody Ts c height parallel env) (intersectBody Ts c height false parallel env) := by
  unfold strictBody intersectBody
  by_cases hw : env.hw = 0
  · simp only [hw, if_true]; exact Le.refl _
  simp only [hw, if_false]
  refine Le.ite ?_ ?_
  · refine (Le.refl _).bind fun s => Le.ite (Le.refl _) ?_
    refine (Le.refl _).bind fun ⟨rest, used, s⟩ => Le.ite (Le.refl _) ?_
    refine (parallelFor_mono (fun t => ?_) _).bind fun _ => Le.refl _
    refine (Le.refl _).bind fun task => (Le.refl _).bind fun level => ?_
    rw [if_neg (by simp)]
    intro a ha
    obtain ⟨⟨b, out⟩, h1, ha⟩ := bind_ok ha
    rw [ANDb_le Ts c _ _ _ _ _ out (by rw [h1]; rfl)]
    exact ha
  · rw [if_neg (by simp)]
    exact ANDb_le Ts c _ _ _ _ _

theorem strictIntersect_le (Ts : List Nav) (parallel : Bool) (env : Env) :
    Le (strictIntersect Ts parallel env) (intersect Ts false parallel env) := by
  unfold strictIntersect intersect
  cases Ts with
  | nil => exact Le.refl _
  | cons T Ts => exact Le.ite (Le.refl _) (strictBody_le _ _ _ _ _)

theorem strictFastIntersect_le (lg : Nat) (Ts : List FNav) (parallel : Bool) (env : Env) :
    Le (strictFastIntersect lg Ts parallel env) (fastIntersect lg Ts false parallel env) := by
  unfold strictFastIntersect fastIntersect
  cases Ts with
  | nil => exact Le.refl _
  | cons T Ts => exact Le.ite (Le.refl _) (Le.ite (Le.refl _) (strictBody_le _ _ _ _ _))

/-! ## The result on represented trees -/

/-- The `bool` result, if it is determined. -/
def val (lv : List (Tr 0) → Option Bool) : (d : Nat) → List (Tr d) → Option Bool
  | 0, ts => lv ts
  | d + 1, ts =>
    match allL ts, allR ts with
    | false, false => some false
    | true, false => if val lv d (lefts ts) = some true then some true else none
    | false, true => none
    | true, true =>
      match val lv d (lefts ts), val lv d (rights ts) with
      | some a, some b => some (a || b)
      | _, _ => none

def resOf (v : Option Bool) (l : List Nat) : R (Bool × List Nat) :=
  match v with
  | some v => .ok (v, l)
  | none => .error .uninit

section

variable {α : Type} (nav : α → Nav) (leaf : α → Nat → Nat → Nat → Prop)

/-- What the configuration has to do on the last `e` levels. -/
structure LeafOKb (as : List α) (c : Cfg) (b e : Nat) (lv : List (Tr 0) → Option Bool) : Prop where
  skip : c.skipLast = false ∨ e ≠ 0
  leafAnd : ∀ (ℓ : Nat) (ts : List (Tr 0)) (os : List (Option Nat)) (pref : Nat) (r : List Nat), Reps nav leaf 0 ℓ as ts os →
    c.top = ℓ + b → 2 ^ b ∣ pref → ANDb (as.map nav) c e ℓ os pref r = resOf (lv ts) (r ++ enum b (allHas b 0 ts) pref)

theorem ANDb_reps {as : List α} {c : Cfg} {b e : Nat} {lv : List (Tr 0) → Option Bool} (hc : LeafOKb nav leaf as c b e lv) (htop : c.top ≤ 64) :
    ∀ (d ℓ : Nat) (ts : List (Tr d)) (os : List (Option Nat)) (pref : Nat) (r : List Nat), Reps nav leaf d ℓ as ts os →
    c.top = ℓ + d + b → 2 ^ (d + b) ∣ pref →
    ANDb (as.map nav) c (d + e) ℓ os pref r = resOf (val lv d ts) (r ++ enum (d + b) (allHas b d ts) pref) := by
  intro d
  induction d with
  | zero =>
    intro ℓ ts os pref r hr ht hd
    rw [Nat.zero_add, Nat.zero_add]
    exact hc.leafAnd ℓ ts os pref r hr (by omega) (by simpa using hd)
  | succ d ih =>
    intro ℓ ts os pref r hr ht hd
    have hd' : 2 ^ (d + b + 1) ∣ pref := by rwa [show d + b + 1 = d + 1 + b by omega]
    have hs : shl1 (c.top - ℓ - 1) = .ok (2 ^ (d + b)) := by
      rw [ht, show ℓ + (d + 1) + b - ℓ - 1 = d + b by omega]; exact shl1_ok (by omega)
    have hskip : (c.skipLast && decide (d + e = 0)) = false := by
      rcases hc.skip with h | h
      · rw [h]; rfl
      · rw [decide_eq_false (by omega)]; simp
    have h3 : andNodes (as.map nav) os ℓ 3 = .ok (node2 (allL ts) (allR ts)) := by
      have := andNodes_reps nav leaf as ts os hr true true
      rw [Bool.true_and, Bool.true_and] at this
      exact this
    rw [show d + 1 + e = (d + e) + 1 by omega, ANDb, h3, enum_allHas]
    simp only [R_bind_ok, hskip, hs, or_two_pow hd', val]
    cases hL : allL ts with
    | false =>
      cases hR : allR ts with
      | false => simp [node2_ff, resOf]
      | true =>
        obtain ⟨cs, e1, h1⟩ := children_right nav leaf as ts os hr hR
        simp only [node2_ft, Nat.reduceEqDiff, if_false, if_true, e1, R_bind_ok]
        rw [ih (ℓ + 1) _ cs _ r h1 (by omega) (dvd_hi hd')]
        cases val lv d (rights ts) <;> rfl
    | true =>
      obtain ⟨cs, e1, h1, h2⟩ := children_left nav leaf as ts os hr hL
      cases hR : allR ts with
      | false =>
        simp only [node2_tf, Nat.reduceEqDiff, if_false, if_true, e1, R_bind_ok]
        rw [ih (ℓ + 1) _ cs _ r h1 (by omega) (dvd_lo hd')]
        cases val lv d (lefts ts) with
        | none => simp [resOf, bind, Except.bind]
        | some v => cases v <;> simp [resOf]
      | true =>
        simp only [node2_tt, Nat.reduceEqDiff, if_false, if_true, e1, R_bind_ok]
        rw [ih (ℓ + 1) _ cs _ r h1 (by omega) (dvd_lo hd')]
        cases val lv d (lefts ts) with
        | none => simp [resOf, bind, Except.bind]
        | some v =>
          simp only [resOf, R_bind_ok]
          rw [ih (ℓ + 1) _ _ _ _ (h2 hR) (by omega) (dvd_hi hd')]
          cases val lv d (rights ts) with
          | none => simp [resOf, bind, Except.bind]
          | some v => simp [resOf]

end

/-- The last level of flat and level-wise tries. -/
def flatLv (ts : List (Tr 0)) : Option Bool :=
  match allHas 1 0 ts 0, allHas 1 0 ts 1 with
  | false, false => some false
  | true, _ => some true
  | false, true => none

theorem flat_leafOKb (as : List Nav) (height : Nat) : LeafOKb id leafF as (flatCfg height) 1 1 flatLv := by
  refine ⟨Or.inr (by simp), ?_⟩
  intro ℓ ts os pref r hr ht hd
  have hs : shl1 (height - ℓ - 1) = .ok (2 ^ 0) := by
    have : height = ℓ + 1 := ht
    rw [this, show ℓ + 1 - ℓ - 1 = 0 by omega]; exact shl1_ok (by omega)
  have h3 : andNodes (as.map id) os ℓ 3 = .ok (node2 (allHas 1 0 ts 0) (allHas 1 0 ts 1)) := by
    rw [List.map_id]
    have := andNodes_leaf as ts os hr true true
    rw [Bool.true_and, Bool.true_and] at this
    exact this
  have ho : pref ||| 2 ^ 0 = pref + 1 := or_two_pow (k := 0) (by simpa using hd)
  rw [ANDb, h3, enum_one]
  have hsk : ∀ get, children get true ℓ as os = .ok (List.replicate as.length none) := by
    intro get
    have := children_skip get as ts os hr
    rwa [List.map_id] at this
  have htop : (flatCfg height).top = height := rfl
  simp only [R_bind_ok, htop, hs, ho, flatLv]
  cases allHas 1 0 ts 0 <;> cases allHas 1 0 ts 1 <;> simp [node2, ANDb, flatCfg, hsk, resOf]

theorem fast_leafOKb {lg : Nat} (hlg : lg ≤ 6) (as : List FNav) (height : Nat) :
    LeafOKb FNav.toNav (leafW lg) as (fastCfg lg as height) lg 0 (fun _ => some true) := by
  refine ⟨Or.inl rfl, ?_⟩
  intro ℓ ts os pref r hr ht hd
  have h := (fast_leafOK hlg as height).leafAnd ℓ ts os pref r hr ht hd
  rw [AND] at h
  rw [ANDb, h]
  rfl

/-! ## Which trees determine it -/

/-- Every tree has an element in block `k` of size `2^j`. -/
def Blk (b d : Nat) (ts : List (Tr d)) (j k : Nat) : Prop := ∀ t ∈ ts, ∃ y < 2 ^ j, has b d t (k * 2 ^ j + y) = true

/-- There is a block of size `2^b'` below `2^n`. -/
def SomeB (b' n : Nat) (B : Nat → Nat → Prop) : Prop := ∃ w < 2 ^ (n - b'), B b' w

/-- No indeterminate variable is read above blocks of size `2^b'`. -/
def QuietB (b' n : Nat) (B : Nat → Nat → Prop) : Prop := ∀ j, b' ≤ j → j < n → ∀ k < 2 ^ (n - 1 - j),
  (B j (2 * k + 1) → B j (2 * k)) ∧ (B j (2 * k) → B j (2 * k + 1) ∨ ∃ w < 2 ^ (j - b'), B b' (2 * k * 2 ^ (j - b') + w))

theorem two_pow_half {a c : Nat} (h : a = c + 1) : 2 ^ a = 2 * 2 ^ c := by rw [h, Nat.pow_succ']

theorem QuietB.split {b' n : Nat} {B : Nat → Nat → Prop} (hb : b' ≤ n) : QuietB b' (n + 1) B ↔
    (B n 1 → B n 0) ∧ (B n 0 → B n 1 ∨ SomeB b' n B) ∧ QuietB b' n B ∧ QuietB b' n (fun j k => B j (k + 2 ^ (n - j))) := by
  constructor
  · intro h
    refine ⟨?_, ?_, ?_, ?_⟩
    · simpa using (h n hb (by omega) 0 (by simp)).1
    · simpa [SomeB] using (h n hb (by omega) 0 (by simp)).2
    · intro j h1 h2 k hk
      refine h j h1 (by omega) k (Nat.lt_of_lt_of_le hk (Nat.pow_le_pow_right (by omega) (by omega)))
    · intro j h1 h2 k hk
      have e : 2 ^ (n - j) = 2 * 2 ^ (n - 1 - j) := two_pow_half (by omega)
      have := h j h1 (by omega) (k + 2 ^ (n - 1 - j)) (by rw [show n + 1 - 1 - j = n - j by omega, e]; omega)
      have e1 : 2 * (k + 2 ^ (n - 1 - j)) = 2 * k + 2 ^ (n - j) := by rw [e]; ring
      have e2 : 2 * (k + 2 ^ (n - 1 - j)) + 1 = 2 * k + 1 + 2 ^ (n - j) := by rw [e]; ring
      have e3 : ∀ w, 2 * (k + 2 ^ (n - 1 - j)) * 2 ^ (j - b') + w = 2 * k * 2 ^ (j - b') + w + 2 ^ (n - b') := by
        intro w
        rw [e1, show n - b' = (n - j) + (j - b') by omega, Nat.pow_add]; ring
      simp only [e3] at this
      rw [e2, e1] at this
      exact this
  · rintro ⟨h1, h2, h3, h4⟩ j hj hj' k hk
    by_cases hjn : j = n
    · subst hjn
      have : k = 0 := by rw [show j + 1 - 1 - j = 0 by omega] at hk; omega
      subst this
      simpa [SomeB] using And.intro h1 h2
    · have e : 2 ^ (n - j) = 2 * 2 ^ (n - 1 - j) := two_pow_half (by omega)
      rw [show n + 1 - 1 - j = n - j by omega, e] at hk
      by_cases hk' : k < 2 ^ (n - 1 - j)
      · exact h3 j hj (by omega) k hk'
      · obtain ⟨k, rfl⟩ : ∃ k', k = k' + 2 ^ (n - 1 - j) := ⟨k - 2 ^ (n - 1 - j), by omega⟩
        have := h4 j hj (by omega) k (by omega)
        have e1 : 2 * (k + 2 ^ (n - 1 - j)) = 2 * k + 2 ^ (n - j) := by rw [e]; ring
        have e2 : 2 * (k + 2 ^ (n - 1 - j)) + 1 = 2 * k + 1 + 2 ^ (n - j) := by rw [e]; ring
        have e3 : ∀ w, 2 * (k + 2 ^ (n - 1 - j)) * 2 ^ (j - b') + w = 2 * k * 2 ^ (j - b') + w + 2 ^ (n - b') := by
          intro w
          rw [e1, show n - b' = (n - j) + (j - b') by omega, Nat.pow_add]; ring
        simp only [e3]
        rw [e2, e1]
        exact this

theorem SomeB.split {b' n : Nat} {B : Nat → Nat → Prop} (hb : b' ≤ n) : SomeB b' (n + 1) B ↔
    SomeB b' n B ∨ SomeB b' n (fun j k => B j (k + 2 ^ (n - j))) := by
  have e : 2 ^ (n + 1 - b') = 2 * 2 ^ (n - b') := two_pow_half (by omega)
  rw [SomeB, e]
  constructor
  · rintro ⟨w, hw, h⟩
    by_cases hw' : w < 2 ^ (n - b')
    · exact .inl ⟨w, hw', h⟩
    · refine .inr ⟨w - 2 ^ (n - b'), by omega, ?_⟩
      dsimp only
      rwa [show w - 2 ^ (n - b') + 2 ^ (n - b') = w by omega]
  · rintro (⟨w, hw, h⟩ | ⟨w, hw, h⟩)
    · exact ⟨w, by omega, h⟩
    · exact ⟨_, by omega, h⟩

theorem QuietB.congr {b' n : Nat} {B B' : Nat → Nat → Prop} (h : ∀ j k, j < n → k < 2 ^ (n - j) → (B j k ↔ B' j k)) :
    QuietB b' n B ↔ QuietB b' n B' := by
  have key : ∀ {B B' : Nat → Nat → Prop}, (∀ j k, j < n → k < 2 ^ (n - j) → (B j k ↔ B' j k)) → QuietB b' n B → QuietB b' n B' := by
    intro B B' h H j hj hj' k hk
    have e : 2 ^ (n - j) = 2 * 2 ^ (n - 1 - j) := two_pow_half (by omega)
    obtain ⟨h1, h2⟩ := H j hj hj' k hk
    rw [← h j _ hj' (by omega), ← h j _ hj' (by omega)]
    refine ⟨h1, fun h3 => (h2 h3).imp id ?_⟩
    rintro ⟨w, hw, h4⟩
    refine ⟨w, hw, (h b' _ (by omega) ?_).1 h4⟩
    have e2 : 2 ^ (n - b') = 2 ^ (n - j) * 2 ^ (j - b') := by rw [← Nat.pow_add, show n - j + (j - b') = n - b' by omega]
    rw [e2]
    calc 2 * k * 2 ^ (j - b') + w < 2 * k * 2 ^ (j - b') + 2 ^ (j - b') := by omega
      _ = (2 * k + 1) * 2 ^ (j - b') := by ring
      _ ≤ 2 ^ (n - j) * 2 ^ (j - b') := Nat.mul_le_mul_right _ (by omega)
  exact ⟨key h, key fun j k hj hk => (h j k hj hk).symm⟩

theorem SomeB.congr {b' n : Nat} {B B' : Nat → Nat → Prop} (h : ∀ k, k < 2 ^ (n - b') → (B b' k ↔ B' b' k)) :
    SomeB b' n B ↔ SomeB b' n B' :=
  ⟨fun ⟨w, hw, H⟩ => ⟨w, hw, (h w hw).1 H⟩, fun ⟨w, hw, H⟩ => ⟨w, hw, (h w hw).2 H⟩⟩

theorem QuietB.of_none {b' n : Nat} {B : Nat → Nat → Prop} (h : ∀ j k, j < n → k < 2 ^ (n - j) → ¬ B j k) : QuietB b' n B := by
  rw [QuietB.congr (B' := fun _ _ => False) (fun j k hj hk => ⟨fun H => h j k hj hk H, False.elim⟩)]
  intro j _ _ k _
  exact ⟨False.elim, False.elim⟩

theorem SomeB.none {b' n : Nat} {B : Nat → Nat → Prop} (h : ∀ k, k < 2 ^ (n - b') → ¬ B b' k) : ¬ SomeB b' n B := by
  rintro ⟨w, hw, H⟩
  exact h w hw H

theorem NE.nonempty {b : Nat} : {d : Nat} → {t : Tr d} → NE b d t → ∃ y < 2 ^ (d + b), has b d t y = true
  | 0, t, h => by
    obtain ⟨x, hx⟩ := Nat.exists_testBit_of_ne_zero (Nat.ne_of_gt h.1)
    refine ⟨x, ?_, hx⟩
    by_contra hge
    have hlt : t.word < 2 ^ x := Nat.lt_of_lt_of_le h.2 (Nat.pow_le_pow_right (by omega) (by simpa using hge))
    rw [Nat.testBit_lt_two_pow hlt] at hx
    cases hx
  | d + 1, t, h => by
    have hb := h.1
    cases hl : t.l with
    | some s =>
      obtain ⟨y, hy, hs⟩ := (h.2.1 s hl).nonempty
      refine ⟨y, Nat.lt_of_lt_of_le hy (Nat.pow_le_pow_right (by omega) (by omega)), ?_⟩
      rw [has_lo hy, hl]
      exact hs
    | none =>
      cases hr : t.r with
      | none => simp [Tr.bare, hl, hr] at hb
      | some s =>
        obtain ⟨y, hy, hs⟩ := (h.2.2 s hr).nonempty
        refine ⟨2 ^ (d + b) + y, ?_, ?_⟩
        · rw [show d + 1 + b = d + b + 1 by omega, Nat.pow_succ]; omega
        · rw [has_hi, hr]
          exact hs

theorem blk_cons {b d j k : Nat} {t : Tr d} {ts : List (Tr d)} :
    Blk b d (t :: ts) j k ↔ (∃ y < 2 ^ j, has b d t (k * 2 ^ j + y) = true) ∧ Blk b d ts j k := List.forall_mem_cons

theorem blk_lo {b d j k : Nat} (ts : List (Tr (d + 1))) (hj : j ≤ d + b) (hk : k < 2 ^ (d + b - j)) :
    Blk b (d + 1) ts j k ↔ allL ts = true ∧ Blk b d (lefts ts) j k := by
  have hlt : ∀ y < 2 ^ j, k * 2 ^ j + y < 2 ^ (d + b) := by
    intro y hy
    rw [show d + b = (d + b - j) + j by omega, Nat.pow_add]
    calc k * 2 ^ j + y < (k + 1) * 2 ^ j := by rw [Nat.add_mul]; omega
      _ ≤ _ := Nat.mul_le_mul_right _ hk
  induction ts with
  | nil => simp [Blk, allL, lefts]
  | cons t ts ih =>
    rw [blk_cons]
    refine (and_congr_right fun _ => ih).trans ?_
    simp only [allL, lefts, List.all_cons, List.filterMap_cons, Bool.and_eq_true]
    cases hl : t.l with
    | none =>
      simp only [Option.isSome_none, Bool.false_eq_true, false_and, iff_false, not_and]
      rintro ⟨y, hy, h⟩
      rw [has_lo (hlt y hy), hl] at h
      cases h
    | some s =>
      have : (∃ y < 2 ^ j, has b (d + 1) t (k * 2 ^ j + y) = true) ↔ ∃ y < 2 ^ j, has b d s (k * 2 ^ j + y) = true := by
        refine exists_congr fun y => and_congr_right fun hy => ?_
        rw [has_lo (hlt y hy), hl]
        rfl
      rw [this]
      simp only [Option.isSome_some, true_and, blk_cons]
      tauto

theorem blk_hi {b d j k : Nat} (ts : List (Tr (d + 1))) (hj : j ≤ d + b) :
    Blk b (d + 1) ts j (k + 2 ^ (d + b - j)) ↔ allR ts = true ∧ Blk b d (rights ts) j k := by
  have he : ∀ y, (k + 2 ^ (d + b - j)) * 2 ^ j + y = 2 ^ (d + b) + (k * 2 ^ j + y) := by
    intro y
    rw [Nat.add_mul, ← Nat.pow_add, show d + b - j + j = d + b by omega]; ring
  induction ts with
  | nil => simp [Blk, allR, rights]
  | cons t ts ih =>
    rw [blk_cons]
    refine (and_congr_right fun _ => ih).trans ?_
    simp only [allR, rights, List.all_cons, List.filterMap_cons, Bool.and_eq_true, he]
    cases hl : t.r with
    | none =>
      simp only [Option.isSome_none, Bool.false_eq_true, false_and, iff_false, not_and]
      rintro ⟨y, hy, h⟩
      rw [has_hi, hl] at h
      cases h
    | some s =>
      have : (∃ y < 2 ^ j, has b (d + 1) t (2 ^ (d + b) + (k * 2 ^ j + y)) = true) ↔ ∃ y < 2 ^ j, has b d s (k * 2 ^ j + y) = true := by
        refine exists_congr fun y => and_congr_right fun hy => ?_
        rw [has_hi, hl]
        rfl
      rw [this]
      simp only [Option.isSome_some, true_and, blk_cons]
      tauto

theorem blk_root {b d : Nat} {ts : List (Tr d)} (h : ∀ t ∈ ts, NE b d t) : Blk b d ts (d + b) 0 := by
  intro t ht
  simpa using (h t ht).nonempty

theorem ne_lefts {b d : Nat} {ts : List (Tr (d + 1))} (h : ∀ t ∈ ts, NE b (d + 1) t) : ∀ t ∈ lefts ts, NE b d t := by
  intro t ht
  obtain ⟨s, hs, he⟩ := List.mem_filterMap.1 ht
  exact (h s hs).2.1 t he

theorem ne_rights {b d : Nat} {ts : List (Tr (d + 1))} (h : ∀ t ∈ ts, NE b (d + 1) t) : ∀ t ∈ rights ts, NE b d t := by
  intro t ht
  obtain ⟨s, hs, he⟩ := List.mem_filterMap.1 ht
  exact (h s hs).2.2 t he

/-- `v` is the result for block predicate `B` below `2^n`. -/
def ValOK (b' n : Nat) (B : Nat → Nat → Prop) (v : Option Bool) : Prop :=
  (QuietB b' n B → ∃ x, v = some x ∧ (x = true ↔ SomeB b' n B)) ∧ (¬ QuietB b' n B → v = none)

theorem val_ok {b b' : Nat} (hb : b' ≤ b) {lv : List (Tr 0) → Option Bool}
    (hlv : ∀ ts, (∀ t ∈ ts, NE b 0 t) → ValOK b' b (Blk b 0 ts) (lv ts)) : (d : Nat) → (ts : List (Tr d)) →
    (∀ t ∈ ts, NE b d t) → ValOK b' (d + b) (Blk b d ts) (val lv d ts)
  | 0, ts, h => by simpa [val] using hlv ts h
  | d + 1, ts, h => by
    have ihl := val_ok hb hlv d (lefts ts) (ne_lefts h)
    have ihr := val_ok hb hlv d (rights ts) (ne_rights h)
    have h0 : Blk b (d + 1) ts (d + b) 0 ↔ allL ts = true := by
      rw [blk_lo ts (Nat.le_refl _) (by simp)]
      exact and_iff_left (blk_root (ne_lefts h))
    have h1 : Blk b (d + 1) ts (d + b) 1 ↔ allR ts = true := by
      have := blk_hi (k := 0) ts (Nat.le_refl (d + b))
      rw [Nat.sub_self, Nat.pow_zero, Nat.zero_add] at this
      rw [this]
      exact and_iff_left (blk_root (ne_rights h))
    have ql : QuietB b' (d + b) (Blk b (d + 1) ts) ↔ (allL ts = true → QuietB b' (d + b) (Blk b d (lefts ts))) := by
      cases hL : allL ts with
      | false =>
        simp only [Bool.false_eq_true, false_implies, iff_true]
        refine QuietB.of_none fun j k hj hk => ?_
        rw [blk_lo ts (by omega) hk, hL]; simp
      | true =>
        simp only [true_implies]
        refine QuietB.congr fun j k hj hk => ?_
        rw [blk_lo ts (by omega) hk, hL]; simp
    have qr : QuietB b' (d + b) (fun j k => Blk b (d + 1) ts j (k + 2 ^ (d + b - j))) ↔
        (allR ts = true → QuietB b' (d + b) (Blk b d (rights ts))) := by
      cases hR : allR ts with
      | false =>
        simp only [Bool.false_eq_true, false_implies, iff_true]
        refine QuietB.of_none fun j k hj hk => ?_
        rw [blk_hi ts (by omega), hR]; simp
      | true =>
        simp only [true_implies]
        refine QuietB.congr fun j k hj hk => ?_
        rw [blk_hi ts (by omega), hR]; simp
    have sl : SomeB b' (d + b) (Blk b (d + 1) ts) ↔ allL ts = true ∧ SomeB b' (d + b) (Blk b d (lefts ts)) := by
      cases hL : allL ts with
      | false =>
        simp only [Bool.false_eq_true, false_and, iff_false]
        refine SomeB.none fun k hk => ?_
        rw [blk_lo ts (by omega) hk, hL]; simp
      | true =>
        simp only [true_and]
        refine SomeB.congr fun k hk => ?_
        rw [blk_lo ts (by omega) hk, hL]; simp
    have sr : SomeB b' (d + b) (fun j k => Blk b (d + 1) ts j (k + 2 ^ (d + b - j))) ↔
        allR ts = true ∧ SomeB b' (d + b) (Blk b d (rights ts)) := by
      cases hR : allR ts with
      | false =>
        simp only [Bool.false_eq_true, false_and, iff_false]
        refine SomeB.none fun k hk => ?_
        rw [blk_hi ts (by omega), hR]; simp
      | true =>
        simp only [true_and]
        refine SomeB.congr fun k hk => ?_
        rw [blk_hi ts (by omega), hR]; simp
    rw [show d + 1 + b = d + b + 1 by omega, ValOK, QuietB.split (by omega), SomeB.split (by omega), h0, h1, ql, qr, sl, sr, val]
    cases hL : allL ts <;> cases hR : allR ts
    · simp
    · simp
    · simp only [Bool.false_eq_true, false_implies, true_implies, false_or, true_and, and_true, false_and, or_false]
      by_cases hq : QuietB b' (d + b) (Blk b d (lefts ts))
      · obtain ⟨x, e, hx⟩ := ihl.1 hq
        rw [e, ← hx]
        cases x <;> simp [hq]
      · rw [ihl.2 hq]
        simp [hq]
    · simp only [true_implies, true_or, true_and]
      by_cases hq : QuietB b' (d + b) (Blk b d (lefts ts))
      · obtain ⟨x, e, hx⟩ := ihl.1 hq
        by_cases hq' : QuietB b' (d + b) (Blk b d (rights ts))
        · obtain ⟨x', e', hx'⟩ := ihr.1 hq'
          rw [e, e', ← hx, ← hx']
          simp [hq, hq']
        · rw [e, ihr.2 hq']
          simp [hq']
      · rw [ihl.2 hq]
        simp [hq]

theorem flatLv_ok (ts : List (Tr 0)) (_ : ∀ t ∈ ts, NE 1 0 t) : ValOK 0 1 (Blk 1 0 ts) (flatLv ts) := by
  have h : ∀ k, Blk 1 0 ts 0 k ↔ allHas 1 0 ts k = true := by
    intro k
    simp [Blk, allHas]
  have hq : QuietB 0 1 (Blk 1 0 ts) ↔ (allHas 1 0 ts 1 = true → allHas 1 0 ts 0 = true) := by
    constructor
    · intro H
      have := (H 0 (Nat.le_refl _) (by omega) 0 (by simp)).1
      rw [h, h] at this
      exact this
    · intro H j _ hj k hk
      obtain rfl : j = 0 := by omega
      obtain rfl : k = 0 := by simpa using hk
      refine ⟨?_, fun h0 => .inr ⟨0, by simp, by simpa using h0⟩⟩
      rw [h, h]
      exact H
  have hs : SomeB 0 1 (Blk 1 0 ts) ↔ allHas 1 0 ts 0 = true ∨ allHas 1 0 ts 1 = true := by
    constructor
    · rintro ⟨w, hw, H⟩
      rw [h] at H
      have : w = 0 ∨ w = 1 := by simp at hw; omega
      rcases this with rfl | rfl
      · exact .inl H
      · exact .inr H
    · rintro (H | H)
      · exact ⟨0, by simp, (h 0).2 H⟩
      · exact ⟨1, by simp, (h 1).2 H⟩
  rw [ValOK, hq, hs, flatLv]
  cases allHas 1 0 ts 0 <;> cases allHas 1 0 ts 1 <;> simp

theorem fastLv_ok {lg : Nat} (ts : List (Tr 0)) (h : ∀ t ∈ ts, NE lg 0 t) : ValOK lg lg (Blk lg 0 ts) (some true) := by
  have hq : QuietB lg lg (Blk lg 0 ts) := by
    intro j hj hj'
    omega
  refine ⟨fun _ => ⟨true, rfl, by simpa [SomeB] using (by simpa using blk_root h : Blk lg 0 ts lg 0)⟩, fun h => (h hq).elim⟩

end CBT
