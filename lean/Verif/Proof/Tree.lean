import Verif.Proof.Enum
import Mathlib.Data.Nat.Bitwise
import Mathlib.Data.List.TakeWhile
import Mathlib.Tactic.Ring

/-!
# Abstract binary tries

`Tr d` has `d` levels of binary nodes above leaf words of `2^b` bits.
-/

namespace CBT

def Tr : Nat → Type
  | 0 => Nat
  | d + 1 => Option (Tr d) × Option (Tr d)

/-- The leaf word of a trie without levels. -/
def Tr.word (t : Tr 0) : Nat := t
def Tr.ofWord (w : Nat) : Tr 0 := w
def Tr.l {d : Nat} (t : Tr (d + 1)) : Option (Tr d) := Prod.fst (α := Option (Tr d)) (β := Option (Tr d)) t
def Tr.r {d : Nat} (t : Tr (d + 1)) : Option (Tr d) := Prod.snd (α := Option (Tr d)) (β := Option (Tr d)) t
def Tr.mk {d : Nat} (l r : Option (Tr d)) : Tr (d + 1) := Prod.mk l r

@[simp] theorem Tr.l_mk {d : Nat} (l r : Option (Tr d)) : (Tr.mk l r).l = l := rfl
@[simp] theorem Tr.r_mk {d : Nat} (l r : Option (Tr d)) : (Tr.mk l r).r = r := rfl
@[simp] theorem Tr.word_ofWord (w : Nat) : (Tr.ofWord w).word = w := rfl
theorem Tr.eta {d : Nat} (t : Tr (d + 1)) : Tr.mk t.l t.r = t := rfl

/-- A node without children. -/
def Tr.bare {d : Nat} (t : Tr (d + 1)) : Bool := t.l.isNone && t.r.isNone

theorem Tr.bare_eq {d : Nat} {t : Tr (d + 1)} (h : t.bare = true) : t.l = none ∧ t.r = none := by
  simpa [Tr.bare] using h

/-- Membership of `x < 2^(d+b)`. -/
def has (b : Nat) : (d : Nat) → Tr d → Nat → Bool
  | 0, t, x => Nat.testBit t.word x
  | d + 1, t, x =>
    if x < 2 ^ (d + b) then t.l.any (fun t => has b d t x) else t.r.any (fun t => has b d t (x - 2 ^ (d + b)))

/-- Membership when a node without children stands for a full block. -/
def hasR (b : Nat) : (d : Nat) → Tr d → Nat → Bool
  | 0, t, x => Nat.testBit t.word x
  | d + 1, t, x =>
    if t.bare then true
    else if x < 2 ^ (d + b) then t.l.any (fun t => hasR b d t x)
    else t.r.any (fun t => hasR b d t (x - 2 ^ (d + b)))

/-- No node without children, no zero word, words fit. -/
def NE (b : Nat) : (d : Nat) → Tr d → Prop
  | 0, t => 0 < t.word ∧ t.word < 2 ^ 2 ^ b
  | d + 1, t => t.bare = false ∧ (∀ s, t.l = some s → NE b d s) ∧ (∀ s, t.r = some s → NE b d s)

/-- Words are not zero and fit. -/
def NZ (b : Nat) : (d : Nat) → Tr d → Prop
  | 0, t => 0 < t.word ∧ t.word < 2 ^ 2 ^ b
  | d + 1, t => (∀ s, t.l = some s → NZ b d s) ∧ (∀ s, t.r = some s → NZ b d s)

theorem NE.nz {b : Nat} : {d : Nat} → {t : Tr d} → NE b d t → NZ b d t
  | 0, _, h => h
  | _ + 1, _, h => ⟨fun t ht => (h.2.1 t ht).nz, fun t ht => (h.2.2 t ht).nz⟩

theorem NE.hasR_eq {b : Nat} : {d : Nat} → {t : Tr d} → NE b d t → ∀ x, hasR b d t x = has b d t x
  | 0, _, _, _ => rfl
  | d + 1, t, h, x => by
    simp only [hasR, has, h.1, Bool.false_eq_true, if_false]
    split
    · cases hl : t.l with
      | none => rfl
      | some s => exact (h.2.1 s hl).hasR_eq x
    · cases hr : t.r with
      | none => rfl
      | some s => exact (h.2.2 s hr).hasR_eq _

theorem has_lo {b d : Nat} {t : Tr (d + 1)} {x : Nat} (h : x < 2 ^ (d + b)) :
    has b (d + 1) t x = t.l.any (fun t => has b d t x) := by
  simp [has, h]

theorem has_hi {b d : Nat} {t : Tr (d + 1)} {x : Nat} :
    has b (d + 1) t (2 ^ (d + b) + x) = t.r.any (fun t => has b d t x) := by
  simp [has]

theorem hasR_bare {b d : Nat} {t : Tr (d + 1)} {x : Nat} (h : t.bare = true) : hasR b (d + 1) t x = true := by
  simp [hasR, h]

theorem hasR_lo {b d : Nat} {t : Tr (d + 1)} {x : Nat} (h : x < 2 ^ (d + b)) (hn : t.bare = false) :
    hasR b (d + 1) t x = t.l.any (fun t => hasR b d t x) := by
  simp [hasR, hn, h]

theorem hasR_hi {b d : Nat} {t : Tr (d + 1)} {x : Nat} (hn : t.bare = false) :
    hasR b (d + 1) t (2 ^ (d + b) + x) = t.r.any (fun t => hasR b d t x) := by
  simp [hasR, hn]

/-! ## Forests in level order -/

/-- The two bits of a node. -/
def nodeBits {d : Nat} (t : Tr (d + 1)) : List Bool := [t.l.isSome, t.r.isSome]

def bitsOf {d : Nat} (f : List (Tr (d + 1))) : List Bool := f.flatMap nodeBits

def kidsOf {d : Nat} (t : Tr (d + 1)) : List (Tr d) := t.l.toList ++ t.r.toList

def kids {d : Nat} (f : List (Tr (d + 1))) : List (Tr d) := f.flatMap kidsOf

theorem kids_append {d : Nat} (f g : List (Tr (d + 1))) : kids (f ++ g) = kids f ++ kids g := by
  simp [kids]

theorem bitsOf_append {d : Nat} (f g : List (Tr (d + 1))) : bitsOf (f ++ g) = bitsOf f ++ bitsOf g := by
  simp [bitsOf]

theorem kids_cons {d : Nat} (t : Tr (d + 1)) (f : List (Tr (d + 1))) : kids (t :: f) = kidsOf t ++ kids f := by
  simp [kids]

theorem bitsOf_cons {d : Nat} (t : Tr (d + 1)) (f : List (Tr (d + 1))) :
    bitsOf (t :: f) = t.l.isSome :: t.r.isSome :: bitsOf f := by
  simp [bitsOf, nodeBits]

@[simp] theorem bitsOf_nil {d : Nat} : bitsOf ([] : List (Tr (d + 1))) = [] := rfl
@[simp] theorem kids_nil {d : Nat} : kids ([] : List (Tr (d + 1))) = [] := rfl

theorem length_bitsOf {d : Nat} (f : List (Tr (d + 1))) : (bitsOf f).length = 2 * f.length := by
  induction f with
  | nil => rfl
  | cons a f ih => simp [bitsOf, nodeBits] at ih ⊢; omega

theorem length_kidsOf {d : Nat} (t : Tr (d + 1)) : (kidsOf t).length = t.l.isSome.toNat + t.r.isSome.toNat := by
  unfold kidsOf
  cases t.l <;> cases t.r <;> rfl

theorem count_bitsOf {d : Nat} (f : List (Tr (d + 1))) : (bitsOf f).count true = (kids f).length := by
  induction f with
  | nil => rfl
  | cons a f ih =>
    rw [bitsOf_cons, kids_cons, List.length_append, ← ih, length_kidsOf, List.count_cons, List.count_cons]
    cases a.l.isSome <;> cases a.r.isSome <;> simp <;> omega

/-- All node bits in level order. -/
def flatBits : (d : Nat) → List (Tr d) → List Bool
  | 0, _ => []
  | d + 1, f => bitsOf f ++ flatBits d (kids f)

/-- The leaf words in order. -/
def leaves : (d : Nat) → List (Tr d) → List Nat
  | 0, f => f.map Tr.word
  | d + 1, f => leaves d (kids f)

/-! ## Collapsing full subtrees -/

def full (b : Nat) : (d : Nat) → Tr d → Bool
  | 0, t => decide (t.word = 2 ^ 2 ^ b - 1)
  | d + 1, t => t.l.any (full b d) && t.r.any (full b d)

def prune (b : Nat) : (d : Nat) → Tr d → Tr d
  | 0, t => t
  | d + 1, t => if full b (d + 1) t then Tr.mk none none else Tr.mk (t.l.map (prune b d)) (t.r.map (prune b d))

theorem prune_full {b d : Nat} {t : Tr (d + 1)} (h : full b (d + 1) t = true) :
    prune b (d + 1) t = Tr.mk none none := by
  simp [prune, h]

theorem prune_not_full {b d : Nat} {t : Tr (d + 1)} (h : full b (d + 1) t = false) :
    prune b (d + 1) t = Tr.mk (t.l.map (prune b d)) (t.r.map (prune b d)) := by
  simp [prune, h]

theorem testBit_full {b x : Nat} (h : x < 2 ^ b) : Nat.testBit (2 ^ 2 ^ b - 1) x = true := by
  simp [h]

theorem full_has {b : Nat} : {d : Nat} → {t : Tr d} → full b d t = true → ∀ x < 2 ^ (d + b), has b d t x = true
  | 0, w, h, x, hx => by
    have : w.word = 2 ^ 2 ^ b - 1 := by simpa [full] using h
    simp only [has]
    rw [this]
    exact testBit_full (by simpa using hx)
  | d + 1, t, h, x, hx => by
    simp only [full, Bool.and_eq_true] at h
    obtain ⟨hl, hr⟩ := h
    have hp : 2 ^ (d + 1 + b) = 2 ^ (d + b) + 2 ^ (d + b) := by
      rw [show d + 1 + b = (d + b) + 1 by omega, Nat.pow_succ]; omega
    simp only [has]
    split
    · rename_i hlt
      cases hh : t.l with
      | none => simp [hh] at hl
      | some s => rw [hh] at hl; exact full_has hl x hlt
    · rename_i hlt
      cases hh : t.r with
      | none => simp [hh] at hr
      | some s => rw [hh] at hr; exact full_has hr _ (by omega)

theorem hasR_prune {b : Nat} : {d : Nat} → {t : Tr d} → NE b d t → ∀ x < 2 ^ (d + b),
    hasR b d (prune b d t) x = has b d t x
  | 0, _, _, _, _ => rfl
  | d + 1, t, h, x, hx => by
    have hp : 2 ^ (d + 1 + b) = 2 ^ (d + b) + 2 ^ (d + b) := by
      rw [show d + 1 + b = (d + b) + 1 by omega, Nat.pow_succ]; omega
    cases hf : full b (d + 1) t with
    | true => rw [prune_full hf, hasR_bare rfl, full_has hf x hx]
    | false =>
      rw [prune_not_full hf]
      have h1 : (Tr.mk (t.l.map (prune b d)) (t.r.map (prune b d))).bare = false := by
        have := h.1
        simpa [Tr.bare] using this
      simp only [hasR, has, h1, Bool.false_eq_true, if_false, Tr.l_mk, Tr.r_mk]
      split
      · rename_i hlt
        cases hl : t.l with
        | none => rfl
        | some s => exact hasR_prune (h.2.1 s hl) x hlt
      · rename_i hlt
        cases hr : t.r with
        | none => rfl
        | some s => exact hasR_prune (h.2.2 s hr) _ (by omega)

theorem NE.prune_nz {b : Nat} : {d : Nat} → {t : Tr d} → NE b d t → NZ b d (prune b d t)
  | 0, _, h => h
  | d + 1, t, h => by
    cases hf : full b (d + 1) t with
    | true => rw [prune_full hf]; exact ⟨fun t ht => by simp at ht, fun t ht => by simp at ht⟩
    | false =>
      rw [prune_not_full hf]
      refine ⟨fun s hs => ?_, fun s hs => ?_⟩
      · rw [Tr.l_mk] at hs
        obtain ⟨a, ha, rfl⟩ := Option.map_eq_some_iff.1 hs
        exact (h.2.1 a ha).prune_nz
      · rw [Tr.r_mk] at hs
        obtain ⟨a, ha, rfl⟩ := Option.map_eq_some_iff.1 hs
        exact (h.2.2 a ha).prune_nz

/-! ## The trie of a sorted list -/

/-- The bit tested by the constructors. -/
def bitIs0 (k : Nat) (x : Nat) : Bool := (x >>> k) &&& 1 ≠ 1

def loPart (k : Nat) (g : List Nat) : List Nat := g.takeWhile (bitIs0 k)
def hiPart (k : Nat) (g : List Nat) : List Nat := g.dropWhile (bitIs0 k)

theorem lo_hi (k : Nat) (g : List Nat) : loPart k g ++ hiPart k g = g := List.takeWhile_append_dropWhile

/-- `some` of a non-empty list. -/
def nonEmpty (g : List Nat) : Option (List Nat) := if g.isEmpty then none else some g

def mkTr (b : Nat) (lf : List Nat → Nat) : (d : Nat) → List Nat → Tr d
  | 0, g => Tr.ofWord (lf g)
  | d + 1, g =>
    Tr.mk ((nonEmpty (loPart (d + b) g)).map (mkTr b lf d)) ((nonEmpty (hiPart (d + b) g)).map (mkTr b lf d))

/-- `g` is sorted and lies in the aligned block of `2^k` numbers starting at `p`. -/
structure InBlock (k p : Nat) (g : List Nat) : Prop where
  sorted : g.Pairwise (· < ·)
  mem : ∀ x ∈ g, p ≤ x ∧ x < p + 2 ^ k
  dvd : 2 ^ k ∣ p

theorem bitIs0_eq {k p x : Nat} (hd : 2 ^ (k + 1) ∣ p) (h1 : p ≤ x) (h2 : x < p + 2 ^ (k + 1)) :
    bitIs0 k x = decide (x < p + 2 ^ k) := by
  obtain ⟨q, rfl⟩ := hd
  have hx : x = 2 ^ (k + 1) * q + (x - 2 ^ (k + 1) * q) := by omega
  generalize x - 2 ^ (k + 1) * q = y at hx
  subst hx
  have hy : y < 2 ^ (k + 1) := by omega
  have hp : 2 ^ (k + 1) = 2 ^ k * 2 := Nat.pow_succ ..
  have hpos : 0 < 2 ^ k := Nat.two_pow_pos k
  have h : (2 ^ (k + 1) * q + y) >>> k = 2 * q + y / 2 ^ k := by
    rw [Nat.shiftRight_eq_div_pow, hp, Nat.mul_assoc, Nat.mul_add_div hpos]
  rw [bitIs0, h, Nat.and_one_is_mod, Nat.mul_add_mod]
  by_cases hc : y < 2 ^ k
  · rw [Nat.div_eq_of_lt hc]; simp [hc]
  · have h1 : y / 2 ^ k = 1 := by
      apply Nat.div_eq_of_lt_le <;> omega
    rw [h1]; simp; omega

theorem InBlock.lo {k p : Nat} {g : List Nat} (h : InBlock (k + 1) p g) : InBlock k p (loPart k g) := by
  have hp : 2 ^ (k + 1) = 2 ^ k * 2 := Nat.pow_succ ..
  refine ⟨h.sorted.sublist (List.takeWhile_sublist _), fun x hx => ?_, (Dvd.intro 2 hp.symm).trans h.dvd⟩
  have hg : x ∈ g := (List.takeWhile_sublist _).subset hx
  have hb : bitIs0 k x = true := List.mem_takeWhile_imp hx
  rw [bitIs0_eq h.dvd (h.mem x hg).1 (h.mem x hg).2] at hb
  exact ⟨(h.mem x hg).1, by simpa using hb⟩

theorem hiPart_ge {k p : Nat} {g : List Nat} (h : InBlock (k + 1) p g) :
    ∀ x ∈ hiPart k g, p + 2 ^ k ≤ x := by
  intro x hx
  have hs : (hiPart k g).Sublist g := List.dropWhile_sublist _
  cases hh : hiPart k g with
  | nil => rw [hh] at hx; simp at hx
  | cons a t =>
    have ha : bitIs0 k a = false := by
      have := List.head?_dropWhile_not (bitIs0 k) g
      rw [show g.dropWhile (bitIs0 k) = a :: t from hh] at this
      simpa using this
    have hga : a ∈ g := hs.subset (by rw [hh]; simp)
    rw [bitIs0_eq h.dvd (h.mem a hga).1 (h.mem a hga).2] at ha
    have ha' : p + 2 ^ k ≤ a := by simpa using ha
    have hsort := h.sorted.sublist hs
    rw [hh] at hsort hx
    rcases List.mem_cons.1 hx with rfl | hx
    · exact ha'
    · have := (List.pairwise_cons.1 hsort).1 x hx
      omega

theorem InBlock.hi {k p : Nat} {g : List Nat} (h : InBlock (k + 1) p g) : InBlock k (p + 2 ^ k) (hiPart k g) := by
  have hp : 2 ^ (k + 1) = 2 ^ k * 2 := Nat.pow_succ ..
  have hs : (hiPart k g).Sublist g := List.dropWhile_sublist _
  refine ⟨h.sorted.sublist hs, fun x hx => ⟨hiPart_ge h x hx, ?_⟩, ?_⟩
  · have := (h.mem x (hs.subset hx)).2; omega
  · exact (Nat.dvd_add_right ((Dvd.intro 2 hp.symm).trans h.dvd)).2 (dvd_refl _)

theorem mem_lo {k p : Nat} {g : List Nat} (h : InBlock (k + 1) p g) {x : Nat} (hx : x < p + 2 ^ k) :
    x ∈ loPart k g ↔ x ∈ g := by
  constructor
  · intro h'; rw [← lo_hi k g]; exact List.mem_append_left _ h'
  · intro h'
    rw [← lo_hi k g] at h'
    rcases List.mem_append.1 h' with h' | h'
    · exact h'
    · have := hiPart_ge h x h'; omega

theorem mem_hi {k p : Nat} {g : List Nat} (h : InBlock (k + 1) p g) {x : Nat} (hx : p + 2 ^ k ≤ x) :
    x ∈ hiPart k g ↔ x ∈ g := by
  constructor
  · intro h'; rw [← lo_hi k g]; exact List.mem_append_right _ h'
  · intro h'
    rw [← lo_hi k g] at h'
    rcases List.mem_append.1 h' with h' | h'
    · have := (h.lo.mem x h').2; omega
    · exact h'

/-- What a leaf function has to do on a group inside a block of `2^b` numbers. -/
def LeafFn (b : Nat) (lf : List Nat → Nat) : Prop :=
  ∀ p g, InBlock b p g → lf g < 2 ^ 2 ^ b ∧ ∀ x < 2 ^ b, Nat.testBit (lf g) x = decide (p + x ∈ g)

theorem has_mkTr {b : Nat} {lf : List Nat → Nat} (hlf : LeafFn b lf) : {d : Nat} → {p : Nat} → {g : List Nat} →
    InBlock (d + b) p g → ∀ x < 2 ^ (d + b), has b d (mkTr b lf d g) x = decide (p + x ∈ g)
  | 0, p, g, h, x, hx => by
    rw [Nat.zero_add] at h hx
    exact (hlf p g h).2 x hx
  | d + 1, p, g, h, x, hx => by
    have h' : InBlock (d + b + 1) p g := by rwa [show d + b + 1 = d + 1 + b by omega]
    have hp : 2 ^ (d + 1 + b) = 2 ^ (d + b) + 2 ^ (d + b) := by
      rw [show d + 1 + b = (d + b) + 1 by omega, Nat.pow_succ]; omega
    by_cases hlt : x < 2 ^ (d + b)
    · rw [mkTr, has_lo hlt, Tr.l_mk, ← decide_eq_decide.2 (mem_lo h' (x := p + x) (by omega))]
      by_cases he : loPart (d + b) g = []
      · simp [nonEmpty, he]
      · simp only [nonEmpty, List.isEmpty_iff, he, if_false, Option.map_some, Option.any_some]
        exact has_mkTr hlf h'.lo x hlt
    · obtain ⟨y, rfl⟩ := Nat.exists_eq_add_of_le (Nat.le_of_not_lt hlt)
      rw [mkTr, has_hi, Tr.r_mk, ← decide_eq_decide.2 (mem_hi h' (x := p + (2 ^ (d + b) + y)) (by omega))]
      by_cases he : hiPart (d + b) g = []
      · simp [nonEmpty, he]
      · simp only [nonEmpty, List.isEmpty_iff, he, if_false, Option.map_some, Option.any_some]
        rw [has_mkTr hlf h'.hi y (by omega), Nat.add_assoc]

theorem NE_mkTr {b : Nat} {lf : List Nat → Nat} (hlf : LeafFn b lf) : {d : Nat} → {p : Nat} → {g : List Nat} →
    InBlock (d + b) p g → g ≠ [] → NE b d (mkTr b lf d g)
  | 0, p, g, h, hg => by
    rw [Nat.zero_add] at h
    refine ⟨?_, (hlf p g h).1⟩
    obtain ⟨a, ha⟩ := List.exists_mem_of_ne_nil g hg
    obtain ⟨y, rfl⟩ := Nat.exists_eq_add_of_le (h.mem a ha).1
    have := (hlf p g h).2 y (by have := (h.mem _ ha).2; omega)
    rw [decide_eq_true ha] at this
    show 0 < lf g
    rcases Nat.eq_zero_or_pos (lf g) with h0 | h0
    · rw [h0] at this; simp at this
    · exact h0
  | d + 1, p, g, h, hg => by
    have h' : InBlock (d + b + 1) p g := by rwa [show d + b + 1 = d + 1 + b by omega]
    simp only [NE, mkTr, Tr.l_mk, Tr.r_mk]
    refine ⟨?_, ?_, ?_⟩
    · by_contra hc
      have h1 : loPart (d + b) g = [] := by
        by_contra h1; apply hc; simp [nonEmpty, h1, Tr.bare]
      have h2 : hiPart (d + b) g = [] := by
        by_contra h1; apply hc; simp [nonEmpty, h1, Tr.bare]
      apply hg
      rw [← lo_hi (d + b) g, h1, h2]; rfl
    · intro t ht
      by_cases he : loPart (d + b) g = []
      · simp [nonEmpty, he] at ht
      · simp only [nonEmpty, List.isEmpty_iff, he, if_false, Option.map_some, Option.some.injEq] at ht
        subst ht
        exact NE_mkTr hlf h'.lo he
    · intro t ht
      by_cases he : hiPart (d + b) g = []
      · simp [nonEmpty, he] at ht
      · simp only [nonEmpty, List.isEmpty_iff, he, if_false, Option.map_some, Option.some.injEq] at ht
        subst ht
        exact NE_mkTr hlf h'.hi he

/-- The members of the trie of `g`, in order, are `g`. -/
theorem enum_mkTr {b : Nat} {lf : List Nat → Nat} (hlf : LeafFn b lf) {d p : Nat} {g : List Nat}
    (h : InBlock (d + b) p g) : enum (d + b) (has b d (mkTr b lf d g)) p = g := by
  apply enum_eq_of_sorted h.sorted
  intro y
  constructor
  · intro hy
    obtain ⟨x, rfl⟩ := Nat.exists_eq_add_of_le (h.mem y hy).1
    have hx : x < 2 ^ (d + b) := by have := (h.mem _ hy).2; omega
    exact ⟨x, hx, by rw [has_mkTr hlf h x hx]; exact decide_eq_true hy, rfl⟩
  · rintro ⟨x, hx, hP, rfl⟩
    rw [has_mkTr hlf h x hx] at hP
    simpa using hP

end CBT
