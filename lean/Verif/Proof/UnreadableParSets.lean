import Verif.SpecUnreadPar
import Verif.Proof.UnreadablePar
import Verif.Proof.UnreadableSets

/-!
# Which nodes a parallel run-aware call reads, from the sets
-/

namespace CBT

open Spec

section
variable {α : Type} (bad : α → Nat → Nat → Prop) (b : Nat)

/-- One of the trees has a node without children for the block, which cannot be read. -/
def Site (D p : Nat) (as : List α) (ts : List (Tr D)) (j k : Nat) : Prop :=
  ∃ a t, (a, t) ∈ as.zip ts ∧ BareAt b D t j k ∧ bad a j (p + k * 2 ^ j)

variable {bad b}

theorem Site.bounds {D p : Nat} {as : List α} {ts : List (Tr D)} {j k : Nat} (h : Site bad b D p as ts j k) :
    b < j ∧ j ≤ D + b ∧ k < 2 ^ (D + b - j) := by
  obtain ⟨_, _, _, h, _⟩ := h
  exact h.bounds

theorem mem_zip_lefts {d : Nat} {a : α} {s : Tr d} : (as : List α) → (ts : List (Tr (d + 1))) → allL ts = true →
    ((a, s) ∈ as.zip (lefts ts) ↔ ∃ t, (a, t) ∈ as.zip ts ∧ t.l = some s)
  | [], ts, _ => by simp
  | _ :: _, [], _ => by simp [lefts]
  | a' :: as, t :: ts, h => by
    rw [allL, List.all_cons, Bool.and_eq_true] at h
    obtain ⟨s', hs'⟩ := Option.isSome_iff_exists.1 h.1
    have ih := mem_zip_lefts (a := a) (s := s) as ts h.2
    rw [lefts] at ih ⊢
    rw [List.filterMap_cons_some hs', List.zip_cons_cons, List.mem_cons, ih]
    constructor
    · rintro (h | ⟨t', h, h'⟩)
      · injection h with h1 h2
        subst h1 h2
        exact ⟨t, List.mem_cons_self, hs'⟩
      · exact ⟨t', List.mem_cons_of_mem _ h, h'⟩
    · rintro ⟨t', h, h'⟩
      rw [List.zip_cons_cons, List.mem_cons] at h
      rcases h with h | h
      · injection h with h1 h2
        subst h1 h2
        rw [hs'] at h'
        cases h'
        exact .inl rfl
      · exact .inr ⟨t', h, h'⟩

theorem mem_zip_rights {d : Nat} {a : α} {s : Tr d} : (as : List α) → (ts : List (Tr (d + 1))) → allR ts = true →
    ((a, s) ∈ as.zip (rights ts) ↔ ∃ t, (a, t) ∈ as.zip ts ∧ t.r = some s)
  | [], ts, _ => by simp
  | _ :: _, [], _ => by simp [rights]
  | a' :: as, t :: ts, h => by
    rw [allR, List.all_cons, Bool.and_eq_true] at h
    obtain ⟨s', hs'⟩ := Option.isSome_iff_exists.1 h.1
    have ih := mem_zip_rights (a := a) (s := s) as ts h.2
    rw [rights] at ih ⊢
    rw [List.filterMap_cons_some hs', List.zip_cons_cons, List.mem_cons, ih]
    constructor
    · rintro (h | ⟨t', h, h'⟩)
      · injection h with h1 h2
        subst h1 h2
        exact ⟨t, List.mem_cons_self, hs'⟩
      · exact ⟨t', List.mem_cons_of_mem _ h, h'⟩
    · rintro ⟨t', h, h'⟩
      rw [List.zip_cons_cons, List.mem_cons] at h
      rcases h with h | h
      · injection h with h1 h2
        subst h1 h2
        rw [hs'] at h'
        cases h'
        exact .inl rfl
      · exact .inr ⟨t', h, h'⟩

theorem site_lo {d p : Nat} {as : List α} {ts : List (Tr (d + 1))} (h : allL ts = true) {j k : Nat} (hj : j ≤ d + b)
    (hk : k < 2 ^ (d + b - j)) : Site bad b (d + 1) p as ts j k ↔ Site bad b d p as (lefts ts) j k := by
  constructor
  · rintro ⟨a, t, hm, hB, hbad⟩
    rcases hB with ⟨_, e, _⟩ | ⟨s, hs, hB⟩ | ⟨s, k', hs, e, hB⟩
    · omega
    · exact ⟨a, s, (mem_zip_lefts as ts h).2 ⟨t, hm, hs⟩, hB, hbad⟩
    · omega
  · rintro ⟨a, s, hm, hB, hbad⟩
    obtain ⟨t, hm, hs⟩ := (mem_zip_lefts as ts h).1 hm
    exact ⟨a, t, hm, .inr (.inl ⟨s, hs, hB⟩), hbad⟩

theorem site_hi {d p : Nat} {as : List α} {ts : List (Tr (d + 1))} (h : allR ts = true) {j k : Nat} (hj : j ≤ d + b) :
    Site bad b (d + 1) p as ts j (2 ^ (d + b - j) + k) ↔ Site bad b d (p + 2 ^ (d + b)) as (rights ts) j k := by
  have e : p + (2 ^ (d + b - j) + k) * 2 ^ j = p + 2 ^ (d + b) + k * 2 ^ j := by
    rw [Nat.add_mul, ← Nat.pow_add, Nat.sub_add_cancel hj, Nat.add_assoc]
  constructor
  · rintro ⟨a, t, hm, hB, hbad⟩
    rw [e] at hbad
    rcases hB with ⟨_, e, _⟩ | ⟨s, hs, hB⟩ | ⟨s, k', hs, e, hB⟩
    · omega
    · have := hB.bounds.2.2
      omega
    · obtain rfl : k = k' := by omega
      exact ⟨a, s, (mem_zip_rights as ts h).2 ⟨t, hm, hs⟩, hB, hbad⟩
  · rintro ⟨a, s, hm, hB, hbad⟩
    obtain ⟨t, hm, hs⟩ := (mem_zip_rights as ts h).1 hm
    exact ⟨a, t, hm, .inr (.inr ⟨s, k, hs, rfl, hB⟩), by rw [e]; exact hbad⟩

theorem hitNow_site {d p : Nat} {as : List α} {ts : List (Tr (d + 1))} : HitNowP bad b p as ts ↔ Site bad b (d + 1) p as ts (d + 1 + b) 0 := by
  constructor
  · rintro ⟨a, t, hm, hb, hbad⟩
    exact ⟨a, t, hm, .inl ⟨hb, rfl, rfl⟩, by simpa using hbad⟩
  · rintro ⟨a, t, hm, hB, hbad⟩
    rcases hB with ⟨hb, _, _⟩ | ⟨s, hs, hB⟩ | ⟨s, k', hs, e, hB⟩
    · exact ⟨a, t, hm, hb, by simpa using hbad⟩
    · have := hB.bounds.2.1
      omega
    · have := hB.bounds.2.1
      omega

/-- After some levels. -/
theorem dn_site : (k d : Nat) → (p : Nat) → (as : List α) → (ts : List (Tr (d + k))) → (q : Nat) → q < 2 ^ k → (u : List (Tr d)) →
    dn k ts q = some u → ∀ j ≤ d + b, ∀ i < 2 ^ (d + b - j),
    (Site bad b (d + k) p as ts j (q * 2 ^ (d + b - j) + i) ↔ Site bad b d (p + q * 2 ^ (d + b)) as u j i)
  | 0, d, p, as, ts, q, hq, u, h, j, hj, i, hi => by
    cases h
    obtain rfl : q = 0 := by simpa using hq
    simp
  | k + 1, d, p, as, ts, q, hq, u, h, j, hj, i, hi => by
    have hp : 2 ^ (k + 1) = 2 ^ k + 2 ^ k := by rw [Nat.pow_succ]; omega
    by_cases hlt : q < 2 ^ k
    · rw [dn_lo hlt] at h
      split at h
      · rename_i hL
        rw [← dn_site k d p as _ q hlt u h j hj i hi]
        refine site_lo (d := d + k) hL (by omega) ?_
        rw [show d + k + b - j = d + b - j + k by omega]
        exact mul_lt_pow hlt hi
      · cases h
    · obtain ⟨r, rfl⟩ : ∃ r, q = 2 ^ k + r := ⟨q - 2 ^ k, by omega⟩
      rw [dn_hi] at h
      split at h
      · rename_i hR
        have e1 : (2 ^ k + r) * 2 ^ (d + b - j) + i = 2 ^ (d + k + b - j) + (r * 2 ^ (d + b - j) + i) := by
          rw [Nat.add_mul, ← Nat.pow_add, show k + (d + b - j) = d + k + b - j by omega, Nat.add_assoc]
        have e2 : p + (2 ^ k + r) * 2 ^ (d + b) = p + 2 ^ (d + k + b) + r * 2 ^ (d + b) := by
          rw [Nat.add_mul, ← Nat.pow_add, show k + (d + b) = d + k + b by omega, ← Nat.add_assoc p]
        rw [e1, e2, ← dn_site k d _ as _ r (by omega) u h j hj i hi]
        exact site_hi (d := d + k) hR (by omega)
      · cases h

/-- Nodes met in the first `k` levels. -/
theorem hitsP_iff : (k d : Nat) → (p : Nat) → (as : List α) → (ts : List (Tr (d + k))) → (∀ t ∈ ts, NZ b (d + k) t) →
    (HitsP bad b k p as ts ↔ ∃ j n, d + b < j ∧ Site bad b (d + k) p as ts j n ∧
      (∀ i, j < i → i ≤ d + k + b → anyC b (d + k) ts i (n * 2 ^ j) = false) ∧ Met b (d + k) ts j (n * 2 ^ j))
  | 0, d, p, as, ts, _ => by
    constructor
    · exact False.elim
    · rintro ⟨j, n, h1, h2, -⟩
      have := h2.bounds.2.1
      omega
  | k + 1, d, p, as, ts, hn => by
    have hp := pow_split (d + k) b
    have hl := nz_lefts (d := d + k) hn
    have hr := nz_rights (d := d + k) hn
    have hroot : ∀ i, i ≤ d + (k + 1) + b → ¬ i ≤ d + k + b → i = d + k + 1 + b := fun i _ _ => by omega
    constructor
    · rintro (h | ⟨hA, h⟩ | ⟨hA, h⟩)
      · refine ⟨d + k + 1 + b, 0, by omega, hitNow_site.1 h, fun i h1 h2 => by omega, fun t ht => ?_⟩
        obtain ⟨x, hx, hh⟩ := NZ.exists_hasR _ t (hn t ht)
        refine ⟨x, hx, ?_, hh⟩
        rw [Nat.zero_mul, Nat.zero_div, Nat.div_eq_of_lt]
        exact hx
      · obtain ⟨j, n, h1, h2, h3, h4⟩ := (hitsP_iff k d p as _ hl).1 h
        obtain ⟨-, hj, hnk⟩ := h2.bounds
        have hnb := noneBare_of_allL hA
        have hx : n * 2 ^ j < 2 ^ (d + k + b) := inBlock_lt hj hnk (Nat.mul_div_cancel _ (Nat.two_pow_pos j))
        refine ⟨j, n, h1, (site_lo (d := d + k) hA hj hnk).2 h2, fun i i1 i2 => ?_, (met_lo hnb hj hx).2 ⟨hA, h4⟩⟩
        by_cases hi : i ≤ d + k + b
        · exact (anyC_lo hnb hi hx).trans (h3 i i1 hi)
        · obtain rfl := hroot i i2 hi
          exact (anyC_root (d := d + k) ts _).trans (noneBare_iff.1 hnb)
      · obtain ⟨j, n, h1, h2, h3, h4⟩ := (hitsP_iff k d _ as _ hr).1 h
        obtain ⟨-, hj, hnk⟩ := h2.bounds
        have hnb := noneBare_of_allR hA
        have e : (2 ^ (d + k + b - j) + n) * 2 ^ j = 2 ^ (d + k + b) + n * 2 ^ j := by
          rw [Nat.add_mul, ← Nat.pow_add, Nat.sub_add_cancel hj]
        refine ⟨j, 2 ^ (d + k + b - j) + n, h1, (site_hi (d := d + k) hA hj).2 h2, fun i i1 i2 => ?_, ?_⟩
        · rw [e]
          by_cases hi : i ≤ d + k + b
          · exact (anyC_hi hnb hi).trans (h3 i i1 hi)
          · obtain rfl := hroot i i2 hi
            exact (anyC_root (d := d + k) ts _).trans (noneBare_iff.1 hnb)
        · rw [e]
          exact (met_hi hnb hj).2 ⟨hA, h4⟩
    · rintro ⟨j, n, h1, h2, h3, h4⟩
      obtain ⟨-, hj, hnk⟩ := h2.bounds
      by_cases hjr : j ≤ d + k + b
      · have hnb : NoneBare (d := d + k) ts := noneBare_iff.2 ((anyC_root (d := d + k) ts _).symm.trans (h3 (d + k + 1 + b) (by omega) (by omega)))
        by_cases hlt : n < 2 ^ (d + k + b - j)
        · have hx : n * 2 ^ j < 2 ^ (d + k + b) := inBlock_lt hjr hlt (Nat.mul_div_cancel _ (Nat.two_pow_pos j))
          obtain ⟨hA, h4⟩ := (met_lo hnb hjr hx).1 h4
          refine .inr (.inl ⟨hA, (hitsP_iff k d p as _ hl).2 ⟨j, n, h1, (site_lo (d := d + k) hA hjr hlt).1 h2, fun i i1 i2 => ?_, h4⟩⟩)
          exact (anyC_lo hnb i2 hx).symm.trans (h3 i i1 (by omega))
        · obtain ⟨n, rfl⟩ : ∃ m, n = 2 ^ (d + k + b - j) + m := ⟨n - 2 ^ (d + k + b - j), by omega⟩
          have e : (2 ^ (d + k + b - j) + n) * 2 ^ j = 2 ^ (d + k + b) + n * 2 ^ j := by
            rw [Nat.add_mul, ← Nat.pow_add, Nat.sub_add_cancel hjr]
          rw [e] at h3 h4
          obtain ⟨hA, h4⟩ := (met_hi hnb hjr).1 h4
          refine .inr (.inr ⟨hA, (hitsP_iff k d _ as _ hr).2 ⟨j, n, h1, (site_hi (d := d + k) hA hjr).1 h2, fun i i1 i2 => ?_, h4⟩⟩)
          exact (anyC_hi hnb i2).symm.trans (h3 i i1 (by omega))
      · obtain rfl := hroot j hj hjr
        obtain rfl : n = 0 := by
          rw [show d + (k + 1) + b - (d + k + 1 + b) = 0 by omega] at hnk
          omega
        exact .inl (hitNow_site.2 h2)

/-- Nodes met by a task. -/
theorem hits_site {d p : Nat} {as : List α} {ts : List (Tr d)} (hn : ∀ t ∈ ts, NZ b d t) :
    Hits bad b d p as (ts.map some) ↔ ∃ j n, Site bad b d p as ts j n ∧ Met b d ts j (n * 2 ^ j) := by
  rw [hits_iff bad b d p as (ts.map some) (fun t ht => hn t (by simpa using ht)), Met1]
  have hz : ∀ a t, (a, some t) ∈ as.zip (ts.map some) ↔ (a, t) ∈ as.zip ts := by
    intro a t
    rw [List.zip_map_right, List.mem_map]
    constructor
    · rintro ⟨⟨a', t'⟩, h, e⟩
      simp only [Prod.map_apply, id_eq, Prod.mk.injEq, Option.some.injEq] at e
      obtain ⟨rfl, rfl⟩ := e
      exact h
    · intro h
      exact ⟨(a, t), h, rfl⟩
  constructor
  · rintro ⟨a, t, j, n, hm, hB, hbad, hmet⟩
    obtain ⟨-, hj, hk⟩ := hB.bounds
    refine ⟨j, n, ⟨a, t, (hz a t).1 hm, hB, hbad⟩, fun t' ht' => ?_⟩
    obtain ⟨y, hy, h⟩ := hmet t' (by simpa using ht')
    exact ⟨y, inBlock_lt hj hk hy, by rw [hy, Nat.mul_div_cancel _ (Nat.two_pow_pos j)], h⟩
  · rintro ⟨j, n, ⟨a, t, hm, hB, hbad⟩, hmet⟩
    refine ⟨a, t, j, n, (hz a t).2 hm, hB, hbad, fun t' ht' => ?_⟩
    obtain ⟨y, _, hy, h⟩ := hmet t' (by simpa using ht')
    rw [Nat.mul_div_cancel _ (Nat.two_pow_pos j)] at hy
    exact ⟨y, hy, h⟩

theorem Met.mono {D : Nat} {ts : List (Tr D)} {j j' x : Nat} (h : Met b D ts j x) (hj : j ≤ j') : Met b D ts j' x := by
  intro t ht
  obtain ⟨y, h1, h2, h3⟩ := h t ht
  refine ⟨y, h1, ?_, h3⟩
  rw [show 2 ^ j' = 2 ^ j * 2 ^ (j' - j) by rw [← Nat.pow_add]; congr 1; omega, ← Nat.div_div_eq_div_mul, ← Nat.div_div_eq_div_mul, h2]

/-- Nodes met in a block after `k` levels. -/
theorem dn_hits {k d : Nat} {as : List α} {ts : List (Tr (d + k))} (hn : ∀ t ∈ ts, NZ b (d + k) t) (hne : ts ≠ []) {p q : Nat} (hq : q < 2 ^ k)
    {u : List (Tr d)} (h : dn k ts q = some u) :
    Hits bad b d (p + q * 2 ^ (d + b)) as (u.map some) ↔ ∃ j n, j ≤ d + b ∧ n / 2 ^ (d + b - j) = q ∧ Site bad b (d + k) p as ts j n ∧
      Met b (d + k) ts j (n * 2 ^ j) := by
  obtain ⟨h1, h2, h3⟩ := dn_some k d ts q hq u h hn hne
  rw [hits_site h1]
  have key : ∀ j ≤ d + b, ∀ i < 2 ^ (d + b - j), (q * 2 ^ (d + b - j) + i) * 2 ^ j = q * 2 ^ (d + b) + i * 2 ^ j ∧ i * 2 ^ j < 2 ^ (d + b) := by
    intro j hj i hi
    refine ⟨?_, inBlock_lt hj hi (Nat.mul_div_cancel _ (Nat.two_pow_pos j))⟩
    rw [Nat.add_mul, Nat.mul_assoc, ← Nat.pow_add, Nat.sub_add_cancel hj]
  constructor
  · rintro ⟨j, i, hs, hm⟩
    obtain ⟨-, hj, hi⟩ := hs.bounds
    obtain ⟨e, hlt⟩ := key j hj i hi
    refine ⟨j, q * 2 ^ (d + b - j) + i, hj, block_div hi, (dn_site k d p as ts q hq u h j hj i hi).2 hs, ?_⟩
    rw [e]
    exact (((h3 _ hlt).2 j hj).2.2).1 hm
  · rintro ⟨j, n, hj, rfl, hs, hm⟩
    have hi := Nat.mod_lt n (Nat.two_pow_pos (d + b - j))
    have hn' : n / 2 ^ (d + b - j) * 2 ^ (d + b - j) + n % 2 ^ (d + b - j) = n := Nat.div_add_mod' n _
    obtain ⟨e, hlt⟩ := key j hj _ hi
    refine ⟨j, n % 2 ^ (d + b - j), (dn_site k d p as ts _ hq u h j hj _ hi).1 (by rw [hn']; exact hs), ?_⟩
    rw [hn'] at e
    rw [e] at hm
    exact (((h3 _ hlt).2 j hj).2.2).2 hm

end

/-! ## From the sets -/

theorem visited_iff {b d k : Nat} {cs : List (Bool × List Nat)} {ts : List (Tr (d + 1 + k))} (A : Agree b (d + 1 + k) cs ts) {j n : Nat}
    (hj : b < j) (hj' : j ≤ d + 1 + k + b) (hn : n < 2 ^ (d + 1 + k + b - j)) :
    visited cs (d + 1 + b) k j n = true ↔
      (∀ i, j < i → (if isSplit cs (d + 1 + b) k (n * 2 ^ j / 2 ^ (d + 1 + b)) then d + b else d + 1 + b) < i → i ≤ d + 1 + k + b →
        anyC b (d + 1 + k) ts i (n * 2 ^ j) = false) ∧ Met b (d + 1 + k) ts j (n * 2 ^ j) := by
  have hx : n * 2 ^ j < 2 ^ (d + 1 + k + b) := inBlock_lt hj' hn (Nat.mul_div_cancel _ (Nat.two_pow_pos j))
  rw [visited, Bool.and_eq_true, A.met j _ hj' hx, Nat.mul_div_cancel _ (Nat.two_pow_pos j), show d + 1 + b + k = d + 1 + k + b by omega,
    exposed_iff A (by omega) hx, show d + 1 + b - 1 = d + b by omega]
  refine and_congr_left fun _ => ⟨fun h i h1 h2 h3 => h i (by omega) h3, fun h i h1 h2 => h i (by omega) (by omega) h2⟩

/-- The nodes met by a parallel call. -/
theorem hitsPar_iff {α : Type} {bad : α → Nat → Nat → Prop} {b d k : Nat} {cs : List (Bool × List Nat)} {ts : List (Tr (d + 1 + k))}
    (A : Agree b (d + 1 + k) cs ts) (as : List α) :
    HitsPar bad b as ts ↔ ∃ j n, Site bad b (d + 1 + k) 0 as ts j n ∧ visited cs (d + 1 + b) k j n = true := by
  have hdiv : ∀ j n, j ≤ d + 1 + b → n * 2 ^ j / 2 ^ (d + 1 + b) = n / 2 ^ (d + 1 + b - j) := by
    intro j n hj
    rw [show 2 ^ (d + 1 + b) = 2 ^ j * 2 ^ (d + 1 + b - j) by rw [← Nat.pow_add]; congr 1; omega, ← Nat.div_div_eq_div_mul,
      Nat.mul_div_cancel _ (Nat.two_pow_pos j)]
  have hdiv' : ∀ j n, j ≤ d + b → n * 2 ^ j / 2 ^ (d + b) = n / 2 ^ (d + b - j) := by
    intro j n hj
    rw [show 2 ^ (d + b) = 2 ^ j * 2 ^ (d + b - j) by rw [← Nat.pow_add]; congr 1; omega, ← Nat.div_div_eq_div_mul,
      Nat.mul_div_cancel _ (Nat.two_pow_pos j)]
  have hsplit : ∀ q, isSplit cs (d + 1 + b) k q = true ↔ q ∈ (taskBlocks cs (d + 1 + b) k).take (splitBlocks cs (d + 1 + b) k) := by
    intro q
    rw [isSplit, decide_eq_true_iff]
  have hdn : ∀ q ∈ taskBlocks cs (d + 1 + b) k, dn k ts q = some (tk k ts q) := by
    intro q hq
    obtain ⟨h1, h2⟩ := mem_taskBlocks hq
    rw [← dn_reached A h1] at h2
    obtain ⟨u, hu⟩ := Option.isSome_iff_exists.1 h2
    rw [tk, hu]
    rfl
  have hidx : ∀ j n, Site bad b (d + 1 + k) 0 as ts j n → j ≤ d + 1 + b → n / 2 ^ (d + 1 + b - j) < 2 ^ k := by
    intro j n h hj
    rw [Nat.div_lt_iff_lt_mul (Nat.two_pow_pos _), ← Nat.pow_add, show k + (d + 1 + b - j) = d + 1 + k + b - j by omega]
    exact h.bounds.2.2
  -- the halves of a task
  have hhalf : ∀ q ∈ taskBlocks cs (d + 1 + b) k,
      ((∃ v ∈ walk b 1 (q * 2 ^ (d + 1 + b)) (tk k ts q), Hits bad b d v.1 as (v.2.map some)) ↔
      ∃ j n, j ≤ d + b ∧ n / 2 ^ (d + 1 + b - j) = q ∧ Site bad b (d + 1 + k) 0 as ts j n ∧
        reached cs (d + 1 + k + b) (d + b) (n / 2 ^ (d + b - j)) = true ∧ Met b (d + 1 + k) ts j (n * 2 ^ j)) := by
    intro q hq
    obtain ⟨hq1, hq2⟩ := mem_taskBlocks hq
    obtain ⟨g1, g2, g3⟩ := tk_spec A hq1 hq2
    have hhits : ∀ r ≤ 1, ∀ u, dn 1 (tk k ts q) r = some u → (Hits bad b d (q * 2 ^ (d + 1 + b) + r * 2 ^ (d + b)) as (u.map some) ↔
        ∃ j n, j ≤ d + b ∧ n / 2 ^ (d + 1 + b - j) = q ∧ n / 2 ^ (d + b - j) = 2 * q + r ∧ Site bad b (d + 1 + k) 0 as ts j n ∧
          Met b (d + 1 + k) ts j (n * 2 ^ j)) := by
      intro r hr u hu
      rw [dn_hits (k := 1) (d := d) g1 g2 (by omega) hu]
      constructor
      · rintro ⟨j, i, hj, hi, hs, hm⟩
        obtain ⟨-, -, hi'⟩ := hs.bounds
        have e1 : (q * 2 ^ (d + 1 + b - j) + i) * 2 ^ j = q * 2 ^ (d + 1 + b) + i * 2 ^ j := by
          rw [Nat.add_mul, Nat.mul_assoc, ← Nat.pow_add, show d + 1 + b - j + j = d + 1 + b by omega]
        have hlt : i * 2 ^ j < 2 ^ (d + 1 + b) := inBlock_lt (by omega) hi' (Nat.mul_div_cancel _ (Nat.two_pow_pos j))
        refine ⟨j, q * 2 ^ (d + 1 + b - j) + i, hj, block_div hi', ?_, ?_, ?_⟩
        · rw [show d + 1 + b - j = d + b - j + 1 by omega, Nat.pow_succ, show q * (2 ^ (d + b - j) * 2) = 2 * q * 2 ^ (d + b - j) by ring,
            Nat.add_comm, Nat.add_mul_div_right _ _ (Nat.two_pow_pos _), hi, Nat.add_comm]
        · refine (dn_site k (d + 1) 0 as ts q hq1 _ (hdn q hq) j (by omega) i hi').2 ?_
          rw [Nat.zero_add]
          exact hs
        · rw [e1]
          exact ((g3 _ hlt).2 j (by omega)).2.2.1 hm
      · rintro ⟨j, n, hj, rfl, hi, hs, hm⟩
        have hi' := Nat.mod_lt n (Nat.two_pow_pos (d + 1 + b - j))
        have e0 : n / 2 ^ (d + 1 + b - j) * 2 ^ (d + 1 + b - j) + n % 2 ^ (d + 1 + b - j) = n := Nat.div_add_mod' n _
        have e1 : n * 2 ^ j = n / 2 ^ (d + 1 + b - j) * 2 ^ (d + 1 + b) + n % 2 ^ (d + 1 + b - j) * 2 ^ j := by
          rw [show d + 1 + b = d + 1 + b - j + j by omega, Nat.pow_add, ← Nat.mul_assoc, ← Nat.add_mul, ← show d + 1 + b = d + 1 + b - j + j by omega,
            e0]
        have hlt : n % 2 ^ (d + 1 + b - j) * 2 ^ j < 2 ^ (d + 1 + b) :=
          inBlock_lt (by omega) hi' (Nat.mul_div_cancel _ (Nat.two_pow_pos j))
        refine ⟨j, n % 2 ^ (d + 1 + b - j), hj, ?_, ?_, ?_⟩
        · have e2 : n / 2 ^ (d + b - j) = 2 * (n / 2 ^ (d + 1 + b - j)) + n % 2 ^ (d + 1 + b - j) / 2 ^ (d + b - j) := by
            conv_lhs => rw [← e0]
            rw [show d + 1 + b - j = d + b - j + 1 by omega, Nat.pow_succ,
              show n / (2 ^ (d + b - j) * 2) * (2 ^ (d + b - j) * 2) = 2 * (n / (2 ^ (d + b - j) * 2)) * 2 ^ (d + b - j) by ring,
              Nat.add_comm, Nat.add_mul_div_right _ _ (Nat.two_pow_pos _), Nat.add_comm]
          omega
        · have := (dn_site (bad := bad) k (d + 1) 0 as ts _ hq1 _ (hdn _ hq) j (by omega) _ hi').1 (by rw [e0]; exact hs)
          rw [Nat.zero_add] at this
          exact this
        · rw [e1] at hm
          exact ((g3 _ hlt).2 j (by omega)).2.2.2 hm
    rw [walk_half A hq1 hq2]
    have htk : ∀ r ≤ 1, reached cs (d + 1 + k + b) (d + b) (2 * q + r) = true → dn 1 (tk k ts q) r = some (tk 1 (tk k ts q) r) := by
      intro r hr h
      rw [← tk_half A hq1 hq2 hr] at h
      obtain ⟨u, hu⟩ := Option.isSome_iff_exists.1 h
      have : tk 1 (tk k ts q) r = u := by rw [tk, hu]; rfl
      rw [this, hu]
    constructor
    · rintro ⟨v, hv, h⟩
      rcases List.mem_append.1 hv with hv | hv
      · by_cases hr : reached cs (d + 1 + k + b) (d + b) (2 * q) = true
        · rw [if_pos hr, List.mem_singleton] at hv
          subst hv
          obtain ⟨j, n, h1, h2, h3, h4, h5⟩ := (hhits 0 (by omega) _ (htk 0 (by omega) hr)).1 (by rwa [Nat.zero_mul, Nat.add_zero])
          exact ⟨j, n, h1, h2, h4, by rw [h3]; exact hr, h5⟩
        · rw [if_neg hr] at hv
          simp at hv
      · by_cases hr : reached cs (d + 1 + k + b) (d + b) (2 * q + 1) = true
        · rw [if_pos hr, List.mem_singleton] at hv
          subst hv
          obtain ⟨j, n, h1, h2, h3, h4, h5⟩ := (hhits 1 (by omega) _ (htk 1 (by omega) hr)).1 (by rwa [Nat.one_mul])
          exact ⟨j, n, h1, h2, h4, by rw [h3]; exact hr, h5⟩
        · rw [if_neg hr] at hv
          simp at hv
    · rintro ⟨j, n, h1, h2, h4, hr, h5⟩
      have e : n / 2 ^ (d + b - j) / 2 = q := by
        rw [Nat.div_div_eq_div_mul, ← Nat.pow_succ, show (d + b - j).succ = d + 1 + b - j by omega, h2]
      obtain h0 | h0 : n / 2 ^ (d + b - j) = 2 * q + 0 ∨ n / 2 ^ (d + b - j) = 2 * q + 1 := by omega
      · rw [h0] at hr
        refine ⟨(q * 2 ^ (d + 1 + b), tk 1 (tk k ts q) 0), List.mem_append_left _ ?_, ?_⟩
        · rw [if_pos (by simpa using hr)]
          exact List.mem_singleton.2 rfl
        · have := (hhits 0 (by omega) _ (htk 0 (by omega) hr)).2 ⟨j, n, h1, h2, h0, h4, h5⟩
          rwa [Nat.zero_mul, Nat.add_zero] at this
      · rw [h0] at hr
        refine ⟨(q * 2 ^ (d + 1 + b) + 2 ^ (d + b), tk 1 (tk k ts q) 1), List.mem_append_right _ ?_, ?_⟩
        · rw [if_pos hr]
          exact List.mem_singleton.2 rfl
        · have := (hhits 1 (by omega) _ (htk 1 (by omega) hr)).2 ⟨j, n, h1, h2, h0, h4, h5⟩
          rwa [Nat.one_mul] at this
  rw [HitsPar, hitsP_iff k (d + 1) 0 as ts A.nz, splitCount_eq A, walk_blocks A, ← List.map_take, ← List.map_drop]
  constructor
  · rintro (⟨j, n, h1, h2, h3, h4⟩ | ⟨u, hu, h⟩ | ⟨u, hu, h⟩ | ⟨u, hu, h⟩)
    · obtain ⟨b1, b2, b3⟩ := h2.bounds
      exact ⟨j, n, h2, (visited_iff A b1 b2 b3).2 ⟨fun i i1 _ i3 => h3 i i1 i3, h4⟩⟩
    · obtain ⟨q, hq, rfl⟩ := List.mem_map.1 hu
      have hqt := List.mem_of_mem_take hq
      obtain ⟨hq1, hq2⟩ := mem_taskBlocks hqt
      have hs := hitNow_site.1 h
      have := (dn_site (bad := bad) (b := b) k (d + 1) 0 as ts q hq1 _ (hdn q hqt) (d + 1 + b) (by omega) 0 (Nat.two_pow_pos _)).2
        (by rw [Nat.zero_add]; exact hs)
      rw [Nat.sub_self, Nat.pow_zero, Nat.mul_one, Nat.add_zero q] at this
      obtain ⟨b1, b2, b3⟩ := this.bounds
      refine ⟨d + 1 + b, q, this, (visited_iff A b1 b2 b3).2 ?_⟩
      have hx : q * 2 ^ (d + 1 + b) < 2 ^ (d + 1 + k + b) := block_lt hq1 (Nat.two_pow_pos _)
      have := (reached_iff A (j := d + 1 + b) (x := q * 2 ^ (d + 1 + b)) (by omega) (by omega) hx).1
        (by rw [Nat.mul_div_cancel _ (Nat.two_pow_pos _)]; exact hq2)
      exact ⟨fun i i1 _ i3 => this.1 i i1 i3, this.2⟩
    · obtain ⟨q, hq, rfl⟩ := List.mem_map.1 hu
      have hqt := List.mem_of_mem_take hq
      obtain ⟨j, n, h1, h2, h3, h4, h5⟩ := (hhalf q hqt).1 h
      obtain ⟨b1, b2, b3⟩ := h3.bounds
      refine ⟨j, n, h3, (visited_iff A b1 b2 b3).2 ⟨fun i i1 i2 i3 => ?_, h5⟩⟩
      rw [hdiv j n (by omega), h2, if_pos ((hsplit q).2 hq)] at i2
      have hx : n * 2 ^ j < 2 ^ (d + 1 + k + b) := inBlock_lt b2 b3 (Nat.mul_div_cancel _ (Nat.two_pow_pos j))
      exact ((reached_iff A (j := d + b) (x := n * 2 ^ j) (by omega) (by omega) hx).1 (by rw [hdiv' j n h1]; exact h4)).1 i i2 i3
    · obtain ⟨q, hq, rfl⟩ := List.mem_map.1 hu
      have hqt := List.mem_of_mem_drop hq
      obtain ⟨hq1, hq2⟩ := mem_taskBlocks hqt
      have h' : Hits bad b (d + 1) (0 + q * 2 ^ (d + 1 + b)) as ((tk k ts q).map some) := by rw [Nat.zero_add]; exact h
      obtain ⟨j, n, h1, h2, h3, h5⟩ := (dn_hits A.nz A.ne hq1 (hdn q hqt)).1 h'
      obtain ⟨b1, b2, b3⟩ := h3.bounds
      refine ⟨j, n, h3, (visited_iff A b1 b2 b3).2 ⟨fun i i1 i2 i3 => ?_, h5⟩⟩
      have hns : ¬ isSplit cs (d + 1 + b) k q = true := by
        rw [hsplit]
        have hnd : ((taskBlocks cs (d + 1 + b) k).take (splitBlocks cs (d + 1 + b) k) ++
            (taskBlocks cs (d + 1 + b) k).drop (splitBlocks cs (d + 1 + b) k)).Nodup := by
          rw [List.take_append_drop]
          exact (List.pairwise_lt_range.filter _).imp fun h => Nat.ne_of_lt h
        rw [List.nodup_append] at hnd
        exact fun h => hnd.2.2 q h q hq rfl
      rw [hdiv j n h1, h2, if_neg hns] at i2
      have hx : n * 2 ^ j < 2 ^ (d + 1 + k + b) := inBlock_lt b2 b3 (Nat.mul_div_cancel _ (Nat.two_pow_pos j))
      exact ((reached_iff A (j := d + 1 + b) (x := n * 2 ^ j) (by omega) (by omega) hx).1 (by rw [hdiv j n h1, h2]; exact hq2)).1 i i2 i3
  · rintro ⟨j, n, hs, hv⟩
    obtain ⟨b1, b2, b3⟩ := hs.bounds
    obtain ⟨h1, h2⟩ := (visited_iff A b1 b2 b3).1 hv
    have hx : n * 2 ^ j < 2 ^ (d + 1 + k + b) := inBlock_lt b2 b3 (Nat.mul_div_cancel _ (Nat.two_pow_pos j))
    by_cases hj : d + 1 + b < j
    · refine .inl ⟨j, n, hj, hs, fun i i1 i3 => h1 i i1 ?_ i3, h2⟩
      split <;> omega
    have hq1 := hidx j n hs (by omega)
    rw [hdiv j n (by omega)] at h1
    generalize hq : n / 2 ^ (d + 1 + b - j) = q at h1 hq1
    by_cases hsp : isSplit cs (d + 1 + b) k q = true
    · rw [if_pos hsp] at h1
      rw [hsplit] at hsp
      have hqt := List.mem_of_mem_take hsp
      by_cases hj1 : j = d + 1 + b
      · subst hj1
        rw [Nat.sub_self, Nat.pow_zero, Nat.div_one] at hq
        subst hq
        refine .inr (.inl ⟨_, List.mem_map.2 ⟨n, hsp, rfl⟩, hitNow_site.2 ?_⟩)
        have := (dn_site (bad := bad) (b := b) k (d + 1) 0 as ts n hq1 _ (hdn n hqt) (d + 1 + b) (by omega) 0 (Nat.two_pow_pos _)).1
          (by rw [Nat.sub_self, Nat.pow_zero, Nat.mul_one, Nat.add_zero n]; exact hs)
        rw [Nat.zero_add] at this
        exact this
      · refine .inr (.inr (.inl ⟨_, List.mem_map.2 ⟨q, hsp, rfl⟩, (hhalf q hqt).2 ⟨j, n, by omega, hq, hs, ?_, h2⟩⟩))
        rw [← hdiv' j n (by omega)]
        exact (reached_iff A (j := d + b) (by omega) (by omega) hx).2 ⟨fun i i1 i3 => h1 i (by omega) i1 i3, h2.mono (by omega)⟩
    · rw [if_neg hsp] at h1
      have hre : reached cs (d + 1 + k + b) (d + 1 + b) q = true := by
        rw [← hq, ← hdiv j n (by omega)]
        exact (reached_iff A (j := d + 1 + b) (by omega) (by omega) hx).2 ⟨fun i i1 i3 => h1 i (by omega) i1 i3, h2.mono (by omega)⟩
      have hqt : q ∈ taskBlocks cs (d + 1 + b) k := by
        rw [taskBlocks, List.mem_filter, List.mem_range, show d + 1 + b + k = d + 1 + k + b by omega]
        exact ⟨hq1, hre⟩
      have hqd : q ∈ (taskBlocks cs (d + 1 + b) k).drop (splitBlocks cs (d + 1 + b) k) := by
        rw [hsplit] at hsp
        rw [← List.take_append_drop (splitBlocks cs (d + 1 + b) k) (taskBlocks cs (d + 1 + b) k), List.mem_append] at hqt
        exact hqt.resolve_left hsp
      refine .inr (.inr (.inr ⟨_, List.mem_map.2 ⟨q, hqd, rfl⟩, ?_⟩))
      have := (dn_hits (bad := bad) (as := as) (p := 0) A.nz A.ne hq1 (hdn q hqt)).2 ⟨j, n, by omega, hq, hs, h2⟩
      rw [Nat.zero_add] at this
      exact this

end CBT
