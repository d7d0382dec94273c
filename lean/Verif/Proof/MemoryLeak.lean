import Verif.SpecMemory
import Verif.Proof.MemoryBody
import Verif.Proof.ParInter
import Verif.Proof.StrictSets

/-!
# How many arrays are left
-/

namespace CBT

open Spec

/-- The lists of trees met after `k` levels. -/
def sub : (k : Nat) → {d : Nat} → List (Tr (d + k)) → List (List (Tr d))
  | 0, _, ts => [ts]
  | k + 1, d, ts => (if allL (d := d + k) ts then sub k (lefts (d := d + k) ts) else []) ++
      (if allR (d := d + k) ts then sub k (rights (d := d + k) ts) else [])

section
variable {α : Type} (nav : α → Nav) (leaf : α → Nat → Nat → Nat → Prop)

/-- The task walks the trees. -/
def TaskAt (runs : Bool) (as : List α) (b d ℓ : Nat) (T : Task) (u : List (Tr d)) : Prop :=
  Reps nav leaf d ℓ as u T.roots ∧ ActOK runs as.length T.active ∧ ∀ t ∈ u, NE b d t

theorem partialAND_sub {runs : Bool} {as : List α} {c : Cfg} {b : Nat} (htop : c.top < 64) (hne : as ≠ []) :
    ∀ (k d ℓ : Nat) (ts : List (Tr (d + k))) (os : List (Option Nat)) (act : List Bool) (part : Nat) (s : PSt),
    Reps nav leaf (d + k) ℓ as ts os → ActOK runs as.length act → c.top = ℓ + (d + k) + b → (∀ t ∈ ts, NE b (d + k) t) →
    ∃ new, partialAND (as.map nav) c runs k ℓ os act part s = .ok ⟨s.r, s.tasks ++ new⟩ ∧
      List.Forall₂ (TaskAt nav leaf runs as b d (ℓ + k)) new (sub k ts) := by
  intro k
  induction k with
  | zero =>
    intro d ℓ ts os act part s hr ha ht hn
    refine ⟨[⟨part, os.take (as.map nav).length, if runs then act.take (as.map nav).length else []⟩], ?_, .cons ⟨?_, ?_, hn⟩ .nil⟩
    · rw [partialAND, if_neg]
      rintro (h | ⟨h1, h2⟩)
      · rw [List.length_map] at h
        have := hr.length_le
        omega
      · rw [List.length_map] at h2
        have := (ha h1).1
        omega
    · simpa using hr.take
    · intro h
      have := ha h
      simp only [h, if_true, List.length_map]
      exact ⟨by simpa using this.1, fun a ha => this.2 a (List.mem_of_mem_take ha)⟩
  | succ k ih =>
    intro d ℓ ts os act part s hr ha ht hn
    have hs : shl1 (c.top - ℓ - 1) = .ok (2 ^ (d + k + b)) := by
      rw [ht, show ℓ + (d + (k + 1)) + b - ℓ - 1 = d + k + b by omega]; exact shl1_ok (by omega)
    obtain ⟨tmp, h3, hat⟩ := partialNodes_reps (d := d + k) nav leaf as ts os act hr ha true true false false
    rw [Bool.true_and, Bool.true_and, Bool.false_or, Bool.false_or, node2_tt, node2_ff] at h3
    rw [partialAND, h3]
    simp only [R_bind_ok, hs]
    have hfull : ¬(runs = true ∧ anyL (d := d + k) ts = false ∧ anyR (d := d + k) ts = false) := by
      rintro ⟨_, h1, h2⟩
      cases ts with
      | nil => cases as with
        | nil => exact (hne rfl).elim
        | cons _ _ => simp [Reps] at hr
      | cons t ts =>
        have hb : Tr.bare (d := d + k) t = false := (hn t List.mem_cons_self).1
        simp only [anyL, anyR, List.any_eq_false, Bool.not_eq_true] at h1 h2
        rw [bare_iff.2 ⟨h1 t (by simp), h2 t (by simp)⟩] at hb
        cases hb
    have hn00 : ¬(runs = true ∧ node2 (runs && anyL (d := d + k) ts) (runs && anyR (d := d + k) ts) = 0) := by
      rintro ⟨h1, h2⟩
      rw [h1, Bool.true_and, Bool.true_and, node2_eq_zero] at h2
      exact hfull ⟨h1, h2⟩
    simp only [hn00, if_false]
    have hnl : ∀ t ∈ lefts (d := d + k) ts, NE b (d + k) t := ne_lefts hn
    have hnr : ∀ t ∈ rights (d := d + k) ts, NE b (d + k) t := ne_rights hn
    rw [sub, show ℓ + (k + 1) = ℓ + 1 + k by omega]
    cases hL : allL (d := d + k) ts with
    | false =>
      cases hR : allR (d := d + k) ts with
      | false =>
        simp only [node2_ff, Nat.reduceEqDiff, if_false, ite_self]
        exact ⟨[], by simp, by simp⟩
      | true =>
        obtain ⟨cs, e1, h1⟩ := children_right (d := d + k) nav leaf as ts os hr hR
        simp only [node2_ft, Nat.reduceEqDiff, one_ne_zero, and_false, if_false, if_true, e1, R_bind_ok]
        obtain ⟨new, e2, h4⟩ := ih d (ℓ + 1) _ cs tmp _ s h1 hat (by omega) hnr
        exact ⟨new, e2, by simpa using h4⟩
    | true =>
      obtain ⟨cs, e1, h1, h2⟩ := children_left (d := d + k) nav leaf as ts os hr hL
      obtain ⟨new, e2, h4⟩ := ih d (ℓ + 1) _ cs tmp part s h1 hat (by omega) hnl
      cases hR : allR (d := d + k) ts with
      | false =>
        simp only [node2_tf, Nat.reduceEqDiff, OfNat.ofNat_ne_zero, and_false, if_false, if_true, e1, R_bind_ok]
        exact ⟨new, e2, by simpa using h4⟩
      | true =>
        simp only [node2_tt, Nat.reduceEqDiff, OfNat.ofNat_ne_zero, and_false, if_false, if_true, e1, R_bind_ok, e2]
        obtain ⟨new', e2', h4'⟩ := ih d (ℓ + 1) _ _ tmp (part ||| 2 ^ (d + k + b)) ⟨s.r, s.tasks ++ new⟩ (h2 hR) hat (by omega) hnr
        refine ⟨new ++ new', by rw [e2']; simp, ?_⟩
        simpa using List.rel_append h4 h4'

theorem sub_length_le : (k : Nat) → {d : Nat} → (ts : List (Tr (d + k))) → (sub k ts).length ≤ 2 ^ k
  | 0, _, _ => by simp [sub]
  | k + 1, d, ts => by
    rw [sub, List.length_append, Nat.pow_succ]
    have h1 := sub_length_le k (lefts (d := d + k) ts)
    have h2 := sub_length_le k (rights (d := d + k) ts)
    split <;> split <;> (try simp only [List.length_nil]) <;> omega

theorem fillThreads_sub {runs : Bool} {as : List α} {c : Cfg} {b d cut n total : Nat} (htop : c.top < 64)
    (hne : as ≠ []) (hct : c.top = cut + (d + 1) + b) (hth : n < 2 ^ 16) :
    ∀ (todo : List Task) (us : List (List (Tr (d + 1)))) (i used : Nat) (s : PSt),
    List.Forall₂ (TaskAt nav leaf runs as b (d + 1) cut) todo us → used = todo.length + s.tasks.length → used ≤ n →
    total = todo.length + i →
    ∃ new rest, fillThreads (as.map nav) c runs cut n total todo i used s =
        .ok (rest, (s.tasks ++ new).length + rest.length, ⟨s.r, s.tasks ++ new⟩) ∧
      todo.length = rest.length + replaced n used (us.map fun u => (sub 1 u).length) ∧
      (s.tasks ++ new).length + rest.length = threadCount n used (us.map fun u => (sub 1 u).length) := by
  intro todo
  induction todo with
  | nil =>
    intro us i used s h hu hle ht
    cases h
    refine ⟨[], [], ?_, rfl, by simp [threadCount, hu]⟩
    rw [fillThreads, hu]
    simp
  | cons T todo ih =>
    intro us i used s h hu hle ht
    cases h with
    | @cons _ u _ us hto h =>
      rw [fillThreads]
      have hmod : (n + 2 ^ 32 - used) % 2 ^ 32 = n - used := by omega
      rw [hmod]
      simp only [List.length_cons] at hu ht
      rw [List.map_cons, replaced, threadCount]
      by_cases hgt : used + 1 < n
      · rw [if_pos (by omega), if_pos hgt, if_pos hgt]
        obtain ⟨h1, h2, h3⟩ := hto
        obtain ⟨new, e, g1⟩ := partialAND_sub nav leaf (runs := runs) (as := as) (c := c) (b := b) htop hne 1 d cut
          u T.roots T.active T.part s h1 h2 (by omega) h3
        rw [e, R_bind_ok]
        have hl : new.length = (sub 1 u).length := g1.length_eq
        have hl2 := sub_length_le 1 u
        have hu' : (total + (s.tasks ++ new).length - (i + 1)) % 2 ^ 16 = todo.length + (s.tasks ++ new).length := by
          rw [List.length_append]; omega
        dsimp only
        rw [hu']
        obtain ⟨new', rest, e', k1, k2⟩ := ih us (i + 1) _ ⟨s.r, s.tasks ++ new⟩ h rfl
          (by rw [List.length_append]; omega) (by omega)
        dsimp only at k1 k2
        have hlast : used + (sub 1 u).length - 1 = todo.length + (s.tasks ++ new).length := by
          rw [List.length_append]; omega
        refine ⟨new ++ new', rest, by rw [e']; simp [Nat.add_assoc], ?_, ?_⟩
        · rw [List.length_cons, k1, hlast]
          omega
        · rw [hlast, ← k2, List.append_assoc]
      · rw [if_neg (by omega), if_neg hgt, if_neg hgt]
        refine ⟨[], T :: todo, ?_, by simp, by simp; omega⟩
        rw [hu]
        simp [Nat.add_comm]

/-- What a parallel call on plain tries leaves allocated. -/
theorem memBody_live {runs : Bool} {as : List α} {c : Cfg} {b d height : Nat} {env : Env} {ts : List (Tr (d + 1 + Nat.log2 env.hw))}
    (hne : as ≠ [])
    (hts : List.Forall₂ (fun a t => Rep (nav a) (leaf a) (d + 1 + Nat.log2 env.hw) 0 t 0) as ts) (hlen : as.length ≤ 16)
    (hnts : ∀ t ∈ ts, NE b (d + 1 + Nat.log2 env.hw) t)
    (htop : c.top = d + 1 + Nat.log2 env.hw + b) (h64 : c.top < 64) (hw : env.hw ≠ 0) (hw' : env.hw < 2 ^ 16)
    (hh : Nat.log2 env.hw ≤ (height + 2 ^ 64 - 2) % 2 ^ 64) {R : List Nat} {H : Heap}
    (h : memBody (as.map nav) c height runs true env = .ok (R, H)) :
    H.live = perTask runs * replaced (2 ^ Nat.log2 env.hw) (sub (Nat.log2 env.hw) ts).length
      ((sub (Nat.log2 env.hw) ts).map fun u => (sub 1 u).length) := by
  have hthr : 2 ^ Nat.log2 env.hw ≤ env.hw := Nat.log2_self_le hw
  rw [memBody_par _ _ _ _ _ hw hh] at h
  generalize Nat.log2 env.hw = cut at *
  obtain ⟨tasks, e1, h1⟩ := partialAND_sub nav leaf (runs := runs) (as := as) (c := c) (b := b) h64 hne cut (d + 1) 0
    ts _ (List.replicate 16 true) 0 ⟨[], []⟩ (Reps.root nav leaf 16 hlen hts) (fun _ => ⟨by simpa using hlen, by simp⟩) (by omega) hnts
  rw [Nat.zero_add] at h1
  rw [e1, R_bind_ok] at h
  simp only [List.nil_append] at h
  have hle := sub_length_le cut ts
  have hl := h1.length_eq
  by_cases h0 : tasks.length = 0
  · rw [if_pos h0] at h
    cases h
    rw [← hl, h0, List.length_eq_zero_iff.1 (hl.symm.trans h0)]
    rfl
  rw [if_neg h0] at h
  have hmod : tasks.length % 2 ^ 16 = tasks.length := Nat.mod_eq_of_lt (by omega)
  rw [hmod, List.take_length] at h
  obtain ⟨new, rest, e2, k1, -⟩ := fillThreads_sub nav leaf (n := 2 ^ cut) (total := tasks.length) h64 hne (by omega) (by omega) tasks _ 0
    tasks.length ⟨[], []⟩ h1 (by simp) (by omega) (by simp)
  rw [e2, R_bind_ok] at h
  simp only [List.nil_append] at h
  rw [hl] at k1
  by_cases hz : (new ++ rest).length = 0
  · rw [if_pos hz] at h
    cases h
    rw [List.length_append] at hz
    rw [live_blocks, List.length_append]
    congr 1
    omega
  rw [if_neg hz] at h
  obtain ⟨results, _, h⟩ := bind_ok h
  obtain ⟨r, _, h⟩ := bind_ok h
  obtain ⟨H', e3, hl3⟩ := freeTasks_ok runs tasks new rest (new.length + rest.length) (tasks.length - rest.length) (by omega) (by omega)
  rw [e3, R_bind_ok] at h
  cases h
  have : perTask runs * (tasks.length + new.length) =
      perTask runs * replaced (2 ^ cut) (sub cut ts).length ((sub cut ts).map fun u => (sub 1 u).length) +
      perTask runs * (new.length + rest.length) := by
    rw [← Nat.mul_add]
    congr 1
    omega
  omega

end

/-! ## In terms of the sets -/

/-- The number of `true`. -/
def halves (M : Nat → Nat → Bool) (j q : Nat) : Nat := (if M j (2 * q) then 1 else 0) + (if M j (2 * q + 1) then 1 else 0)

theorem sub_map {b : Nat} : (k d : Nat) → (ts : List (Tr (d + 1 + k))) → (∀ t ∈ ts, NE b (d + 1 + k) t) → (M : Nat → Nat → Bool) →
    (∀ j q, j ≤ d + 1 + k + b → q < 2 ^ (d + 1 + k + b - j) → (M j q = true ↔ Blk b (d + 1 + k) ts j q)) →
    (sub k ts).map (fun u => (sub 1 u).length) = ((List.range (2 ^ k)).filter (M (d + 1 + b))).map (halves M (d + b))
  | 0, d, ts, hn, M, hM => by
    have h0 : M (d + 1 + b) 0 = true := (hM _ 0 (by omega) (by simp)).2 (blk_root hn)
    have h1 : M (d + b) 0 = allL (d := d) ts := by
      have := hM (d + b) 0 (by omega) (by simp)
      rw [Bool.eq_iff_iff, this]
      refine (blk_lo (d := d) ts (Nat.le_refl _) (by simp)).trans ?_
      exact ⟨fun h => h.1, fun h => ⟨h, blk_root (ne_lefts hn)⟩⟩
    have h2 : M (d + b) 1 = allR (d := d) ts := by
      have e : d + 1 + 0 + b - (d + b) = 1 := by omega
      have := hM (d + b) 1 (by omega) (by rw [e]; simp)
      rw [Bool.eq_iff_iff, this]
      have h := blk_hi (b := b) (d := d) (j := d + b) (k := 0) ts (Nat.le_refl _)
      rw [Nat.sub_self, Nat.pow_zero, Nat.zero_add] at h
      refine h.trans ?_
      exact ⟨fun h => h.1, fun h => ⟨h, blk_root (ne_rights hn)⟩⟩
    simp only [sub, Nat.pow_zero, List.range_one, List.filter_cons, h0, if_true, List.filter_nil, List.map_cons, List.map_nil, halves,
      Nat.mul_zero, Nat.zero_add, h1, h2]
    cases allL (d := d) ts <;> cases allR (d := d) ts <;> rfl
  | k + 1, d, ts, hn, M, hM => by
    have hl : ∀ t ∈ lefts (d := d + 1 + k) ts, NE b (d + 1 + k) t := ne_lefts hn
    have hr : ∀ t ∈ rights (d := d + 1 + k) ts, NE b (d + 1 + k) t := ne_rights hn
    have hML : ∀ j q, j ≤ d + 1 + k + b → q < 2 ^ (d + 1 + k + b - j) →
        (M j q = true ↔ allL (d := d + 1 + k) ts = true ∧ Blk b (d + 1 + k) (lefts (d := d + 1 + k) ts) j q) := by
      intro j q hj hq
      have e : 2 ^ (d + 1 + (k + 1) + b - j) = 2 * 2 ^ (d + 1 + k + b - j) := two_pow_half (by omega)
      exact (hM j q (by omega) (by omega)).trans (blk_lo (d := d + 1 + k) ts hj hq)
    have hMR : ∀ j q, j ≤ d + 1 + k + b → q < 2 ^ (d + 1 + k + b - j) →
        (M j (q + 2 ^ (d + 1 + k + b - j)) = true ↔
          allR (d := d + 1 + k) ts = true ∧ Blk b (d + 1 + k) (rights (d := d + 1 + k) ts) j q) := by
      intro j q hj hq
      have e : 2 ^ (d + 1 + (k + 1) + b - j) = 2 * 2 ^ (d + 1 + k + b - j) := two_pow_half (by omega)
      exact (hM j _ (by omega) (by omega)).trans (blk_hi (d := d + 1 + k) ts hj)
    have e1 : d + 1 + k + b - (d + 1 + b) = k := by omega
    have e2 : 2 ^ (d + 1 + k + b - (d + b)) = 2 * 2 ^ k := two_pow_half (by omega)
    rw [sub, List.map_append, Nat.pow_succ, Nat.mul_two, List.range_add, List.filter_append, List.map_append]
    congr 1
    · cases hL : allL (d := d + 1 + k) ts with
      | true =>
        rw [if_pos rfl]
        refine sub_map k d _ hl M fun j q hj hq => ?_
        rw [hML j q hj hq, hL]
        simp
      | false =>
        rw [if_neg (by simp), List.filter_eq_nil_iff.2]
        · rfl
        · intro q hq h
          rw [hML _ q (by omega) (by rw [e1]; exact List.mem_range.1 hq), hL] at h
          simp at h
    · rw [List.filter_map, List.map_map]
      cases hR : allR (d := d + 1 + k) ts with
      | true =>
        rw [if_pos rfl]
        have := sub_map k d _ hr (fun j q => M j (q + 2 ^ (d + 1 + k + b - j))) fun j q hj hq => by
          rw [hMR j q hj hq, hR]
          simp
        rw [this]
        have hf : (fun q => M (d + 1 + b) (q + 2 ^ (d + 1 + k + b - (d + 1 + b)))) = (M (d + 1 + b) ∘ fun x => 2 ^ k + x) := by
          funext q
          rw [e1, Nat.add_comm q]
          rfl
        rw [hf]
        refine List.map_congr_left fun q _ => ?_
        simp only [halves, Function.comp, e2]
        rw [show 2 * q + 2 * 2 ^ k = 2 * (2 ^ k + q) by ring, show 2 * q + 1 + 2 * 2 ^ k = 2 * (2 ^ k + q) + 1 by ring]
      | false =>
        rw [if_neg (by simp), List.filter_eq_nil_iff.2]
        · rfl
        · intro q hq h
          have := hMR (d + 1 + b) q (by omega) (by rw [e1]; exact List.mem_range.1 hq)
          rw [e1, Nat.add_comm q, hR] at this
          have h := this.1 h
          simp at h

theorem meetsAll_iff {sets : List (List Nat)} {j k : Nat} : meetsAll sets j k = true ↔ AllMeet sets j k := by
  simp [meetsAll, AllMeet]

theorem sub_sets {b k d : Nat} {sets : List (List Nat)} {ts : List (Tr (d + 1 + k))} (hn : ∀ t ∈ ts, NE b (d + 1 + k) t)
    (h : List.Forall₂ (fun S t => Holds (d + 1 + k + b) (has b (d + 1 + k) t) S) sets ts)
    (hb : ∀ S ∈ sets, ∀ x ∈ S, x < 2 ^ (d + 1 + k + b)) :
    (sub k ts).map (fun u => (sub 1 u).length) = (commonBlocks sets (d + 1 + b) k).map (commonHalves sets (d + b)) ∧
    (sub k ts).length = (commonBlocks sets (d + 1 + b) k).length := by
  have := sub_map k d ts hn (meetsAll sets) fun j q hj hq => meetsAll_iff.trans (allMeet_blk h hb hj hq).symm
  refine ⟨this, ?_⟩
  have := congrArg List.length this
  rwa [List.length_map, List.length_map] at this

theorem replaced_eq_zero {n used : Nat} {cs : List Nat} : replaced n used cs = 0 ↔ cs = [] ∨ n ≤ used + 1 := by
  cases cs with
  | nil => simp [replaced]
  | cons c cs =>
    rw [replaced]
    split
    · simp only [List.cons_ne_nil, false_or]
      omega
    · simp only [List.cons_ne_nil, false_or, true_iff]
      omega

theorem memIntersect_live {d cut : Nat} {sets : List (List Nat)} {Ts : List Nav} (h : List.Forall₂ (HoldsP (d + 1 + cut)) sets Ts)
    (hne : Ts ≠ []) (hlen : Ts.length ≤ 16) {env : Env} (hcut : Nat.log2 env.hw = cut) (hw : env.hw ≠ 0) (hw' : env.hw < 2 ^ 16)
    {runs : Bool} {R : List Nat} {H : Heap} (hm : memIntersect Ts runs true env = .ok (R, H)) :
    H.live = perTask runs * replaced (2 ^ cut) (commonBlocks sets (d + 1 + 1) cut).length
      ((commonBlocks sets (d + 1 + 1) cut).map (commonHalves sets (d + 1))) := by
  subst hcut
  obtain ⟨ts, h1, h2, h3⟩ := HoldsP.trees h
  have hd : d + 1 + Nat.log2 env.hw ≤ 62 := by
    cases h with
    | nil => exact (hne rfl).elim
    | cons h _ => exact h.depth
  have hb := forall2_imp_left h fun _ _ h => h.below
  obtain ⟨e1, e2⟩ := sub_sets h2 h3 hb
  have e : memIntersect Ts runs true env = memBody Ts (flatCfg (d + 1 + Nat.log2 env.hw + 1)) (d + 1 + Nat.log2 env.hw + 1) runs true env := by
    have := forall2_imp_right h fun _ _ h => h.height
    cases Ts with
    | nil => exact (hne rfl).elim
    | cons T Ts =>
      have h0 := this T List.mem_cons_self
      rw [memIntersect, if_neg, h0]
      simp only [List.any_eq_true, not_exists, not_and]
      intro T' hT'
      rw [this T' hT', h0]
      simp
  rw [e] at hm
  have := memBody_live id leafF (b := 1) (c := flatCfg (d + 1 + Nat.log2 env.hw + 1)) (height := d + 1 + Nat.log2 env.hw + 1) hne h1 hlen
    h2 (by rfl) (show d + 1 + Nat.log2 env.hw + 1 < 64 by omega) hw hw' (by omega) (by rw [List.map_id]; exact hm)
  rw [this, e1, e2]

theorem memFastIntersect_live {lg d cut : Nat} {sets : List (List Nat)} {Ts : List FNav} (h : List.Forall₂ (FHoldsP lg (d + 1 + cut)) sets Ts)
    (hne : Ts ≠ []) (hlen : Ts.length ≤ 16) {env : Env} (hcut : Nat.log2 env.hw = cut) (hw : env.hw ≠ 0) (hw' : env.hw < 2 ^ 16)
    {runs : Bool} {R : List Nat} {H : Heap} (hm : memFastIntersect lg Ts runs true env = .ok (R, H)) :
    H.live = perTask runs * replaced (2 ^ cut) (commonBlocks sets (d + 1 + lg) cut).length
      ((commonBlocks sets (d + 1 + lg) cut).map (commonHalves sets (d + lg))) := by
  subst hcut
  obtain ⟨ts, h1, h2, h3⟩ := FHoldsP.trees h
  have hd : d + 1 + Nat.log2 env.hw + lg ≤ 62 := by
    cases h with
    | nil => exact (hne rfl).elim
    | cons h _ => exact h.depth
  have hb := forall2_imp_left h fun _ _ h => h.below
  obtain ⟨e1, e2⟩ := sub_sets h2 h3 hb
  have e : memFastIntersect lg Ts runs true env =
      memBody (Ts.map FNav.toNav) (fastCfg lg Ts (d + 1 + Nat.log2 env.hw + 1)) (d + 1 + Nat.log2 env.hw + 1) runs true env := by
    have := forall2_imp_right h fun _ _ h => h.height
    cases Ts with
    | nil => exact (hne rfl).elim
    | cons T Ts =>
      have h0 := this T List.mem_cons_self
      rw [memFastIntersect, if_neg, if_neg (by omega), h0]
      simp only [List.any_eq_true, not_exists, not_and]
      intro T' hT'
      rw [this T' hT', h0]
      simp
  rw [e] at hm
  have := memBody_live FNav.toNav (leafW lg) (b := lg) (c := fastCfg lg Ts (d + 1 + Nat.log2 env.hw + 1))
    (height := d + 1 + Nat.log2 env.hw + 1) hne h1 hlen h2 (by simp only [fastCfg]; omega) (by simp only [fastCfg]; omega) hw hw' (by omega) hm
  rw [this, e1, e2]

end CBT
