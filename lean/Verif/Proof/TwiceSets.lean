import Verif.Proof.Space
import Verif.Proof.TwiceRead
import Verif.Proof.TwiceWrite

/-!
# Which sets survive a second run encoding

Reads past the end of a vector are an error here (`pad = 0`).
-/

namespace CBT

open Spec

/-! ## Vectors of nodes with a child -/

/-- Pairs of bits, none of which is `00`. -/
def Solid (v : BV) : Prop := ∃ ps : List (Bool × Bool), (∀ p ∈ ps, (p.1 || p.2) = true) ∧ v = ps.flatMap fun p => [p.1, p.2]

theorem Solid.append {v w : BV} (hv : Solid v) (hw : Solid w) : Solid (v ++ w) := by
  obtain ⟨ps, h1, rfl⟩ := hv
  obtain ⟨qs, h2, rfl⟩ := hw
  refine ⟨ps ++ qs, fun p hp => ?_, by simp⟩
  rcases List.mem_append.1 hp with hp | hp
  · exact h1 p hp
  · exact h2 p hp

theorem Solid.flatten : {L : List BV} → (∀ v ∈ L, Solid v) → Solid L.flatten
  | [], _ => ⟨[], by simp, rfl⟩
  | v :: L, h => by
    rw [List.flatten_cons]
    exact (h v (by simp)).append (Solid.flatten fun w hw => h w (List.mem_cons_of_mem _ hw))

theorem pairs_length (ps : List (Bool × Bool)) : (ps.flatMap fun p => [p.1, p.2]).length = 2 * ps.length := by
  induction ps with
  | nil => rfl
  | cons p ps ih => simp [ih]; omega

theorem Solid.even {v : BV} (h : Solid v) : v.length = 2 * (v.length / 2) := by
  obtain ⟨ps, -, rfl⟩ := h
  rw [pairs_length]
  omega

theorem pairs_get : (ps : List (Bool × Bool)) → (i : Nat) → ∀ b0 b1, (ps.flatMap fun p => [p.1, p.2])[2 * i]? = some b0 →
    (ps.flatMap fun p => [p.1, p.2])[2 * i + 1]? = some b1 → (b0, b1) ∈ ps
  | [], _, _, _, h, _ => by simp at h
  | p :: ps, 0, b0, b1, h0, h1 => by
    simp at h0 h1
    simp [← h0, ← h1]
  | p :: ps, i + 1, b0, b1, h0, h1 => by
    have e : 2 * (i + 1) = 2 * i + 1 + 1 := by omega
    rw [e] at h0 h1
    simp only [List.flatMap_cons, List.cons_append, List.nil_append, List.getElem?_cons_succ] at h0 h1
    exact List.mem_cons_of_mem _ (pairs_get ps i b0 b1 h0 h1)

theorem bvGet_zero {v : BV} {i : Nat} {b : Bool} (h : bvGet 0 v i = .ok b) : v[i]? = some b := by
  unfold bvGet at h
  cases hv : v[i]? with
  | some c => rw [hv] at h; simpa using h
  | none =>
    rw [hv] at h
    have := List.getElem?_eq_none_iff.1 hv
    simp only at h
    rw [if_neg (by omega)] at h
    cases h

theorem bvGet_padded {pad : Nat} {v : BV} {i : Nat} {b : Bool} (h : bvGet pad v i = .ok b) : (v ++ List.replicate pad false)[i]? = some b := by
  unfold bvGet at h
  cases hv : v[i]? with
  | some c =>
    rw [hv] at h
    obtain ⟨hlt, -⟩ := List.getElem?_eq_some_iff.1 hv
    rw [List.getElem?_append_left hlt, hv]
    simpa using h
  | none =>
    rw [hv] at h
    have := List.getElem?_eq_none_iff.1 hv
    simp only at h
    split at h
    · rw [List.getElem?_append_right this, List.getElem?_replicate, if_pos (by omega)]
      simpa using h
    · cases h

theorem count_step {v : BV} {i : Nat} {b : Bool} (h : v[i]? = some b) : (v.take (i + 1)).count true = (v.take i).count true + b.toNat := by
  rw [List.take_add_one, h, List.count_append]
  cases b <;> simp

theorem Solid.read {v : BV} (hv : Solid v) {i : Nat} {b0 b1 : Bool} (h0 : bvGet 0 v (2 * i) = .ok b0) (h1 : bvGet 0 v (2 * i + 1) = .ok b1) :
    (b0 || b1) = true ∧ (v.take (2 * i + 1)).count true = (v.take (2 * i)).count true + b0.toNat ∧
      (v.take (2 * i + 2)).count true = (v.take (2 * i + 1)).count true + b1.toNat := by
  have e0 := bvGet_zero h0
  have e1 := bvGet_zero h1
  refine ⟨?_, count_step e0, count_step e1⟩
  obtain ⟨ps, h, rfl⟩ := hv
  exact h _ (pairs_get ps i b0 b1 e0 e1)

theorem solid_solidBits {d : Nat} (f : List (Tr (d + 1))) : Solid (solidBits f) := by
  refine ⟨(f.filter fun t => !t.bare).map fun t => (t.l.isSome, t.r.isSome), ?_, ?_⟩
  · intro p hp
    obtain ⟨t, ht, rfl⟩ := List.mem_map.1 hp
    have hb := (List.mem_filter.1 ht).2
    simp only [Tr.bare] at hb
    cases hl : t.l <;> cases hr : t.r <;> simp [hl, hr] at hb ⊢
  · rw [solidBits, bitsOf, List.flatMap_map]
    rfl

theorem solid_nodeLevelsS : (d : Nat) → (f : List (Tr d)) → ∀ v ∈ nodeLevelsS d f, Solid v
  | 0, _, v, hv => by simp [nodeLevelsS] at hv
  | d + 1, f, v, hv => by
    rcases List.mem_cons.1 hv with rfl | hv
    · exact solid_solidBits f
    · exact solid_nodeLevelsS d (kids f) v hv

theorem leaves_nz {b : Nat} : (d : Nat) → (f : List (Tr d)) → (∀ t ∈ f, NZ b d t) → ∀ w ∈ leaves d f, 0 < w ∧ w < 2 ^ 2 ^ b
  | 0, f, h, w, hw => by
    obtain ⟨t, ht, rfl⟩ := List.mem_map.1 hw
    exact h t ht
  | d + 1, f, h, w, hw => by
    refine leaves_nz d (kids f) (fun s hs => ?_) w hw
    obtain ⟨t, ht, hs⟩ := List.mem_flatMap.1 hs
    obtain ⟨h1, h2⟩ := h t ht
    rcases List.mem_append.1 hs with hs | hs
    · exact h1 s (by simpa using hs)
    · exact h2 s (by simpa using hs)

theorem solid_leafBits {ws : List Nat} (h : ∀ w ∈ ws, 0 < w ∧ w < 2 ^ 2 ^ 1) : Solid (ws.flatMap leafBits) := by
  rw [List.flatMap_def]
  refine Solid.flatten fun v hv => ?_
  obtain ⟨w, hw, rfl⟩ := List.mem_map.1 hv
  have hw' := h w hw
  have : w = 1 ∨ w = 2 ∨ w = 3 := by omega
  refine ⟨[(w.testBit 0, w.testBit 1)], ?_, rfl⟩
  rcases this with rfl | rfl | rfl <;> decide

/-! ## The decoders of the three families -/

theorem bind_ok2 {α β γ : Type} {x : R α} {y : α → R β} {f : α → β → R γ} {c : γ} (h : (x >>= fun a => y a >>= f a) = .ok c) :
    ∃ a b, x = .ok a ∧ y a = .ok b ∧ f a b = .ok c := by
  obtain ⟨a, ha, h⟩ := bind_ok h
  obtain ⟨b, hb, h⟩ := bind_ok h
  exact ⟨a, b, ha, hb, h⟩

theorem rank1_eq {v : BV} {i c : Nat} (h : rank1 v i = .ok c) : c = (v.take i).count true := by
  unfold rank1 at h
  split at h
  · simpa using h.symm
  · cases h

theorem flat_pairs {t : FlatTrie} {d m : Nat} (hh : t.height = d + 1) (hb : Solid t.bTrie) (hl : Solid t.lastLevel)
    (hm : t.lastLevel.length = 2 * m) {out out' : List Nat} (h : runsRecDecode (t.nav 0) (d + 1) out 0 0 0 = .ok out') :
    ∃ E B : List Nat, out' = out ++ E ∧ (∀ x ∈ E, x / 2 ∈ B) ∧ B.length ≤ m := by
  have hC : Counted (t.nav 0) d 1 fun _ i => (t.bTrie.take i).count true := by
    refine ⟨fun id ℓ v hℓ hv => ?_⟩
    simp only [FlatTrie.nav, FlatTrie.getNode] at hv
    rw [if_pos (by omega)] at hv
    obtain ⟨b0, b1, h0, h1, hv⟩ := bind_ok2 hv
    obtain ⟨k1, k2, k3⟩ := hb.read h0 h1
    refine ⟨b0, b1, by simpa using hv.symm, k1, k2, k3, ?_, ?_⟩
    · rintro rfl c hc
      simp only [FlatTrie.nav, FlatTrie.getLeftChild] at hc
      rw [if_neg (by omega)] at hc
      rw [rank1_eq hc, k2]; rfl
    · rintro rfl c hc
      simp only [FlatTrie.nav, FlatTrie.getRightChild] at hc
      rw [if_neg (by omega)] at hc
      rw [rank1_eq hc, k3]; rfl
  have key := decode_pairs (lo := t.bTrie.length / 2) (m := m) hC hh ?_ d 0 out 0 0 out' (by omega) h
  · obtain ⟨E, B, h1, h2, h3⟩ := key
    exact ⟨E, B, h1, h2, by have := slot_le (fun _ i => (t.bTrie.take i).count true) 1 (t.bTrie.length / 2) m d 0 (0 + 1); omega⟩
  · intro id v hv
    simp only [FlatTrie.nav, FlatTrie.getNode] at hv
    rw [if_neg (by omega)] at hv
    have he := hb.even
    split at hv
    · cases hv
    · rename_i hge
      rw [show 2 * id - t.bTrie.length = 2 * (id - t.bTrie.length / 2) by omega] at hv
      obtain ⟨b0, b1, h0, h1, hv⟩ := bind_ok2 hv
      obtain ⟨k1, -, -⟩ := hl.read h0 h1
      obtain ⟨hlt, -⟩ := List.getElem?_eq_some_iff.1 (bvGet_zero h0)
      exact ⟨b0, b1, by simpa using hv.symm, k1, by omega, by omega⟩

theorem level_counted {t : LevelTrie} {d : Nat} {il : Bool} (hh : t.height = d + 1) (hb : ∀ v ∈ t.bTrie, Solid v)
    (hs : ∀ v ∈ t.bTrie, v.length < 2 ^ 64) :
    Counted (t.nav il 0) d 0 fun ℓ i => (((t.bTrie[ℓ]?).getD []).take i).count true := by
  refine ⟨fun id ℓ v hℓ hv => ?_⟩
  simp only [LevelTrie.nav, LevelTrie.getNode] at hv
  obtain ⟨lv, hlv, hv⟩ := bind_ok hv
  have hlv' : t.bTrie[ℓ]? = some lv := by
    unfold vGet at hlv
    cases hc : t.bTrie[ℓ]? with
    | none => rw [hc] at hlv; cases hlv
    | some a => rw [hc] at hlv; simpa using hlv
  have hmem : lv ∈ t.bTrie := List.mem_of_getElem? hlv'
  obtain ⟨b0, b1, h0, h1, hv⟩ := bind_ok2 hv
  obtain ⟨k1, k2, k3⟩ := (hb lv hmem).read h0 h1
  have hlen := hs lv hmem
  have hc1 : (lv.take (2 * id)).count true ≤ lv.length := List.count_le_length.trans (by simp)
  have hc2 : (lv.take (2 * id + 1)).count true ≤ lv.length := List.count_le_length.trans (by simp)
  refine ⟨b0, b1, by simpa using hv.symm, k1, by simpa [hlv'] using k2, by simpa [hlv'] using k3, ?_, ?_⟩
  · rintro rfl c hc
    simp only [hlv', Option.getD_some, Nat.add_zero]
    cases il with
    | false =>
      simp only [LevelTrie.nav, Bool.false_eq_true, if_false, LevelTrie.getLeftChild] at hc
      rw [if_neg (by omega), hlv] at hc
      exact rank1_eq hc
    | true =>
      simp only [LevelTrie.nav, if_true, LevelTrie.getLeftChildIl] at hc
      rw [if_neg (by omega), hlv] at hc
      obtain ⟨k, hk, hc⟩ := bind_ok (show (rank1 lv _ >>= fun k => .ok ((k + 2 ^ 64 - 1) % 2 ^ 64)) = .ok c from hc)
      rw [rank1_eq hk, k2] at hc
      simp only [Bool.toNat_true] at hc
      rw [wrap_pred (by omega)] at hc
      simpa using hc.symm
  · rintro rfl c hc
    simp only [hlv', Option.getD_some, Nat.add_zero]
    cases il with
    | false =>
      simp only [LevelTrie.nav, Bool.false_eq_true, if_false, LevelTrie.getRightChild] at hc
      rw [if_neg (by omega), hlv] at hc
      exact rank1_eq hc
    | true =>
      simp only [LevelTrie.nav, if_true, LevelTrie.getRightChildIl] at hc
      rw [if_neg (by omega), hlv] at hc
      obtain ⟨k, hk, hc⟩ := bind_ok (show (rank1 lv _ >>= fun k => .ok ((k + 2 ^ 64 - 1) % 2 ^ 64)) = .ok c from hc)
      rw [rank1_eq hk, k3] at hc
      simp only [Bool.toNat_true] at hc
      rw [wrap_pred (by omega)] at hc
      simpa using hc.symm

theorem level_pairs {t : LevelTrie} {d m : Nat} {il : Bool} (hh : t.height = d + 1) (hb : ∀ v ∈ t.bTrie, Solid v)
    (hs : ∀ v ∈ t.bTrie, v.length < 2 ^ 64) (hm : ∀ v, t.bTrie[d]? = some v → v.length = 2 * m) {out out' : List Nat}
    (h : runsRecDecode (t.nav il 0) (d + 1) out 0 0 0 = .ok out') :
    ∃ E B : List Nat, out' = out ++ E ∧ (∀ x ∈ E, x / 2 ∈ B) ∧ B.length ≤ m := by
  have key := decode_pairs (lo := 0) (m := m) (level_counted (il := il) hh hb hs) hh ?_ d 0 out 0 0 out' (by omega) h
  · obtain ⟨E, B, h1, h2, h3⟩ := key
    exact ⟨E, B, h1, h2, by
      have := slot_le (fun ℓ i => (((t.bTrie[ℓ]?).getD []).take i).count true) 0 0 m d 0 (0 + 1)
      omega⟩
  · intro id v hv
    simp only [LevelTrie.nav, LevelTrie.getNode] at hv
    obtain ⟨lv, hlv, hv⟩ := bind_ok hv
    have hlv' : t.bTrie[d]? = some lv := by
      unfold vGet at hlv
      cases hc : t.bTrie[d]? with
      | none => rw [hc] at hlv; cases hlv
      | some a => rw [hc] at hlv; simpa using hlv
    obtain ⟨b0, b1, h0, h1, hv⟩ := bind_ok2 hv
    obtain ⟨k1, -, -⟩ := (hb lv (List.mem_of_getElem? hlv')).read h0 h1
    obtain ⟨hlt, -⟩ := List.getElem?_eq_some_iff.1 (bvGet_zero h0)
    have := hm lv hlv'
    exact ⟨b0, b1, by simpa using hv.symm, k1, by omega, by omega⟩

theorem fast_words {lg hu : Nat} (hlg : lg ≤ 6) {t : FastTrie} {d m : Nat} (hh : t.height = d + 1) (hu' : hu = d + lg)
    (hb : Solid t.bTrie) (hl : ∀ w ∈ t.lastLevel, w < 2 ^ 2 ^ lg) (hm : t.lastLevel.length = m) {out out' : List Nat}
    (h : fastRunsRecDecode lg hu (t.nav 0) d out 0 0 0 = .ok out') :
    ∃ E B : List Nat, out' = out ++ E ∧ (∀ x ∈ E, x / 2 ^ lg ∈ B) ∧ B.length ≤ m := by
  have hC : Counted (t.nav 0).toNav d 1 fun _ i => (t.bTrie.take i).count true := by
    refine ⟨fun id ℓ v hℓ hv => ?_⟩
    simp only [FastTrie.nav, FastTrie.getNode] at hv
    obtain ⟨b0, b1, h0, h1, hv⟩ := bind_ok2 hv
    obtain ⟨k1, k2, k3⟩ := hb.read h0 h1
    refine ⟨b0, b1, by simpa using hv.symm, k1, k2, k3, ?_, ?_⟩
    · rintro rfl c hc
      simp only [FastTrie.nav, FastTrie.getLeftChild] at hc
      rw [if_neg (by omega)] at hc
      rw [rank1_eq hc, k2]; rfl
    · rintro rfl c hc
      simp only [FastTrie.nav, FastTrie.getRightChild] at hc
      rw [if_neg (by omega)] at hc
      rw [rank1_eq hc, k3]; rfl
  have key := fast_decode_words (lo := t.bTrie.length / 2) (m := m) hlg hC hu' ?_ d 0 out 0 0 out' (by omega) (dvd_zero _) h
  · obtain ⟨E, B, h1, h2, h3⟩ := key
    exact ⟨E, B, h1, h2, by have := slot_le (fun _ i => (t.bTrie.take i).count true) 1 (t.bTrie.length / 2) m d 0 (0 + 1); omega⟩
  · intro id w hw
    simp only [FastTrie.nav, FastTrie.getWord] at hw
    split at hw
    · cases hw
    · unfold vGet at hw
      cases hc : t.lastLevel[id - t.bTrie.length / 2]? with
      | none => rw [hc] at hw; cases hw
      | some a =>
        rw [hc] at hw
        obtain rfl : a = w := by simpa using hw
        obtain ⟨hlt, -⟩ := List.getElem?_eq_some_iff.1 hc
        exact ⟨hl a (List.mem_of_getElem? hc), by omega, by omega⟩

theorem length_nodeLevelsS_le : (d : Nat) → (f : List (Tr d)) → ∀ v ∈ nodeLevelsS d f, v.length ≤ f.length * 2 ^ d
  | 0, _, v, hv => by simp [nodeLevelsS] at hv
  | d + 1, f, v, hv => by
    have hp := Nat.two_pow_pos d
    have h1 : f.length * 2 ^ (d + 1) = 2 * f.length * 2 ^ d := by rw [Nat.pow_succ]; ring
    rw [h1]
    rcases List.mem_cons.1 hv with rfl | hv
    · rw [solidBits, length_bitsOf]
      have h2 : (f.filter fun t => !t.bare).length ≤ f.length := List.length_filter_le ..
      exact (Nat.mul_le_mul_left 2 h2).trans (Nat.le_mul_of_pos_right _ hp)
    · exact (length_nodeLevelsS_le d (kids f) v hv).trans (Nat.mul_le_mul_right _ (length_kids_le f))

/-- A level-wise trie holding the nodes of `T` that have a child, and its leaves. -/
def levelSolid (d : Nat) (T : Tr d) (hw : Nat) : LevelTrie :=
  { heightWithRuns := hw, runsEncoded := true, emptyTrie := false,
    bTrie := nodeLevelsS d [T] ++ [(leaves d [T]).flatMap leafBits] }

/-! ## Counting blocks -/

theorem filter_lt {p q : Nat → Bool} {k : Nat} (hpq : ∀ i, p i = true → q i = true) (hp : p k = false) (hq : q k = true) :
    (l : List Nat) → k ∈ l → (l.filter p).length < (l.filter q).length
  | a :: l, h => by
    have hle : ∀ l : List Nat, (l.filter p).length ≤ (l.filter q).length := by
      intro l
      induction l with
      | nil => simp
      | cons a l ih =>
        rw [List.filter_cons, List.filter_cons]
        cases h1 : p a
        · cases h2 : q a <;> simp <;> omega
        · rw [hpq a h1]; simpa using ih
    rw [List.filter_cons, List.filter_cons]
    rcases List.mem_cons.1 h with rfl | h
    · have := hle l
      rw [hp, hq]
      simp
      omega
    · have ih := filter_lt hpq hp hq l h
      cases h1 : p a
      · cases h2 : q a <;> simp <;> omega
      · rw [hpq a h1]; simpa using ih

theorem storedAt_full {S : List Nat} {d b x : Nat} (hd : 1 ≤ d) (hx : x ∈ S) (hb : x < 2 ^ (d + b))
    (hf : ∀ y, y / 2 ^ (b + 1) = x / 2 ^ (b + 1) → y ∈ S) : storedAt true S (d + b) b < storedAt false S (d + b) b := by
  have hk : x / 2 ^ b < 2 ^ (d + b - b) := by
    rw [Nat.add_sub_cancel]
    exact Nat.div_lt_of_lt_mul (by rwa [← Nat.pow_add, Nat.add_comm])
  refine filter_lt (k := x / 2 ^ b) (fun i hi => ?_) ?_ ?_ _ (List.mem_range.2 hk)
  · simp only [Bool.and_eq_true] at hi ⊢
    exact ⟨hi.1, by simp⟩
  · rw [Bool.and_eq_false_iff]
    right
    rw [Bool.not_eq_false', Bool.and_eq_true]
    refine ⟨rfl, List.any_eq_true.2 ⟨0, List.mem_range.2 (by omega), List.all_eq_true.2 fun y hy => ?_⟩⟩
    have hy := List.mem_range.1 hy
    rw [decide_eq_true_eq]
    apply hf
    have hpos := Nat.two_pow_pos (b + 1)
    rw [Nat.add_zero] at hy
    change (x / 2 ^ b / 2 * 2 ^ (b + 1) + y) / 2 ^ (b + 1) = x / 2 ^ (b + 1)
    rw [Nat.div_div_eq_div_mul, ← Nat.pow_succ, Nat.mul_comm, Nat.mul_add_div hpos, Nat.div_eq_of_lt hy]
    rfl
  · simp only [Bool.false_and, Bool.not_false, Bool.and_true, List.any_eq_true]
    exact ⟨x, hx, by simp⟩

theorem storedAt_covered {S B : List Nat} {t b : Nat} (h : ∀ x ∈ S, x / 2 ^ b ∈ B) : storedAt false S t b ≤ B.length := by
  refine List.Subperm.length_le (List.subperm_of_subset (List.nodup_range.filter _) fun k hk => ?_)
  have hk := (List.mem_filter.1 hk).2
  simp only [Bool.false_and, Bool.not_false, Bool.and_true, List.any_eq_true, decide_eq_true_eq] at hk
  obtain ⟨x, hx, rfl⟩ := hk
  exact h x hx

/-! ## Flat tries that cannot be read -/

/-- `writeCompressTrie` reads every node that `decode` reads. -/
theorem flat_write_decodes {t : FlatTrie} {pad : Nat} (h63 : t.height ≤ 63) : ∀ (d ℓ : Nat) (s : RunSt) (id : Nat) (r : RunSt × Bool), ℓ + d + 1 = t.height →
    writeCompress (t.nav pad) d s ℓ id = .ok r → ∀ out part, ∃ out', runsRecDecode (t.nav pad) (d + 1) out part id ℓ = .ok out' := by
  have hfill : ∀ ℓ part out, ∃ out', fillRange part ((t.nav pad).height - ℓ) out = .ok out' := by
    intro ℓ part out
    have : (t.nav pad).height = t.height := rfl
    rw [fillRange, shl1_ok (by omega)]
    exact ⟨_, rfl⟩
  have hshl : ∀ ℓ, ∃ x, shl1 ((t.nav pad).height - ℓ - 1) = .ok x := by
    intro ℓ
    have : (t.nav pad).height = t.height := rfl
    exact ⟨_, shl1_ok (by omega)⟩
  intro d
  induction d with
  | zero =>
    intro ℓ s id r hℓ h out part
    rw [writeCompress] at h
    obtain ⟨v, hv, -⟩ := bind_ok h
    have hl : (t.nav pad).getLeftChild id ℓ = .ok 0 := by
      simp only [FlatTrie.nav, FlatTrie.getLeftChild]
      rw [if_pos (by omega)]
    have hr : (t.nav pad).getRightChild id ℓ = .ok 0 := by
      simp only [FlatTrie.nav, FlatTrie.getRightChild]
      rw [if_pos (by omega)]
    obtain ⟨x, hx⟩ := hshl ℓ
    rw [runsRecDecode, hv, R_bind_ok]
    split
    · exact hfill _ _ _
    · rw [hl, hr, hx]
      split <;> split <;> exact ⟨_, rfl⟩
  | succ d ih =>
    intro ℓ s id r hℓ h out part
    rw [writeCompress] at h
    obtain ⟨v, hv, h⟩ := bind_ok h
    obtain ⟨x, hx⟩ := hshl ℓ
    have hv' := hv
    simp only [FlatTrie.nav, FlatTrie.getNode] at hv'
    rw [if_pos (by omega)] at hv'
    obtain ⟨b0, b1, h0, h1, hv'⟩ := bind_ok2 hv'
    obtain rfl : node2 b0 b1 = v := by simpa using hv'
    rw [runsRecDecode, hv, R_bind_ok]
    cases b0 with
    | false =>
      cases b1 with
      | false => exact hfill _ _ _
      | true =>
        simp only [node2_ft, Nat.reduceEqDiff, if_false, if_true] at h
        obtain ⟨s1, -, h⟩ := bind_ok h
        obtain ⟨c, hc, h⟩ := bind_ok h
        obtain ⟨s2, -, h⟩ := bind_ok h
        obtain ⟨q, hq, -⟩ := bind_ok h
        obtain ⟨o, ho⟩ := ih (ℓ + 1) s2 c q (by omega) hq out (part ||| x)
        rw [hx]
        refine ⟨o, ?_⟩
        simp [node2_ft, hc, ho]
    | true =>
      cases b1 with
      | false =>
        simp only [node2_tf, Nat.reduceEqDiff, if_false, if_true] at h
        obtain ⟨c, hc, h⟩ := bind_ok h
        obtain ⟨s2, -, h⟩ := bind_ok h
        obtain ⟨q, hq, -⟩ := bind_ok h
        obtain ⟨o, ho⟩ := ih (ℓ + 1) s2 c q (by omega) hq out part
        refine ⟨o, ?_⟩
        simp [node2_tf, hc, ho]
      | true =>
        simp only [node2_tt, if_true] at h
        obtain ⟨c, hc, h⟩ := bind_ok h
        obtain ⟨q, hq, h⟩ := bind_ok h
        obtain ⟨q', hq', -⟩ := bind_ok h
        obtain ⟨o, ho⟩ := ih (ℓ + 1) _ c q (by omega) hq out part
        obtain ⟨o', ho'⟩ := ih (ℓ + 1) _ (c + 1) q' (by omega) hq' o (part ||| x)
        have hr : (t.nav pad).getRightChild id ℓ = .ok (c + 1) := by
          simp only [FlatTrie.nav, FlatTrie.getLeftChild] at hc
          rw [if_neg (by omega)] at hc
          have hlt := virtual_true (bvGet_padded h1)
          have h1' := bvGet_padded h1
          rw [List.getElem?_append_left hlt] at h1'
          simp only [FlatTrie.nav, FlatTrie.getRightChild]
          rw [if_neg (by omega), rank1, if_pos (by omega), count_step h1', rank1_eq hc]
          rfl
        rw [hx]
        refine ⟨o', ?_⟩
        simp [node2_tt, hc, ho, hr, ho']

end CBT
