import Verif.Proof.Vector
import Verif.Proof.Tools
import Verif.Model.ToolsTries
import Verif.Proof.Built

/-!
# What the builders make of lists in any order

Helper lemmas for C107.
-/

namespace CBT

open Spec

theorem flatCtor_seen {v : List Nat} {u : Nat} (hv : v ≠ []) (hlen : v.length < 2 ^ 32) (hu : 3 ≤ u) (hu' : u ≤ 2 ^ 62) :
    flatCtor (seen 0 (Nat.log2 (u - 1) + 1) v) u = flatCtor v u := by
  obtain ⟨h1, h2⟩ := log2_bounds hu hu'
  have hl := length_seen_le (w := 0) (Nat.log2 (u - 1) + 1) v
  have hV : ValidSet (seen 0 (Nat.log2 (u - 1) + 1) v) (2 ^ (Nat.log2 (u - 1) + 1)) := seen_valid hv
  rw [flatCtor_ok hv hlen (by omega) rfl h1 h2, flatCtor_ok hV.ne (by omega) (by omega) rfl h1 h2, flatTree_seen]

theorem levelCtor_seen {v : List Nat} {u : Nat} (hv : v ≠ []) (hlen : v.length < 2 ^ 64) (hu : 3 ≤ u) (hu' : u ≤ 2 ^ 62) :
    levelCtor (seen 0 (Nat.log2 (u - 1) + 1) v) u = levelCtor v u := by
  obtain ⟨h1, h2⟩ := log2_bounds hu hu'
  have hl := length_seen_le (w := 0) (Nat.log2 (u - 1) + 1) v
  have hV : ValidSet (seen 0 (Nat.log2 (u - 1) + 1) v) (2 ^ (Nat.log2 (u - 1) + 1)) := seen_valid hv
  rw [levelCtor_ok hv hlen (by omega) rfl (by omega), levelCtor_ok hV.ne (by omega) (by omega) rfl (by omega), flatTree_seen]

theorem fastCtor_seen {lg : Nat} (hlg : 3 ≤ lg ∧ lg ≤ 6) {v : List Nat} {u : Nat} (hv : v ≠ []) (hlen : v.length < 2 ^ 32)
    (hu : 2 ^ (lg - 1) < u) (hu' : u ≤ 2 ^ 62) (junk : FastJunk) :
    fastCtor lg junk (seen lg (Nat.log2 (u - 1) + 1 - lg) v) u = fastCtor lg junk v u := by
  obtain ⟨h0, h1, h2⟩ := fast_depth hlg hu hu'
  have hl := length_seen_le (w := lg) (Nat.log2 (u - 1) + 1 - lg) v
  have hV : ValidSet (seen lg (Nat.log2 (u - 1) + 1 - lg) v) (2 ^ (Nat.log2 (u - 1) + 1 - lg + lg)) := seen_valid hv
  rw [fastCtor_ok hv hlen h0 h1 h2 (by omega), fastCtor_ok hV.ne (by omega) h0 h1 h2 (by omega), fastTree_seen]

theorem makeTrie_seen (F : Formats) (pad : Nat) (ltr : Bool) (rank block : Nat) (runs levelwise : Bool) {u : Nat} (i : Nat)
    {v : List Nat} (hv : v ≠ []) (hlen : v.length < 2 ^ 32) (hu : 3 ≤ u) (hu' : u ≤ 2 ^ 62) :
    makeTrie F pad ltr rank block runs levelwise u i (seen 0 (Nat.log2 (u - 1) + 1) v) =
      makeTrie F pad ltr rank block runs levelwise u i v := by
  have h1 := flatCtor_seen hv hlen hu hu'
  have h2 := levelCtor_seen hv (by omega) hu hu'
  simp only [makeTrie, makeFlat, makeLevel, makeLevelIl, h1, h2]

theorem makeFast_seen (B : BvIO) (K : RankIO) {lg : Nat} (hlg : 3 ≤ lg ∧ lg ≤ 6) (pad : Nat) (junk : Nat → FastJunk) (runs : Bool)
    {u : Nat} (i : Nat) {v : List Nat} (hv : v ≠ []) (hlen : v.length < 2 ^ 32) (hu : 2 ^ (lg - 1) < u) (hu' : u ≤ 2 ^ 62) :
    makeFast B K lg pad junk runs u i (seen lg (Nat.log2 (u - 1) + 1 - lg) v) = makeFast B K lg pad junk runs u i v := by
  simp only [makeFast, fastCtor_seen hlg hv hlen hu hu']

theorem makeAll_map {make : Nat → List Nat → R Bytes} {g : List Nat → List Nat} : (ls : List (List Nat)) → (i : Nat) →
    (∀ l ∈ ls, ∀ j, make j (g l) = make j l) → makeAll make i (ls.map g) = makeAll make i ls
  | [], _, _ => rfl
  | l :: ls, i, h => by
    rw [List.map_cons, makeAll, makeAll, h l (by simp) i, makeAll_map ls (i + 1) fun l' h' => h l' (by simp [h'])]

theorem kept_zero_of_ne {mx : Nat} {ls : List (List Nat)} (h0 : ∀ l ∈ ls, l ≠ []) (h : ∀ l ∈ ls, l.length ≤ mx) : kept 0 mx ls = ls := by
  rw [kept, List.filter_eq_self]
  intro l hl
  have := List.length_pos_iff.2 (h0 l hl)
  have := h l hl
  simp only [Bool.and_eq_true, decide_eq_true_eq]
  exact ⟨by assumption, by assumption⟩

/-- A builder writes the same file if it sees the same of every list. -/
theorem buildFile_map {mn mx : Nat} {hdr : Bytes} {make : Nat → Nat → List Nat → R Bytes} {g : List Nat → List Nat} {one u : Nat}
    {lists : List (List Nat)} (h1 : one < 2 ^ 32) (hu : u < 2 ^ 32) (hl : ∀ l ∈ lists, l.length < 2 ^ 30)
    (hx : ∀ l ∈ kept mn mx lists, ∀ x ∈ l, x < 2 ^ 32) (hn : (kept mn mx lists).length < 2 ^ 32)
    (hg : ∀ l ∈ kept mn mx lists, g l ≠ [] ∧ (g l).length ≤ l.length ∧ (∀ x ∈ g l, x < 2 ^ 32) ∧
      ∀ j, make u j (g l) = make u j l) :
    kept 0 (2 ^ 32) ((kept mn mx lists).map g) = (kept mn mx lists).map g ∧
    buildFile 0 (2 ^ 32) hdr make (collectionBytes one u ((kept mn mx lists).map g)) =
      buildFile mn mx hdr make (collectionBytes one u lists) := by
  have hk : ∀ l ∈ kept mn mx lists, l.length < 2 ^ 30 := fun l h => hl l (List.mem_filter.1 h).1
  have h30 : ∀ l ∈ (kept mn mx lists).map g, l.length < 2 ^ 30 := fun l h => by
    obtain ⟨l', h', rfl⟩ := List.mem_map.1 h
    have := hk l' h'
    have := (hg l' h').2.1
    omega
  have ha : kept 0 (2 ^ 32) ((kept mn mx lists).map g) = (kept mn mx lists).map g :=
    kept_zero_of_ne (fun l h => by obtain ⟨l', h', rfl⟩ := List.mem_map.1 h; exact (hg l' h').1) fun l h => by have := h30 l h; omega
  refine ⟨ha, ?_⟩
  rw [buildFile_lists h1 hu hl hx hn, buildFile_lists h1 hu h30
    (by rw [ha]; intro l h; obtain ⟨l', h', rfl⟩ := List.mem_map.1 h; exact (hg l' h').2.2.1)
    (by rw [ha, List.length_map]; exact hn), ha, makeAll_map _ _ fun l h => (hg l h).2.2.2, List.length_map]

/-- The intersection of lists depends on their elements only. -/
theorem isIntersection_map {g : List Nat → List Nat} {ls : List (List Nat)} {R : List Nat} (h : ∀ l ∈ ls, ∀ x, x ∈ g l ↔ x ∈ l)
    (hR : IsIntersection (ls.map g) R) : IsIntersection ls R :=
  ⟨hR.increasing, fun x => by
    rw [hR.mem]
    simp only [List.mem_map, forall_exists_index, and_imp, forall_apply_eq_imp_iff₂]
    exact ⟨fun H l hl => (h l hl x).1 (H l hl), fun H l hl => (h l hl x).2 (H l hl)⟩⟩

theorem answers_map {g : List Nat → List Nat} {ls : List (List Nat)} {q : List Nat} {a : Option (List Nat)}
    (h : ∀ l ∈ ls, ∀ x, x ∈ g l ↔ x ∈ l) (hq : q.length ≤ 16 → ∀ i ∈ q, i < ls.length) (hA : Answers (ls.map g) q a) : Answers ls q a := by
  refine ⟨fun h16 => ?_, hA.2⟩
  obtain ⟨R, e, hR⟩ := hA.1 h16
  refine ⟨R, e, isIntersection_map (g := g) (fun l hl => ?_) ?_⟩
  · obtain ⟨i, hi, rfl⟩ := List.mem_map.1 hl
    have := hq h16 i hi
    rw [List.getD_eq_getElem _ _ this]
    exact h _ (List.getElem_mem _)
  · have : (q.map fun i => ls.getD i []).map g = q.map fun i => (ls.map g).getD i [] := by
      rw [List.map_map]
      refine List.map_congr_left fun i hi => ?_
      have := hq h16 i hi
      rw [Function.comp_apply, List.getD_eq_getElem _ _ this, List.getD_eq_getElem _ _ (by simpa using this), List.getElem_map]
    rw [this]; exact hR

theorem mem_of_isIntersection_one {S R : List Nat} (h : IsIntersection [S] R) (x : Nat) : x ∈ R ↔ x ∈ S := by
  rw [h.mem]; simp

theorem answers_seen_iff {ls : List (List Nat)} {g : List Nat → List Nat} {i : Nat} (hi : i < ls.length) {a : Option (List Nat)}
    (h : Answers (ls.map g) [i] a) : Answers ls [i] a ↔ ∀ x, x ∈ g ls[i] ↔ x ∈ ls[i] := by
  obtain ⟨R, rfl, hR⟩ := h.1 (by simp)
  simp only [List.map_cons, List.map_nil] at hR
  rw [List.getD_eq_getElem _ _ (by simpa using hi), List.getElem_map] at hR
  have hm := mem_of_isIntersection_one hR
  constructor
  · rintro ⟨h1, -⟩ x
    obtain ⟨R', e, hR'⟩ := h1 (by simp)
    injection e with e; subst e
    simp only [List.map_cons, List.map_nil] at hR'
    rw [List.getD_eq_getElem _ _ hi] at hR'
    rw [← hm x, mem_of_isIntersection_one hR' x]
  · intro H
    refine ⟨fun _ => ⟨R, rfl, hR.increasing, fun x => ?_⟩, fun h => by simp at h⟩
    simp only [List.map_cons, List.map_nil]
    rw [List.getD_eq_getElem _ _ hi, hm x, H x]
    simp

end CBT
