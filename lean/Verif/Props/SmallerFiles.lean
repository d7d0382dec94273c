import Verif.Proof.SmallerFiles
import Verif.SpecGrow
import Verif.Model.Size
import Verif.Props.Space
import Verif.Props.Serialize
import Verif.Props.Tools

/-!
# C93: run encoding never makes a trie or a file larger
-/

namespace CBT

open Spec

/-! ## One trie -/

/-- C93, flat tries: what `encodeRuns` leaves to be written is no longer, and neither is either vector. -/
theorem C93_flat {B L : BvIO} {K : RankIO} (hB : Grows B) (hL : Grows L) (hK : RankGrows K) {S : List Nat} {u : Nat} (hS : ValidSet S u)
    (hlen : S.length < 2 ^ 32) (hu : 3 ≤ u) (hu' : u ≤ 2 ^ 62) (pad : Nat) (ltr : Bool) :
    ∃ t t', flatCtor S u = .ok t ∧ t.encodeRuns pad = .ok t' ∧ t'.bTrie.length ≤ t.bTrie.length ∧ t'.lastLevel.length ≤ t.lastLevel.length ∧
      (t'.serialize B L K ltr).1.length ≤ (t.serialize B L K ltr).1.length ∧
      ((t.serialize B L K ltr).1.length < 2 ^ 64 → t'.sizeInBytes B L K ≤ t.sizeInBytes B L K) := by
  obtain ⟨T, hc, hne, -⟩ := flat_built hS hlen hu hu'
  obtain ⟨t', he, -, h1, h2⟩ := flat_encode_le (pad := pad) (hw := 0) (runs := false) hne
  have e1 : (flatOf _ T 0 false).bTrie = flatBits _ [T] := rfl
  have e2 : (flatOf _ T 0 false).lastLevel = (leaves _ [T]).flatMap leafBits := rfl
  rw [← e1] at h1
  rw [← e2] at h2
  have h3 := hB _ _ h1
  have h4 := hL _ _ h2
  have h5 := hK _ _ h1
  refine ⟨_, t', hc, he, h1, h2, ?_, fun h => ?_⟩
  · simp only [FlatTrie.serialize]
    cases ltr <;> simp only [List.length_append, length_header, Bool.false_eq_true, if_false, if_true] <;> omega
  · rw [FlatTrie.sizeInBytes, FlatTrie.sizeInBytes]
    simp only [FlatTrie.serialize] at h
    cases ltr <;> simp only [List.length_append, length_header, Bool.false_eq_true, if_false, if_true] at h <;>
      rw [Nat.mod_eq_of_lt (by omega), Nat.mod_eq_of_lt (by omega)] <;> omega

/-- C93, level-wise tries; no level is longer. -/
theorem C93_level {B : BvIO} {K : RankIO} (hB : Grows B) (hK : RankGrows K) {S : List Nat} {u : Nat} (hS : ValidSet S u)
    (hlen : S.length < 2 ^ 64) (hu : 2 ≤ u) (hu' : u ≤ 2 ^ 63) (il : Bool) (pad : Nat) :
    ∃ t t', levelCtor S u = .ok t ∧ t.encodeRuns il pad = .ok t' ∧ List.Forall₂ (fun v w => v.length ≤ w.length) t'.bTrie t.bTrie ∧
      (t'.serialize B K).1.length ≤ (t.serialize B K).1.length ∧
      ((t.serialize B K).1.length < 2 ^ 64 → t'.sizeInBytes B K ≤ t.sizeInBytes B K) := by
  obtain ⟨T, hc, hne, -⟩ := level_built hS hlen hu hu'
  have hd : Nat.log2 (u - 1) < 63 := (Nat.log2_lt (by omega)).2 (by omega)
  obtain ⟨k, -, -, he⟩ := levelOf_encode (pad := pad) (il := il) (hw := 0) (runs := false) (by omega) hne
  have h1 : List.Forall₂ (fun v w : BV => v.length ≤ w.length) (levelOf _ (prune 1 _ T) (k + 1) true).bTrie (levelOf _ T 0 false).bTrie := by
    have := levelsF_prune_le (b := 1) _ [T] _ (List.Sublist.refl _)
    rwa [levelsF_eq, levelsF_eq] at this
  refine ⟨_, _, hc, he, h1, ?_⟩
  generalize levelOf _ T 0 false = t at *
  generalize levelOf _ (prune 1 _ T) (k + 1) true = t' at *
  have hl := h1.length_eq
  have h2 : ∀ n, ((t'.bTrie.take n).map fun v => (B.write v).length).sum ≤ ((t.bTrie.take n).map fun v => (B.write v).length).sum := fun n =>
    sum_map_le ((forall2_take h1 n).imp fun _ _ h => hB _ _ h)
  have h3 : ∀ n, ((t'.bTrie.take n).map fun v => (K.write (K.of v)).length).sum ≤ ((t.bTrie.take n).map fun v => (K.write (K.of v)).length).sum :=
    fun n => sum_map_le ((forall2_take h1 n).imp fun _ _ h => hK _ _ h)
  have h2 := h2 (t.bTrie.length % 2 ^ 16)
  have h3 := h3 (t.bTrie.length % 2 ^ 16 - 1)
  constructor
  · simp only [LevelTrie.serialize, List.length_append, length_header, List.length_flatMap, hl]
    omega
  · intro h
    simp only [LevelTrie.serialize, List.length_append, length_header, List.length_flatMap] at h
    simp only [LevelTrie.sizeInBytes, hl]
    omega

/-- C93, fast tries. -/
theorem C93_fast {B : BvIO} {K : RankIO} (hB : Grows B) (hK : RankGrows K) {lg : Nat} (hlg : 3 ≤ lg ∧ lg ≤ 6) {S : List Nat} {u : Nat}
    (hS : ValidSet S u) (hlen : S.length < 2 ^ 32) (hu : 2 ^ (lg - 1) < u) (hu' : u ≤ 2 ^ 62) (junk : FastJunk) (pad : Nat) :
    ∃ t t', fastCtor lg junk S u = .ok t ∧ t.encodeRuns lg pad = .ok t' ∧ t'.bTrie.length ≤ t.bTrie.length ∧
      t'.lastLevel.length ≤ t.lastLevel.length ∧ (t'.serialize B K lg).1.length ≤ (t.serialize B K lg).1.length ∧
      ((t.serialize B K lg).1.length + 14 < 2 ^ 64 → t'.sizeInBytes B K lg ≤ t.sizeInBytes B K lg) := by
  obtain ⟨T, hc, hne, -⟩ := fast_built hlg hS hlen hu hu' junk
  obtain ⟨k, he⟩ := fastOf_encode (pad := pad) (hw := junk.heightWithRuns) (runs := false) (empty := junk.emptyTrie) hne
  obtain ⟨h1, h2⟩ := prune_size (b := lg) _ [T] _ (List.Sublist.refl _)
  have h3 := hB _ _ h1
  have h4 := hK _ _ h1
  have h5 := Nat.mul_le_mul_left (2 ^ (lg - 3)) h2
  refine ⟨_, _, hc, he, h1, h2, ?_, fun h => ?_⟩
  · simp only [FastTrie.serialize, List.length_append, length_header, length_leBytes, length_words, fastOf]
    simp only [List.map_singleton] at h3 h4 h5
    omega
  · simp only [FastTrie.serialize, List.length_append, length_header, length_leBytes, length_words, fastOf] at h
    simp only [FastTrie.sizeInBytes, fastOf]
    simp only [List.map_singleton] at h3 h4 h5
    rw [Nat.mod_eq_of_lt (by omega), Nat.mod_eq_of_lt (by omega)]
    omega

/-! ## When it pays -/

/-- C93: bits are saved exactly if an aligned block of four numbers consists of elements. -/
theorem C93_flat_gain {S : List Nat} {u : Nat} (hS : ValidSet S u) (hlen : S.length < 2 ^ 32) (hu : 3 ≤ u) (hu' : u ≤ 2 ^ 62) (pad : Nat) :
    ∃ t t', flatCtor S u = .ok t ∧ t.encodeRuns pad = .ok t' ∧
      (t'.bTrie.length + t'.lastLevel.length < t.bTrie.length + t.lastLevel.length ↔ ∃ x ∈ S, ∀ y, y / 4 = x / 4 → y ∈ S) := by
  obtain ⟨t, t', h1, h2, h3, h4⟩ := C64_flat_blocks hS hlen hu hu' pad
  obtain ⟨l1, -⟩ := log2_bounds hu hu'
  obtain ⟨T, hc, hne, hT⟩ := flat_built hS hlen hu hu'
  have hb : ∀ x ∈ S, x < 2 ^ (Nat.log2 (u - 1) + 1) := fun x hx => lt_height (hS.below x hx)
  rw [hc] at h1
  injection h1 with h1
  subst h1
  obtain ⟨t'', he, hbits, -⟩ := flatOf_encode_bits (pad := pad) (hw := 0) (runs := false) hne
  rw [h2] at he
  injection he with he
  subst he
  refine ⟨_, t', hc, h2, fun h => ?_, fun ⟨x, hx, hf⟩ => ?_⟩
  · by_contra hno
    push Not at hno
    rw [prune_sparse l1 hT (fun x hx => by obtain ⟨y, h1, h2⟩ := hno x hx; exact ⟨y, h1, h2⟩)] at hbits
    have := congrArg List.length hbits
    rw [List.length_append, List.length_append] at this
    simp only [flatOf] at h
    omega
  · rw [h3, h4]
    have e : (flatOf _ T 0 false).height = Nat.log2 (u - 1) + 1 := rfl
    have h5 := storedAt_full (S := S) (d := Nat.log2 (u - 1)) (b := 1) l1 hx (hb x hx) hf
    have h6 := (prune_size (b := 1) _ [T] _ (List.Sublist.refl _)).1
    rw [List.map_singleton, (ctree_plain hne hT hb).size.1, (ctree_runs hne hT hb).size.1] at h6
    rw [e, storedAbove_zero, storedAbove_zero]
    omega

theorem C93_level_gain {S : List Nat} {u : Nat} (hS : ValidSet S u) (hlen : S.length < 2 ^ 64) (hu : 3 ≤ u) (hu' : u ≤ 2 ^ 63) (il : Bool) (pad : Nat) :
    ∃ t t', levelCtor S u = .ok t ∧ t.encodeRuns il pad = .ok t' ∧
      (t'.bTrie.flatten.length < t.bTrie.flatten.length ↔ ∃ x ∈ S, ∀ y, y / 4 = x / 4 → y ∈ S) := by
  obtain ⟨l1, l2⟩ := level_bounds hu hu'
  obtain ⟨T, hc, hne, hT⟩ := level_built hS hlen (by omega) (by omega)
  have hb : ∀ x ∈ S, x < 2 ^ (Nat.log2 (u - 1) + 1) := fun x hx => lt_height (hS.below x hx)
  obtain ⟨k, -, -, he⟩ := levelOf_encode (pad := pad) (il := il) (hw := 0) (runs := false) (by omega) hne
  refine ⟨_, _, hc, he, ?_⟩
  have e : ∀ (T' : Tr (Nat.log2 (u - 1))) (hw : Nat) (r : Bool),
      (levelOf _ T' hw r).bTrie.flatten.length = (flatBits _ [T']).length + 2 * (leaves _ [T']).length := by
    intro T' hw r
    simp only [levelOf, List.flatten_append, List.length_append, flatten_nodeLevels, List.flatten_cons, List.flatten_nil, List.append_nil,
      length_leafBits]
  rw [e, e]
  refine ⟨fun h => ?_, fun ⟨x, hx, hf⟩ => ?_⟩
  · by_contra hno
    push Not at hno
    rw [prune_sparse l1 hT (fun x hx => by obtain ⟨y, h1, h2⟩ := hno x hx; exact ⟨y, h1, h2⟩)] at h
    omega
  · have h5 := storedAt_full (S := S) (d := Nat.log2 (u - 1)) (b := 1) l1 hx (hb x hx) hf
    have h6 := (prune_size (b := 1) _ [T] _ (List.Sublist.refl _)).1
    rw [List.map_singleton] at h6
    rw [(ctree_plain hne hT hb).size.2, (ctree_runs hne hT hb).size.2]
    omega

/-- C93, fast tries: an aligned block of two words. -/
theorem C93_fast_gain {lg : Nat} (hlg : 3 ≤ lg ∧ lg ≤ 6) {S : List Nat} {u : Nat} (hS : ValidSet S u) (hlen : S.length < 2 ^ 32)
    (hu : 2 ^ lg < u) (hu' : u ≤ 2 ^ 62) (junk : FastJunk) (pad : Nat) :
    ∃ t t', fastCtor lg junk S u = .ok t ∧ t.encodeRuns lg pad = .ok t' ∧
      (t'.bTrie.length < t.bTrie.length ∨ t'.lastLevel.length < t.lastLevel.length ↔ ∃ x ∈ S, ∀ y, y / 2 ^ (lg + 1) = x / 2 ^ (lg + 1) → y ∈ S) := by
  have hlu : 2 ^ (lg - 1) < u := Nat.lt_of_le_of_lt (Nat.pow_le_pow_right (by decide) (Nat.sub_le _ _)) hu
  obtain ⟨T, hc, hne, hT⟩ := fast_built hlg hS hlen hlu hu' junk
  obtain ⟨h0, hh, -⟩ := fast_depth hlg hlu hu'
  have hb : ∀ x ∈ S, x < 2 ^ (Nat.log2 (u - 1) + 1 - lg + lg) := fun x hx => hh ▸ lt_height (hS.below x hx)
  obtain ⟨k, he⟩ := fastOf_encode (pad := pad) (hw := junk.heightWithRuns) (runs := false) (empty := junk.emptyTrie) hne
  have hd : 1 ≤ Nat.log2 (u - 1) + 1 - lg := by
    have : lg ≤ Nat.log2 (u - 1) := (Nat.le_log2 (by omega)).2 (by omega)
    omega
  refine ⟨_, _, hc, he, fun h => ?_, fun ⟨x, hx, hf⟩ => ?_⟩
  · by_contra hno
    push Not at hno
    rw [prune_sparse hd hT (fun x hx => by obtain ⟨y, h1, h2⟩ := hno x hx; exact ⟨y, h1, h2⟩)] at h
    simp only [fastOf] at h
    omega
  · right
    simp only [fastOf]
    rw [(ctree_plain hne hT hb).size.2, (ctree_runs hne hT hb).size.2]
    exact storedAt_full hd hx (hb x hx) hf

/-! ## Files -/

theorem makeAll_le {make make' : Nat → List Nat → R Bytes} {ls : List (List Nat)}
    (h : ∀ l ∈ ls, ∀ i, ∃ b b', make i l = .ok b ∧ make' i l = .ok b' ∧ b'.length ≤ b.length) (i : Nat) :
    ∃ b b', makeAll make i ls = .ok b ∧ makeAll make' i ls = .ok b' ∧ b'.length ≤ b.length := by
  induction ls generalizing i with
  | nil => exact ⟨[], [], rfl, rfl, Nat.le_refl _⟩
  | cons l ls ih =>
    obtain ⟨b, b', h1, h2, h3⟩ := h l List.mem_cons_self i
    obtain ⟨c, c', h4, h5, h6⟩ := ih (fun l hl => h l (List.mem_cons_of_mem _ hl)) (i + 1)
    refine ⟨b ++ c, b' ++ c', ?_, ?_, ?_⟩
    · rw [makeAll, h1, R_bind_ok, h4, R_bind_ok]
    · rw [makeAll, h2, R_bind_ok, h5, R_bind_ok]
    · rw [List.length_append, List.length_append]; omega

/-- C93, `build_tries`: with `--runs t` the file is no larger than without, everything else being the same. -/
theorem C93_tries (F : Formats) (hF : AllGrow F) (pad : Nat) (ltr : Bool) {mn mx rank block : Nat} (levelwise : Bool)
    (hs : rank ≠ 1 ∨ levelwise = false) {one u : Nat} (hone : one < 2 ^ 32) (hu : 3 ≤ u) (hu' : u < 2 ^ 32) {lists : List (List Nat)}
    (hl : ∀ l ∈ lists, l.length < 2 ^ 30) (hv : ∀ l ∈ kept mn mx lists, ValidSet l u) (hn : (kept mn mx lists).length < 2 ^ 32) :
    ∃ f f', buildTries F pad ltr mn mx rank block false levelwise (collectionBytes one u lists) = .ok f ∧
      buildTries F pad ltr mn mx rank block true levelwise (collectionBytes one u lists) = .ok f' ∧ f'.length ≤ f.length := by
  have hx : ∀ l ∈ kept mn mx lists, ∀ x ∈ l, x < 2 ^ 32 := fun l h x hx => Nat.lt_trans ((hv l h).below x hx) hu'
  have hr : RankGrows (F.rank rank) := by rw [Formats.rank]; split; exacts [hF.v, hF.v5]
  rw [buildTries, buildTries, buildFile_lists hone hu' hl hx hn, buildFile_lists hone hu' hl hx hn]
  obtain ⟨b, b', h1, h2, h3⟩ := makeAll_le (make := makeTrie F pad ltr rank block false levelwise u)
    (make' := makeTrie F pad ltr rank block true levelwise u) (ls := kept mn mx lists) (fun l h i => by
      have hlen : l.length < 2 ^ 30 := hl l (List.mem_filter.1 h).1
      cases levelwise with
      | false =>
        have key : ∀ (B L : BvIO) (K : RankIO), Grows B → Grows L → RankGrows K →
            ∃ b b', makeFlat B L K pad ltr false u l = .ok b ∧ makeFlat B L K pad ltr true u l = .ok b' ∧ b'.length ≤ b.length := by
          intro B L K hB hL hK
          obtain ⟨t, t', h1, h2, -, -, h3, -⟩ := C93_flat hB hL hK (hv l h) (by omega) hu (by omega) pad ltr
          exact ⟨_, _, by rw [makeFlat, h1]; rfl, by rw [makeFlat, h1, R_bind_ok, if_pos rfl, h2]; rfl, h3⟩
        simp only [makeTrie, Bool.false_eq_true, if_false]
        split
        · exact key _ _ _ (hF.il _) hF.bv (hF.rankIl _)
        · exact key _ _ _ hF.bv hF.bv hr
      | true =>
        obtain ⟨t, t', h1, h2, -, h3, -⟩ := C93_level hF.bv hr (hv l h) (by omega) (by omega) (by omega) false pad
        simp only [makeTrie, if_true, if_neg (hs.resolve_right (by decide))]
        exact ⟨_, _, by rw [makeLevel, h1]; rfl, by rw [makeLevel, h1, R_bind_ok, if_pos rfl, h2]; rfl, h3⟩) 0
  refine ⟨_, _, by rw [h1]; rfl, by rw [h2]; rfl, ?_⟩
  simp only [List.length_append, triesFileHeader, boolByte, List.length_singleton]
  omega

/-- C93, `build_fastTries`. -/
theorem C93_fast_tries (B : BvIO) (K : Nat → RankIO) (hB : Grows B) (hK : ∀ r, RankGrows (K r)) (pad : Nat) (junk : Nat → FastJunk) {mn mx rank lg : Nat}
    (hlg : 3 ≤ lg ∧ lg ≤ 6) (levelwise : Bool) {one u : Nat} (hone : one < 2 ^ 32) (hu : 2 ^ (lg - 1) < u) (hu' : u < 2 ^ 32)
    {lists : List (List Nat)} (hl : ∀ l ∈ lists, l.length < 2 ^ 30) (hv : ∀ l ∈ kept mn mx lists, ValidSet l u)
    (hn : (kept mn mx lists).length < 2 ^ 32) :
    ∃ f f', buildFast B K pad junk mn mx rank false levelwise (2 ^ lg) (collectionBytes one u lists) = .ok (some f) ∧
      buildFast B K pad junk mn mx rank true levelwise (2 ^ lg) (collectionBytes one u lists) = .ok (some f') ∧ f'.length ≤ f.length := by
  have hx : ∀ l ∈ kept mn mx lists, ∀ x ∈ l, x < 2 ^ 32 := fun l h x hx => Nat.lt_trans ((hv l h).below x hx) hu'
  rw [buildFast, buildFast, (wordLg_pow hlg).1]
  simp only
  rw [buildFile_lists hone hu' hl hx hn, buildFile_lists hone hu' hl hx hn]
  obtain ⟨b, b', h1, h2, h3⟩ := makeAll_le (make := makeFast B (K (if rank = 0 then 0 else 2)) lg pad junk false u)
    (make' := makeFast B (K (if rank = 0 then 0 else 2)) lg pad junk true u) (ls := kept mn mx lists) (fun l h i => by
      have hlen : l.length < 2 ^ 30 := hl l (List.mem_filter.1 h).1
      obtain ⟨t, t', h1, h2, -, -, h3, -⟩ := C93_fast hB (hK (if rank = 0 then 0 else 2)) hlg (hv l h) (by omega) hu (by omega) (junk i) pad
      exact ⟨_, _, by rw [makeFast, h1]; rfl, by rw [makeFast, h1, R_bind_ok, if_pos rfl, h2]; rfl, h3⟩) 0
  refine ⟨_, _, by rw [h1]; rfl, by rw [h2]; rfl, ?_⟩
  simp only [List.length_append, fastFileHeader, boolByte, List.length_singleton]
  omega

namespace Ex

theorem formats_grow : AllGrow formats := by
  have hb : Grows bvIO := fun v w h => by
    have e : ∀ v : BV, (v.flatMap boolByte).length = v.length := fun v => by
      induction v with
      | nil => rfl
      | cons a v ih => rw [List.flatMap_cons, List.length_append, ih, length_boolByte, List.length_cons, Nat.add_comm]
    simp only [bvIO, List.length_append, length_leBytes, e]
    omega
  have hr : RankGrows rankIO := fun _ _ _ => Nat.le_refl _
  exact ⟨hb, fun _ => hb, hr, hr, fun _ => hr⟩

end Ex

/- Non-vacuity: a file that becomes smaller; sets with and without a full block of four. -/
example : ∃ f f', buildTries Ex.formats 0 true 1 100 0 512 false true (collectionBytes 1 64 Ex.coll) = .ok f ∧
    buildTries Ex.formats 0 true 1 100 0 512 true true (collectionBytes 1 64 Ex.coll) = .ok f' ∧ f'.length ≤ f.length :=
  C93_tries Ex.formats Ex.formats_grow 0 true true (.inl (by decide)) (by decide) (by decide) (by decide) (by decide) Ex.coll_valid (by decide +kernel)

example : ((buildTries Ex.formats 0 true 1 100 0 512 false true (collectionBytes 1 64 Ex.coll)).map List.length,
    (buildTries Ex.formats 0 true 1 100 0 512 true true (collectionBytes 1 64 Ex.coll)).map List.length) = (.ok 290, .ok 262) := by decide +kernel

example : (∃ x ∈ [0, 1, 2, 3, 9], ∀ y, y / 4 = x / 4 → y ∈ [0, 1, 2, 3, 9]) ∧ ¬ ∃ x ∈ [0, 1, 2, 9], ∀ y, y / 4 = x / 4 → y ∈ [0, 1, 2, 9] := by
  refine ⟨⟨0, by simp, fun y h => ?_⟩, ?_⟩
  · have : y < 4 := by omega
    simp only [List.mem_cons, List.not_mem_nil, or_false]
    omega
  · rintro ⟨x, hx, h⟩
    simp only [List.mem_cons, List.not_mem_nil, or_false] at hx
    have := h (x / 4 * 4 + 3) (by omega)
    simp only [List.mem_cons, List.not_mem_nil, or_false] at this
    omega

end CBT
