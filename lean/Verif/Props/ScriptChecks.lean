import Verif.SpecScripts
import Verif.Props.Checks
import Verif.Props.Report
import Verif.Props.SmallerFiles

/-!
# C97: what the checking script checks and the space script measures

`scripts/test_encoding.sh` runs `test_encoding` for twenty kinds of tries, `scripts/spaceFastTries.sh` runs `build_fastTries` without an output
file for sixteen.
-/

namespace CBT

open Spec

/-- The options of a line of scripts/test_encoding.sh. -/
theorem scriptCheck_options {rank : List Str} (h : rank ∈ checkRanks) :
    ∃ (r : BuildOption) (rk bl : Nat), r.words false = "--rank".toList :: rank ∧ r.CheckOk false ∧
      (∀ runs levelwise, [BuildOption.minSize 4096, r, .runs runs, .levelwise levelwise].foldl BuildOption.apply .default =
        ⟨4096, 2 ^ 64 - 1, rk, bl, runs, levelwise, 64, false, []⟩) ∧ (rk = 2 → rank = ["v5".toList] ∧ bl = 512) := by
  simp only [checkRanks, List.mem_cons, List.not_mem_nil, or_false] at h
  rcases h with rfl | rfl | rfl | rfl | rfl
  · exact ⟨.rankV, 0, 512, rfl, trivial, fun _ _ => rfl, by decide⟩
  · exact ⟨.rankV5, 2, 512, rfl, trivial, fun _ _ => rfl, fun _ => ⟨rfl, rfl⟩⟩
  · exact ⟨.rankIl 128, 1, 128, rfl, (by decide : (128 : Nat) < 2 ^ 31), fun _ _ => rfl, by decide⟩
  · exact ⟨.rankIl 256, 1, 256, rfl, (by decide : (256 : Nat) < 2 ^ 31), fun _ _ => rfl, by decide⟩
  · exact ⟨.rankIl 512, 1, 512, rfl, (by decide : (512 : Nat) < 2 ^ 31), fun _ _ => rfl, by decide⟩

theorem scriptCheck_words {rank : List Str} {r : BuildOption} (h : r.words false = "--rank".toList :: rank) (prog input : Str)
    (runs levelwise : Bool) : scriptCheck prog input rank runs levelwise =
      prog :: input :: [BuildOption.minSize 4096, r, .runs runs, .levelwise levelwise].flatMap (BuildOption.words false) := by
  simp only [List.flatMap_cons, List.flatMap_nil, h]
  rfl

theorem scriptCheck_ok {r : BuildOption} (h : r.CheckOk false) (runs levelwise : Bool) :
    ∀ o ∈ [BuildOption.minSize 4096, r, .runs runs, .levelwise levelwise], o.CheckOk false := by
  intro o ho
  simp only [List.mem_cons, List.not_mem_nil, or_false] at ho
  rcases ho with rfl | rfl | rfl | rfl
  · exact (by decide : (4096 : Nat) < 2 ^ 64)
  · exact h
  · trivial
  · rfl

/-- C97 is false of the lines under "Rank v5": they print what the lines with `--rank il 512` print. -/
theorem C97_v5_negation (F : Formats) (pad : Nat) (fs : Files) (prog input : Str) (runs levelwise : Bool) :
    mainTestEncoding F pad fs (scriptCheck prog input ["v5".toList] runs levelwise) =
      mainTestEncoding F pad fs (scriptCheck prog input ["il".toList, "512".toList] runs levelwise) := by
  rw [scriptCheck_words (r := .rankV5) rfl, scriptCheck_words (rank := ["il".toList, "512".toList]) (r := .rankIl 512) rfl,
    mainTestEncoding_any F pad fs prog input (by simp) (scriptCheck_ok (r := .rankV5) trivial runs levelwise) rfl,
    mainTestEncoding_any F pad fs prog input (by simp) (scriptCheck_ok (r := .rankIl 512) (by decide : (512 : Nat) < 2 ^ 31) runs levelwise) rfl]
  rfl

/-- C97: nothing that any line of the script prints depends on `rank_support_v5`. -/
theorem C97_v5_unchecked_negation (F : Formats) (v5 : RankIO) (pad : Nat) (fs : Files) (prog input : Str) {rank : List Str}
    (hrank : rank ∈ checkRanks) (runs levelwise : Bool) :
    mainTestEncoding { F with v5 := v5 } pad fs (scriptCheck prog input rank runs levelwise) =
      mainTestEncoding F pad fs (scriptCheck prog input rank runs levelwise) := by
  obtain ⟨r, rk, bl, hr, hok, hfold, -⟩ := scriptCheck_options hrank
  rw [scriptCheck_words hr, mainTestEncoding_any _ pad fs prog input (by simp) (scriptCheck_ok hok runs levelwise) rfl,
    mainTestEncoding_any _ pad fs prog input (by simp) (scriptCheck_ok hok runs levelwise) rfl]
  rfl

/-- C97 (partial): on a valid collection every line of scripts/test_encoding.sh ends, reports no list, and prints the same number of lists, those
with more than 4096 elements, and of elements. Missing, because false: collections with a list that a run-encoded flat trie cannot give
back (C59_flat_runs_exact), on the lines with `--runs t --levelwise f`; and the lines under "Rank v5" are about another structure. -/
theorem C97_check_partial (F : Formats) (pad : Nat) {rank : List Str} (hrank : rank ∈ checkRanks) (runs levelwise : Bool)
    {one u : Nat} (hone : one < 2 ^ 32) (hu : 3 ≤ u) (hu' : u < 2 ^ 32) {lists : List (List Nat)} (hl : ∀ l ∈ lists, l.length < 2 ^ 30)
    (hv : ∀ l ∈ longer 4096 lists, ValidSet l u) (hn : (longer 4096 lists).length < 2 ^ 32)
    (hc : runs = true → levelwise = false → ∀ l ∈ longer 4096 lists, ∃ x ∈ l, ∃ y, y / 4 = x / 4 ∧ y ∉ l)
    {fs : Files} {prog input : Str} (hin : fs input = some (collectionBytes one u lists)) :
    ∃ total, mainTestEncoding F pad fs (scriptCheck prog input rank runs levelwise) =
      .ok (some ⟨[], (longer 4096 lists).length, ((longer 4096 lists).map List.length).sum, total⟩) := by
  suffices key : ∀ rank ∈ checkRanks, rank ≠ ["v5".toList] → ∃ total, mainTestEncoding F pad fs (scriptCheck prog input rank runs levelwise) =
      .ok (some ⟨[], (longer 4096 lists).length, ((longer 4096 lists).map List.length).sum, total⟩) by
    by_cases h5 : rank = ["v5".toList]
    · rw [h5, C97_v5_negation]
      exact key _ (by decide) (by decide)
    · exact key rank hrank h5
  intro rank hrank h5
  obtain ⟨r, rk, bl, hr, hok, hfold, h2⟩ := scriptCheck_options hrank
  rw [scriptCheck_words hr]
  by_cases hflat : runs = true ∧ levelwise = false
  · obtain ⟨h1, h3⟩ := C59_flat_runs_exact (F := F) (pad := pad) (prog := prog) (by simp) (scriptCheck_ok hok runs levelwise)
      (hfold runs levelwise).symm hflat.1 hflat.2 (by decide : (4096 : Nat) < 2 ^ 32) hone hu hu' hl hv hn hin
    obtain ⟨x, hx⟩ := h1.2 fun l hlm => .inl (hc hflat.1 hflat.2 l hlm)
    obtain ⟨total, rfl⟩ := h3 x hx
    exact ⟨total, hx⟩
  · obtain ⟨zs, -, h⟩ := C59_encoding_partial F pad (prog := prog) (by simp) (scriptCheck_ok hok runs levelwise)
      (hfold runs levelwise).symm (fun h => h5 (h2 h).1) (by decide : (4096 : Nat) < 2 ^ 32) hone hu hu' hl hv hn
      (fun l _ ⟨g1, g2, _⟩ => hflat ⟨g1, g2⟩) hin
    exact ⟨_, h⟩

/-- A collection of one list of 5000 odd numbers. -/
example : let l := (List.range 5000).map fun i => 2 * i + 1
    ValidSet l 10000 ∧ l ∈ longer 4096 [l] ∧ ∃ x ∈ l, ∃ y, y / 4 = x / 4 ∧ y ∉ l := by
  refine ⟨⟨by simp, ?_, ?_⟩, ?_, 1, ?_, 0, by decide, ?_⟩
  · exact List.pairwise_map.2 (List.pairwise_lt_range.imp fun h => by omega)
  · intro x hx
    obtain ⟨i, hi, rfl⟩ := List.mem_map.1 hx
    have := List.mem_range.1 hi
    omega
  · exact List.mem_filter.2 ⟨List.mem_singleton.2 rfl, by simp⟩
  · exact List.mem_map.2 ⟨0, by simp, rfl⟩
  · intro h
    obtain ⟨i, -, hi⟩ := List.mem_map.1 h
    omega

/-- C97 is false of run-encoded flat tries: if the trie of some list cannot be decoded, every line with `--runs t --levelwise f` reads past
the end of a vector. -/
theorem C97_runs_oob (F : Formats) (pad : Nat) {rank : List Str} (hrank : rank ∈ checkRanks)
    {one u : Nat} (hone : one < 2 ^ 32) (hu : 3 ≤ u) (hu' : u < 2 ^ 32) {lists : List (List Nat)} (hl : ∀ l ∈ lists, l.length < 2 ^ 30)
    (hv : ∀ l ∈ longer 4096 lists, ValidSet l u) (hn : (longer 4096 lists).length < 2 ^ 32)
    (hb : ∃ l ∈ longer 4096 lists, ∃ j k, unreadable pad (trieHeight u) l j k)
    {fs : Files} {prog input : Str} (hin : fs input = some (collectionBytes one u lists)) :
    mainTestEncoding F pad fs (scriptCheck prog input rank true false) = .error .oob := by
  obtain ⟨r, rk, bl, hr, hok, hfold, -⟩ := scriptCheck_options hrank
  rw [scriptCheck_words hr]
  obtain ⟨l, h1, h2⟩ := hb
  exact C59_flat_runs_oob (by simp) (scriptCheck_ok hok true false) (hfold true false).symm (by decide : (4096 : Nat) < 2 ^ 32) hone hu hu' hl hv hn
    ⟨l, h1, rfl, rfl, h2⟩ hin

theorem blockFull_range (n j k : Nat) : blockFull (List.range n) j k = true ↔ k * 2 ^ j + 2 ^ j ≤ n := by
  rw [blockFull, List.all_eq_true]
  have h0 : 0 < 2 ^ j := Nat.two_pow_pos j
  constructor
  · intro h
    have := h (2 ^ j - 1) (List.mem_range.2 (by omega))
    simp only [List.mem_range, decide_eq_true_eq] at this
    omega
  · intro h i hi
    have := List.mem_range.1 hi
    simp only [List.mem_range, decide_eq_true_eq]
    omega

/-- The lower half of a universe of 16384 numbers. -/
theorem unreadable_half : unreadable 0 (trieHeight 16384) (List.range 8192) 13 0 := by
  have ht : trieHeight 16384 = 14 := by decide +kernel
  rw [ht]
  refine ⟨?_, fun i hi => ?_, ?_⟩
  · rw [onlyFours, List.all_eq_true]
    intro x hx
    have := List.mem_range.1 hx
    rw [blockFull_range]
    omega
  · rw [runBlocks, List.filter_eq_nil_iff]
    intro k _ h
    rw [runBlock, Bool.and_eq_true, blockFull_range, Bool.or_eq_true, decide_eq_true_eq, Bool.not_eq_true', ← Bool.not_eq_true,
      blockFull_range] at h
    have hc : i = 0 ∨ i = 1 ∨ i = 2 ∨ i = 3 ∨ i = 4 ∨ i = 5 ∨ i = 6 ∨ i = 7 ∨ i = 8 ∨ i = 9 ∨ i = 10 ∨ i = 11 ∨ i = 12 := by omega
    rcases hc with rfl | rfl | rfl | rfl | rfl | rfl | rfl | rfl | rfl | rfl | rfl | rfl | rfl <;> omega
  · rw [Nat.zero_div, List.drop_zero, runBlocks, List.mem_filter, runBlock, Bool.and_eq_true, blockFull_range, Bool.or_eq_true,
      Bool.not_eq_true', ← Bool.not_eq_true, blockFull_range]
    exact ⟨by decide, by decide, .inr (by decide)⟩

/-- C97 is false: on a collection of the list 0, ..., 8191 of a universe of 16384, every line with `--runs t --levelwise f` fails. -/
theorem C97_runs_negation (F : Formats) {rank : List Str} (hrank : rank ∈ checkRanks) {fs : Files} {prog input : Str}
    (hin : fs input = some (collectionBytes 1 16384 [List.range 8192])) :
    ValidSet (List.range 8192) 16384 ∧ mainTestEncoding F 0 fs (scriptCheck prog input rank true false) = .error .oob := by
  have hk : longer 4096 [List.range 8192] = [List.range 8192] := by simp [longer]
  have hv : ValidSet (List.range 8192) 16384 :=
    ⟨by simp, List.pairwise_lt_range, fun x hx => by have := List.mem_range.1 hx; omega⟩
  refine ⟨hv, C97_runs_oob F 0 hrank (by decide) (by decide) (by decide) (fun l h => ?_) (fun l h => ?_) (by rw [hk]; decide)
    ⟨List.range 8192, by rw [hk]; exact List.mem_singleton.2 rfl, 13, 0, unreadable_half⟩ hin⟩
  · rw [List.mem_singleton.1 h, List.length_range]; decide
  · rw [hk] at h
    rw [List.mem_singleton.1 h]; exact hv

/-! ## Space -/

/-- The settings of a line of scripts/spaceFastTries.sh. -/
theorem scriptSpace_settings {rank wsize : Str} (hr : rank ∈ scriptFastRanks) (hw : wsize ∈ scriptSizes) :
    ∃ rk lg, 3 ≤ lg ∧ lg ≤ 6 ∧ ∀ (prog input : Str) (runs : Bool), buildArgs true (scriptSpace prog input rank runs wsize) =
      .ok ⟨1, 2 ^ 64 - 1, rk, 512, runs, false, 2 ^ lg, false, []⟩ := by
  obtain ⟨r, rk, hr1, hr2, hr3⟩ : ∃ (r : BuildOption) (rk : Nat), r.words true = ["--rank".toList, rank] ∧ r.Ok true ∧
      ∀ s, s.block = 512 → r.apply s = { s with rank := rk } := by
    simp only [scriptFastRanks, List.mem_cons, List.not_mem_nil, or_false] at hr
    rcases hr with rfl | rfl
    · exact ⟨.rankV, 0, rfl, trivial, fun _ _ => rfl⟩
    · exact ⟨.rankV5, 2, rfl, trivial, fun _ _ => rfl⟩
  obtain ⟨lg, h3, h6, hw1⟩ : ∃ lg, 3 ≤ lg ∧ lg ≤ 6 ∧ wsize = Nat.toDigits 10 (2 ^ lg) := by
    simp only [scriptSizes, List.mem_cons, List.not_mem_nil, or_false] at hw
    rcases hw with rfl | rfl | rfl | rfl
    · exact ⟨6, by decide, by decide, rfl⟩
    · exact ⟨5, by decide, by decide, rfl⟩
    · exact ⟨4, by decide, by decide, rfl⟩
    · exact ⟨3, by decide, by decide, rfl⟩
  refine ⟨rk, lg, h3, h6, fun prog input runs => ?_⟩
  have h := buildArgs_options true prog input [.minSize 1, r, .runs runs, .wsize (2 ^ lg)] (by
    intro o ho
    simp only [List.mem_cons, List.not_mem_nil, or_false] at ho
    rcases ho with rfl | rfl | rfl | rfl
    · exact (by decide : (1 : Nat) < 2 ^ 64)
    · exact hr2
    · trivial
    · exact ⟨rfl, Nat.lt_of_le_of_lt (Nat.pow_le_pow_right (by decide) h6) (by decide)⟩)
  rw [show scriptSpace prog input rank runs wsize =
      prog :: input :: [BuildOption.minSize 1, r, .runs runs, .wsize (2 ^ lg)].flatMap (BuildOption.words true) by
    simp only [List.flatMap_cons, List.flatMap_nil, hr1, hw1]
    rfl, h]
  simp only [List.foldl_cons, List.foldl_nil]
  rw [hr3 _ rfl]
  rfl

/-- C97, the space script: every line ends, writes no file, and prints the same number of lists, those with more than one element, and of
elements; the total with runs is at most the one without. The sizes are required not to overflow. -/
theorem C97_space (B : BvIO) (K : Nat → RankIO) (hB : Grows B) (hK : ∀ r, RankGrows (K r)) (pad : Nat) (junk : Nat → FastJunk)
    {rank wsize : Str} (hr : rank ∈ scriptFastRanks) (hw : wsize ∈ scriptSizes) {one u : Nat} (hone : one < 2 ^ 32) (hu : 32 < u)
    (hu' : u < 2 ^ 32) {lists : List (List Nat)} (hl : ∀ l ∈ lists, l.length < 2 ^ 30) (hx : ∀ l ∈ lists, ∀ x ∈ l, x < 2 ^ 32)
    (hv : ∀ l ∈ kept 1 (2 ^ 64 - 1) lists, ValidSet l u) (hn : (kept 1 (2 ^ 64 - 1) lists).length < 2 ^ 32)
    {fs : Files} {prog input : Str} (hi : input ≠ []) (hin : fs input = some (collectionBytes one u lists)) :
    ∃ o o' r r', buildArgs true (scriptSpace prog input rank false wsize) = .ok o ∧
      buildArgs true (scriptSpace prog input rank true wsize) = .ok o' ∧
      (∀ runs, mainBuildFast B K pad junk fs (scriptSpace prog input rank runs wsize) = .ok none) ∧
      reportFast false B K pad junk o.minSize o.maxSize o.rank o.runs o.levelwise o.wsize (collectionBytes one u lists) = .ok (some ([], r)) ∧
      reportFast false B K pad junk o'.minSize o'.maxSize o'.rank o'.runs o'.levelwise o'.wsize (collectionBytes one u lists) =
        .ok (some ([], r')) ∧
      r.nIl = (kept 1 (2 ^ 64 - 1) lists).length ∧ r'.nIl = r.nIl ∧
      r.totalElements = ((kept 1 (2 ^ 64 - 1) lists).map List.length).sum ∧ r'.totalElements = r.totalElements ∧
      ((∀ f, buildFast B K pad junk o.minSize o.maxSize o.rank o.runs o.levelwise o.wsize (collectionBytes one u lists) = .ok (some f) →
        15 * f.length < 2 ^ 64) → r'.totalSize ≤ r.totalSize) := by
  obtain ⟨rk, lg, h3, h6, hargs⟩ := scriptSpace_settings hr hw
  have hlu : 2 ^ (lg - 1) < u := Nat.lt_of_le_of_lt (Nat.pow_le_pow_right (n := 2) (by decide) (by omega : lg - 1 ≤ 5)) hu
  obtain ⟨f, f', hf, hf', hle⟩ := C93_fast_tries B K hB hK pad junk (rank := rk) ⟨h3, h6⟩ false hone hlu hu' hl hv hn
  obtain ⟨g, r, h⟩ := C87_fast_returns B K pad junk true (rank := rk) ⟨h3, h6⟩ false false hone hlu hu' hl hv hn
  obtain ⟨g', r', h'⟩ := C87_fast_returns B K pad junk true (rank := rk) ⟨h3, h6⟩ true false hone hlu hu' hl hv hn
  have e := C87_fast_same B K pad junk 1 (2 ^ 64 - 1) rk false false (2 ^ lg) (collectionBytes one u lists)
  have e' := C87_fast_same B K pad junk 1 (2 ^ 64 - 1) rk true false (2 ^ lg) (collectionBytes one u lists)
  rw [h, hf] at e
  rw [h', hf'] at e'
  obtain rfl : g = f := Option.some.inj (Except.ok.inj e)
  obtain rfl : g' = f' := Option.some.inj (Except.ok.inj e')
  have t := C87_fast_totals B K pad junk true false false hone hu' hl hx hn h
  have t' := C87_fast_totals B K pad junk true true false hone hu' hl hx hn h'
  refine ⟨_, _, r, r', hargs prog input false, hargs prog input true, fun runs => ?_, ?_, ?_, t.1, t'.1.trans t.1.symm, t.2,
    t'.2.trans t.2.symm, fun hf0 => ?_⟩
  · have hlen : ¬ (scriptSpace prog input rank runs wsize).length < 3 := by simp [scriptSpace]
    obtain ⟨fr, hfr⟩ : ∃ fr, buildFast B K pad junk 1 (2 ^ 64 - 1) rk runs false (2 ^ lg) (collectionBytes one u lists) = .ok (some fr) := by
      cases runs
      exacts [⟨_, hf⟩, ⟨_, hf'⟩]
    rw [mainBuildFast, if_neg hlen, show argGet (scriptSpace prog input rank runs wsize) 1 = .ok input from rfl, R_bind_ok, hargs, R_bind_ok]
    simp only [hin]
    rw [if_neg (fun h => hi h.2.symm), hfr, R_bind_ok]
    rfl
  · rw [C87_fast_no_output, h]; rfl
  · rw [C87_fast_no_output, h']; rfl
  · have s1 := C87_fast_size_negation B K pad junk 1 (2 ^ 64 - 1) rk false false (2 ^ lg) h (hf0 _ hf)
    have s2 := C87_fast_size_negation B K pad junk 1 (2 ^ 64 - 1) rk true false (2 ^ lg) h' (by have := hf0 _ hf; omega)
    have := t.1
    have := t'.1
    omega

example : (reportFast false Ex.bvIO (fun _ => Ex.rankIO) 0 (fun _ => ⟨9, 9, 9, true, false⟩) 1 (2 ^ 64 - 1) 0 false false 8
      (collectionBytes 1 64 Ex.coll)).map (fun x => x.map fun x => (x.1, x.2.nIl, x.2.totalElements)) = .ok (some ([], 3, 26)) ∧
    ∀ l ∈ kept 1 (2 ^ 64 - 1) Ex.coll, ValidSet l 64 := by
  refine ⟨by decide +kernel, fun l h => Ex.coll_valid l ?_⟩
  revert l
  decide +kernel

end CBT
