import Verif.Proof.ChecksInter
import Verif.Props.CommandLine

/-!
# C59–C62: the checking programs
-/

namespace CBT

open Spec

/-! ## C59: what the encoding checkers report -/

/-- `z` is what `size_in_bytes` gives for the trie of `l` with the rank support, run encoding and layout asked for. -/
def TrieSize (F : Formats) (pad rank block : Nat) (runs levelwise : Bool) (u : Nat) (l : List Nat) (z : Nat) : Prop :=
  if levelwise then
    ∃ t t', levelCtor l u = .ok t ∧ (if runs then t.encodeRuns (decide (rank = 1)) pad else .ok t) = .ok t' ∧
      z = if rank = 1 then t'.sizeInBytes (F.il (builtBlock block)) (F.rankIl (builtBlock block)) else t'.sizeInBytes F.bv (F.rank rank)
  else
    ∃ t t', flatCtor l u = .ok t ∧ (if runs then t.encodeRuns pad else .ok t) = .ok t' ∧
      z = if rank = 1 then t'.sizeInBytes (F.il (builtBlock block)) F.bv (F.rankIl (builtBlock block)) else t'.sizeInBytes F.bv F.bv (F.rank rank)

/-- `z` is what `size_in_bytes` gives for the fast trie of list number `i`. -/
def FastTrieSize (B : BvIO) (K : Nat → RankIO) (lg pad : Nat) (junk : Nat → FastJunk) (rank : Nat) (runs : Bool) (u i : Nat) (l : List Nat)
    (z : Nat) : Prop :=
  ∃ t t', fastCtor lg (junk i) l u = .ok t ∧ (if runs then t.encodeRuns lg pad else .ok t) = .ok t' ∧ z = t'.sizeInBytes B (K rank) lg

theorem checkFlat_runs_exact (B L : BvIO) (K : RankIO) (pad : Nat) {S : List Nat} {u : Nat} (hS : ValidSet S u) (hlen : S.length < 2 ^ 32)
    (hu : 3 ≤ u) (hu' : u ≤ 2 ^ 62) :
    ∃ t t', flatCtor S u = .ok t ∧ t.encodeRuns pad = .ok t' ∧
      (¬ cannotDecode true false pad (trieHeight u) S → checkFlat B L K pad true u S = .ok (true, t'.sizeInBytes B L K)) ∧
      (cannotDecode true false pad (trieHeight u) S → checkFlat B L K pad true u S = .error .oob) := by
  obtain ⟨t, t', h1, h2, h3, h4⟩ := C04_flat_runs_decode_exact hS hlen hu hu' pad []
  have e : checkFlat B L K pad true u S = (t'.decode pad [] >>= fun d => .ok (decide (d = S), t'.sizeInBytes B L K)) := by
    simp only [checkFlat, h1, R_bind_ok, if_true, h2]
  refine ⟨t, t', h1, h2, fun h => ?_, fun h => ?_⟩
  · rw [e, h3 fun j k hjk => h ⟨rfl, rfl, j, k, hjk⟩, R_bind_ok, List.nil_append, decide_eq_true rfl]
  · rw [e, h4 h.2.2]; rfl

theorem checkAll_oob {check : Nat → List Nat → R (Bool × Nat)} {Bad : List Nat → Prop} : (ls : List (List Nat)) → (r : CheckReport) →
    (∀ i, ∀ l ∈ ls, (¬ Bad l → ∃ x, check i l = .ok x) ∧ (Bad l → check i l = .error .oob)) → (∃ l ∈ ls, Bad l) →
    checkAll check ls r = .error .oob
  | [], _, _, h => by simp at h
  | l :: ls, r, h, hb => by
    rw [checkAll]
    by_cases hl : Bad l
    · rw [(h _ l (by simp)).2 hl]; rfl
    · obtain ⟨x, hx⟩ := (h r.nIl l (by simp)).1 hl
      rw [hx, R_bind_ok]
      refine checkAll_oob ls _ (fun i l' h' => h i l' (List.mem_cons_of_mem _ h')) ?_
      obtain ⟨l', h', hb⟩ := hb
      rcases List.mem_cons.1 h' with rfl | h'
      · exact (hl hb).elim
      · exact ⟨l', h', hb⟩

/-- An encoding checker that reads out of bounds on some list. -/
theorem verifyEncode_oob {m : Nat} {check : Nat → Nat → List Nat → R (Bool × Nat)} {one u : Nat} (hone : one < 2 ^ 32) (hu : u < 2 ^ 32)
    {lists : List (List Nat)} (hl : ∀ l ∈ lists, l.length < 2 ^ 30) (hm : m < 2 ^ 32) (hv : ∀ l ∈ longer m lists, ValidSet l u)
    (hn : (longer m lists).length < 2 ^ 32) {Bad : List Nat → Prop}
    (h : ∀ i, ∀ l ∈ longer m lists, (¬ Bad l → ∃ x, check u i l = .ok x) ∧ (Bad l → check u i l = .error .oob)) (hb : ∃ l ∈ longer m lists, Bad l) :
    verifyEncode m check (collectionBytes one u lists) = .error .oob := by
  have hf := length_le_flatMap lists
  have hk : kept m (2 ^ 32 - 1) lists = longer m lists := by
    refine List.filter_congr fun l h => ?_
    have := hl l h
    have h' : l.length ≤ 2 ^ 32 - 1 := by omega
    rw [decide_eq_true h', Bool.and_true]
  have hx : ∀ l ∈ longer m lists, ∀ x ∈ l, x < 2 ^ 32 := fun l h x hx => by have := (hv l h).below x hx; omega
  rw [verifyEncode, collectionBytes, readLE_leBytes 4 _ _ (by omega), R_bind_ok]
  simp only
  rw [readLE_leBytes 4 _ _ (by omega), R_bind_ok]
  simp only [Nat.mod_eq_of_lt hm]
  rw [countSets_lists lists _ 0 hl (by omega) (by rw [hk]; omega), R_bind_ok, checkLoop_lists lists _ _ hl hx (by omega)]
  exact checkAll_oob (Bad := Bad) _ _ h hb

theorem verifyEncode_good {m : Nat} {check : Nat → Nat → List Nat → R (Bool × Nat)} {one u : Nat} (hone : one < 2 ^ 32) (hu : u < 2 ^ 32)
    {lists : List (List Nat)} (hl : ∀ l ∈ lists, l.length < 2 ^ 30) (hm : m < 2 ^ 32) (hv : ∀ l ∈ longer m lists, ValidSet l u)
    (hn : (longer m lists).length < 2 ^ 32) {P : Nat → List Nat → Nat → Prop}
    (h : ∀ i, ∀ l ∈ longer m lists, ∃ z, check u i l = .ok (true, z) ∧ P i l z) :
    ∃ zs : List Nat, zs.length = (longer m lists).length ∧
      (∀ j (h : j < (longer m lists).length) (h' : j < zs.length), P j (longer m lists)[j] zs[j]) ∧
      verifyEncode m check (collectionBytes one u lists) =
        .ok ⟨[], (longer m lists).length, ((longer m lists).map List.length).sum, zs.sum % 2 ^ 64⟩ := by
  have key : ∀ j, ∃ z, ∀ hj : j < (longer m lists).length, check u j (longer m lists)[j] = .ok (true, z) ∧ P j (longer m lists)[j] z := by
    intro j
    by_cases hj : j < (longer m lists).length
    · obtain ⟨z, hz⟩ := h j _ (List.getElem_mem hj)
      exact ⟨z, fun _ => hz⟩
    · exact ⟨0, fun hj' => absurd hj' hj⟩
  choose z hz using key
  have hx : ∀ l ∈ longer (m % 2 ^ 32) lists, ∀ x ∈ l, x < 2 ^ 32 := by
    rw [Nat.mod_eq_of_lt hm]
    exact fun l h x hx => by have := (hv l h).below x hx; omega
  refine ⟨(List.range (longer m lists).length).map z, by simp, fun j h h' => by simpa using (hz j h).2, ?_⟩
  have hiff := verifyEncode_iff (m := m) (check := check) hone hu hl hx (by rw [Nat.mod_eq_of_lt hm]; exact hn)
    ⟨[], (longer m lists).length, ((longer m lists).map List.length).sum, ((List.range (longer m lists).length).map z).sum % 2 ^ 64⟩
  rw [Nat.mod_eq_of_lt hm] at hiff
  refine hiff.2 ⟨(List.range (longer m lists).length).map fun j => (true, z j), by simp, fun j h h' => by simpa using (hz j h).1, ?_⟩
  rw [badFrom_true _ _ (by simp), List.map_map]
  rfl

/-- C59 (partial), `test_encoding`: for every valid collection it reports no list, and prints how many lists there are with more elements
than `--min_size`, how many elements they have, and the size of their tries. Missing, because false: `--rank v5` and sizes of 2^32 and
more (C60), flat tries that run encoding makes unreadable, and calls without any option. -/
theorem C59_encoding_partial (F : Formats) (pad : Nat) {opts : List BuildOption} (h0 : opts ≠ []) (hopts : ∀ o ∈ opts, o.CheckOk false)
    {o : BuildSettings} (ho : o = opts.foldl BuildOption.apply .default) (hr : o.rank ≠ 2) (hm : o.minSize < 2 ^ 32)
    {one u : Nat} (hone : one < 2 ^ 32) (hu : 3 ≤ u) (hu' : u < 2 ^ 32) {lists : List (List Nat)} (hl : ∀ l ∈ lists, l.length < 2 ^ 30)
    (hv : ∀ l ∈ longer o.minSize lists, ValidSet l u) (hn : (longer o.minSize lists).length < 2 ^ 32)
    (hc : ∀ l ∈ longer o.minSize lists, ¬ cannotDecode o.runs o.levelwise pad (trieHeight u) l)
    {fs : Files} {prog input : Str} (hin : fs input = some (collectionBytes one u lists)) :
    ∃ zs, List.Forall₂ (TrieSize F pad o.rank o.block o.runs o.levelwise u) (longer o.minSize lists) zs ∧
      mainTestEncoding F pad fs (prog :: input :: opts.flatMap (BuildOption.words false)) =
        .ok (some ⟨[], (longer o.minSize lists).length, ((longer o.minSize lists).map List.length).sum, zs.sum % 2 ^ 64⟩) := by
  have hrank : o.rank = 0 ∨ o.rank = 1 := by
    have : o.rank < 3 := by
      rw [ho]
      clear * -
      suffices ∀ s : BuildSettings, s.rank < 3 → (opts.foldl BuildOption.apply s).rank < 3 from this _ (by decide)
      induction opts with
      | nil => exact fun s h => h
      | cons a l ih => exact fun s h => ih _ (by cases a <;> simp [BuildOption.apply, h])
    omega
  have hlong : ∀ l ∈ longer o.minSize lists, l.length < 2 ^ 30 := fun l h => hl l (mem_longer h)
  obtain ⟨zs, e1, e2, e3⟩ := verifyEncode_good (check := checkTrie F pad o.rank o.block o.runs o.levelwise) hone hu' hl hm hv hn
    (P := fun _ => TrieSize F pad o.rank o.block o.runs o.levelwise u) (fun i l h => by
      have hS := hv l h
      have hlen := hlong l h
      have hflat : o.levelwise = false → ∀ (B L : BvIO) (K : RankIO), ∃ t t', flatCtor l u = .ok t ∧
          (if o.runs then t.encodeRuns pad else .ok t) = .ok t' ∧ checkFlat B L K pad o.runs u l = .ok (true, t'.sizeInBytes B L K) := by
        intro hlw B L K
        cases hruns : o.runs with
        | false =>
          obtain ⟨t, h1, h2⟩ := checkFlat_plain B L K pad hS (by omega) hu (by omega)
          exact ⟨t, t, h1, rfl, h2⟩
        | true =>
          obtain ⟨t, t', h1, h2, h3, -⟩ := checkFlat_runs_exact B L K pad hS (by omega) hu (by omega)
          exact ⟨t, t', h1, h2, h3 (by simpa only [hruns, hlw] using hc l h)⟩
      unfold checkTrie TrieSize
      rcases hrank with hr | hr <;> rw [hr]
      · cases hlw : o.levelwise with
        | true =>
          obtain ⟨t, t', h1, h2, h3⟩ := checkLevel_ok false F.bv F.v pad o.runs hS (by omega) (by omega) (by omega)
          exact ⟨_, h3, t, t', h1, h2, rfl⟩
        | false =>
          obtain ⟨t, t', h1, h2, h3⟩ := hflat hlw F.bv F.bv F.v
          exact ⟨_, h3, t, t', h1, h2, rfl⟩
      · cases hlw : o.levelwise with
        | true =>
          obtain ⟨t, t', h1, h2, h3⟩ := checkLevel_ok true (F.il (builtBlock o.block)) (F.rankIl (builtBlock o.block)) pad o.runs hS
            (by omega) (by omega) (by omega)
          exact ⟨_, h3, t, t', h1, h2, rfl⟩
        | false =>
          obtain ⟨t, t', h1, h2, h3⟩ := hflat hlw (F.il (builtBlock o.block)) F.bv (F.rankIl (builtBlock o.block))
          exact ⟨_, h3, t, t', h1, h2, rfl⟩)
  refine ⟨zs, List.forall₂_iff_get.2 ⟨e1.symm, fun j h h' => e2 j h h'⟩, ?_⟩
  rw [mainTestEncoding_options F pad hin h0 hopts ho, e3, R_bind_ok]

/-- `test_encoding c --runs t --rank il 256 --min_size 1`. -/
example : (∀ l ∈ longer 1 Ex.coll, ValidSet l 64 ∧ ∃ x ∈ l, ∃ y < 64, y / 4 = x / 4 ∧ y ∉ l) ∧
    (mainTestEncoding Ex.formats 0 (Ex.fileAt ['c'] (collectionBytes 1 64 Ex.coll))
      [['t'], ['c'], sRuns, sT, sRank, ['i', 'l'], ['2', '5', '6'], sMinSize, ['1']]).map
      (fun r => r.map fun r => (r.reported, r.nIl, r.totalElements)) = .ok (some ([], 3, 26)) := by decide +kernel

theorem queryLg_bounds (w : Nat) : 3 ≤ queryLg w ∧ queryLg w ≤ 6 := by
  unfold queryLg
  split
  · decide
  · split
    · decide
    · split <;> decide

/-- C59 (partial), `test_fastTrie`: likewise. With runs only if the member `empty_trie`, which the constructor leaves uninitialised,
happens to be false. -/
theorem C59_fast_partial (B : BvIO) (K : Nat → RankIO) (pad : Nat) (junk : Nat → FastJunk) {opts : List BuildOption}
    (hopts : ∀ o ∈ opts, o.CheckOk true) {o : BuildSettings} (ho : o = opts.foldl BuildOption.apply .default) (hr : o.rank ≠ 1)
    (hm : o.minSize < 2 ^ 32) (hj : o.runs = true → ∀ i, (junk i).emptyTrie = false)
    {one u : Nat} (hone : one < 2 ^ 32) (hu : 2 ^ (queryLg o.wsize - 1) < u) (hu' : u < 2 ^ 32) {lists : List (List Nat)}
    (hl : ∀ l ∈ lists, l.length < 2 ^ 30) (hv : ∀ l ∈ longer o.minSize lists, ValidSet l u) (hn : (longer o.minSize lists).length < 2 ^ 32)
    {fs : Files} {prog input : Str} (hin : fs input = some (collectionBytes one u lists)) :
    ∃ zs : List Nat, zs.length = (longer o.minSize lists).length ∧
      (∀ j (h : j < (longer o.minSize lists).length) (h' : j < zs.length),
        FastTrieSize B K (queryLg o.wsize) pad junk o.rank o.runs u j (longer o.minSize lists)[j] zs[j]) ∧
      mainTestFast B K pad junk fs (prog :: input :: opts.flatMap (BuildOption.words true)) =
        .ok (some ⟨[], (longer o.minSize lists).length, ((longer o.minSize lists).map List.length).sum, zs.sum % 2 ^ 64⟩) := by
  have hrank : o.rank < 3 := by
    rw [ho]
    clear * -
    suffices ∀ s : BuildSettings, s.rank < 3 → (opts.foldl BuildOption.apply s).rank < 3 from this _ (by decide)
    induction opts with
    | nil => exact fun s h => h
    | cons a l ih => exact fun s h => ih _ (by cases a <;> simp [BuildOption.apply, h])
  have hK : (if o.rank = 0 then 0 else 2) = o.rank := by split <;> omega
  obtain ⟨zs, e1, e2, e3⟩ := verifyEncode_good (check := checkFast B K (queryLg o.wsize) pad junk o.rank o.runs) hone hu' hl hm hv hn
    (P := FastTrieSize B K (queryLg o.wsize) pad junk o.rank o.runs u) (fun i l h => by
      have := hl l (mem_longer h)
      obtain ⟨t, t', h1, h2, h3⟩ := checkFast_ok B K (queryLg_bounds o.wsize) pad junk o.rank o.runs i (fun h => hj h i) (hv l h)
        (by omega) hu (by omega)
      rw [hK] at h3
      exact ⟨_, h3, t, t', h1, h2, rfl⟩)
  refine ⟨zs, e1, e2, ?_⟩
  rw [mainTestFast_options B K pad junk hin hopts ho, e3, R_bind_ok]

/-- `test_fastTrie c --runs t --wsize 8`. -/
example : (mainTestFast Ex.bvIO (fun _ => Ex.rankIO) 0 (fun _ => ⟨9, 9, 9, true, false⟩) (Ex.fileAt ['c'] (collectionBytes 1 64 Ex.coll))
      [['t'], ['c'], sRuns, sT, sWsize, ['8']]).map (fun r => r.map fun r => (r.reported, r.nIl, r.totalElements)) =
    .ok (some ([], 4, 27)) := by decide +kernel

/-- C59, flat tries with runs, exactly: `test_encoding` reports no list if it ends, and it ends iff every list has an incomplete aligned
block of four or the bits after the vector are readable. -/
theorem C59_flat_runs_exact {F : Formats} {pad : Nat} {opts : List BuildOption} (h0 : opts ≠ []) (hopts : ∀ o ∈ opts, o.CheckOk false)
    {o : BuildSettings} (ho : o = opts.foldl BuildOption.apply .default) (hruns : o.runs = true) (hlw : o.levelwise = false)
    (hm : o.minSize < 2 ^ 32) {one u : Nat} (hone : one < 2 ^ 32) (hu : 3 ≤ u) (hu' : u < 2 ^ 32) {lists : List (List Nat)}
    (hl : ∀ l ∈ lists, l.length < 2 ^ 30) (hv : ∀ l ∈ longer o.minSize lists, ValidSet l u) (hn : (longer o.minSize lists).length < 2 ^ 32)
    {fs : Files} {prog input : Str} (hin : fs input = some (collectionBytes one u lists)) :
    ((∃ r, mainTestEncoding F pad fs (prog :: input :: opts.flatMap (BuildOption.words false)) = .ok r) ↔
      ∀ l ∈ longer o.minSize lists, (∃ x ∈ l, ∃ y, y / 4 = x / 4 ∧ y ∉ l) ∨
        ∃ t t', flatCtor l u = .ok t ∧ t.encodeRuns pad = .ok t' ∧ t'.lastLevel.length ≤ pad) ∧
    ∀ r, mainTestEncoding F pad fs (prog :: input :: opts.flatMap (BuildOption.words false)) = .ok r →
      ∃ total, r = some ⟨[], (longer o.minSize lists).length, ((longer o.minSize lists).map List.length).sum, total⟩ := by
  have hx : ∀ l ∈ longer (o.minSize % 2 ^ 32) lists, ∀ x ∈ l, x < 2 ^ 32 := by
    rw [Nat.mod_eq_of_lt hm]
    exact fun l h x hx => by have := (hv l h).below x hx; omega
  have hiff := fun r => verifyEncode_iff (m := o.minSize) (check := checkTrie F pad o.rank o.block o.runs o.levelwise) hone hu' hl hx
    (by rw [Nat.mod_eq_of_lt hm]; exact hn) r
  simp only [Nat.mod_eq_of_lt hm] at hiff
  have hcheck : ∀ i, ∀ l ∈ longer o.minSize lists, ∃ z, (∀ x, checkTrie F pad o.rank o.block o.runs o.levelwise u i l = .ok x ↔
      x = (true, z) ∧ ((∃ x ∈ l, ∃ y, y / 4 = x / 4 ∧ y ∉ l) ∨
        ∃ t t', flatCtor l u = .ok t ∧ t.encodeRuns pad = .ok t' ∧ t'.lastLevel.length ≤ pad)) := by
    intro i l h
    have := hl l (mem_longer h)
    have key : ∀ (B L : BvIO) (K : RankIO), ∃ z, ∀ x, checkFlat B L K pad true u l = .ok x ↔
      x = (true, z) ∧ ((∃ x ∈ l, ∃ y, y / 4 = x / 4 ∧ y ∉ l) ∨
        ∃ t t', flatCtor l u = .ok t ∧ t.encodeRuns pad = .ok t' ∧ t'.lastLevel.length ≤ pad) := by
      intro B L K
      obtain ⟨t, t', h1, h2, h3⟩ := checkFlat_runs B L K pad (hv l h) (by omega) hu (by omega)
      refine ⟨_, fun x => (h3 x).trans (and_congr_right fun _ => or_congr_right ⟨fun h => ⟨t, t', h1, h2, h⟩, ?_⟩)⟩
      rintro ⟨s, s', g1, g2, g3⟩
      rw [h1] at g1; injection g1 with g1; subst g1
      rw [h2] at g2; injection g2 with g2; subst g2; exact g3
    rw [hruns, hlw]
    unfold checkTrie
    simp only [Bool.false_eq_true, if_false]
    split <;> exact key _ _ _
  have hmain : ∀ r, mainTestEncoding F pad fs (prog :: input :: opts.flatMap (BuildOption.words false)) = .ok r ↔
      ∃ r', verifyEncode o.minSize (checkTrie F pad o.rank o.block o.runs o.levelwise) (collectionBytes one u lists) = .ok r' ∧ r = some r' := by
    intro r
    rw [mainTestEncoding_options F pad hin h0 hopts ho]
    constructor
    · intro h
      obtain ⟨r', h1, h2⟩ := bind_ok h
      injection h2 with h2
      exact ⟨r', h1, h2.symm⟩
    · rintro ⟨r', h1, rfl⟩
      rw [h1, R_bind_ok]
  refine ⟨⟨?_, fun h => ?_⟩, fun r h => ?_⟩
  · rintro ⟨r, h⟩ l hlm
    obtain ⟨r', h', -⟩ := (hmain r).1 h
    obtain ⟨xs, e1, e2, -⟩ := (hiff r').1 h'
    obtain ⟨j, hj, rfl⟩ := List.mem_iff_getElem.1 hlm
    obtain ⟨z, hz⟩ := hcheck j _ hlm
    exact ((hz _).1 (e2 j hj (by omega))).2
  · obtain ⟨zs, -, -, e⟩ := verifyEncode_good (check := checkTrie F pad o.rank o.block o.runs o.levelwise) hone hu' hl hm hv hn
      (P := fun _ _ _ => True) (fun i l hlm => by
        obtain ⟨z, hz⟩ := hcheck i l hlm
        exact ⟨z, (hz _).2 ⟨rfl, h l hlm⟩, trivial⟩)
    exact ⟨_, (hmain _).2 ⟨_, e, rfl⟩⟩
  · obtain ⟨r', h', rfl⟩ := (hmain r).1 h
    obtain ⟨xs, e1, e2, rfl⟩ := (hiff r').1 h'
    rw [badFrom_true _ _ fun x hx => by
      obtain ⟨j, hj, rfl⟩ := List.mem_iff_getElem.1 hx
      obtain ⟨z, hz⟩ := hcheck j _ (List.getElem_mem (e1 ▸ hj))
      rw [((hz _).1 (e2 j (e1 ▸ hj) hj)).1]]
    exact ⟨_, rfl⟩

example : mainTestEncoding Ex.formats 0 (Ex.fileAt ['c'] (collectionBytes 1 8 [[0, 1, 2, 3]])) [['t'], ['c'], sRuns, sT] = .error .oob := by
  decide +kernel

/-- C59, flat tries with runs, if the trie of some list cannot be decoded: a read past the end. Otherwise C59_encoding_partial applies. -/
theorem C59_flat_runs_oob {F : Formats} {pad : Nat} {opts : List BuildOption} (h0 : opts ≠ []) (hopts : ∀ o ∈ opts, o.CheckOk false)
    {o : BuildSettings} (ho : o = opts.foldl BuildOption.apply .default)
    (hm : o.minSize < 2 ^ 32) {one u : Nat} (hone : one < 2 ^ 32) (hu : 3 ≤ u) (hu' : u < 2 ^ 32) {lists : List (List Nat)}
    (hl : ∀ l ∈ lists, l.length < 2 ^ 30) (hv : ∀ l ∈ longer o.minSize lists, ValidSet l u) (hn : (longer o.minSize lists).length < 2 ^ 32)
    (hb : ∃ l ∈ longer o.minSize lists, cannotDecode o.runs o.levelwise pad (trieHeight u) l)
    {fs : Files} {prog input : Str} (hin : fs input = some (collectionBytes one u lists)) :
    mainTestEncoding F pad fs (prog :: input :: opts.flatMap (BuildOption.words false)) = .error .oob := by
  obtain ⟨hruns, hlw⟩ : o.runs = true ∧ o.levelwise = false := ⟨hb.choose_spec.2.1, hb.choose_spec.2.2.1⟩
  rw [hruns, hlw] at hb
  rw [mainTestEncoding_options F pad hin h0 hopts ho, verifyEncode_oob (check := checkTrie F pad o.rank o.block o.runs o.levelwise)
    (Bad := cannotDecode true false pad (trieHeight u)) hone hu' hl hm hv hn (fun i l h => ?_) hb]
  · rfl
  · have key : ∀ (B L : BvIO) (K : RankIO), (¬ cannotDecode true false pad (trieHeight u) l → ∃ x, checkFlat B L K pad true u l = .ok x) ∧
        (cannotDecode true false pad (trieHeight u) l → checkFlat B L K pad true u l = .error .oob) := by
      intro B L K
      have := hl l (mem_longer h)
      obtain ⟨t, t', -, -, h3, h4⟩ := checkFlat_runs_exact B L K pad (hv l h) (by omega) hu (by omega)
      exact ⟨fun h => ⟨_, h3 h⟩, h4⟩
    rw [hruns, hlw]
    unfold checkTrie
    simp only [Bool.false_eq_true, if_false]
    split <;> exact key _ _ _

example : cannotDecode true false 3 4 [0, 1, 2, 3, 12, 13, 14, 15] ∧
    mainTestEncoding Ex.formats 3 (Ex.fileAt ['c'] (collectionBytes 1 16 [[5], [0, 1, 2, 3, 12, 13, 14, 15]])) [['t'], ['c'], sRuns, sT] =
      .error .oob :=
  ⟨⟨rfl, rfl, 2, 3, by decide +kernel, by decide +kernel, by decide +kernel⟩, by decide +kernel⟩

/-- C59 is false of flat tries with runs: reading the trie of `{0, 1, 2, 3}`, the program reads out of bounds. -/
theorem C59_flat_runs_negation : ¬ ∀ (l : List Nat) (u : Nat), ValidSet l u → 3 ≤ u → u < 2 ^ 32 →
    ∃ r, mainTestEncoding Ex.formats 0 (Ex.fileAt ['c'] (collectionBytes 1 u [l])) [['t'], ['c'], sRuns, sT] = .ok r := by
  intro h
  obtain ⟨r, h⟩ := h [0, 1, 2, 3] 8 (by decide +kernel) (by decide) (by decide)
  have e : mainTestEncoding Ex.formats 0 (Ex.fileAt ['c'] (collectionBytes 1 8 [[0, 1, 2, 3]])) [['t'], ['c'], sRuns, sT] = .error .oob := by
    decide +kernel
  rw [e] at h
  cases h

/-- C59, fast tries with runs, exactly: complaints are about the lists in whose tries the unwritten member `empty_trie` happens to be
true. With `rank_support_v` the program then prints elements that do not exist. -/
theorem C59_fast_runs_exact (B : BvIO) (K : Nat → RankIO) (pad : Nat) (junk : Nat → FastJunk) {opts : List BuildOption}
    (hopts : ∀ o ∈ opts, o.CheckOk true) {o : BuildSettings} (ho : o = opts.foldl BuildOption.apply .default) (hruns : o.runs = true)
    (hm : o.minSize < 2 ^ 32)
    {one u : Nat} (hone : one < 2 ^ 32) (hu : 2 ^ (queryLg o.wsize - 1) < u) (hu' : u < 2 ^ 32) {lists : List (List Nat)}
    (hl : ∀ l ∈ lists, l.length < 2 ^ 30) (hv : ∀ l ∈ longer o.minSize lists, ValidSet l u) (hn : (longer o.minSize lists).length < 2 ^ 32)
    {fs : Files} {prog input : Str} (hin : fs input = some (collectionBytes one u lists)) :
    ((∃ r, mainTestFast B K pad junk fs (prog :: input :: opts.flatMap (BuildOption.words true)) = .ok r) ↔
      (o.rank = 0 → ∀ j < (longer o.minSize lists).length, (junk j).emptyTrie = false)) ∧
    ∀ r, mainTestFast B K pad junk fs (prog :: input :: opts.flatMap (BuildOption.words true)) = .ok r →
      ∃ total, r = some ⟨(List.range (longer o.minSize lists).length).filter fun j => (junk j).emptyTrie,
        (longer o.minSize lists).length, ((longer o.minSize lists).map List.length).sum, total⟩ := by
  have hx : ∀ l ∈ longer (o.minSize % 2 ^ 32) lists, ∀ x ∈ l, x < 2 ^ 32 := by
    rw [Nat.mod_eq_of_lt hm]
    exact fun l h x hx => by have := (hv l h).below x hx; omega
  have hiff := fun r => verifyEncode_iff (m := o.minSize) (check := checkFast B K (queryLg o.wsize) pad junk o.rank o.runs) hone hu' hl hx
    (by rw [Nat.mod_eq_of_lt hm]; exact hn) r
  simp only [Nat.mod_eq_of_lt hm] at hiff
  have hcheck : ∀ i, ∀ l ∈ longer o.minSize lists, ∃ z, checkFast B K (queryLg o.wsize) pad junk o.rank o.runs u i l =
      if (junk i).emptyTrie = true ∧ o.rank = 0 then .error .oob else .ok (!(junk i).emptyTrie, z) := by
    intro i l h
    have := hl l (mem_longer h)
    rw [hruns]
    exact checkFast_runs B K (queryLg_bounds o.wsize) pad junk o.rank i (hv l h) (by omega) hu (by omega)
  have hmain : ∀ r, mainTestFast B K pad junk fs (prog :: input :: opts.flatMap (BuildOption.words true)) = .ok r ↔
      ∃ r', verifyEncode o.minSize (checkFast B K (queryLg o.wsize) pad junk o.rank o.runs) (collectionBytes one u lists) = .ok r' ∧
        r = some r' := by
    intro r
    rw [mainTestFast_options B K pad junk hin hopts ho]
    constructor
    · intro h
      obtain ⟨r', h1, h2⟩ := bind_ok h
      injection h2 with h2
      exact ⟨r', h1, h2.symm⟩
    · rintro ⟨r', h1, rfl⟩
      rw [h1, R_bind_ok]
  refine ⟨⟨?_, fun h => ?_⟩, fun r h => ?_⟩
  · rintro ⟨r, h⟩ h0 j hj
    obtain ⟨r', h', -⟩ := (hmain r).1 h
    obtain ⟨xs, e1, e2, -⟩ := (hiff r').1 h'
    obtain ⟨z, hz⟩ := hcheck j _ (List.getElem_mem hj)
    have := e2 j hj (by omega)
    rw [hz] at this
    cases hE : (junk j).emptyTrie with
    | false => rfl
    | true => rw [if_pos ⟨hE, h0⟩] at this; cases this
  · have key : ∀ j, ∃ z, ∀ hj : j < (longer o.minSize lists).length,
        checkFast B K (queryLg o.wsize) pad junk o.rank o.runs u j (longer o.minSize lists)[j] = .ok (!(junk j).emptyTrie, z) := by
      intro j
      by_cases hj : j < (longer o.minSize lists).length
      · obtain ⟨z, hz⟩ := hcheck j _ (List.getElem_mem hj)
        refine ⟨z, fun _ => ?_⟩
        rw [hz, if_neg]
        rintro ⟨g1, g2⟩
        rw [h g2 j hj] at g1; cases g1
      · exact ⟨0, fun hj' => absurd hj' hj⟩
    choose z hz using key
    exact ⟨_, (hmain _).2 ⟨_, (hiff _).2 ⟨(List.range (longer o.minSize lists).length).map fun j => (!(junk j).emptyTrie, z j), by simp,
      fun j h h' => by simpa using hz j h, rfl⟩, rfl⟩⟩
  · obtain ⟨r', h', rfl⟩ := (hmain r).1 h
    obtain ⟨xs, e1, e2, rfl⟩ := (hiff r').1 h'
    refine ⟨(xs.map Prod.snd).sum % 2 ^ 64, congrArg _ ?_⟩
    rw [badFrom_eq 0 xs (fun j => (junk j).emptyTrie), e1]
    · simp
    · intro j hj
      obtain ⟨z, hz⟩ := hcheck j _ (List.getElem_mem (e1 ▸ hj))
      have := e2 j (e1 ▸ hj) hj
      rw [hz] at this
      split at this
      · cases this
      · injection this with this
        rw [← this, Nat.zero_add]

/-- `test_fastTrie c --runs t --rank v5`, the second of three tries with `empty_trie`. -/
example : (mainTestFast Ex.bvIO (fun _ => Ex.rankIO) 0 (fun i => ⟨9, 9, 9, false, decide (i = 1)⟩)
      (Ex.fileAt ['c'] (collectionBytes 1 64 [[1], [2, 3], [4]])) [['t'], ['c'], sRuns, sT, sRank, ['v', '5']]).map
    (fun r => r.map fun r => (r.reported, r.nIl, r.totalElements)) = .ok (some ([1], 3, 4)) := by decide +kernel

/-- C59 is false of fast tries with runs if `empty_trie`, which the constructor leaves uninitialised, happens to be true: a list is
reported though its trie is right, or, with `rank_support_v`, elements that do not exist are printed. -/
theorem C59_fast_runs_negation :
    (mainTestFast Ex.bvIO (fun _ => Ex.rankIO) 0 (fun _ => ⟨9, 9, 9, false, true⟩) (Ex.fileAt ['c'] (collectionBytes 1 64 [[1]]))
      [['t'], ['c'], sRuns, sT, sRank, ['v', '5']]).map (fun r => r.map fun r => r.reported) = .ok (some [0]) ∧
    mainTestFast Ex.bvIO (fun _ => Ex.rankIO) 0 (fun _ => ⟨9, 9, 9, false, true⟩) (Ex.fileAt ['c'] (collectionBytes 1 64 [[1]]))
      [['t'], ['c'], sRuns, sT] = .error .oob := by decide +kernel

/-- C59 is false of `test_encoding` without options, which are optional according to its usage message: nothing is checked. -/
theorem C59_no_options_negation (F : Formats) (pad : Nat) (fs : Files) (prog input : Str) :
    mainTestEncoding F pad fs [prog, input] = .ok none := rfl

/-! ## C60: what is checked is what was asked for -/

theorem checkOk_snoc {fast : Bool} {opts : List BuildOption} (h : ∀ o ∈ opts, o.CheckOk fast) {a : BuildOption} (ha : a.CheckOk fast) :
    ∀ x ∈ opts ++ [a], x.CheckOk fast := by
  intro x hx
  rcases List.mem_append.1 hx with h' | h'
  · exact h x h'
  · rw [List.mem_singleton.1 h']; exact ha

/-- C60 is false of `--rank v5`: `test_encoding` does exactly what it does for `--rank il` with the block size given before, or 512. -/
theorem C60_rank_v5_negation (F : Formats) (pad : Nat) {opts : List BuildOption} (hopts : ∀ o ∈ opts, o.CheckOk false)
    {b : Nat} (hb : b = (opts.foldl BuildOption.apply .default).block) (hb' : b < 2 ^ 31) (fs : Files) (prog input : Str) :
    mainTestEncoding F pad fs (prog :: input :: (opts ++ [BuildOption.rankV5]).flatMap (BuildOption.words false)) =
      mainTestEncoding F pad fs (prog :: input :: (opts ++ [BuildOption.rankIl b]).flatMap (BuildOption.words false)) := by
  rw [mainTestEncoding_any F pad fs prog input (by simp) (checkOk_snoc hopts (a := .rankV5) trivial) rfl,
    mainTestEncoding_any F pad fs prog input (by simp) (checkOk_snoc hopts (a := .rankIl b) hb') rfl]
  simp only [List.foldl_append, List.foldl_cons, List.foldl_nil, BuildOption.apply, ← hb]
  rfl

/-- C60 is false of `--rank il`: `test_fastTrie` does exactly what it does for `--rank v5`. -/
theorem C60_fast_rank_il_negation (B : BvIO) (K : Nat → RankIO) (pad : Nat) (junk : Nat → FastJunk) {opts : List BuildOption}
    (hopts : ∀ o ∈ opts, o.CheckOk true) {b : Nat} (hb : b < 2 ^ 31) (fs : Files) (prog input : Str) :
    mainTestFast B K pad junk fs (prog :: input :: (opts ++ [BuildOption.rankIl b]).flatMap (BuildOption.words true)) =
      mainTestFast B K pad junk fs (prog :: input :: (opts ++ [BuildOption.rankV5]).flatMap (BuildOption.words true)) := by
  rw [mainTestFast_any B K pad junk fs prog input (checkOk_snoc hopts (a := .rankIl b) hb) rfl,
    mainTestFast_any B K pad junk fs prog input (checkOk_snoc hopts (a := .rankV5) trivial) rfl]
  have e : ∀ lg runs, checkFast B K lg pad junk 1 runs = checkFast B K lg pad junk 2 runs := by
    intro lg runs
    funext u i il
    simp [checkFast]
  simp only [List.foldl_append, List.foldl_cons, List.foldl_nil, BuildOption.apply, e]

/-- C60 is false of `--min_size` for sizes of more than 32 bits: both programs do exactly what they do for the size modulo `2^32`. -/
theorem C60_min_size_negation (F : Formats) (B : BvIO) (K : Nat → RankIO) (pad : Nat) (junk : Nat → FastJunk) (opts : List BuildOption)
    {n : Nat} (hn : n < 2 ^ 64) (fs : Files) (prog input : Str) :
    ((∀ o ∈ opts, o.CheckOk false) →
      mainTestEncoding F pad fs (prog :: input :: (opts ++ [BuildOption.minSize n]).flatMap (BuildOption.words false)) =
        mainTestEncoding F pad fs (prog :: input :: (opts ++ [BuildOption.minSize (n % 2 ^ 32)]).flatMap (BuildOption.words false))) ∧
    ((∀ o ∈ opts, o.CheckOk true) →
      mainTestFast B K pad junk fs (prog :: input :: (opts ++ [BuildOption.minSize n]).flatMap (BuildOption.words true)) =
        mainTestFast B K pad junk fs (prog :: input :: (opts ++ [BuildOption.minSize (n % 2 ^ 32)]).flatMap (BuildOption.words true))) := by
  have hn' : n % 2 ^ 32 < 2 ^ 64 := by omega
  have hv : ∀ check s, verifyEncode n check s = verifyEncode (n % 2 ^ 32) check s := by
    intro check s
    rw [verifyEncode, verifyEncode, Nat.mod_mod]
  constructor
  · intro h
    rw [mainTestEncoding_any F pad fs prog input (by simp) (checkOk_snoc h (a := .minSize n) hn) rfl,
      mainTestEncoding_any F pad fs prog input (by simp) (checkOk_snoc h (a := .minSize (n % 2 ^ 32)) hn') rfl]
    simp only [List.foldl_append, List.foldl_cons, List.foldl_nil, BuildOption.apply, hv]
  · intro h
    rw [mainTestFast_any B K pad junk fs prog input (checkOk_snoc h (a := .minSize n) hn) rfl,
      mainTestFast_any B K pad junk fs prog input (checkOk_snoc h (a := .minSize (n % 2 ^ 32)) hn') rfl]
    simp only [List.foldl_append, List.foldl_cons, List.foldl_nil, BuildOption.apply, hv]

/-- C60, a witness: no list of the collection has more than `2^32` elements, but four are checked. -/
theorem C60_min_size_witness_negation : longer (2 ^ 32) Ex.coll = [] ∧
    (mainTestEncoding Ex.formats 0 (Ex.fileAt ['c'] (collectionBytes 1 64 Ex.coll))
      [['t'], ['c'], sMinSize, ['4', '2', '9', '4', '9', '6', '7', '2', '9', '6']]).map (fun r => r.map fun r => r.nIl) = .ok (some 4) := by
  decide +kernel

/-- A rank support that stores one byte. -/
def Ex.widerRankIO : RankIO where
  K := Unit
  of _ := ()
  write _ := [0]
  read s := match s with
    | [] => .error .eof
    | _ :: s => .ok ((), s)
  query _ v i := rank1 v i
  roundTrip _ _ _ := rfl
  query_of _ _ := rfl

/-- Formats in which `rank_support_v5` is larger than the interleaved one. -/
def Ex.widerFormats : Formats := { Ex.formats with v5 := Ex.widerRankIO }

/-- C60, a witness: the size printed is not that of the tries asked for. -/
theorem C60_rank_v5_size_negation : ∃ l, ValidSet l 16 ∧ ∃ total,
    mainTestEncoding Ex.widerFormats 0 (Ex.fileAt ['c'] (collectionBytes 1 16 [l])) [['t'], ['c'], sRank, ['v', '5']] =
      .ok (some ⟨[], 1, l.length, total⟩) ∧ ∀ z, TrieSize Ex.widerFormats 0 2 512 false false 16 l z → total ≠ z % 2 ^ 64 := by
  have hc : flatCtor [1, 5] 16 = .ok ⟨4, 0, false, false, [true, false, true, true, true, false, true, false], [false, true, false, true]⟩ := by
    decide +kernel
  refine ⟨[1, 5], by decide +kernel, 32, by decide +kernel, ?_⟩
  rintro z ⟨t, t', h1, h2, h3⟩
  rw [hc] at h1
  injection h1 with h1
  subst h1
  injection h2 with h2
  subst h2
  subst h3
  decide +kernel

/-! ## C61: the verdict of `test_intersection` -/

theorem stoiU64_decimal {w : Str} {n : Nat} (h : Decimal w n) : stoiU64 w = if n < 2 ^ 31 then .ok n else .error .exc := by
  rw [stoiU64, scanNumber_decimal h]

/-- C61 (partial), exactly: on every file that `build_tries` makes of a valid collection, with any rank support, layout and run encoding,
up to the first query about a set whose trie cannot be decoded (`qs2`), `test_intersection` complains about the first query for which the
answer of `intersection_query_log`, in parallel on the same threads, is not the intersection, prints the sizes and the first ten differences,
and otherwise counts the queries of at most 16 sets. Without a complaint before it, that query is a read past the end, however many sets it
has. Missing, because false: unknown sets, and empty logs and queries. -/
theorem C61_exact_partial (F : Formats) (pad : Nat) {mn mx rank block : Nat} {runs levelwise : Bool} (hr : rank < 2 ^ 32)
    (hbl : block < 2 ^ 32) (hs : Supported rank block levelwise)
    {one u : Nat} (hone : one < 2 ^ 32) (hu : 3 ≤ u) (hu' : u < 2 ^ 32) {lists : List (List Nat)}
    (hl : ∀ l ∈ lists, l.length < 2 ^ 30) (hv : ∀ l ∈ kept mn mx lists, ValidSet l u) (hn : (kept mn mx lists).length < 2 ^ 32)
    {sort : List (List Nat) → List (List Nat)} (hsort : ∀ S, SortedBySize S (sort S))
    (env : Nat → Env) (hw : ∀ i, (env i).hw ≠ 0 ∧ (env i).hw < 2 ^ 16)
    {text : Str} {qs1 qs2 : List (List Nat)} (ht : LogText text (qs1 ++ qs2)) (hq : qs1 ++ qs2 ≠ []) (hq0 : ∀ q ∈ qs1 ++ qs2, q ≠ [])
    (hq1 : ∀ q ∈ qs1 ++ qs2, ∀ i ∈ q, i < (kept mn mx lists).length ∧ i < 2 ^ 31)
    (hq2 : ∀ q ∈ qs1, ∀ i ∈ q, ¬ cannotDecode runs levelwise pad (trieHeight u) ((kept mn mx lists).getD i [])) :
    ∃ f as o, buildTries F pad true mn mx rank block runs levelwise (collectionBytes one u lists) = .ok f ∧
      queryLog F pad true env qs1 f = .ok as ∧ Verdict (kept mn mx lists) 0 qs1 as o.complaint o.nq ∧
      ∀ (fs : Files) (texts : Str → Option Str) (prog file log : Str) (rest : List Str), fs file = some f → texts log = some text →
        (o.complaint ≠ none ∨ qs2 = [] → mainTestIntersection F pad sort env fs texts (prog :: file :: log :: rest) = .ok (some o)) ∧
        (o.complaint = none →
          (∃ q qs, qs2 = q :: qs ∧ ∃ i ∈ q, cannotDecode runs levelwise pad (trieHeight u) ((kept mn mx lists).getD i [])) →
          mainTestIntersection F pad sort env fs texts (prog :: file :: log :: rest) = .error .oob) := by
  have hh : 2 ≤ trieHeight u := by
    have : 1 ≤ Nat.log2 (u - 1) := (Nat.le_log2 (by omega)).2 (by omega)
    rw [trieHeight]; omega
  obtain ⟨f, as, o, h1, h2, h3, h4, h5⟩ := testIntersection_exact F pad hr hbl hs hone hu hu' hl hv hn hsort env
    (fun sets Ts i h1 h3 h4 => by
      cases runs with
      | false =>
        obtain ⟨R, e, -, e'⟩ := C11_parallel_plain hh (h1.imp fun _ _ h => h.uncoded) h3 h4 (env i) (env i) (hw i).1 (hw i).2 (hw i).1
        exact ⟨R, e, fun x hx S hS => (e'.mem x).1 hx S hS, e'.increasing.imp fun h => Nat.ne_of_lt h⟩
      | true => exact C14_parallel_runs_sound hh (h1.imp fun _ _ h => h.runs) h3 h4 (env i) (hw i).1 (hw i).2)
    hq hq0 (fun q h i hi => (hq1 q h i hi).1) hq2
  refine ⟨f, as, o, h1, h2, h3, fun fs texts prog file log rest hf hlog => ?_⟩
  have e1 : argGet (prog :: file :: log :: rest) 1 = .ok file := rfl
  have e2 : argGet (prog :: file :: log :: rest) 2 = .ok log := rfl
  have e : mainTestIntersection F pad sort env fs texts (prog :: file :: log :: rest) =
      testIntersection F pad sort env (qs1 ++ qs2) f >>= fun o => .ok (some o) := by
    rw [mainTestIntersection, if_neg (by simp), e1, R_bind_ok, e2, R_bind_ok, hlog, loadQueryLog_text (fun _ _ => stoiU64_decimal) ht,
      if_pos (fun q h i hi => (hq1 q h i hi).2), R_bind_ok, hf]
  rw [e]
  exact ⟨fun h => by rw [h4 h]; rfl, fun h h' => by rw [h5 h h']; rfl⟩

/-- C61 (partial), if the tries of all sets asked about can be decoded. -/
theorem C61_verdict_partial (F : Formats) (pad : Nat) {mn mx rank block : Nat} {runs levelwise : Bool} (hr : rank < 2 ^ 32)
    (hbl : block < 2 ^ 32) (hs : Supported rank block levelwise)
    {one u : Nat} (hone : one < 2 ^ 32) (hu : 3 ≤ u) (hu' : u < 2 ^ 32) {lists : List (List Nat)}
    (hl : ∀ l ∈ lists, l.length < 2 ^ 30) (hv : ∀ l ∈ kept mn mx lists, ValidSet l u) (hn : (kept mn mx lists).length < 2 ^ 32)
    {sort : List (List Nat) → List (List Nat)} (hsort : ∀ S, SortedBySize S (sort S))
    (env : Nat → Env) (hw : ∀ i, (env i).hw ≠ 0 ∧ (env i).hw < 2 ^ 16)
    {text : Str} {queries : List (List Nat)} (ht : LogText text queries) (hq : queries ≠ []) (hq0 : ∀ q ∈ queries, q ≠ [])
    (hq1 : ∀ q ∈ queries, ∀ i ∈ q, i < (kept mn mx lists).length ∧ i < 2 ^ 31)
    (hq2 : ∀ q ∈ queries, ∀ i ∈ q, ¬ cannotDecode runs levelwise pad (trieHeight u) ((kept mn mx lists).getD i [])) :
    ∃ f as, buildTries F pad true mn mx rank block runs levelwise (collectionBytes one u lists) = .ok f ∧
      queryLog F pad true env queries f = .ok as ∧
      ∀ (fs : Files) (texts : Str → Option Str) (prog file log : Str) (rest : List Str), fs file = some f → texts log = some text →
        ∃ o, mainTestIntersection F pad sort env fs texts (prog :: file :: log :: rest) = .ok (some o) ∧
          Verdict (kept mn mx lists) 0 queries as o.complaint o.nq := by
  obtain ⟨f, as, o, h1, h2, h3, h4⟩ := C61_exact_partial F pad hr hbl hs hone hu hu' hl hv hn hsort env hw (qs1 := queries) (qs2 := [])
    (by rwa [List.append_nil]) (by rwa [List.append_nil]) (by rwa [List.append_nil]) (by rwa [List.append_nil]) hq2
  exact ⟨f, as, h1, h2, fun fs texts prog file log rest hf hlog => ⟨o, (h4 fs texts prog file log rest hf hlog).1 (.inr rfl), h3⟩⟩

/-- C61 (partial), without runs: no complaint, and all queries of at most 16 sets are counted. -/
theorem C61_plain_partial (F : Formats) (pad : Nat) {mn mx rank block : Nat} {levelwise : Bool} (hr : rank < 2 ^ 32)
    (hbl : block < 2 ^ 32) (hs : Supported rank block levelwise)
    {one u : Nat} (hone : one < 2 ^ 32) (hu : 3 ≤ u) (hu' : u < 2 ^ 32) {lists : List (List Nat)}
    (hl : ∀ l ∈ lists, l.length < 2 ^ 30) (hv : ∀ l ∈ kept mn mx lists, ValidSet l u) (hn : (kept mn mx lists).length < 2 ^ 32)
    {sort : List (List Nat) → List (List Nat)} (hsort : ∀ S, SortedBySize S (sort S))
    (env : Nat → Env) (hw : ∀ i, (env i).hw ≠ 0 ∧ (env i).hw < 2 ^ 16)
    {text : Str} {queries : List (List Nat)} (ht : LogText text queries) (hq : queries ≠ []) (hq0 : ∀ q ∈ queries, q ≠ [])
    (hq1 : ∀ q ∈ queries, ∀ i ∈ q, i < (kept mn mx lists).length ∧ i < 2 ^ 31) :
    ∃ f, buildTries F pad true mn mx rank block false levelwise (collectionBytes one u lists) = .ok f ∧
      ∀ (fs : Files) (texts : Str → Option Str) (prog file log : Str) (rest : List Str), fs file = some f → texts log = some text →
        mainTestIntersection F pad sort env fs texts (prog :: file :: log :: rest) =
          .ok (some ⟨none, (queries.filter fun q => decide (q.length ≤ 16)).length⟩) := by
  obtain ⟨f, as, h1, h2, h3⟩ := C61_verdict_partial F pad hr hbl hs hone hu hu' hl hv hn (runs := false) hsort env hw
    ht hq hq0 hq1 (fun _ _ _ _ h => nomatch h.1)
  obtain ⟨f', as', g1, g2, g3⟩ := C43_tries_parallel_plain_partial F pad hr hbl levelwise hs hone hu hu' hl hv hn env hw hq0
    (fun q h i hi => (hq1 q h i hi).1)
  rw [h1] at g1; injection g1 with g1; subst g1
  rw [h2] at g2; injection g2 with g2; subst g2
  refine ⟨f, h1, fun fs texts prog file log rest hf hlog => ?_⟩
  obtain ⟨⟨m, n⟩, e, hvd⟩ := h3 fs texts prog file log rest hf hlog
  obtain ⟨c1, c2⟩ := verdict_none hvd
  have hm := c1.2 g3
  have hn := c2 hm
  rw [e]
  cases m with
  | some m => cases hm
  | none => rw [Nat.zero_add] at hn; simp only at hn; rw [hn]

/-- Insertion sort by length. -/
def Ex.sortSets (S : List (List Nat)) : List (List Nat) := S.insertionSort fun a b => a.length ≤ b.length

theorem Ex.sortSets_ok (S : List (List Nat)) : SortedBySize S (Ex.sortSets S) := by
  have : Std.Total fun a b : List Nat => a.length ≤ b.length := ⟨fun a b => Nat.le_total a.length b.length⟩
  have : IsTrans (List Nat) fun a b => a.length ≤ b.length := ⟨fun _ _ _ h h' => Nat.le_trans h h'⟩
  exact ⟨List.perm_insertionSort _ S, List.pairwise_insertionSort _ S⟩

/-- `build_tries c --levelwise t`, then `test_intersection f q`: two queries are counted. -/
example : (buildTries Ex.formats 0 true 1 100 0 512 false true (collectionBytes 1 64 Ex.coll) >>= fun f =>
    mainTestIntersection Ex.formats 0 Ex.sortSets (fun _ => ⟨4, [], []⟩) (Ex.fileAt ['f'] f)
      (fun n => if n = ['q'] then some ['1', ' ', '0', '\n', '2', ' ', '0', '\n'] else none) [['t'], ['f'], ['q']]) =
    .ok (some ⟨none, 2⟩) := by decide +kernel

/-- With runs the answer to the second query is wrong (`C43_tries_parallel_runs_negation`), and it is complained about. -/
example : (buildTries Ex.formats 0 true 1 100 0 512 true true (collectionBytes 1 64 Ex.coll) >>= fun f =>
    mainTestIntersection Ex.formats 0 Ex.sortSets (fun _ => ⟨4, [], []⟩) (Ex.fileAt ['f'] f)
      (fun n => if n = ['q'] then some ['1', ' ', '0', '\n', '2', ' ', '0', '\n'] else none) [['t'], ['f'], ['q']]) =
    .ok (some ⟨some ⟨1, 1, 3, [(0, 31, 3)]⟩, 1⟩) := by decide +kernel

/-- C61 is false of unknown sets, even in queries of more than 16 sets, which are not answered, and of empty logs. -/
theorem C61_queries_negation :
    (buildTries Ex.formats 0 true 1 100 0 512 false true (collectionBytes 1 64 Ex.coll) >>= fun f =>
      testIntersection Ex.formats 0 Ex.sortSets (fun _ => ⟨4, [], []⟩) [[1, 0], [2, 7]] f) = .error .null ∧
    (buildTries Ex.formats 0 true 1 100 0 512 false true (collectionBytes 1 64 Ex.coll) >>= fun f =>
      testIntersection Ex.formats 0 Ex.sortSets (fun _ => ⟨4, [], []⟩) [[1, 0], List.replicate 17 7] f) = .error .null ∧
    (buildTries Ex.formats 0 true 1 100 0 512 false true (collectionBytes 1 64 Ex.coll) >>= fun f =>
      testIntersection Ex.formats 0 Ex.sortSets (fun _ => ⟨4, [], []⟩) [] f) = .error .oob := by decide +kernel

/-- C61 is false of logs with a minus sign: `-1` is read as the number 2^64 - 1, and there is no such set. -/
theorem C61_minus_negation :
    (buildTries Ex.formats 0 true 1 100 0 512 false true (collectionBytes 1 64 Ex.coll) >>= fun f =>
      mainTestIntersection Ex.formats 0 Ex.sortSets (fun _ => ⟨4, [], []⟩) (Ex.fileAt ['f'] f)
        (fun n => if n = ['q'] then some ['-', '1', ' ', '0', '\n'] else none) [['t'], ['f'], ['q']]) = .error .null ∧
    stoiU64 ['-', '1'] = .ok (2 ^ 64 - 1) := by decide +kernel

/-- C61 is false of files whose flat tries run encoding makes unreadable: here the only set is `{0, 1, 2, 3}`. -/
theorem C61_flat_runs_negation :
    (buildTries Ex.formats 0 true 0 100 0 512 true false (collectionBytes 1 8 [[0, 1, 2, 3]]) >>= fun f =>
      testIntersection Ex.formats 0 Ex.sortSets (fun _ => ⟨1, [], []⟩) [[0]] f) = .error .oob := by decide +kernel

/-- `C61_exact_partial`: with runs and flat tries the first of two sets can be decoded. The answer to the query about it is correct, and the next
query is a read past the end. -/
example : (buildTries Ex.formats 0 true 0 100 0 512 true false (collectionBytes 1 8 [[0, 1, 2, 3, 4], [0, 1, 2, 3]]) >>= fun f =>
      testIntersection Ex.formats 0 Ex.sortSets (fun _ => ⟨1, [], []⟩) [[0, 0], [1]] f) = .error .oob ∧
    (buildTries Ex.formats 0 true 0 100 0 512 true false (collectionBytes 1 8 [[0, 1, 2, 3, 4], [0, 1, 2, 3]]) >>= fun f =>
      testIntersection Ex.formats 0 Ex.sortSets (fun _ => ⟨1, [], []⟩) [[0, 0]] f) = .ok ⟨none, 1⟩ ∧
    cannotDecode true false 0 3 [0, 1, 2, 3] :=
  ⟨by decide +kernel, by decide +kernel, rfl, rfl, 2, 0, by decide +kernel, by decide +kernel, by decide +kernel⟩

/-- C61 is false of `binTrie_il`: `build_tries` does not write such files (`C43_tries_level_il_negation`), and if another program does,
the first query uses a null pointer. -/
theorem C61_level_il_negation :
    testIntersection Ex.formats 0 Ex.sortSets (fun _ => ⟨4, [], []⟩) [[0]] (triesFileHeader 1 512 false true ++ (leBytes 4 1 ++
      (leBytes 4 1 ++ (leBytes 4 16 ++ (Ex.level.serialize (Ex.formats.il 512) (Ex.formats.rankIl 512)).1)))) = .error .null ∧
    testIntersection Ex.formats 0 Ex.sortSets (fun _ => ⟨4, [], []⟩) [[0]] (triesFileHeader 0 512 false true ++ (leBytes 4 1 ++
      (leBytes 4 1 ++ (leBytes 4 16 ++ (Ex.level.serialize Ex.formats.bv (Ex.formats.rank 0)).1)))) = .ok ⟨none, 1⟩ := by
  decide +kernel

/-! ## C62: `test_intersection_fastTrie` -/

/-- C62 (partial): on a file of 64-bit tries made by `build_fastTries` from which the two bytes with the word size are removed,
`test_intersection_fastTrie` complains about the first query for which the answer of `intersection_querylog_fastTrie`, in parallel on the same
threads, is not the intersection, and otherwise counts the queries of at most 16 sets. With runs only if the uninitialised member
`empty_trie` of every trie happens to be false. -/
theorem C62_without_word_size_partial (B : BvIO) (K : Nat → RankIO) (pad : Nat) (junk junk' : Nat → FastJunk)
    (hj : ∀ i, (junk i).heightWithRuns < 2 ^ 16) {mn mx rank : Nat} (hr : rank < 2 ^ 32) (hr1 : rank ≠ 1) (runs levelwise : Bool)
    (hje : runs = true → ∀ i, (junk i).emptyTrie = false)
    {one u : Nat} (hone : one < 2 ^ 32) (hu : 2 ^ 6 < u) (hu' : u < 2 ^ 32) {lists : List (List Nat)}
    (hl : ∀ l ∈ lists, l.length < 2 ^ 30) (hv : ∀ l ∈ kept mn mx lists, ValidSet l u) (hn : (kept mn mx lists).length < 2 ^ 32)
    {sort : List (List Nat) → List (List Nat)} (hsort : ∀ S, SortedBySize S (sort S))
    (env : Nat → Env) (hw : ∀ i, (env i).hw ≠ 0 ∧ (env i).hw < 2 ^ 16)
    {text : Str} {queries : List (List Nat)} (ht : LogText text queries) (hq : queries ≠ []) (hq0 : ∀ q ∈ queries, q ≠ [])
    (hq1 : ∀ q ∈ queries, ∀ i ∈ q, i < (kept mn mx lists).length ∧ i < 2 ^ 31) :
    ∃ f as, buildFast B K pad junk mn mx rank runs levelwise 64 (collectionBytes one u lists) = .ok (some f) ∧
      queryFast B K pad junk' true env queries f = .ok as ∧
      ∀ (fs : Files) (texts : Str → Option Str) (prog file log : Str) (rest : List Str), fs file = some (f.take 6 ++ f.drop 8) →
        texts log = some text →
        ∃ o, mainTestIntersectionFast B K pad junk' sort env fs texts (prog :: file :: log :: rest) = .ok (some o) ∧
          Verdict (kept mn mx lists) 0 queries as o.complaint o.nq := by
  have hh : 2 ≤ fastHeight 6 u := by
    have : 6 ≤ Nat.log2 (u - 1) := (Nat.le_log2 (by omega)).2 (by omega)
    rw [fastHeight]; omega
  obtain ⟨body, as, o, h1, h2, h3, h4⟩ := testIntersectionFast_ok B K pad junk junk' hj hr hr1 runs levelwise hje hone (by omega) hu' hl hv hn
    hsort env
    (fun sets Ts i h1 h3 h4 => by
      cases runs with
      | false =>
        obtain ⟨R, e, -, e'⟩ := C13_fast_parallel_plain (by decide) hh (h1.imp fun _ _ h => h.uncoded) h3 h4 (env i) (env i) (hw i).1
          (hw i).2 (hw i).1
        exact ⟨R, e, fun x hx S hS => (e'.mem x).1 hx S hS, e'.increasing.imp fun h => Nat.ne_of_lt h⟩
      | true => exact C14_fast_parallel_runs_sound (by decide) hh (h1.imp fun _ _ h => h.toRuns) h3 h4 (env i) (hw i).1 (hw i).2)
    hq hq0 (fun q h i hi => (hq1 q h i hi).1)
  refine ⟨_, as, h1, h2, fun fs texts prog file log rest hf hlog => ⟨o, ?_, h4⟩⟩
  have e1 : argGet (prog :: file :: log :: rest) 1 = .ok file := rfl
  have e2 : argGet (prog :: file :: log :: rest) 2 = .ok log := rfl
  have e3 : (fastFileHeader rank runs levelwise 64 ++ body).take 6 ++ (fastFileHeader rank runs levelwise 64 ++ body).drop 8 =
      leBytes 4 rank ++ boolByte runs ++ boolByte levelwise ++ body := rfl
  rw [e3] at hf
  rw [mainTestIntersectionFast, if_neg (by simp), e1, R_bind_ok, e2, R_bind_ok, hlog, loadQueryLog_text (fun _ _ => stoiU64_decimal) ht,
    if_pos (fun q h i hi => (hq1 q h i hi).2), R_bind_ok, hf]
  simp only [h3, R_bind_ok]

example : (∀ l ∈ kept 1 100 Ex.coll, ValidSet l 200) ∧
    (buildFast Ex.bvIO (fun _ => Ex.rankIO) 0 (fun _ => Ex.junk) 1 100 0 false false 64 (collectionBytes 1 200 Ex.coll) >>= fun f =>
      mainTestIntersectionFast Ex.bvIO (fun _ => Ex.rankIO) 0 (fun _ => Ex.junk) Ex.sortSets (fun _ => ⟨4, [], []⟩)
        (Ex.fileAt ['f'] ((f.getD []).take 6 ++ (f.getD []).drop 8))
        (fun n => if n = ['q'] then some ['1', ' ', '0', '\n', '2', '\n'] else none) [['t'], ['f'], ['q']]) = .ok (some ⟨none, 2⟩) := by
  decide +kernel

theorem ofNat_mod256 (x : Nat) : UInt8.ofNat (x % 256) = UInt8.ofNat x := by
  apply UInt8.toNat.inj
  simp

theorem ofNat_congr {x y : Nat} (h : x % 256 = y % 256) : UInt8.ofNat x = UInt8.ofNat y := by
  rw [← ofNat_mod256 x, h, ofNat_mod256]

theorem leBytes_four (x : Nat) : leBytes 4 x = leBytes 2 x ++ leBytes 2 (x / 65536) := by
  simp only [leBytes, List.cons_append, List.nil_append, Nat.div_div_eq_div_mul]

theorem leBytes_two_two (a b : Nat) : leBytes 2 a ++ leBytes 2 b = leBytes 4 (a % 65536 + 65536 * (b % 65536)) := by
  simp only [leBytes, List.cons_append, List.nil_append]
  congr 1
  · exact ofNat_congr (by omega)
  congr 1
  · exact ofNat_congr (by omega)
  congr 1
  · exact ofNat_congr (by omega)
  congr 1
  exact ofNat_congr (by omega)

theorem shifted_bytes (rank : Nat) (runs levelwise : Bool) {wsize n one u : Nat} (hone : one < 2 ^ 32) (tries : Bytes) :
    fastFileHeader rank runs levelwise wsize ++ (leBytes 4 n ++ (leBytes 4 one ++ (leBytes 4 u ++ tries))) =
      leBytes 4 rank ++ boolByte runs ++ boolByte levelwise ++
        (leBytes 4 (wsize % 65536 + 65536 * (n % 65536)) ++ (leBytes 4 (n / 65536 % 65536 + 65536 * (one % 65536)) ++
          (leBytes 4 (one / 65536 + 65536 * (u % 65536)) ++ (leBytes 2 (u / 65536) ++ tries)))) := by
  have e : one / 65536 % 65536 = one / 65536 := Nat.mod_eq_of_lt (by omega)
  rw [fastFileHeader, ← leBytes_two_two, ← leBytes_two_two, ← e, ← leBytes_two_two, leBytes_four n, leBytes_four one, leBytes_four u]
  simp only [List.append_assoc]

/-- C62 is false of the files of `build_fastTries`: the word size and half the number of sets are taken for the number of sets, and the
tries are read from two bytes too early. -/
theorem C62_shifted_negation (B : BvIO) (K : Nat → RankIO) (pad : Nat) (junk : Nat → FastJunk) (sort : List (List Nat) → List (List Nat))
    (env : Nat → Env) (queries : List (List Nat)) {rank : Nat} (hr : rank < 2 ^ 32) (hr1 : rank ≠ 1) (runs levelwise : Bool)
    {wsize n one u : Nat} (hone : one < 2 ^ 32) (tries : Bytes) :
    testIntersectionFast B K pad junk sort env queries (fastFileHeader rank runs levelwise wsize ++ (leBytes 4 n ++ (leBytes 4 one ++
        (leBytes 4 u ++ tries)))) =
      loadLoop (fun i s => fastLoad B (K (if rank = 0 then 0 else 2)) 6 (fastDefault (junk i)) s)
        (wsize % 65536 + 65536 * (n % 65536)) 0 (setIndexes queries) (leBytes 2 (u / 65536) ++ tries) >>= fun m =>
      checkQueries m (fun t => t.decode 6 pad []) (fun j ts => fastIntersect 6 (ts.map fun t => t.nav pad) runs true (env j)) (brute sort)
        0 0 queries := by
  rw [shifted_bytes rank runs levelwise hone]
  have hh := fun rest => readTriesFileHeader_ok (block := 512) (runs := runs) (levelwise := levelwise) hr (by decide) rest
  simp only [triesFileHeader, if_neg hr1, List.append_nil] at hh
  rw [testIntersectionFast, readCheckFastHeader, hh, R_bind_ok]
  simp only [loadTriesFast]
  rw [readLE_leBytes 4 _ _ (by omega), R_bind_ok]
  simp only
  rw [readLE_leBytes 4 _ _ (by omega), R_bind_ok]
  simp only
  rw [readLE_leBytes 4 _ _ (by omega), R_bind_ok]

/-- C62, for every collection and every query log: if the low byte of the uninitialised member `height_with_runs` of the first trie
is at least 2, it is read as the truth value `empty_trie`, which it is not. -/
theorem C62_fast_files_negation (B : BvIO) (K : Nat → RankIO) (pad : Nat) (junk junk' : Nat → FastJunk)
    (hj : ∀ i, (junk i).heightWithRuns < 2 ^ 16) (hj0 : 2 ≤ (junk 0).heightWithRuns % 256) {mn mx rank : Nat} (hr : rank < 2 ^ 32)
    (hr1 : rank ≠ 1) (levelwise : Bool) {one u : Nat} (hone : one < 2 ^ 32) (hu : 2 ^ 5 < u) (hu' : u < 2 ^ 32)
    {lists : List (List Nat)} (hl : ∀ l ∈ lists, l.length < 2 ^ 30) (hv : ∀ l ∈ kept mn mx lists, ValidSet l u)
    (hn : (kept mn mx lists).length < 2 ^ 32) (hn0 : kept mn mx lists ≠ [])
    (sort : List (List Nat) → List (List Nat)) (env : Nat → Env) (queries : List (List Nat)) :
    ∃ f, buildFast B K pad junk mn mx rank false levelwise 64 (collectionBytes one u lists) = .ok (some f) ∧
      testIntersectionFast B K pad junk' sort env queries f = .error .conv := by
  obtain ⟨x, hb, hp⟩ := buildFast_objs B K (lg := 6) (rank := rank) (by decide) pad junk hj false levelwise hone hu hu' hl hv hn
  have hlen : 0 < (kept mn mx lists).length := List.length_pos_iff.2 hn0
  have hx0 : (x 0).heightWithRuns = (junk 0).heightWithRuns := by
    obtain ⟨⟨t, h1, h2⟩, -⟩ := hp 0 hlen
    have hm := kept_getD_mem hlen
    have := hl _ (List.mem_of_mem_filter hm)
    obtain ⟨T, hc, -⟩ := fast_built (lg := 6) (by decide) (hv _ hm) (by omega) hu (by omega) (junk 0)
    rw [hc] at h1
    injection h1 with h1
    subst h1
    injection h2 with h2
    rw [← h2]
    rfl
  refine ⟨_, hb, ?_⟩
  obtain ⟨k, hk⟩ : ∃ k, (kept mn mx lists).length = k + 1 := ⟨_, (Nat.sub_add_cancel hlen).symm⟩
  obtain ⟨m, hm⟩ : ∃ m, 64 % 65536 + 65536 * ((kept mn mx lists).length % 65536) = m + 1 :=
    ⟨63 + 65536 * ((kept mn mx lists).length % 65536), by omega⟩
  have htries : ∃ rest, (List.range' 0 (kept mn mx lists).length).flatMap (fun j =>
      ((x j).serialize B (K (if rank = 0 then 0 else 2)) 6).1) = leBytes 2 (x 0).height ++ (leBytes 2 (x 0).heightWithRuns ++ rest) := by
    rw [hk, List.range'_succ, List.flatMap_cons]
    simp only [FastTrie.serialize, header, List.append_assoc]
    exact ⟨_, rfl⟩
  obtain ⟨rest, htries⟩ := htries
  rw [show (2 : Nat) ^ 6 = 64 from rfl, C62_shifted_negation B K pad junk' sort env queries hr hr1 false levelwise hone, htries, hm]
  have hload : ∀ t0 : FastTrie, fastLoad B (K (if rank = 0 then 0 else 2)) 6 t0 (leBytes 2 (u / 65536) ++ (leBytes 2 (x 0).height ++
      (leBytes 2 (x 0).heightWithRuns ++ rest))) = .error .conv := by
    intro t0
    have hne : ∀ b : Nat, b < 2 → UInt8.ofNat (x 0).heightWithRuns ≠ UInt8.ofNat b := by
      intro b hb h
      have h := congrArg UInt8.toNat h
      simp only [UInt8.toNat_ofNat'] at h
      rw [hx0] at h
      omega
    have hbool : ∀ s, readBool (UInt8.ofNat (x 0).heightWithRuns :: s) = .error .conv := fun s => by
      have h0 : UInt8.ofNat (x 0).heightWithRuns ≠ 0 := hne 0 (by decide)
      have h1 : UInt8.ofNat (x 0).heightWithRuns ≠ 1 := hne 1 (by decide)
      rw [readBool, if_neg h0, if_neg h1]
    have hread : ∀ a b s, readLE 2 (a :: b :: s) = .ok (a.toNat + 256 * (b.toNat + 256 * 0), s) := fun _ _ _ => rfl
    simp only [leBytes, List.cons_append, List.nil_append]
    rw [fastLoad, readHeader, hread, R_bind_ok]
    simp only
    rw [hread, R_bind_ok]
    simp only
    rw [hbool]
    rfl
  rw [loadLoop, hload]
  rfl

/-- With runs, or with the member zero, no verdict either. -/
example :
    (buildFast Ex.bvIO (fun _ => Ex.rankIO) 0 (fun _ => ⟨0, 0, 0, false, false⟩) 1 100 0 true false 64 (collectionBytes 1 200 Ex.coll) >>= fun f =>
      testIntersectionFast Ex.bvIO (fun _ => Ex.rankIO) 0 (fun _ => Ex.junk) Ex.sortSets (fun _ => ⟨4, [], []⟩) [[1, 0]] (f.getD [])) =
      .error .conv ∧
    (buildFast Ex.bvIO (fun _ => Ex.rankIO) 0 (fun _ => ⟨0, 0, 0, false, false⟩) 1 100 0 false false 64 (collectionBytes 1 200 Ex.coll) >>= fun f =>
      testIntersectionFast Ex.bvIO (fun _ => Ex.rankIO) 0 (fun _ => Ex.junk) Ex.sortSets (fun _ => ⟨4, [], []⟩) [[1, 0]] (f.getD [])) =
      .error .conv := by decide +kernel

end CBT
