import Verif.Proof.SerialRt
import Verif.Props.Tries

/-!
# C19, C20, C21, C22, C33: serialization

`B`, `L`, `K` are the formats of the sdsl structures, about which only the contracts in `BvIO` and `RankIO` are assumed.
-/

namespace CBT

namespace Ex

/-- A format satisfying the contract: the length in eight bytes, then one byte per bit. -/
def bvIO : BvIO where
  write v := leBytes 8 v.length ++ v.flatMap boolByte
  read s := do
    let (n, s) ← readLE 8 s
    readMany readBool n s
  roundTrip := by
    intro v rest h
    rw [List.append_assoc, readLE_leBytes 8 _ _ (by omega), R_bind_ok]
    simp only
    rw [readMany_flatMap (f := id) v rest (fun b _ rest => readBool_boolByte b rest), List.map_id]

/-- Rank supports that precompute nothing, as those of `bit_vector_il`. -/
def rankIO : RankIO where
  K := Unit
  of _ := ()
  write _ := []
  read s := .ok ((), s)
  query _ v i := rank1 v i
  roundTrip := by intro v rest _; rfl
  query_of := by intro v i; rfl

end Ex

/-- C19 (partial). Loading the bytes written by `serialize` gives back the flat trie, leaves the rest of the stream, and the
loaded trie navigates and decodes identically, if the compiler evaluates the operands of `+` from left to right. Missing: the
other order, which C++ allows; see `C19_flat_roundtrip_order_negation`. -/
theorem C19_flat_roundtrip_partial (B L : BvIO) (K : RankIO) {t : FlatTrie} (hh : t.height < 2 ^ 16)
    (hw : t.heightWithRuns < 2 ^ 16) (hb : t.bTrie.length < 2 ^ 64) (hl : t.lastLevel.length < 2 ^ 64) (rest : Bytes) :
    ∃ o : FlatObj K, flatLoad B L K ((t.serialize B L K true).1 ++ rest) = .ok (o, rest) ∧ o.trie = t ∧
      (∀ pad, o.nav pad = t.nav pad) ∧ (∀ pad out, o.decode pad out = t.decode pad out) :=
  ⟨_, flatLoad_serialize B L K hh hw hb hl rest, rfl, FlatObj.nav_eq t, FlatObj.decode_eq t⟩

example : Ex.flatR.height < 2 ^ 16 ∧ Ex.flatR.bTrie.length < 2 ^ 64 ∧
    (flatLoad Ex.bvIO Ex.bvIO Ex.rankIO ((Ex.flatR.serialize Ex.bvIO Ex.bvIO Ex.rankIO true).1 ++ [1, 2, 3]) >>=
      fun p => p.1.decode 0 [7] >>= fun o => .ok (o, p.2)) = .ok (7 :: Ex.sF, [1, 2, 3]) := by decide +kernel

/-- C19 is false: when the operands are evaluated from right to left the two vectors are swapped. -/
theorem C19_flat_roundtrip_order_negation : ¬ ∀ (B L : BvIO) (K : RankIO) (ltr : Bool) (t : FlatTrie), t.height < 2 ^ 16 →
    t.heightWithRuns < 2 ^ 16 → t.bTrie.length < 2 ^ 64 → t.lastLevel.length < 2 ^ 64 →
    ∃ o : FlatObj K, flatLoad B L K (t.serialize B L K ltr).1 = .ok (o, []) ∧ o.trie = t := by
  intro h
  obtain ⟨o, h1, h2⟩ := h Ex.bvIO Ex.bvIO Ex.rankIO false Ex.flat (by decide) (by decide) (by decide) (by decide)
  have : (flatLoad Ex.bvIO Ex.bvIO Ex.rankIO (Ex.flat.serialize Ex.bvIO Ex.bvIO Ex.rankIO false).1 >>= fun p => .ok p.1.trie) =
      .ok { Ex.flat with bTrie := Ex.flat.lastLevel, lastLevel := Ex.flat.bTrie } := by decide +kernel
  rw [h1, R_bind_ok] at this
  simp only [Except.ok.injEq] at this
  rw [h2] at this
  exact absurd this (by decide +kernel)

/-- C20 (partial). Loading the bytes written by `binTrie::serialize` gives back the level-wise trie, leaves the rest of the
stream, and the loaded trie navigates and decodes identically. Missing: `binTrie_il`, see `C20_level_il_negation`. -/
theorem C20_level_roundtrip_partial (B : BvIO) (K : RankIO) {t : LevelTrie} (h0 : t.bTrie ≠ []) (hh : t.bTrie.length < 2 ^ 16)
    (hw : t.heightWithRuns < 2 ^ 16) (hb : ∀ v ∈ t.bTrie, v.length < 2 ^ 64) (rest : Bytes) :
    ∃ o : LevelObj K, levelLoad B K ((t.serialize B K).1 ++ rest) = .ok (o, rest) ∧ o.trie = t ∧
      (∀ pad, o.nav pad = t.nav false pad) ∧ (∀ pad out, o.decode pad out = t.decode false pad out) :=
  ⟨_, levelLoad_serialize B K h0 hh hw hb rest, rfl, LevelObj.nav_eq t, LevelObj.decode_eq t⟩

example : Ex.levelR.bTrie ≠ [] ∧ Ex.levelR.bTrie.length < 2 ^ 16 ∧ (∀ v ∈ Ex.levelR.bTrie, v.length < 2 ^ 64) ∧
    (levelLoad Ex.bvIO Ex.rankIO ((Ex.levelR.serialize Ex.bvIO Ex.rankIO).1 ++ [1, 2, 3]) >>=
      fun p => p.1.decode 0 [7] >>= fun o => .ok (o, p.2)) = .ok (7 :: Ex.sR, [1, 2, 3]) := by decide +kernel

/-- C20 is false for `binTrie_il`: writing is undefined for every trie, and a trie loaded from any bytes has no usable child
function above its last level. -/
theorem C20_level_il_negation (B : BvIO) (K : RankIO) :
    (∀ t : LevelTrie, t.serializeIl = .error .null) ∧
    (∀ (s rest : Bytes) (t : LevelTrie), levelLoadIl B K s = .ok (t, rest) → ∀ pad id level, level + 1 < t.height →
      (t.navLoadedIl pad).getLeftChild id level = .error .null ∧ (t.navLoadedIl pad).getRightChild id level = .error .null) := by
  refine ⟨fun t => rfl, fun s rest t _ pad id level h => ?_⟩
  simp only [LevelTrie.navLoadedIl, if_neg (by omega : ¬ t.height ≤ level + 1), and_self]

example : (levelLoadIl Ex.bvIO Ex.rankIO (Ex.level.serialize Ex.bvIO Ex.rankIO).1 >>= fun p => .ok (p.1, p.2)) =
    .ok (Ex.level, []) ∧ 0 + 1 < Ex.level.height ∧ Ex.level.decodeLoadedIl 0 [] = .error .null := by decide +kernel

/-- C21. Loading the bytes written by `fastBinaryTrie::serialize` into an object with an empty last level, such as a
default-constructed one, gives back the fast trie, leaves the rest of the stream, and the loaded trie navigates and decodes
identically. -/
theorem C21_fast_roundtrip (B : BvIO) (K : RankIO) {lg : Nat} (hlg : 3 ≤ lg) {t t0 : FastTrie} (h0 : t0.lastLevel = [])
    (hh : t.height < 2 ^ 16) (hw : t.heightWithRuns < 2 ^ 16) (hu : t.heightU = (t.height + lg - 1) % 2 ^ 16)
    (hb : t.bTrie.length < 2 ^ 64) (hl : t.lastLevel.length < 2 ^ 64) (hws : ∀ w ∈ t.lastLevel, w < 2 ^ 2 ^ lg) (rest : Bytes) :
    ∃ o : FastObj K, fastLoad B K lg t0 ((t.serialize B K lg).1 ++ rest) = .ok (o, rest) ∧ o.trie = t ∧
      (∀ pad, o.nav pad = t.nav pad) ∧ (∀ pad out, o.decode lg pad out = t.decode lg pad out) := by
  have e : ({ t with heightU := (t.height + lg - 1) % 2 ^ 16, lastLevel := t0.lastLevel ++ t.lastLevel } : FastTrie) = t := by
    rw [← hu, h0]; rfl
  have h := fastLoad_serialize B K hlg t0 hh hw hb hl hws rest
  rw [e] at h
  exact ⟨_, h, rfl, FastObj.nav_eq t, FastObj.decode_eq t lg⟩

example : (fastDefault Ex.junk).lastLevel = [] ∧ Ex.fast2.heightU = (Ex.fast2.height + 3 - 1) % 2 ^ 16 ∧
    (∀ w ∈ Ex.fast2.lastLevel, w < 2 ^ 2 ^ 3) ∧
    (fastLoad Ex.bvIO Ex.rankIO 3 (fastDefault Ex.junk) ((Ex.fast2.serialize Ex.bvIO Ex.rankIO 3).1 ++ [1, 2, 3]) >>=
      fun p => p.1.decode 3 0 [7] >>= fun o => .ok (o, p.2)) = .ok (7 :: Ex.sW, [1, 2, 3]) := by decide +kernel

/-! ## The returned value -/

/-- C22 (partial). `serialize` of flat and level-wise tries returns the number of bytes written, as a `uint64_t`, in either
order of evaluation. Missing: fast tries, see `C22_fast_return_iff`. -/
theorem C22_return_partial (B L : BvIO) (K : RankIO) :
    (∀ (t : FlatTrie) (ltr : Bool), (t.serialize B L K ltr).2 = (t.serialize B L K ltr).1.length % 2 ^ 64) ∧
    (∀ t : LevelTrie, (t.serialize B K).2 = (t.serialize B K).1.length % 2 ^ 64) := by
  constructor
  · intro t ltr
    cases ltr <;> simp only [FlatTrie.serialize, if_true, Bool.false_eq_true, if_false, List.length_append, length_header] <;>
      congr 1 <;> omega
  · intro t
    simp only [LevelTrie.serialize, List.length_append, length_header]
    congr 1; omega

example : (Ex.flatR.serialize Ex.bvIO Ex.bvIO Ex.rankIO true).2 = 42 ∧ (Ex.levelR.serialize Ex.bvIO Ex.rankIO).2 = 48 := by
  decide +kernel

theorem length_words (k : Nat) (ws : List Nat) : (ws.flatMap (leBytes k)).length = k * ws.length := by
  induction ws with
  | nil => rfl
  | cons w ws ih => rw [List.flatMap_cons, List.length_append, ih, length_leBytes, List.length_cons, Nat.mul_add]; omega

/-- C22, fast tries: the returned value is the number of bytes written iff the last level takes exactly 16 bytes. -/
theorem C22_fast_return_iff (B : BvIO) (K : RankIO) (lg : Nat) (t : FastTrie)
    (hlt : (B.write t.bTrie).length + (K.write (K.of t.bTrie)).length + 30 < 2 ^ 64) :
    (t.serialize B K lg).2 = (t.serialize B K lg).1.length ↔ 2 ^ (lg - 3) * t.lastLevel.length = 16 := by
  simp only [FastTrie.serialize, List.length_append, length_header, length_leBytes, length_words]
  rw [Nat.mod_eq_of_lt (by omega)]
  omega

example : (Ex.fast2.serialize Ex.bvIO Ex.rankIO 3).1.length = 32 ∧ (Ex.fast2.serialize Ex.bvIO Ex.rankIO 3).2 = 44 ∧
    ((Ex.bvIO.write Ex.fast2.bTrie).length + (Ex.rankIO.write (Ex.rankIO.of Ex.fast2.bTrie)).length + 30 < 2 ^ 64) := by
  decide +kernel

/-- C22 is false for fast tries. -/
theorem C22_fast_return_negation : ¬ ∀ (B : BvIO) (K : RankIO) (lg : Nat) (t : FastTrie), 3 ≤ lg ∧ lg ≤ 6 →
    (t.serialize B K lg).2 = (t.serialize B K lg).1.length := by
  intro h
  exact absurd (h Ex.bvIO Ex.rankIO 3 Ex.fast2 (by decide)) (by decide +kernel)

/-! ## Loading into a used object -/

/-- C33 (partial). What `load` leaves in the object: every member is replaced except the words, which are appended to the old
ones. So the old contents are replaced exactly when the object had no words. -/
theorem C33_load_used_partial (B : BvIO) (K : RankIO) {lg : Nat} (hlg : 3 ≤ lg) {t t0 : FastTrie}
    (hh : t.height < 2 ^ 16) (hw : t.heightWithRuns < 2 ^ 16) (hu : t.heightU = (t.height + lg - 1) % 2 ^ 16)
    (hb : t.bTrie.length < 2 ^ 64) (hl : t.lastLevel.length < 2 ^ 64) (hws : ∀ w ∈ t.lastLevel, w < 2 ^ 2 ^ lg) (rest : Bytes) :
    ∃ o : FastObj K, fastLoad B K lg t0 ((t.serialize B K lg).1 ++ rest) = .ok (o, rest) ∧
      o.trie = { t with lastLevel := t0.lastLevel ++ t.lastLevel } ∧ (o.trie = t ↔ t0.lastLevel = []) := by
  have h := fastLoad_serialize B K hlg t0 hh hw hb hl hws rest
  rw [← hu] at h
  refine ⟨_, h, rfl, ?_⟩
  constructor
  · intro e
    have := congrArg FastTrie.lastLevel e
    simpa using this
  · intro e
    rw [e]; rfl

/-- C33 is false: a fast trie loaded over another one decodes to the wrong set. -/
theorem C33_load_used_negation : ¬ ∀ (B : BvIO) (K : RankIO) (lg : Nat) (S S0 : List Nat) (u : Nat) (junk : FastJunk)
    (t t0 : FastTrie), Spec.ValidSet S u → Spec.ValidSet S0 u → 3 ≤ lg ∧ lg ≤ 6 → 2 ^ (lg - 1) < u →
    fastCtor lg junk S u = .ok t → fastCtor lg junk S0 u = .ok t0 →
    ∃ o : FastObj K, fastLoad B K lg t0 (t.serialize B K lg).1 = .ok (o, []) ∧ o.decode lg 0 [] = .ok S := by
  intro h
  obtain ⟨o, h1, h2⟩ := h Ex.bvIO Ex.rankIO 3 Ex.sV Ex.sW 32 Ex.junk Ex.fast Ex.fast2 (by decide +kernel) (by decide +kernel)
    (by decide) (by decide) (by decide +kernel) (by decide +kernel)
  have : (fastLoad Ex.bvIO Ex.rankIO 3 Ex.fast2 (Ex.fast.serialize Ex.bvIO Ex.rankIO 3).1 >>= fun p => p.1.decode 3 0 []) =
      .ok [0, 1, 2, 3, 4, 5, 6, 7, 16, 17, 18, 19, 20, 21, 22, 23, 25] := by decide +kernel
  rw [h1, R_bind_ok] at this
  simp only at this
  rw [h2] at this
  exact absurd this (by decide)

end CBT
