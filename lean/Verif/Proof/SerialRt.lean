import Verif.Model.Serialize
import Verif.Proof.Decode

/-!
# Reading back what was written
-/

namespace CBT

theorem readLE_leBytes : (k x : Nat) → (rest : Bytes) → x < 256 ^ k → readLE k (leBytes k x ++ rest) = .ok (x, rest)
  | 0, x, rest, h => by
    have : x = 0 := by simp at h; exact h
    subst this; rfl
  | k + 1, x, rest, h => by
    have h' : x / 256 < 256 ^ k := Nat.div_lt_of_lt_mul (by rw [Nat.pow_succ] at h; omega)
    rw [leBytes, List.cons_append, readLE, readLE_leBytes k _ rest h', R_bind_ok]
    simp only [UInt8.toNat_ofNat', Nat.reducePow]
    rw [Nat.mod_add_div]

theorem length_leBytes : (k x : Nat) → (leBytes k x).length = k
  | 0, _ => rfl
  | k + 1, x => by simp [leBytes, length_leBytes k]

theorem readBool_boolByte (b : Bool) (rest : Bytes) : readBool (boolByte b ++ rest) = .ok (b, rest) := by
  cases b <;> rfl

theorem length_boolByte (b : Bool) : (boolByte b).length = 1 := rfl

theorem length_header (h hw : Nat) (e r : Bool) : (header h hw e r).length = 6 := by
  simp [header, length_leBytes, length_boolByte]

theorem readHeader_header {h hw : Nat} {e r : Bool} (hh : h < 2 ^ 16) (hhw : hw < 2 ^ 16) (rest : Bytes) :
    readHeader (header h hw e r ++ rest) = .ok (h, hw, e, r, rest) := by
  simp only [header, List.append_assoc, readHeader]
  rw [readLE_leBytes 2 h _ (by omega), R_bind_ok]
  simp only
  rw [readLE_leBytes 2 hw _ (by omega), R_bind_ok]
  simp only
  rw [readBool_boolByte, R_bind_ok]
  simp only
  rw [readBool_boolByte, R_bind_ok]

theorem readMany_flatMap {α β : Type} {read : Bytes → R (α × Bytes)} {write : β → Bytes} {f : β → α} :
    (xs : List β) → (rest : Bytes) → (∀ x ∈ xs, ∀ rest, read (write x ++ rest) = .ok (f x, rest)) →
    readMany read xs.length (xs.flatMap write ++ rest) = .ok (xs.map f, rest)
  | [], rest, _ => rfl
  | x :: xs, rest, h => by
    rw [List.length_cons, List.flatMap_cons, List.append_assoc, readMany, h x (by simp), R_bind_ok]
    simp only
    rw [readMany_flatMap xs rest (fun y hy => h y (List.mem_cons_of_mem _ hy)), R_bind_ok]
    rfl

/-! ## Flat -/

theorem flatLoad_serialize (B L : BvIO) (K : RankIO) {t : FlatTrie} (hh : t.height < 2 ^ 16) (hw : t.heightWithRuns < 2 ^ 16)
    (hb : t.bTrie.length < 2 ^ 64) (hl : t.lastLevel.length < 2 ^ 64) (rest : Bytes) :
    flatLoad B L K ((t.serialize B L K true).1 ++ rest) = .ok (⟨t, K.of t.bTrie⟩, rest) := by
  simp only [FlatTrie.serialize, if_true, List.append_assoc, flatLoad]
  rw [readHeader_header hh hw, R_bind_ok]
  simp only
  rw [B.roundTrip _ _ hb, R_bind_ok]
  simp only
  rw [L.roundTrip _ _ hl, R_bind_ok]
  simp only
  rw [K.roundTrip _ _ hb, R_bind_ok]

theorem FlatObj.nav_eq {K : RankIO} (t : FlatTrie) (pad : Nat) : FlatObj.nav (K := K) ⟨t, K.of t.bTrie⟩ pad = t.nav pad := by
  simp only [FlatObj.nav, FlatTrie.nav, K.query_of]
  rfl

theorem FlatObj.decode_eq {K : RankIO} (t : FlatTrie) (pad : Nat) (out : List Nat) :
    FlatObj.decode (K := K) ⟨t, K.of t.bTrie⟩ pad out = t.decode pad out := by
  rw [FlatObj.decode, FlatObj.nav_eq]; rfl

/-! ## Level-wise -/

theorem levelLoad_serialize (B : BvIO) (K : RankIO) {t : LevelTrie} (h0 : t.bTrie ≠ []) (hh : t.bTrie.length < 2 ^ 16)
    (hw : t.heightWithRuns < 2 ^ 16) (hb : ∀ v ∈ t.bTrie, v.length < 2 ^ 64) (rest : Bytes) :
    levelLoad B K ((t.serialize B K).1 ++ rest) = .ok (⟨t, t.bTrie.dropLast.map K.of⟩, rest) := by
  have hpos : t.bTrie.length ≠ 0 := by simpa using h0
  have e : t.bTrie.length - 1 = t.bTrie.dropLast.length := by simp
  simp only [LevelTrie.serialize, Nat.mod_eq_of_lt hh, List.take_length, List.append_assoc, levelLoad]
  rw [readHeader_header hh hw, R_bind_ok]
  simp only [hpos, if_false]
  rw [readMany_flatMap (f := id) t.bTrie _ (fun v hv rest => B.roundTrip v rest (hb v hv)), List.map_id]
  simp only [R_bind_ok]
  rw [← List.dropLast_eq_take, e, readMany_flatMap (f := K.of) t.bTrie.dropLast _
    (fun v hv rest => K.roundTrip v rest (hb v (List.dropLast_subset _ hv)))]
  simp only [R_bind_ok]

theorem LevelObj.rank_eq {K : RankIO} (t : LevelTrie) {level i : Nat} (hl : level + 1 < t.height) :
    LevelObj.rank (K := K) ⟨t, t.bTrie.dropLast.map K.of⟩ level i = (do let lv ← vGet t.bTrie level; rank1 lv i) := by
  unfold LevelTrie.height at hl
  have h1 : t.bTrie[level]? = some t.bTrie[level] := List.getElem?_eq_getElem (by omega)
  have h2 : (t.bTrie.dropLast.map K.of)[level]? = some (K.of t.bTrie[level]) := by
    rw [List.getElem?_map, List.getElem?_dropLast, if_pos (by omega), h1]; rfl
  simp only [LevelObj.rank, vGet, h1, h2, R_bind_ok, K.query_of]

theorem LevelObj.nav_eq {K : RankIO} (t : LevelTrie) (pad : Nat) :
    LevelObj.nav (K := K) ⟨t, t.bTrie.dropLast.map K.of⟩ pad = t.nav false pad := by
  simp only [LevelObj.nav, LevelTrie.nav, Bool.false_eq_true, if_false, Nav.mk.injEq, true_and]
  constructor
  · funext id level
    rw [LevelTrie.getLeftChild]
    split
    · rfl
    · exact LevelObj.rank_eq t (by omega)
  · funext id level
    rw [LevelTrie.getRightChild]
    split
    · rfl
    · exact LevelObj.rank_eq t (by omega)

theorem LevelObj.decode_eq {K : RankIO} (t : LevelTrie) (pad : Nat) (out : List Nat) :
    LevelObj.decode (K := K) ⟨t, t.bTrie.dropLast.map K.of⟩ pad out = t.decode false pad out := by
  rw [LevelObj.decode, LevelObj.nav_eq]; rfl

/-! ## Fast -/

theorem fastLoad_serialize (B : BvIO) (K : RankIO) {lg : Nat} (hlg : 3 ≤ lg) {t : FastTrie} (t0 : FastTrie) (hh : t.height < 2 ^ 16)
    (hw : t.heightWithRuns < 2 ^ 16) (hb : t.bTrie.length < 2 ^ 64) (hl : t.lastLevel.length < 2 ^ 64)
    (hws : ∀ w ∈ t.lastLevel, w < 2 ^ 2 ^ lg) (rest : Bytes) :
    fastLoad B K lg t0 ((t.serialize B K lg).1 ++ rest) =
      .ok (⟨{ t with heightU := (t.height + lg - 1) % 2 ^ 16, lastLevel := t0.lastLevel ++ t.lastLevel }, K.of t.bTrie⟩, rest) := by
  have hp : (256 : Nat) ^ 2 ^ (lg - 3) = 2 ^ 2 ^ lg := by
    rw [show (256 : Nat) = 2 ^ 2 ^ 3 by norm_num, ← Nat.pow_mul, ← Nat.pow_add]
    congr 2; omega
  simp only [FastTrie.serialize, List.append_assoc, fastLoad]
  rw [readHeader_header hh hw, R_bind_ok]
  simp only
  rw [B.roundTrip _ _ hb, R_bind_ok]
  simp only
  rw [K.roundTrip _ _ hb, R_bind_ok]
  simp only
  rw [readLE_leBytes 8 _ _ (by omega), R_bind_ok]
  simp only
  rw [readMany_flatMap (f := id) t.lastLevel rest (fun w hw' rest => readLE_leBytes _ w rest (by rw [hp]; exact hws w hw')),
    R_bind_ok, List.map_id]

theorem FastObj.nav_eq {K : RankIO} (t : FastTrie) (pad : Nat) : FastObj.nav (K := K) ⟨t, K.of t.bTrie⟩ pad = t.nav pad := by
  simp only [FastObj.nav, FastTrie.nav, K.query_of]
  rfl

theorem FastObj.decode_eq {K : RankIO} (t : FastTrie) (lg pad : Nat) (out : List Nat) :
    FastObj.decode (K := K) ⟨t, K.of t.bTrie⟩ lg pad out = t.decode lg pad out := by
  rw [FastObj.decode, FastObj.nav_eq]; rfl

end CBT
