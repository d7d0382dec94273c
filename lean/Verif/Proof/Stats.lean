import Verif.Model.Stats
import Verif.SpecStats
import Verif.Proof.Tools
import Verif.Props.Measures
import Verif.Props.Size

/-!
# The statistics tools: lemmas
-/

namespace CBT

open Spec

theorem longer_pos {m : Nat} {l : List Nat} {ls : List (List Nat)} (h : m < l.length) : longer m (l :: ls) = l :: longer m ls :=
  List.filter_cons_of_pos (p := fun l : List Nat => decide (m < l.length)) (by simpa using h)

theorem longer_neg {m : Nat} {l : List Nat} {ls : List (List Nat)} (h : ¬ m < l.length) : longer m (l :: ls) = longer m ls :=
  List.filter_cons_of_neg (p := fun l : List Nat => decide (m < l.length)) (by simpa using h)

/-! ## The loop that tests for the end first -/

theorem read4_ok {b : Bytes} {v : Nat} {rest : Bytes} (h : readLE 4 b = .ok (v, rest)) (old : Option Nat) :
    (InStream.mk b false false).read4 old = (some v, ⟨rest, false, false⟩) := by
  simp [InStream.read4, h]

theorem read4_end (old : Option Nat) (ho : ∀ o ∈ old, o < 2 ^ 32) :
    (InStream.mk [] false false).read4 old = (old, ⟨[], true, true⟩) := by
  cases old with
  | none => rfl
  | some o =>
    have := ho o rfl
    have e : InStream.read4 ⟨[], false, false⟩ (some o)
        = (some ((leBytes 4 o).foldr (fun b n => b.toNat + 256 * n) 0), ⟨[], true, true⟩) := rfl
    rw [e]
    congr 2
    have h2 := readLE_leBytes 4 o [] (by omega)
    simp only [leBytes, List.foldr, UInt8.toNat_ofNat']
    omega

theorem read4_fail {b : Bytes} {e : Bool} (old : Option Nat) : (InStream.mk b e true).read4 old = (old, ⟨b, e, true⟩) := by
  simp [InStream.read4]

theorem readVals_list : (l : List Nat) → (∀ x ∈ l, x < 2 ^ 32) → (rest : Bytes) → (x : Option Nat) →
    readVals l.length ⟨l.flatMap (leBytes 4) ++ rest, false, false⟩ x = .ok (l, l.getLast?.or x, ⟨rest, false, false⟩)
  | [], _, rest, x => by simp [readVals]
  | y :: l, h, rest, x => by
    have hy := h y (by simp)
    rw [List.length_cons, readVals, List.flatMap_cons, List.append_assoc, read4_ok (readLE_leBytes 4 y _ (by omega))]
    dsimp only
    rw [readVals_list l (fun z hz => h z (List.mem_cons_of_mem _ hz)), R_bind_ok]
    cases l with
    | nil => simp
    | cons z l => simp [List.getLast?_cons]

theorem readVals_fail (b : Bytes) (e : Bool) (v : Nat) : (n : Nat) →
    readVals n ⟨b, e, true⟩ (some v) = .ok (List.replicate n v, some v, ⟨b, e, true⟩)
  | 0 => rfl
  | n + 1 => by
    rw [readVals, read4_fail]
    dsimp only
    rw [readVals_fail b e v n]
    rfl

/-- The variable `n` after the lists. -/
def lastLen (n : Option Nat) (lists : List (List Nat)) : Option Nat := (lists.getLast?.map List.length).or n

/-- The variable `x` after the lists that are read. -/
def lastVal (x : Option Nat) (lists : List (List Nat)) : Option Nat := lists.flatten.getLast?.or x

theorem statsLoop_lists {A : Type} {m : Nat} {step : A → List Nat → R A} {stop : Bool} : (lists : List (List Nat)) → (fuel : Nat) →
    (n x : Option Nat) → (a : A) →
    (∀ l ∈ lists, l.length < 2 ^ 30) → (∀ l ∈ longer m lists, ∀ x ∈ l, x < 2 ^ 32) → (stop = true → ∀ l ∈ lists, m < l.length) →
    (rest : Bytes) →
    statsLoop stop m step (fuel + lists.length) ⟨lists.flatMap listBytes ++ rest, false, false⟩ n x a =
      ((longer m lists).foldlM step a >>= fun a =>
        statsLoop stop m step fuel ⟨rest, false, false⟩ (lastLen n lists) (lastVal x (longer m lists)) a)
  | [], fuel, n, x, a, _, _, _, rest => rfl
  | l :: ls, fuel, n, x, a, hl, hx, hs, rest => by
    have h0 : l.length < 2 ^ 30 := hl l (by simp)
    have e1 : lastLen n (l :: ls) = lastLen (some l.length) ls := by
      cases ls <;> simp [lastLen, List.getLast?_cons]
    rw [List.flatMap_cons, List.append_assoc, List.length_cons, ← Nat.add_assoc, statsLoop, if_neg (by simp),
      read4_ok (readLE_listBytes h0 _), e1]
    dsimp only
    by_cases h : m < l.length
    · rw [longer_pos h] at hx ⊢
      rw [if_pos h, readVals_list l (hx l (by simp)), R_bind_ok]
      dsimp only
      have e2 : lastVal x (l :: longer m ls) = lastVal (l.getLast?.or x) (longer m ls) := by
        rw [lastVal, lastVal, List.flatten_cons, List.getLast?_append]
        rw [Option.or_assoc]
      rw [List.foldlM_cons, e2]
      cases hst : step a l with
      | error e => rfl
      | ok a' =>
        rw [R_bind_ok, R_bind_ok]
        exact statsLoop_lists ls fuel _ _ a' (fun z hz => hl z (List.mem_cons_of_mem _ hz))
          (fun z hz => hx z (List.mem_cons_of_mem _ hz)) (fun h z hz => hs h z (List.mem_cons_of_mem _ hz)) rest
    · rw [longer_neg h] at hx ⊢
      have hstop : stop = false := by
        cases stop with
        | false => rfl
        | true => exact absurd (hs rfl l (by simp)) h
      rw [if_neg h, if_neg (by simp [hstop])]
      have e3 : (InStream.mk (l.flatMap (leBytes 4) ++ (ls.flatMap listBytes ++ rest)) false false).seek l.length
          = ⟨ls.flatMap listBytes ++ rest, false, false⟩ := by
        simp [InStream.seek, skipList_list h0]
      rw [e3]
      exact statsLoop_lists ls fuel _ _ a (fun z hz => hl z (List.mem_cons_of_mem _ hz))
          hx (fun h z hz => hs h z (List.mem_cons_of_mem _ hz)) rest

/-- The extra round when the last list is long enough. -/
theorem statsLoop_end_long {A : Type} {m : Nat} {step : A → List Nat → R A} {stop : Bool} (fuel n v : Nat) (a : A) (h : m < n)
    (hn : n < 2 ^ 32) :
    statsLoop stop m step (fuel + 2) ⟨[], false, false⟩ (some n) (some v) a = step a (List.replicate n v) := by
  rw [statsLoop, if_neg (by simp), read4_end _ (by rintro o ⟨⟩; exact hn)]
  dsimp only
  rw [if_pos h, readVals_fail, R_bind_ok]
  dsimp only
  cases step a (List.replicate n v) with
  | error e => rfl
  | ok a' => rw [R_bind_ok, statsLoop, if_pos rfl]

/-- Once reading has failed and the end-of-file bit has been cleared, the loop goes on for ever. -/
theorem statsLoop_stuck {A : Type} {m : Nat} {step : A → List Nat → R A} (n : Nat) (x : Option Nat) (a : A) (h : ¬ m < n) (b : Bytes) :
    (fuel : Nat) → statsLoop false m step fuel ⟨b, false, true⟩ (some n) x a = .error .fuel
  | 0 => rfl
  | fuel + 1 => by
    rw [statsLoop, if_neg (by simp), read4_fail]
    dsimp only
    rw [if_neg h, if_neg (by simp)]
    exact statsLoop_stuck n x a h b fuel

theorem statsLoop_end_short {A : Type} {m : Nat} {step : A → List Nat → R A} (fuel n : Nat) (x : Option Nat) (a : A) (h : ¬ m < n)
    (hn : n < 2 ^ 32) :
    statsLoop false m step fuel ⟨[], false, false⟩ (some n) x a = .error .fuel := by
  cases fuel with
  | zero => rfl
  | succ fuel =>
    rw [statsLoop, if_neg (by simp), read4_end _ (by rintro o ⟨⟩; exact hn)]
    dsimp only
    rw [if_neg h, if_neg (by simp)]
    exact statsLoop_stuck n x a h _ fuel

theorem statsLoop_end_none {A : Type} {m : Nat} {step : A → List Nat → R A} {stop : Bool} (fuel : Nat) (x : Option Nat) (a : A) :
    statsLoop stop m step (fuel + 1) ⟨[], false, false⟩ none x a = .error .uninit := by
  rw [statsLoop, if_neg (by simp), read4_end _ (by simp)]

theorem statsLoop_mono {A : Type} {m : Nat} {step : A → List Nat → R A} {stop : Bool} {r : A} : (fuel : Nat) → (s : InStream) →
    (n x : Option Nat) → (a : A) → statsLoop stop m step fuel s n x a = .ok r → ∀ k, statsLoop stop m step (fuel + k) s n x a = .ok r
  | 0, _, _, _, _, h, _ => by rw [statsLoop] at h; injection h
  | fuel + 1, s, n, x, a, h, k => by
    rw [show fuel + 1 + k = fuel + k + 1 by omega]
    rw [statsLoop] at h ⊢
    split at h
    · rename_i h1; rw [if_pos h1]; exact h
    · rename_i h1
      rw [if_neg h1]
      rcases hr : s.read4 n with ⟨n', s'⟩
      rw [hr] at h
      cases n' with
      | none => exact absurd h (by simp)
      | some n' =>
        dsimp only at h ⊢
        split at h
        · rename_i h2
          rw [if_pos h2]
          obtain ⟨⟨l, x', s''⟩, e1, h⟩ := bind_ok h
          obtain ⟨a', e2, h⟩ := bind_ok h
          rw [e1, R_bind_ok]
          dsimp only
          rw [e2, R_bind_ok]
          exact statsLoop_mono fuel _ _ _ _ h k
        · rename_i h2
          rw [if_neg h2]
          split at h
          · rename_i h3; rw [if_pos h3]; exact h
          · rename_i h3; rw [if_neg h3]; exact statsLoop_mono fuel _ _ _ _ h k

/-! ## Counting -/

theorem total_cons (f : List Nat → Nat) (l : List Nat) (ls : List (List Nat)) (c : Nat) :
    ((c + f l) % 2 ^ 64 + (ls.map f).sum) % 2 ^ 64 = (c + ((l :: ls).map f).sum) % 2 ^ 64 := by
  rw [List.map_cons, List.sum_cons]; omega

theorem coderStep_ok {stop : Bool} {coder : List Nat → Nat} {a : Counts} {l : List Nat} (h : stop = true → ∀ x ∈ l, x ≤ l.getLastD 0) :
    coderStep stop coder a l = countStep coder a l := by
  rw [coderStep, if_neg]
  intro hc
  rw [Bool.and_eq_true, List.any_eq_true] at hc
  obtain ⟨hs, x, hx, hlt⟩ := hc
  have := h hs x hx
  have := of_decide_eq_true hlt
  omega

theorem coderStep_oob {coder : List Nat → Nat} {a : Counts} {l : List Nat} {x : Nat} (hx : x ∈ l) (h : l.getLastD 0 < x) :
    coderStep true coder a l = .error .oob := by
  rw [coderStep, if_pos]
  rw [Bool.and_eq_true, List.any_eq_true]
  exact ⟨rfl, x, hx, decide_eq_true h⟩

theorem coderStep_fold {stop : Bool} {coder : List Nat → Nat} : (ls : List (List Nat)) →
    (∀ l ∈ ls, stop = true → ∀ x ∈ l, x ≤ l.getLastD 0) → (e s z : Nat) →
    ls.foldlM (coderStep stop coder) ⟨e % 2 ^ 64, s % 2 ^ 64, z % 2 ^ 64⟩ =
      .ok ⟨(e + (ls.map List.length).sum) % 2 ^ 64, (s + ls.length) % 2 ^ 64, (z + (ls.map coder).sum) % 2 ^ 64⟩
  | [], _, e, s, z => rfl
  | l :: ls, h, e, s, z => by
    rw [List.foldlM_cons, coderStep_ok (h l (by simp)), countStep, R_bind_ok, coderStep_fold ls fun k hk => h k (List.mem_cons_of_mem _ hk)]
    simp only [List.map_cons, List.sum_cons, List.length_cons]
    congr 2 <;> omega

theorem le_last : (l : List Nat) → l.Pairwise (· < ·) → ∀ x ∈ l, x ≤ l.getLastD 0 := by
  intro l hp x hx
  have hne : l ≠ [] := List.ne_nil_of_mem hx
  rw [List.getLastD_eq_getLast?, List.getLast?_eq_getLast_of_ne_nil hne, Option.getD_some]
  rw [← List.dropLast_concat_getLast hne] at hp hx
  rcases List.mem_append.1 hx with h | h
  · exact Nat.le_of_lt ((List.pairwise_append.1 hp).2.2 x h _ (by simp))
  · simp at h; omega

theorem replicate_last (n v : Nat) : ∀ x ∈ List.replicate n v, x ≤ (List.replicate n v).getLastD 0 := by
  intro x hx
  obtain ⟨hn, rfl⟩ := List.mem_replicate.1 hx
  rw [List.getLastD_eq_getLast?, List.getLast?_replicate, if_neg hn]
  exact Nat.le_refl _

theorem size_xor {x y d : Nat} (h1 : x.testBit d = true) (h2 : y.testBit d = false) (h3 : ∀ j, d < j → x.testBit j = y.testBit j) :
    (x ^^^ y).size = d + 1 := by
  apply Nat.le_antisymm
  · rw [Nat.size_le]
    apply Nat.lt_pow_two_of_testBit
    intro j hj
    rw [Nat.testBit_xor, h3 j (by omega)]; simp
  · have : 2 ^ d ≤ x ^^^ y := Nat.ge_two_pow_of_testBit (by rw [Nat.testBit_xor, h1, h2]; rfl)
    exact Nat.lt_size.mpr this

theorem suffix_spec {x y : Nat} (hx : x < 2 ^ 64) (h : y < x) :
    prefixOf x y 64 = .ok (x % 2 ^ (x ^^^ y).size) ∧ gammaBits (x % 2 ^ (x ^^^ y).size) = .ok (suffixBits y x) := by
  obtain ⟨d, h1, h2, h3⟩ := highest_differing h
  have e := size_xor h1 h2 h3
  have hb : (x % 2 ^ (d + 1)).testBit d = true := by rw [Nat.testBit_mod_two_pow, h1]; simp
  have hge : 2 ^ d ≤ x % 2 ^ (d + 1) := Nat.ge_two_pow_of_testBit hb
  have hlt : x % 2 ^ (d + 1) < 2 ^ (d + 1) := Nat.mod_lt _ (Nat.two_pow_pos _)
  have hl : Nat.log2 (x % 2 ^ (d + 1)) = d := (Nat.log2_eq_iff (by have := Nat.two_pow_pos d; omega)).mpr ⟨hge, hlt⟩
  rw [e]
  refine ⟨(C37_prefixOf x y hx (by omega)).2 d (by rw [h1, h2]; simp) h3, ?_⟩
  rw [gammaBits, if_neg (by have := Nat.two_pow_pos d; omega), hl, suffixBits, e]
  congr 1

theorem pomList_some : (l : List Nat) → (y : Nat) → (y :: l).Pairwise (· < ·) → (∀ x ∈ l, x < 2 ^ 64) →
    pomList (some y) l = .ok (List.zipWith (fun y x => x % 2 ^ (x ^^^ y).size) (y :: l) l, (List.zipWith suffixBits (y :: l) l).sum)
  | [], y, _, _ => rfl
  | x :: l, y, hp, hx => by
    rw [List.pairwise_cons] at hp
    obtain ⟨e1, e2⟩ := suffix_spec (hx x (by simp)) (hp.1 x (by simp))
    rw [pomList]
    dsimp only
    rw [e1, R_bind_ok, e2, R_bind_ok, pomList_some l x hp.2 (fun z hz => hx z (List.mem_cons_of_mem _ hz)), R_bind_ok]
    simp

theorem pomList_none {l : List Nat} (hp : l.Pairwise (· < ·)) (hx : ∀ x ∈ l, x < 2 ^ 64) (h0 : 0 ∉ l) :
    pomList none l = .ok (suffixes l, suffixCost l) := by
  cases l with
  | nil => rfl
  | cons x l =>
    have hx0 : 0 < x := Nat.pos_of_ne_zero fun h => h0 (by simp [h])
    obtain ⟨e1, e2⟩ := suffix_spec (hx x (by simp)) hx0
    have e3 : x % 2 ^ (x ^^^ 0).size = x := by
      rw [Nat.xor_zero]; exact Nat.mod_eq_of_lt (Nat.lt_size_self x)
    rw [pomList]
    dsimp only
    rw [R_bind_ok]
    rw [e3] at e2
    rw [e2, R_bind_ok, pomList_some l x hp (fun z hz => hx z (List.mem_cons_of_mem _ hz)), R_bind_ok]
    simp only [suffixes, suffixCost, List.zipWith_cons_cons, List.sum_cons, e3]

theorem pomList_same (v : Nat) (h : v ≠ 0) : (n : Nat) →
    pomList (some v) (List.replicate n v) = .ok (List.replicate n v, n * (2 * Nat.log2 v + 1))
  | 0 => by simp [pomList]
  | n + 1 => by
    rw [List.replicate_succ, pomList]
    dsimp only
    rw [show prefixOf v v 64 = .ok v from prefixLoop_same 64 0, R_bind_ok, gammaBits, if_neg h, R_bind_ok, pomList_same v h n, R_bind_ok]
    dsimp only
    congr 2; ring

theorem pomList_replicate (v : Nat) (h : v ≠ 0) (n : Nat) :
    pomList none (List.replicate n v) = .ok (List.replicate n v, n * (2 * Nat.log2 v + 1)) := by
  cases n with
  | zero => simp [pomList]
  | succ n =>
    rw [List.replicate_succ, pomList]
    dsimp only
    rw [R_bind_ok, gammaBits, if_neg h, R_bind_ok, pomList_same v h n, R_bind_ok]
    dsimp only
    congr 2; ring

theorem pomStep_fold (coder : List Nat → Nat) : (ls : List (List Nat)) → (∀ l ∈ ls, l.Pairwise (· < ·) ∧ (∀ x ∈ l, x < 2 ^ 64) ∧ 0 ∉ l) →
    (e s b z : Nat) →
    ls.foldlM (pomStep coder) ⟨e % 2 ^ 64, s % 2 ^ 64, b % 2 ^ 64, z % 2 ^ 64⟩ =
      .ok ⟨(e + (ls.map List.length).sum) % 2 ^ 64, (s + ls.length) % 2 ^ 64, (b + (ls.map suffixCost).sum) % 2 ^ 64,
        (z + (ls.map fun l => coder (sortIds (suffixes l))).sum) % 2 ^ 64⟩
  | [], _, e, s, b, z => rfl
  | l :: ls, h, e, s, b, z => by
    obtain ⟨h1, h2, h3⟩ := h l (by simp)
    rw [List.foldlM_cons, pomStep, pomList_none h1 h2 h3, R_bind_ok]
    dsimp only
    rw [R_bind_ok, pomStep_fold coder ls (fun z hz => h z (List.mem_cons_of_mem _ hz))]
    simp only [List.map_cons, List.sum_cons, List.length_cons]
    congr 2 <;> omega

theorem sortIds_perm (l : List Nat) : (sortIds l).Perm l := by
  have ins : ∀ (x : Nat) (l : List Nat), (insertId x l).Perm (x :: l) := by
    intro x l
    induction l with
    | nil => exact List.Perm.refl _
    | cons y l ih =>
      rw [insertId]
      split
      · exact List.Perm.refl _
      · exact (ih.cons y).trans (List.Perm.swap x y l)
  induction l with
  | nil => exact List.Perm.refl _
  | cons x l ih => exact (ins x _).trans (ih.cons x)

theorem coders_start (stop : Bool) (m : Nat) (coder : List Nat → Nat) (fuel : Nat) {one u : Nat} (h1 : one < 2 ^ 32) (hu : u < 2 ^ 32)
    (lists : List (List Nat)) : coders stop m coder fuel (collectionBytes one u lists) =
      statsLoop stop m (coderStep stop coder) fuel ⟨lists.flatMap listBytes, false, false⟩ none none ⟨0, 0, 0⟩ := by
  rw [coders, codersOn, collectionBytes, read4_ok (readLE_leBytes 4 _ _ (by omega))]
  dsimp only
  rw [read4_ok (readLE_leBytes 4 _ _ (by omega))]
  cases stop <;> rfl

/-! ## measures -/

theorem trieOf_plain {S : List Nat} {u : Nat} (hS : ValidSet S u) (hlen : S.length < 2 ^ 32) (hu : 3 ≤ u) (hu' : u ≤ 2 ^ 62) (pad : Nat) :
    trieOf pad S u false = .ok (allPrefixes S (Nat.log2 (u - 1) + 1)) := by
  obtain ⟨t, h1, h2⟩ := C25_trieMeasure hS hlen hu hu'
  rw [trieOf, h1, R_bind_ok]
  exact h2

theorem trieOf_runs {S : List Nat} {u : Nat} (hS : ValidSet S u) (hlen : S.length < 2 ^ 32) (hu : 3 ≤ u) (hu' : u ≤ 2 ^ 62) (pad : Nat) :
    trieOf pad S u true = .ok (survivingPrefixes S (Nat.log2 (u - 1) + 1)) := by
  obtain ⟨t, t', m, m', h1, h2, -, h3, h4, -⟩ := C26_trieMeasure_runs hS hlen hu hu' pad
  rw [trieOf, h1, R_bind_ok]
  subst h4
  simp only [if_true]
  rw [h2, R_bind_ok]
  exact h3

theorem delta_eq {u last first : Nat} (hu : u < 2 ^ 32) (hl : last < u) (hf : first < u) :
    logTerm (deltaOf u last first) = bits (joint u last first) := by
  have hb : ∀ n : Nat, logTerm (if n = 0 then 1 else n) = bits n := logTerm_eq
  rw [deltaOf, joint]
  split
  · exact hb (2 ^ 32 - 1)
  · rw [← hb]
    have e : (u + 2 ^ 64 - last) % 2 ^ 64 = u - last := by omega
    rw [e]
    have e2 : (u - last + first + 2 ^ 64 - 1) % 2 ^ 64 = u - last + first - 1 := by omega
    dsimp only
    rw [e2]

theorem rle_defined {l : List Nat} (h : l ≠ []) : ∃ r, rleMeasure l = .ok r := by
  cases l with
  | nil => exact absurd rfl h
  | cons x xs => exact ⟨_, rfl⟩

/-- The value of `Rle`. -/
def rleVal (l : List Nat) : Nat := match rleMeasure l with
  | .ok r => r
  | .error _ => 0

theorem rleVal_eq {l : List Nat} (h : l ≠ []) : rleMeasure l = .ok (rleVal l) := by
  obtain ⟨r, hr⟩ := rle_defined h
  rw [rleVal, hr]

theorem measureList_eq {pad u last : Nat} {l : List Nat} (hS : ValidSet l u) (hlen : l.length < 2 ^ 30) (hu : 3 ≤ u) (hu' : u < 2 ^ 32)
    (hl : last < u) (t : Totals) :
    measureList pad u last l t = .ok (⟨(t.gap + gapCost l + bits (joint u last (l.headD 0))) % 2 ^ 64, (t.rle + rleVal l) % 2 ^ 64,
      (t.trie + allPrefixes l (Nat.log2 (u - 1) + 1)) % 2 ^ 64, (t.trieRun + survivingPrefixes l (Nat.log2 (u - 1) + 1)) % 2 ^ 64,
      (t.nElements + l.length) % 2 ^ 64, (t.nSets + 1) % 2 ^ 64⟩, l.getLastD 0) := by
  have h0 : 0 < l.length := List.length_pos_iff.mpr hS.ne
  have hb : ∀ x ∈ l, x < 2 ^ 64 := fun x hx => by have := hS.below x hx; omega
  have e1 : vGet l 0 = .ok (l.headD 0) := by
    cases l with
    | nil => simp at h0
    | cons x l => rfl
  have e2 : vGet l (l.length - 1) = .ok (l.getLastD 0) := by
    rw [vGet, List.getElem?_eq_getElem (by omega)]
    dsimp only
    rw [List.getLastD_eq_getLast?, ← List.getLast_eq_getElem hS.ne, List.getLast?_eq_getLast_of_ne_nil hS.ne]
    rfl
  have hf : l.headD 0 < u := by
    cases l with
    | nil => simp at h0
    | cons x l => exact hS.below x (by simp)
  rw [measureList, e1, R_bind_ok, (C38_gap hS.ne hS.increasing hb (by omega)).1, R_bind_ok, rleVal_eq hS.ne, R_bind_ok,
    trieOf_plain hS (by omega) hu (by omega), R_bind_ok, trieOf_runs hS (by omega) hu (by omega), R_bind_ok, e2, R_bind_ok,
    delta_eq hu' hl hf]
  rfl

theorem measuresLoop_lists {pad m u : Nat} (hu : 3 ≤ u) (hu' : u < 2 ^ 32) : (lists : List (List Nat)) → (fuel last : Nat) →
    (∀ l ∈ lists, l.length < 2 ^ 30) → (∀ l ∈ longer m lists, ValidSet l u) → last < u → lists.length < fuel →
    (g r t t' e s : Nat) →
    measuresLoop pad m u fuel (lists.flatMap listBytes) last ⟨g % 2 ^ 64, r % 2 ^ 64, t % 2 ^ 64, t' % 2 ^ 64, e % 2 ^ 64, s % 2 ^ 64⟩ =
      .ok ⟨(g + (((longer m lists).map gapCost).sum + ((joints u last (longer m lists)).map bits).sum)) % 2 ^ 64,
        (r + ((longer m lists).map rleVal).sum) % 2 ^ 64,
        (t + ((longer m lists).map fun l => allPrefixes l (Nat.log2 (u - 1) + 1)).sum) % 2 ^ 64,
        (t' + ((longer m lists).map fun l => survivingPrefixes l (Nat.log2 (u - 1) + 1)).sum) % 2 ^ 64,
        (e + ((longer m lists).map List.length).sum) % 2 ^ 64, (s + (longer m lists).length) % 2 ^ 64⟩
  | [], fuel + 1, last, _, _, _, _, g, r, t, t', e, s => rfl
  | l :: ls, fuel + 1, last, hl, hv, hlast, hf, g, r, t, t', e, s => by
    have h0 : l.length < 2 ^ 30 := hl l (by simp)
    have hf' : ls.length < fuel := by simp only [List.length_cons] at hf; omega
    rw [List.flatMap_cons, measuresLoop, readLE_listBytes h0]
    dsimp only
    by_cases h : m < l.length
    · rw [longer_pos h] at hv ⊢
      have hS := hv l (by simp)
      have hrd : readInvList l.length (l.flatMap (leBytes 4) ++ ls.flatMap listBytes) = .ok (l, ls.flatMap listBytes) := by
          have := readMany_flatMap (read := readLE 4) (write := leBytes 4) (f := id) l (ls.flatMap listBytes)
            (fun x hx rest => readLE_leBytes 4 x rest (by have := hS.below x hx; omega))
          rwa [List.map_id] at this
      have hlast' : l.getLastD 0 < u := by
        rw [List.getLastD_eq_getLast?, List.getLast?_eq_getLast_of_ne_nil hS.ne]
        exact hS.below _ (List.getLast_mem _)
      rw [if_pos h, hrd, R_bind_ok]
      dsimp only
      rw [measureList_eq hS h0 hu hu' hlast, R_bind_ok]
      dsimp only
      rw [measuresLoop_lists hu hu' ls fuel _ (fun z hz => hl z (List.mem_cons_of_mem _ hz))
        (fun z hz => hv z (List.mem_cons_of_mem _ hz)) hlast' hf']
      simp only [List.map_cons, List.sum_cons, List.length_cons, joints]
      congr 2 <;> omega
    · rw [longer_neg h] at hv ⊢
      rw [if_neg h, skipList_list h0]
      exact measuresLoop_lists hu hu' ls fuel _ (fun z hz => hl z (List.mem_cons_of_mem _ hz)) hv hlast hf' g r t t' e s

end CBT
