import Verif.Model.Checks
import Verif.SpecChecks
import Verif.Proof.CommandLine
import Verif.Proof.ToolsTries
import Verif.Props.Brute
import Verif.Props.Runs
import Verif.Props.Decode

/-!
# Lemmas about the checking programs
-/

namespace CBT

open Spec

/-! ## Encoding -/

/-- The second pass of an encoding checker on the lists it looks at. -/
def checkAll (check : Nat → List Nat → R (Bool × Nat)) : List (List Nat) → CheckReport → R CheckReport
  | [], r => .ok r
  | l :: ls, r => do
    let x ← check r.nIl l
    checkAll check ls
      { reported := if x.1 then r.reported else r.reported ++ [r.nIl], nIl := (r.nIl + 1) % 2 ^ 64,
        totalElements := (r.totalElements + l.length) % 2 ^ 64, totalSize := (r.totalSize + x.2) % 2 ^ 64 }

theorem checkLoop_lists {m : Nat} {check : Nat → List Nat → R (Bool × Nat)} : (lists : List (List Nat)) → (fuel : Nat) → (r : CheckReport) →
    (∀ l ∈ lists, l.length < 2 ^ 30) → (∀ l ∈ longer m lists, ∀ x ∈ l, x < 2 ^ 32) → lists.length < fuel →
    checkLoop m check fuel (lists.flatMap listBytes) r = checkAll check (longer m lists) r
  | [], fuel + 1, r, _, _, _ => rfl
  | l :: ls, fuel + 1, r, hl, hx, hf => by
    have h0 : l.length < 2 ^ 30 := hl l (by simp)
    have hf' : ls.length < fuel := by simp only [List.length_cons] at hf; omega
    rw [List.flatMap_cons, checkLoop, readLE_listBytes h0]
    simp only
    by_cases ha : m < l.length
    · have e : longer m (l :: ls) = l :: longer m ls := List.filter_cons_of_pos (by simpa using ha)
      rw [e] at hx ⊢
      have hr : readInvList l.length (l.flatMap (leBytes 4) ++ ls.flatMap listBytes) = .ok (l, ls.flatMap listBytes) := by
        rw [readInvList, readMany_flatMap (f := id) l _ fun x hxl rest => readLE_leBytes 4 x rest (by
          have := hx l (by simp) x hxl; omega)]
        simp
      rw [if_pos ha, hr, R_bind_ok]
      simp only
      rw [checkAll]
      congr 1
      funext x
      exact checkLoop_lists ls fuel _ (fun l h => hl l (List.mem_cons_of_mem _ h)) (fun l h => hx l (List.mem_cons_of_mem _ h)) hf'
    · have e : longer m (l :: ls) = longer m ls := List.filter_cons_of_neg (by simpa using ha)
      rw [e] at hx ⊢
      rw [if_neg ha, skipList_list h0, checkLoop_lists ls fuel r (fun l h => hl l (List.mem_cons_of_mem _ h)) hx hf']

/-- The numbers, from `i` on, of the lists that were not decoded correctly. -/
def badFrom (i : Nat) : List (Bool × Nat) → List Nat
  | [] => []
  | x :: xs => if x.1 then badFrom (i + 1) xs else i :: badFrom (i + 1) xs

theorem checkAll_iff {check : Nat → List Nat → R (Bool × Nat)} : (ls : List (List Nat)) → (r r' : CheckReport) →
    r.nIl + ls.length < 2 ^ 64 → r.totalElements < 2 ^ 64 → r.totalSize < 2 ^ 64 →
    (checkAll check ls r = .ok r' ↔ ∃ xs : List (Bool × Nat), xs.length = ls.length ∧
      (∀ j (h : j < ls.length) (h' : j < xs.length), check (r.nIl + j) ls[j] = .ok xs[j]) ∧
      r' = ⟨r.reported ++ badFrom r.nIl xs, r.nIl + ls.length, (r.totalElements + (ls.map List.length).sum) % 2 ^ 64,
        (r.totalSize + (xs.map Prod.snd).sum) % 2 ^ 64⟩)
  | [], r, r', _, h1, h2 => by
    rw [checkAll]
    constructor
    · intro h
      injection h with h
      refine ⟨[], rfl, fun j h => by simp at h, ?_⟩
      subst h
      simp only [badFrom, List.map_nil, List.sum_nil, List.length_nil, Nat.add_zero, List.append_nil, Nat.mod_eq_of_lt h1, Nat.mod_eq_of_lt h2]
    · rintro ⟨xs, hx, -, rfl⟩
      have : xs = [] := by simpa using hx
      subst this
      simp only [badFrom, List.map_nil, List.sum_nil, List.length_nil, Nat.add_zero, List.append_nil, Nat.mod_eq_of_lt h1, Nat.mod_eq_of_lt h2]
  | l :: ls, r, r', h0, h1, h2 => by
    have hn : (r.nIl + 1) % 2 ^ 64 = r.nIl + 1 := Nat.mod_eq_of_lt (by simp only [List.length_cons] at h0; omega)
    have ih := fun x : Bool × Nat => checkAll_iff (check := check) ls
      { reported := if x.1 then r.reported else r.reported ++ [r.nIl], nIl := (r.nIl + 1) % 2 ^ 64,
        totalElements := (r.totalElements + l.length) % 2 ^ 64, totalSize := (r.totalSize + x.2) % 2 ^ 64 } r'
      (by simp only [hn]; simp only [List.length_cons] at h0; omega) (Nat.mod_lt _ (by decide)) (Nat.mod_lt _ (by decide))
    have fin : ∀ (x : Bool × Nat) (xs : List (Bool × Nat)), (⟨(if x.1 then r.reported else r.reported ++ [r.nIl]) ++ badFrom (r.nIl + 1) xs,
        r.nIl + 1 + ls.length, ((r.totalElements + l.length) % 2 ^ 64 + (ls.map List.length).sum) % 2 ^ 64,
        ((r.totalSize + x.2) % 2 ^ 64 + (xs.map Prod.snd).sum) % 2 ^ 64⟩ : CheckReport) =
        ⟨r.reported ++ badFrom r.nIl (x :: xs), r.nIl + (l :: ls).length, (r.totalElements + ((l :: ls).map List.length).sum) % 2 ^ 64,
          (r.totalSize + ((x :: xs).map Prod.snd).sum) % 2 ^ 64⟩ := by
      intro x xs
      rw [badFrom]
      simp only [List.map_cons, List.sum_cons, List.length_cons, CheckReport.mk.injEq, Nat.mod_add_mod, Nat.add_assoc, true_and]
      refine ⟨?_, by simp [Nat.add_comm 1]⟩
      cases x.1 <;> simp
    rw [checkAll]
    constructor
    · intro h
      obtain ⟨x, hx, h⟩ := bind_ok h
      obtain ⟨xs, e1, e2, e3⟩ := (ih x).1 h
      refine ⟨x :: xs, by simp [e1], fun j hj hj' => ?_, ?_⟩
      · cases j with
        | zero => simpa using hx
        | succ j =>
          have := e2 j (by simpa using hj) (by simpa using hj')
          simp only [hn] at this
          simpa [Nat.add_assoc, Nat.add_comm 1] using this
      · rw [e3, ← fin]; simp only [hn]
    · rintro ⟨xs, e1, e2, e3⟩
      cases xs with
      | nil => simp at e1
      | cons x xs =>
        rw [show check r.nIl l = .ok x from e2 0 (by simp) (by simp), R_bind_ok]
        refine (ih x).2 ⟨xs, by simpa using e1, fun j hj hj' => ?_, ?_⟩
        · have := e2 (j + 1) (by simpa using hj) (by simpa using hj')
          simp only [hn]
          simpa [Nat.add_assoc, Nat.add_comm 1] using this
        · rw [e3, ← fin]; simp only [hn]

theorem sum_lengths_lt {ls : List (List Nat)} (hl : ∀ l ∈ ls, l.length < 2 ^ 30) (hn : ls.length < 2 ^ 32) :
    (ls.map List.length).sum < 2 ^ 64 := by
  have : (ls.map List.length).sum ≤ ls.length * 2 ^ 30 := by
    clear hn
    induction ls with
    | nil => simp
    | cons l ls ih =>
      have h1 := hl l (by simp)
      have h2 := ih fun l h => hl l (List.mem_cons_of_mem _ h)
      simp only [List.map_cons, List.sum_cons, List.length_cons, Nat.add_mul]
      omega
  have h' : ls.length * 2 ^ 30 ≤ 2 ^ 32 * 2 ^ 30 := Nat.mul_le_mul_right _ (by omega)
  have : (2 : Nat) ^ 32 * 2 ^ 30 < 2 ^ 64 := by decide
  omega

theorem longer_length_le (m : Nat) (lists : List (List Nat)) : (longer m lists).length ≤ lists.length := List.length_filter_le _ _

theorem mem_longer {m : Nat} {lists : List (List Nat)} {l : List Nat} (h : l ∈ longer m lists) : l ∈ lists := List.mem_of_mem_filter h

/-- What an encoding checker reports, for every collection. -/
theorem verifyEncode_iff {m : Nat} {check : Nat → Nat → List Nat → R (Bool × Nat)} {one u : Nat} (hone : one < 2 ^ 32) (hu : u < 2 ^ 32)
    {lists : List (List Nat)} (hl : ∀ l ∈ lists, l.length < 2 ^ 30) (hx : ∀ l ∈ longer (m % 2 ^ 32) lists, ∀ x ∈ l, x < 2 ^ 32)
    (hn : (longer (m % 2 ^ 32) lists).length < 2 ^ 32) (r : CheckReport) :
    verifyEncode m check (collectionBytes one u lists) = .ok r ↔
      ∃ xs : List (Bool × Nat), xs.length = (longer (m % 2 ^ 32) lists).length ∧
        (∀ j (h : j < (longer (m % 2 ^ 32) lists).length) (h' : j < xs.length), check u j (longer (m % 2 ^ 32) lists)[j] = .ok xs[j]) ∧
        r = ⟨badFrom 0 xs, (longer (m % 2 ^ 32) lists).length, ((longer (m % 2 ^ 32) lists).map List.length).sum,
          (xs.map Prod.snd).sum % 2 ^ 64⟩ := by
  have hf := length_le_flatMap lists
  have hk : kept (m % 2 ^ 32) (2 ^ 32 - 1) lists = longer (m % 2 ^ 32) lists := by
    refine List.filter_congr fun l h => ?_
    have := hl l h
    have h' : l.length ≤ 2 ^ 32 - 1 := by omega
    rw [decide_eq_true h', Bool.and_true]
  rw [verifyEncode, collectionBytes, readLE_leBytes 4 _ _ (by omega), R_bind_ok]
  simp only
  rw [readLE_leBytes 4 _ _ (by omega), R_bind_ok]
  simp only
  rw [countSets_lists lists _ 0 hl (by omega) (by rw [hk]; omega), R_bind_ok, checkLoop_lists lists _ _ hl hx (by omega),
    checkAll_iff _ _ _ (by simp only; omega) (by simp only; omega) (by simp only; omega)]
  have hs := sum_lengths_lt (fun l h => hl l (mem_longer h)) hn
  simp only [Nat.zero_add, List.nil_append, Nat.mod_eq_of_lt hs]

theorem badFrom_true (i : Nat) (xs : List (Bool × Nat)) (h : ∀ x ∈ xs, x.1 = true) : badFrom i xs = [] := by
  induction xs generalizing i with
  | nil => rfl
  | cons x xs ih => rw [badFrom, if_pos (h x (by simp))]; exact ih _ fun x hx => h x (List.mem_cons_of_mem _ hx)

theorem mem_badFrom (i k : Nat) (xs : List (Bool × Nat)) : k ∈ badFrom i xs ↔ ∃ j, k = i + j ∧ ∃ z, xs[j]? = some (false, z) := by
  induction xs generalizing i with
  | nil => simp [badFrom]
  | cons x xs ih =>
    have key : (∃ j, k = i + j ∧ ∃ z, (x :: xs)[j]? = some (false, z)) ↔
        (k = i ∧ x.1 = false) ∨ ∃ j, k = i + 1 + j ∧ ∃ z, xs[j]? = some (false, z) := by
      constructor
      · rintro ⟨j, hk, z, hz⟩
        cases j with
        | zero => left; simp at hz; exact ⟨by omega, by rw [hz]⟩
        | succ j => right; exact ⟨j, by omega, z, by simpa using hz⟩
      · rintro (⟨hk, hx⟩ | ⟨j, hk, z, hz⟩)
        · exact ⟨0, by omega, x.2, by obtain ⟨a, b⟩ := x; simp at hx; simp [hx]⟩
        · exact ⟨j + 1, by omega, z, by simpa using hz⟩
    rw [key, badFrom, ← ih]
    cases h : x.1 <;> simp

/-! ## One list -/

theorem checkFlat_plain (B L : BvIO) (K : RankIO) (pad : Nat) {S : List Nat} {u : Nat} (hS : ValidSet S u) (hlen : S.length < 2 ^ 32)
    (hu : 3 ≤ u) (hu' : u ≤ 2 ^ 62) :
    ∃ t, flatCtor S u = .ok t ∧ checkFlat B L K pad false u S = .ok (true, t.sizeInBytes B L K) := by
  obtain ⟨t, h1, h2⟩ := C01_flat_build_decode hS hlen hu hu' pad []
  refine ⟨t, h1, ?_⟩
  rw [List.nil_append] at h2
  simp only [checkFlat, h1, R_bind_ok, Bool.false_eq_true, if_false, h2, decide_true]

theorem checkFlat_runs (B L : BvIO) (K : RankIO) (pad : Nat) {S : List Nat} {u : Nat} (hS : ValidSet S u) (hlen : S.length < 2 ^ 32)
    (hu : 3 ≤ u) (hu' : u ≤ 2 ^ 62) :
    ∃ t t', flatCtor S u = .ok t ∧ t.encodeRuns pad = .ok t' ∧ ∀ x, checkFlat B L K pad true u S = .ok x ↔
      x = (true, t'.sizeInBytes B L K) ∧ ((∃ x ∈ S, ∃ y, y / 4 = x / 4 ∧ y ∉ S) ∨ t'.lastLevel.length ≤ pad) := by
  obtain ⟨t, t', h1, h2, h3, h4⟩ := C04_flat_runs_decode_iff hS hlen hu hu' pad []
  refine ⟨t, t', h1, h2, fun x => ?_⟩
  rw [← h3]
  rw [List.nil_append] at h3 h4 ⊢
  have e : checkFlat B L K pad true u S = (t'.decode pad [] >>= fun d => .ok (decide (d = S), t'.sizeInBytes B L K)) := by
    simp only [checkFlat, h1, R_bind_ok, if_true, h2]
  rw [e]
  constructor
  · intro h
    obtain ⟨d, hd, h⟩ := bind_ok h
    injection h with h
    have hd' := h4.1 ⟨d, hd⟩
    rw [hd] at hd'
    injection hd' with hd'
    subst hd'
    exact ⟨by rw [← h]; simp, hd⟩
  · rintro ⟨rfl, hd⟩
    rw [hd, R_bind_ok]; simp

theorem checkLevel_ok (isIl : Bool) (B : BvIO) (K : RankIO) (pad : Nat) (runs : Bool) {S : List Nat} {u : Nat} (hS : ValidSet S u)
    (hlen : S.length < 2 ^ 64) (hu : 2 ≤ u) (hu' : u ≤ 2 ^ 62) :
    ∃ t t', levelCtor S u = .ok t ∧ (if runs then t.encodeRuns isIl pad else .ok t) = .ok t' ∧
      checkLevel isIl B K pad runs u S = .ok (true, t'.sizeInBytes B K) := by
  cases runs with
  | false =>
    obtain ⟨t, h1, h2⟩ := C02_level_build_decode hS hlen hu (by omega) isIl pad []
    refine ⟨t, t, h1, rfl, ?_⟩
    rw [List.nil_append] at h2
    simp only [checkLevel, h1, R_bind_ok, Bool.false_eq_true, if_false, h2, decide_true]
  | true =>
    obtain ⟨t, t', h1, h2, h3⟩ := C05_level_runs_decode hS hlen hu (by omega) isIl pad []
    refine ⟨t, t', h1, h2, ?_⟩
    rw [List.nil_append] at h3
    simp only [checkLevel, h1, R_bind_ok, if_true, h2, h3, decide_true]

theorem checkFast_ok (B : BvIO) (K : Nat → RankIO) {lg : Nat} (hlg : 3 ≤ lg ∧ lg ≤ 6) (pad : Nat) (junk : Nat → FastJunk) (rank : Nat)
    (runs : Bool) (i : Nat) (hj : runs = true → (junk i).emptyTrie = false) {S : List Nat} {u : Nat} (hS : ValidSet S u)
    (hlen : S.length < 2 ^ 32) (hu : 2 ^ (lg - 1) < u) (hu' : u ≤ 2 ^ 62) :
    ∃ t t', fastCtor lg (junk i) S u = .ok t ∧ (if runs then t.encodeRuns lg pad else .ok t) = .ok t' ∧
      checkFast B K lg pad junk rank runs u i S = .ok (true, t'.sizeInBytes B (K (if rank = 0 then 0 else 2)) lg) := by
  cases runs with
  | false =>
    obtain ⟨t, h1, h2⟩ := C03_fast_build_decode hlg hS hlen hu hu' (junk i) pad []
    refine ⟨t, t, h1, rfl, ?_⟩
    rw [List.nil_append] at h2
    simp only [checkFast, h1, R_bind_ok, Bool.false_eq_true, if_false, h2, decide_true, ne_eq, not_true_eq_false, false_and]
  | true =>
    obtain ⟨t, t', h1, h2, h3⟩ := C06_fast_runs_decode_partial hlg hS hlen hu hu' (junk i) (hj rfl) pad []
    refine ⟨t, t', h1, h2, ?_⟩
    rw [List.nil_append] at h3
    simp only [checkFast, h1, R_bind_ok, if_true, h2, h3, decide_true, ne_eq, not_true_eq_false, false_and, if_false]

theorem checkFast_runs (B : BvIO) (K : Nat → RankIO) {lg : Nat} (hlg : 3 ≤ lg ∧ lg ≤ 6) (pad : Nat) (junk : Nat → FastJunk) (rank i : Nat)
    {S : List Nat} {u : Nat} (hS : ValidSet S u) (hlen : S.length < 2 ^ 32) (hu : 2 ^ (lg - 1) < u) (hu' : u ≤ 2 ^ 62) :
    ∃ z, checkFast B K lg pad junk rank true u i S =
      if (junk i).emptyTrie = true ∧ rank = 0 then .error .oob else .ok (!(junk i).emptyTrie, z) := by
  obtain ⟨t, t', h1, h2, h3⟩ := C06_fast_runs_decode_exact hlg hS hlen hu hu' (junk i) pad []
  refine ⟨t'.sizeInBytes B (K (if rank = 0 then 0 else 2)) lg, ?_⟩
  simp only [checkFast, h1, R_bind_ok, if_true, h2, h3, List.nil_append]
  have hne : ¬ ([] : List Nat) = S := fun h => hS.ne h.symm
  cases (junk i).emptyTrie with
  | false => simp
  | true =>
    by_cases hr : rank = 0
    · simp only [if_true, hr, ne_eq, hne, not_false_eq_true, and_self]
      by_cases h10 : 10 ≤ S.length
      · simp only [printTen, h10, if_true, R_bind_ok]
        rfl
      · simp only [printTen, h10, if_false]
        rfl
    · simp [hr, hne]

theorem badFrom_eq (i : Nat) (xs : List (Bool × Nat)) (p : Nat → Bool) (h : ∀ j (hj : j < xs.length), xs[j].1 = !p (i + j)) :
    badFrom i xs = ((List.range xs.length).map (i + ·)).filter p := by
  induction xs generalizing i with
  | nil => rfl
  | cons x xs ih =>
    have h0 := h 0 (by simp)
    have ih' := ih (i + 1) fun j hj => by
      have := h (j + 1) (by simpa using hj)
      simpa [Nat.add_assoc, Nat.add_comm 1 j] using this
    have hm : (List.range (x :: xs).length).map (i + ·) = i :: (List.range xs.length).map (i + 1 + ·) := by
      rw [List.length_cons, List.range_succ_eq_map, List.map_cons, List.map_map]
      refine congrArg _ (List.map_congr_left fun j _ => ?_)
      simp only [Function.comp, Nat.succ_eq_add_one]; omega
    rw [hm, List.filter_cons, badFrom, ih']
    simp only [List.getElem_cons_zero, Nat.add_zero] at h0
    rw [h0]
    cases p i <;> simp

/-! ## Options -/

theorem stoiU32_digits {n : Nat} (h : n < 2 ^ 31) : stoiU32 (Nat.toDigits 10 n) = .ok n := by
  rw [stoiU32_decimal (decimal_toDigits n), if_pos h]

theorem checkRound_ok (pre : List Str) (o : BuildOption) (rest : List Str) (s : BuildSettings) (h : o.CheckOk false) :
    checkRound (pre ++ (o.words false ++ rest)) (s, pre.length) = .ok (o.apply s, pre.length + (o.words false).length - 1) := by
  obtain ⟨e1, e2, e3, e4, e5, e6, e7, e8, -, e9, e10, e11⟩ := names_eq
  have g0 : ∀ {a : Str} {l : List Str}, o.words false = a :: l → argGet (pre ++ (o.words false ++ rest)) pre.length = .ok a := fun e =>
    argGet_append pre _ 0 (by rw [e]; rfl)
  have g1 : ∀ {a b : Str} {l : List Str}, o.words false = a :: b :: l → argGet (pre ++ (o.words false ++ rest)) (pre.length + 1) = .ok b :=
    fun e => argGet_append pre _ 1 (by rw [e]; rfl)
  have g2 : ∀ {a b c : Str} {l : List Str}, o.words false = a :: b :: c :: l →
      argGet (pre ++ (o.words false ++ rest)) (pre.length + 1 + 1) = .ok c :=
    fun e => argGet_append pre _ 2 (by rw [e]; rfl)
  generalize hargv : pre ++ (o.words false ++ rest) = argv at g0 g1 g2 ⊢
  cases o with
  | minSize n =>
    have h0 := g0 rfl; have h1 := g1 rfl
    have hd : ∀ s, (Nat.toDigits 10 n = '-' :: s) = False := fun s => by simp [digits_ne_dash]
    rw [e1] at h0
    simp [checkRound, clause, h0, h1, actMinSize, stoull_digits h, BuildOption.apply, BuildOption.words, hd, sMinSize,
      sRank, sRuns, sLevelwise, sOut, R_bind_ok]
  | rankV =>
    have h0 := g0 rfl; have h1 := g1 rfl
    rw [e3] at h0; rw [e9] at h1
    simp [checkRound, clause, h0, h1, actRank, BuildOption.apply, BuildOption.words, sMinSize,
      sRank, sRuns, sLevelwise, sOut, sV, R_bind_ok]
  | rankIl n =>
    have h0 := g0 rfl; have h1 := g1 rfl; have h2 := g2 rfl
    have hd : ∀ s, (Nat.toDigits 10 n = '-' :: s) = False := fun s => by simp [digits_ne_dash]
    rw [e3] at h0; rw [e10] at h1
    have ha : atoi 32 (Nat.toDigits 10 n) = .ok n := atoi_digits h (Nat.lt_trans h (by decide))
    simp [checkRound, clause, h0, h1, h2, ha, hd, actRank, BuildOption.apply, BuildOption.words, sMinSize,
      sRank, sRuns, sLevelwise, sOut, sV, sIl, R_bind_ok]
  | rankV5 =>
    have h0 := g0 rfl; have h1 := g1 rfl
    rw [e3] at h0; rw [e11] at h1
    simp [checkRound, clause, h0, h1, actRank, BuildOption.apply, BuildOption.words, sMinSize,
      sRank, sRuns, sLevelwise, sOut, sV, sIl, R_bind_ok]
  | runs b =>
    have h0 := g0 rfl; have h1 := g1 rfl
    rw [e4] at h0
    cases b <;>
      simp [checkRound, clause, h0, h1, actRuns, BuildOption.apply, BuildOption.words, sMinSize, flagWord, sT,
        sRank, sRuns, sLevelwise, sOut, R_bind_ok]
  | levelwise b =>
    have h0 := g0 rfl; have h1 := g1 rfl
    rw [e5] at h0
    cases b <;>
      simp [checkRound, clause, h0, h1, actLevelwise, BuildOption.apply, BuildOption.words, sMinSize, flagWord, sT,
        sRank, sRuns, sLevelwise, sOut, R_bind_ok]
  | out name =>
    have h0 := g0 rfl; have h1 := g1 rfl
    rw [e6] at h0
    have h' : name ≠ sLevelwise := e5 ▸ h
    simp [checkRound, clause, h0, h1, actOut, BuildOption.apply, BuildOption.words, sMinSize, h', sRank, sRuns, sOut, R_bind_ok]
  | wsize w => exact absurd h.1 (by decide)
  | maxSize n => exact h.elim
  | verbose => exact h.elim

theorem checkFastRound_ok (pre : List Str) (o : BuildOption) (rest : List Str) (s : BuildSettings) (h : o.CheckOk true) :
    checkFastRound (pre ++ (o.words true ++ rest)) (s, pre.length) = .ok (o.apply s, pre.length + (o.words true).length - 1) := by
  obtain ⟨e1, e2, e3, e4, e5, e6, e7, e8, -, e9, e10, e11⟩ := names_eq
  have g0 : ∀ {a : Str} {l : List Str}, o.words true = a :: l → argGet (pre ++ (o.words true ++ rest)) pre.length = .ok a := fun e =>
    argGet_append pre _ 0 (by rw [e]; rfl)
  have g1 : ∀ {a b : Str} {l : List Str}, o.words true = a :: b :: l → argGet (pre ++ (o.words true ++ rest)) (pre.length + 1) = .ok b :=
    fun e => argGet_append pre _ 1 (by rw [e]; rfl)
  have g2 : ∀ {a b c : Str} {l : List Str}, o.words true = a :: b :: c :: l →
      argGet (pre ++ (o.words true ++ rest)) (pre.length + 1 + 1) = .ok c :=
    fun e => argGet_append pre _ 2 (by rw [e]; rfl)
  generalize hargv : pre ++ (o.words true ++ rest) = argv at g0 g1 g2 ⊢
  cases o with
  | minSize n =>
    have h0 := g0 rfl; have h1 := g1 rfl
    have hd : ∀ s, (Nat.toDigits 10 n = '-' :: s) = False := fun s => by simp [digits_ne_dash]
    rw [e1] at h0
    simp [checkFastRound, clause, h0, h1, actMinSize, stoull_digits h, BuildOption.apply, BuildOption.words, hd, sMinSize,
      sRank, sRuns, sWsize, sOut, R_bind_ok]
  | rankV =>
    have h0 := g0 rfl; have h1 := g1 rfl
    rw [e3] at h0; rw [e9] at h1
    simp [checkFastRound, clause, h0, h1, actRank, BuildOption.apply, BuildOption.words, sMinSize,
      sRank, sRuns, sWsize, sOut, sV, R_bind_ok]
  | rankIl n =>
    have h0 := g0 rfl; have h1 := g1 rfl; have h2 := g2 rfl
    have hd : ∀ s, (Nat.toDigits 10 n = '-' :: s) = False := fun s => by simp [digits_ne_dash]
    rw [e3] at h0; rw [e10] at h1
    have ha : atoi 32 (Nat.toDigits 10 n) = .ok n := atoi_digits h (Nat.lt_trans h (by decide))
    simp [checkFastRound, clause, h0, h1, h2, ha, hd, actRank, BuildOption.apply, BuildOption.words, sMinSize,
      sRank, sRuns, sWsize, sOut, sV, sIl, R_bind_ok]
  | rankV5 =>
    have h0 := g0 rfl; have h1 := g1 rfl
    rw [e3] at h0; rw [e11] at h1
    simp [checkFastRound, clause, h0, h1, actRank, BuildOption.apply, BuildOption.words, sMinSize,
      sRank, sRuns, sWsize, sOut, sV, sIl, R_bind_ok]
  | runs b =>
    have h0 := g0 rfl; have h1 := g1 rfl
    rw [e4] at h0
    cases b <;>
      simp [checkFastRound, clause, h0, h1, actRuns, BuildOption.apply, BuildOption.words, sMinSize, flagWord, sT,
        sRank, sRuns, sWsize, sOut, R_bind_ok]
  | wsize w =>
    have h0 := g0 rfl; have h1 := g1 rfl
    rw [e7] at h0
    have hw : w < 2 ^ 16 := h.2
    have ha : stoiU32 (Nat.toDigits 10 w) = .ok w := stoiU32_digits (Nat.lt_trans hw (by decide))
    have hm : w % 65536 = w := Nat.mod_eq_of_lt hw
    simp [checkFastRound, clause, h0, h1, ha, hm, actWsizeStoi, BuildOption.apply, BuildOption.words, sMinSize,
      sRank, sRuns, sWsize, sOut, R_bind_ok]
  | out name =>
    have h0 := g0 rfl; have h1 := g1 rfl
    rw [e6] at h0
    have h' : name ≠ sWsize := e7 ▸ h
    simp [checkFastRound, clause, h0, h1, actOut, BuildOption.apply, BuildOption.words, sMinSize, h', sRank, sRuns, sOut, R_bind_ok]
  | levelwise b => exact absurd h (by simp [BuildOption.CheckOk])
  | maxSize n => exact h.elim
  | verbose => exact h.elim

/-- With options that are understood, `test_encoding` checks the file as they say. -/
theorem mainTestEncoding_any (F : Formats) (pad : Nat) (fs : Files) (prog input : Str)
    {opts : List BuildOption} (h0 : opts ≠ []) (h : ∀ o ∈ opts, o.CheckOk false) {o : BuildSettings}
    (ho : o = opts.foldl BuildOption.apply .default) :
    mainTestEncoding F pad fs (prog :: input :: opts.flatMap (BuildOption.words false)) =
      match fs input with
      | none => .ok none
      | some s => verifyEncode o.minSize (checkTrie F pad o.rank o.block o.runs o.levelwise) s >>= fun r => .ok (some r) := by
  have e1 : argGet (prog :: input :: opts.flatMap (BuildOption.words false)) 1 = .ok input := rfl
  have hlen := flatMap_words_pos (buildWords_ne false) h0
  have e2 : argLoop (checkRound (prog :: input :: opts.flatMap (BuildOption.words false))) (prog :: input :: opts.flatMap (BuildOption.words false)).length
      ((prog :: input :: opts.flatMap (BuildOption.words false)).length + 1) (.default, 2) = .ok (opts.foldl BuildOption.apply .default) :=
    argLoop_ok (BuildOption.words false) BuildOption.apply (BuildOption.CheckOk false) checkRound (buildWords_ne false)
    checkRound_ok opts h [prog, input] .default
  rw [mainTestEncoding, if_neg (by simp only [List.length_cons]; omega), e1, R_bind_ok]
  rw [e2, ← ho, R_bind_ok]
  cases fs input <;> rfl

theorem mainTestFast_any (B : BvIO) (K : Nat → RankIO) (pad : Nat) (junk : Nat → FastJunk) (fs : Files) (prog input : Str)
    {opts : List BuildOption} (h : ∀ o ∈ opts, o.CheckOk true) {o : BuildSettings}
    (ho : o = opts.foldl BuildOption.apply .default) :
    mainTestFast B K pad junk fs (prog :: input :: opts.flatMap (BuildOption.words true)) =
      match fs input with
      | none => .ok none
      | some s => verifyEncode o.minSize (checkFast B K (queryLg o.wsize) pad junk o.rank o.runs) s >>= fun r => .ok (some r) := by
  have e1 : argGet (prog :: input :: opts.flatMap (BuildOption.words true)) 1 = .ok input := rfl
  have e2 : argLoop (checkFastRound (prog :: input :: opts.flatMap (BuildOption.words true))) (prog :: input :: opts.flatMap (BuildOption.words true)).length
      ((prog :: input :: opts.flatMap (BuildOption.words true)).length + 1) (.default, 2) = .ok (opts.foldl BuildOption.apply .default) :=
    argLoop_ok (BuildOption.words true) BuildOption.apply (BuildOption.CheckOk true) checkFastRound (buildWords_ne true)
    checkFastRound_ok opts h [prog, input] .default
  rw [mainTestFast, if_neg (by simp only [List.length_cons]; omega), e1, R_bind_ok]
  rw [e2, ← ho, R_bind_ok]
  cases fs input <;> rfl

theorem mainTestEncoding_options (F : Formats) (pad : Nat) {fs : Files} {prog input : Str} {s : Bytes} (hin : fs input = some s)
    {opts : List BuildOption} (h0 : opts ≠ []) (h : ∀ o ∈ opts, o.CheckOk false) {o : BuildSettings}
    (ho : o = opts.foldl BuildOption.apply .default) :
    mainTestEncoding F pad fs (prog :: input :: opts.flatMap (BuildOption.words false)) =
      (verifyEncode o.minSize (checkTrie F pad o.rank o.block o.runs o.levelwise) s >>= fun r => .ok (some r)) := by
  rw [mainTestEncoding_any F pad fs prog input h0 h ho, hin]

theorem mainTestFast_options (B : BvIO) (K : Nat → RankIO) (pad : Nat) (junk : Nat → FastJunk) {fs : Files} {prog input : Str} {s : Bytes}
    (hin : fs input = some s) {opts : List BuildOption} (h : ∀ o ∈ opts, o.CheckOk true) {o : BuildSettings}
    (ho : o = opts.foldl BuildOption.apply .default) :
    mainTestFast B K pad junk fs (prog :: input :: opts.flatMap (BuildOption.words true)) =
      (verifyEncode o.minSize (checkFast B K (queryLg o.wsize) pad junk o.rank o.runs) s >>= fun r => .ok (some r)) := by
  rw [mainTestFast_any B K pad junk fs prog input h ho, hin]

end CBT
