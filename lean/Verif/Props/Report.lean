import Verif.Model.Report
import Verif.Proof.ToolsTries
import Verif.Props.Docs
import Verif.Props.Size
import Verif.Props.Tools
import Verif.Props.Runs

/-!
# C87: what the builders print at the end
-/

namespace CBT

open Spec

/-! ## The totals change nothing -/

theorem reportLoop_fst {mn mx : Nat} {make : Nat → List Nat → R Bytes} {make' : Nat → List Nat → R (Bytes × Nat)}
    (h : ∀ i l, (make' i l).map Prod.fst = make i l) : (fuel : Nat) → (s : Bytes) → (i : Nat) → (r : BuildReport) →
    (reportLoop mn mx make' fuel s i r).map Prod.fst = buildLoop mn mx make fuel s i
  | 0, _, _, _ => rfl
  | fuel + 1, s, i, r => by
    rw [reportLoop, buildLoop]
    cases readLE 4 s with
    | error e => rfl
    | ok x =>
      obtain ⟨n, s⟩ := x
      dsimp only
      by_cases ha : accepts mn mx n
      · rw [if_pos ha, if_pos ha]
        cases readInvList n s with
        | error e => rfl
        | ok x =>
          obtain ⟨il, s⟩ := x
          simp only [R_bind_ok]
          rw [← h i il]
          cases make' i il with
          | error e => rfl
          | ok x =>
            obtain ⟨b, size⟩ := x
            show Except.map _ (do let x ← _; _) = (do let x ← _; _)
            simp only [R_bind_ok, Except.map]
            rw [← reportLoop_fst h fuel s (i + 1) (r.add n size)]
            cases reportLoop mn mx make' fuel s (i + 1) (r.add n size) with
            | error e => rfl
            | ok x => rfl
      · rw [if_neg ha, if_neg ha]
        exact reportLoop_fst h fuel _ i r

theorem reportFile_fst {mn mx : Nat} {hdr : Bytes} {make : Nat → Nat → List Nat → R Bytes} {make' : Nat → Nat → List Nat → R (Bytes × Nat)}
    (h : ∀ u i l, (make' u i l).map Prod.fst = make u i l) (s : Bytes) :
    (reportFile true mn mx hdr make' s).map Prod.fst = buildFile mn mx hdr make s := by
  rw [reportFile, buildFile]
  cases readLE 4 s with
  | error e => rfl
  | ok x =>
    obtain ⟨one, s1⟩ := x
    simp only [R_bind_ok]
    cases readLE 4 s1 with
    | error e => rfl
    | ok x =>
      obtain ⟨u, s2⟩ := x
      simp only [R_bind_ok]
      cases countSets mn mx (s2.length + 1) s2 0 with
      | error e => rfl
      | ok nSets =>
        simp only [R_bind_ok]
        rw [← reportLoop_fst (h u) (s2.length + 1) s2 0 ⟨0, 0, 0⟩]
        cases reportLoop mn mx (make' u) (s2.length + 1) s2 0 ⟨0, 0, 0⟩ with
        | error e => rfl
        | ok x => rfl

/-- C87: with an output file, `build_tries` with the totals is the program of the other properties. -/
theorem C87_tries_same (F : Formats) (pad : Nat) (ltr : Bool) (mn mx rank block : Nat) (runs levelwise : Bool) (s : Bytes) :
    (reportTries true F pad ltr mn mx rank block runs levelwise s).map Prod.fst = buildTries F pad ltr mn mx rank block runs levelwise s := by
  refine reportFile_fst (fun u i l => ?_) s
  have hflat : ∀ (B L : BvIO) (K : RankIO), (reportFlat true B L K pad ltr runs u l).map Prod.fst = makeFlat B L K pad ltr runs u l := by
    intro B L K
    rw [reportFlat, makeFlat]
    cases flatCtor l u with
    | error e => rfl
    | ok t =>
      cases runs
      · rfl
      · show Except.map _ (do let t ← t.encodeRuns pad; _) = (do let t ← t.encodeRuns pad; _)
        cases t.encodeRuns pad <;> rfl
  rw [reportTrie, makeTrie]
  by_cases hr : rank = 1
  · rw [if_pos hr, if_pos hr]
    cases levelwise
    · exact hflat _ _ _
    · rw [if_pos rfl, if_pos rfl, reportLevelIl, makeLevelIl]
      cases levelCtor l u with
      | error e => rfl
      | ok t =>
        cases runs
        · rfl
        · show Except.map _ (do let t ← t.encodeRuns true pad; _) = (do let t ← t.encodeRuns true pad; _)
          cases t.encodeRuns true pad <;> rfl
  · rw [if_neg hr, if_neg hr]
    cases levelwise
    · exact hflat _ _ _
    · rw [if_pos rfl, if_pos rfl, reportLevel, makeLevel]
      cases levelCtor l u with
      | error e => rfl
      | ok t =>
        cases runs
        · rfl
        · show Except.map _ (do let t ← t.encodeRuns false pad; _) = (do let t ← t.encodeRuns false pad; _)
          cases t.encodeRuns false pad <;> rfl

/-- C87, fast tries: likewise. -/
theorem C87_fast_same (B : BvIO) (K : Nat → RankIO) (pad : Nat) (junk : Nat → FastJunk) (mn mx rank : Nat) (runs levelwise : Bool)
    (wsize : Nat) (s : Bytes) :
    (reportFast true B K pad junk mn mx rank runs levelwise wsize s).map (fun x => x.map Prod.fst) =
      buildFast B K pad junk mn mx rank runs levelwise wsize s := by
  rw [reportFast, buildFast]
  cases wordLg wsize with
  | none => rfl
  | some lg =>
    dsimp only
    rw [← reportFile_fst (make' := reportFastTrie true B (K (if rank = 0 then 0 else 2)) lg pad junk runs) (fun u i l => ?_) s]
    · cases reportFile true mn mx (fastFileHeader rank runs levelwise wsize)
        (reportFastTrie true B (K (if rank = 0 then 0 else 2)) lg pad junk runs) s <;> rfl
    · rw [reportFastTrie, makeFast]
      cases fastCtor lg (junk i) l u with
      | error e => rfl
      | ok t =>
        cases runs
        · rfl
        · show Except.map _ (do let t ← t.encodeRuns lg pad; _) = (do let t ← t.encodeRuns lg pad; _)
          cases t.encodeRuns lg pad <;> rfl

/-! ## Without an output file -/

theorem reportLoop_silent {mn mx : Nat} {make make' : Nat → List Nat → R (Bytes × Nat)}
    (h : ∀ i l, make' i l = (make i l).map fun x => ([], x.2)) : (fuel : Nat) → (s : Bytes) → (i : Nat) → (r : BuildReport) →
    reportLoop mn mx make' fuel s i r = (reportLoop mn mx make fuel s i r).map fun x => ([], x.2)
  | 0, _, _, _ => rfl
  | fuel + 1, s, i, r => by
    rw [reportLoop, reportLoop]
    cases readLE 4 s with
    | error e => rfl
    | ok x =>
      obtain ⟨n, s⟩ := x
      dsimp only
      by_cases ha : accepts mn mx n
      · rw [if_pos ha, if_pos ha]
        cases readInvList n s with
        | error e => rfl
        | ok x =>
          obtain ⟨il, s⟩ := x
          simp only [R_bind_ok]
          rw [h i il]
          cases make i il with
          | error e => rfl
          | ok x =>
            obtain ⟨b, size⟩ := x
            simp only [R_bind_ok, Except.map]
            rw [reportLoop_silent h fuel s (i + 1) (r.add n size)]
            cases reportLoop mn mx make fuel s (i + 1) (r.add n size) with
            | error e => rfl
            | ok x => rfl
      · rw [if_neg ha, if_neg ha]
        exact reportLoop_silent h fuel _ i r

theorem reportFile_silent {mn mx : Nat} {hdr : Bytes} {make make' : Nat → Nat → List Nat → R (Bytes × Nat)}
    (h : ∀ u i l, make' u i l = (make u i l).map fun x => ([], x.2)) (s : Bytes) :
    reportFile false mn mx hdr make' s = (reportFile true mn mx hdr make s).map fun x => ([], x.2) := by
  rw [reportFile, reportFile]
  cases readLE 4 s with
  | error e => rfl
  | ok x =>
    obtain ⟨one, s1⟩ := x
    simp only [R_bind_ok]
    cases readLE 4 s1 with
    | error e => rfl
    | ok x =>
      obtain ⟨u, s2⟩ := x
      simp only [R_bind_ok]
      cases countSets mn mx (s2.length + 1) s2 0 with
      | error e => rfl
      | ok nSets =>
        simp only [R_bind_ok]
        rw [reportLoop_silent (h u) (s2.length + 1) s2 0 ⟨0, 0, 0⟩]
        cases reportLoop mn mx (make u) (s2.length + 1) s2 0 ⟨0, 0, 0⟩ with
        | error e => rfl
        | ok x => rfl

theorem reportFlat_silent (B L : BvIO) (K : RankIO) (pad : Nat) (ltr runs : Bool) (u : Nat) (l : List Nat) :
    reportFlat false B L K pad ltr runs u l = (reportFlat true B L K pad ltr runs u l).map fun x => ([], x.2) := by
  rw [reportFlat, reportFlat]
  cases flatCtor l u with
  | error e => rfl
  | ok t =>
    cases runs
    · rfl
    · show (do let t ← t.encodeRuns pad; _) = Except.map _ (do let t ← t.encodeRuns pad; _)
      cases t.encodeRuns pad <;> rfl

/-- C87: without an output file name, `build_tries` writes nothing and prints the same totals, on any input. -/
theorem C87_tries_no_output (F : Formats) (pad : Nat) (ltr : Bool) (mn mx block : Nat) {rank : Nat} (runs : Bool) {levelwise : Bool}
    (hk : rank ≠ 1 ∨ levelwise = false) (s : Bytes) :
    reportTries false F pad ltr mn mx rank block runs levelwise s =
      (reportTries true F pad ltr mn mx rank block runs levelwise s).map fun x => ([], x.2) := by
  refine reportFile_silent (fun u i l => ?_) s
  rw [reportTrie, reportTrie]
  by_cases hr : rank = 1
  · rw [if_pos hr, if_pos hr]
    cases levelwise
    · exact reportFlat_silent _ _ _ _ _ _ _ _
    · simp [hr] at hk
  · rw [if_neg hr, if_neg hr]
    cases levelwise
    · exact reportFlat_silent _ _ _ _ _ _ _ _
    · rw [if_pos rfl, if_pos rfl, reportLevel, reportLevel]
      cases levelCtor l u with
      | error e => rfl
      | ok t =>
        cases runs
        · rfl
        · show (do let t ← t.encodeRuns false pad; _) = Except.map _ (do let t ← t.encodeRuns false pad; _)
          cases t.encodeRuns false pad <;> rfl

/-- C87, fast tries: likewise. -/
theorem C87_fast_no_output (B : BvIO) (K : Nat → RankIO) (pad : Nat) (junk : Nat → FastJunk) (mn mx rank : Nat) (runs levelwise : Bool)
    (wsize : Nat) (s : Bytes) :
    reportFast false B K pad junk mn mx rank runs levelwise wsize s =
      (reportFast true B K pad junk mn mx rank runs levelwise wsize s).map (fun x => x.map fun x => ([], x.2)) := by
  rw [reportFast, reportFast]
  cases wordLg wsize with
  | none => rfl
  | some lg =>
    dsimp only
    rw [reportFile_silent (make := reportFastTrie true B (K (if rank = 0 then 0 else 2)) lg pad junk runs) (fun u i l => ?_) s]
    · cases reportFile true mn mx (fastFileHeader rank runs levelwise wsize)
        (reportFastTrie true B (K (if rank = 0 then 0 else 2)) lg pad junk runs) s <;> rfl
    · rw [reportFastTrie, reportFastTrie]
      cases fastCtor lg (junk i) l u with
      | error e => rfl
      | ok t =>
        cases runs
        · rfl
        · show (do let t ← t.encodeRuns lg pad; _) = Except.map _ (do let t ← t.encodeRuns lg pad; _)
          cases t.encodeRuns lg pad <;> rfl

/-! ## The number of lists and elements -/

/-- The second pass on the lists it keeps. -/
def reportAll (make : Nat → List Nat → R (Bytes × Nat)) : Nat → List (List Nat) → BuildReport → R (Bytes × BuildReport)
  | _, [], r => .ok ([], r)
  | i, l :: ls, r => do
    let x ← make i l
    let y ← reportAll make (i + 1) ls (r.add l.length x.2)
    .ok (x.1 ++ y.1, y.2)

theorem reportLoop_lists {mn mx : Nat} {make : Nat → List Nat → R (Bytes × Nat)} : (lists : List (List Nat)) → (fuel i : Nat) →
    (r : BuildReport) → (∀ l ∈ lists, l.length < 2 ^ 30) → (∀ l ∈ kept mn mx lists, ∀ x ∈ l, x < 2 ^ 32) → lists.length < fuel →
    reportLoop mn mx make fuel (lists.flatMap listBytes) i r = reportAll make i (kept mn mx lists) r
  | [], fuel + 1, i, r, _, _, _ => rfl
  | l :: ls, fuel + 1, i, r, hl, hx, hf => by
    have h0 : l.length < 2 ^ 30 := hl l (by simp)
    have hf' : ls.length < fuel := by simp only [List.length_cons] at hf; omega
    rw [List.flatMap_cons, reportLoop, readLE_listBytes h0]
    simp only
    rw [accepts_eq]
    by_cases ha : (decide (mn < l.length) && decide (l.length ≤ mx)) = true
    · have e : kept mn mx (l :: ls) = l :: kept mn mx ls := kept_pos ha
      rw [e] at hx ⊢
      have hr : readInvList l.length (l.flatMap (leBytes 4) ++ ls.flatMap listBytes) = .ok (l, ls.flatMap listBytes) := by
        rw [readInvList, readMany_flatMap (f := id) l _ fun x hxl rest => readLE_leBytes 4 x rest (by
          have := hx l (by simp) x hxl; omega)]
        simp
      rw [if_pos ha, hr, R_bind_ok]
      simp only
      rw [reportAll]
      simp only [reportLoop_lists ls fuel (i + 1) _ (fun l h => hl l (List.mem_cons_of_mem _ h))
        (fun l h => hx l (List.mem_cons_of_mem _ h)) hf']
    · have e : kept mn mx (l :: ls) = kept mn mx ls := kept_neg ha
      rw [e] at hx ⊢
      rw [if_neg ha, skipList_list h0, reportLoop_lists ls fuel i r (fun l h => hl l (List.mem_cons_of_mem _ h)) hx hf']

theorem reportAll_iff {make : Nat → List Nat → R (Bytes × Nat)} : (ls : List (List Nat)) → (i : Nat) → (r r' : BuildReport) → (bs : Bytes) →
    r.nIl < 2 ^ 64 → r.totalElements < 2 ^ 64 → r.totalSize < 2 ^ 64 →
    (reportAll make i ls r = .ok (bs, r') ↔ ∃ xs : List (Bytes × Nat), xs.length = ls.length ∧
      (∀ j (h : j < ls.length) (h' : j < xs.length), make (i + j) ls[j] = .ok xs[j]) ∧ bs = (xs.map Prod.fst).flatten ∧
      r' = ⟨(r.nIl + ls.length) % 2 ^ 64, (r.totalElements + (ls.map List.length).sum) % 2 ^ 64,
        (r.totalSize + (xs.map Prod.snd).sum) % 2 ^ 64⟩)
  | [], i, r, r', bs, h0, h1, h2 => by
    have e : (⟨(r.nIl + ([] : List (List Nat)).length) % 2 ^ 64, (r.totalElements + (([] : List (List Nat)).map List.length).sum) % 2 ^ 64,
        (r.totalSize + (([] : List (Bytes × Nat)).map Prod.snd).sum) % 2 ^ 64⟩ : BuildReport) = r := by
      simp only [List.length_nil, List.map_nil, List.sum_nil, Nat.add_zero, Nat.mod_eq_of_lt h0, Nat.mod_eq_of_lt h1, Nat.mod_eq_of_lt h2]
    rw [reportAll]
    constructor
    · intro h
      injection h with h
      injection h with h h'
      exact ⟨[], rfl, fun j h => by simp at h, by rw [← h]; rfl, by rw [e, h']⟩
    · rintro ⟨xs, hx, -, rfl, rfl⟩
      have : xs = [] := by simpa using hx
      subst this
      rw [e]
      rfl
  | l :: ls, i, r, r', bs, h0, h1, h2 => by
    have ih := fun (x : Bytes × Nat) (bs : Bytes) => reportAll_iff (make := make) ls (i + 1) (r.add l.length x.2) r' bs
      (Nat.mod_lt _ (by decide)) (Nat.mod_lt _ (by decide)) (Nat.mod_lt _ (by decide))
    have fin : ∀ (x : Bytes × Nat) (xs : List (Bytes × Nat)), (⟨((r.add l.length x.2).nIl + ls.length) % 2 ^ 64,
        ((r.add l.length x.2).totalElements + (ls.map List.length).sum) % 2 ^ 64,
        ((r.add l.length x.2).totalSize + (xs.map Prod.snd).sum) % 2 ^ 64⟩ : BuildReport) =
        ⟨(r.nIl + (l :: ls).length) % 2 ^ 64, (r.totalElements + ((l :: ls).map List.length).sum) % 2 ^ 64,
          (r.totalSize + ((x :: xs).map Prod.snd).sum) % 2 ^ 64⟩ := by
      intro x xs
      simp only [BuildReport.add, List.map_cons, List.sum_cons, List.length_cons, Nat.mod_add_mod, Nat.add_assoc,
        Nat.add_comm 1 ls.length]
    rw [reportAll]
    constructor
    · intro h
      obtain ⟨x, hx, h⟩ := bind_ok h
      obtain ⟨⟨y, r''⟩, hy, h⟩ := bind_ok h
      obtain ⟨hb, rfl⟩ := Prod.mk.inj (Except.ok.inj h)
      obtain ⟨xs, e1, e2, e3, e4⟩ := (ih x y).1 hy
      refine ⟨x :: xs, by simp [e1], fun j hj hj' => ?_, ?_, by rw [e4, fin]⟩
      · cases j with
        | zero => simpa using hx
        | succ j =>
          have := e2 j (by simpa using hj) (by simpa using hj')
          simpa [Nat.add_assoc, Nat.add_comm 1] using this
      · rw [← hb, e3]; rfl
    · rintro ⟨xs, e1, e2, e3, e4⟩
      cases xs with
      | nil => simp at e1
      | cons x xs =>
        rw [show make i l = .ok x from e2 0 (by simp) (by simp), R_bind_ok, (ih x (xs.map Prod.fst).flatten).2
          ⟨xs, by simpa using e1, fun j hj hj' => ?_, rfl, by rw [e4, fin]⟩, R_bind_ok, e3]
        · rfl
        · have := e2 (j + 1) (by simpa using hj) (by simpa using hj')
          simpa [Nat.add_assoc, Nat.add_comm 1] using this

theorem reportFile_lists {mn mx : Nat} {hdr : Bytes} {make : Nat → Nat → List Nat → R (Bytes × Nat)} {one u : Nat}
    {lists : List (List Nat)} (h1 : one < 2 ^ 32) (hu : u < 2 ^ 32) (hl : ∀ l ∈ lists, l.length < 2 ^ 30)
    (hx : ∀ l ∈ kept mn mx lists, ∀ x ∈ l, x < 2 ^ 32) (hn : (kept mn mx lists).length < 2 ^ 32) (out : Bool) :
    reportFile out mn mx hdr make (collectionBytes one u lists) = (reportAll (make u) 0 (kept mn mx lists) ⟨0, 0, 0⟩ >>= fun x =>
      .ok ((if out then hdr ++ leBytes 4 (kept mn mx lists).length ++ leBytes 4 one ++ leBytes 4 u else []) ++ x.1, x.2)) := by
  have hf := length_le_flatMap lists
  rw [reportFile, collectionBytes, readLE_leBytes 4 _ _ (by omega), R_bind_ok]
  simp only
  rw [readLE_leBytes 4 _ _ (by omega), R_bind_ok]
  simp only
  rw [countSets_lists lists _ 0 hl (by omega) (by omega), R_bind_ok, reportLoop_lists lists _ 0 _ hl hx (by omega), Nat.zero_add]

/-- What a builder prints on a complete collection, if it ends: the number of lists kept, of elements in them, and the sum of the sizes
of their tries; it ends exactly if every one of them can be made. -/
theorem reportFile_totals {mn mx : Nat} {hdr : Bytes} {make : Nat → Nat → List Nat → R (Bytes × Nat)} {one u : Nat}
    {lists : List (List Nat)} (h1 : one < 2 ^ 32) (hu : u < 2 ^ 32) (hl : ∀ l ∈ lists, l.length < 2 ^ 30)
    (hx : ∀ l ∈ kept mn mx lists, ∀ x ∈ l, x < 2 ^ 32) (hn : (kept mn mx lists).length < 2 ^ 32) (out : Bool) (r : BuildReport) :
    (∃ f, reportFile out mn mx hdr make (collectionBytes one u lists) = .ok (f, r)) ↔
      ∃ xs : List (Bytes × Nat), xs.length = (kept mn mx lists).length ∧
        (∀ j (h : j < (kept mn mx lists).length) (h' : j < xs.length), make u j (kept mn mx lists)[j] = .ok xs[j]) ∧
        r = ⟨(kept mn mx lists).length, ((kept mn mx lists).map List.length).sum % 2 ^ 64, (xs.map Prod.snd).sum % 2 ^ 64⟩ := by
  rw [reportFile_lists h1 hu hl hx hn out]
  have key := fun bs => reportAll_iff (make := make u) (kept mn mx lists) 0 ⟨0, 0, 0⟩ r bs (by decide) (by decide) (by decide)
  simp only [Nat.zero_add, Nat.mod_eq_of_lt (show (kept mn mx lists).length < 2 ^ 64 by omega)] at key
  constructor
  · rintro ⟨f, h⟩
    obtain ⟨⟨y, r'⟩, hy, h⟩ := bind_ok h
    obtain ⟨-, rfl⟩ := Prod.mk.inj (Except.ok.inj h)
    obtain ⟨xs, e1, e2, -, e4⟩ := (key y).1 hy
    exact ⟨xs, e1, e2, e4⟩
  · rintro ⟨xs, e1, e2, e4⟩
    exact ⟨_, by rw [(key _).2 ⟨xs, e1, e2, rfl, e4⟩]; rfl⟩

/-! ## The sizes -/

theorem reportLoop_size {mn mx a c : Nat} {make : Nat → List Nat → R (Bytes × Nat)}
    (hm : ∀ i l b size, make i l = .ok (b, size) → ∃ p, b.length + a = p + c ∧ size = p % 2 ^ 64 ∧ 0 < b.length) :
    (fuel : Nat) → (s : Bytes) → (i : Nat) → (r r' : BuildReport) → (bs : Bytes) → r.nIl < 2 ^ 64 → r.totalSize < 2 ^ 64 →
    reportLoop mn mx make fuel s i r = .ok (bs, r') →
    ∃ k P, bs.length + a * k = P + c * k ∧ r'.nIl = (r.nIl + k) % 2 ^ 64 ∧ r'.totalSize = (r.totalSize + P) % 2 ^ 64 ∧ k ≤ bs.length
  | 0, _, _, _, _, _, _, _, h => by cases h
  | fuel + 1, s, i, r, r', bs, h0, h1, h => by
    rw [reportLoop] at h
    cases hs : readLE 4 s with
    | error e =>
      rw [hs] at h
      obtain ⟨rfl, rfl⟩ := Prod.mk.inj (Except.ok.inj h)
      exact ⟨0, 0, by simp, by rw [Nat.add_zero, Nat.mod_eq_of_lt h0], by rw [Nat.add_zero, Nat.mod_eq_of_lt h1], by simp⟩
    | ok x =>
      obtain ⟨n, s⟩ := x
      rw [hs] at h
      dsimp only at h
      by_cases ha : accepts mn mx n
      · rw [if_pos ha] at h
        obtain ⟨⟨il, s⟩, -, h⟩ := bind_ok h
        obtain ⟨⟨b, size⟩, hb, h⟩ := bind_ok h
        obtain ⟨⟨bs', r''⟩, hr, h⟩ := bind_ok h
        obtain ⟨rfl, rfl⟩ := Prod.mk.inj (Except.ok.inj h)
        obtain ⟨p, hp, rfl, hpos⟩ := hm _ _ _ _ hb
        obtain ⟨k, P, e1, e2, e3, e4⟩ := reportLoop_size hm fuel s (i + 1) _ _ bs' (Nat.mod_lt _ (by decide)) (Nat.mod_lt _ (by decide)) hr
        refine ⟨k + 1, p + P, ?_, ?_, ?_, ?_⟩
        · simp only [List.length_append, Nat.mul_succ]
          clear e2 e3 h0 h1
          omega
        · rw [e2]; simp only [BuildReport.add, Nat.mod_add_mod, Nat.add_assoc, Nat.add_comm 1 k]
        · rw [e3]; simp only [BuildReport.add, Nat.mod_add_mod, Nat.add_mod_mod]
          rw [Nat.add_assoc]
        · simp only [List.length_append]
          clear e2 e3 h0 h1
          omega
      · rw [if_neg ha] at h
        exact reportLoop_size hm fuel _ i r r' bs h0 h1 h

theorem reportFile_size {mn mx a c : Nat} {hdr : Bytes} {make : Nat → Nat → List Nat → R (Bytes × Nat)}
    (hm : ∀ u i l b size, make u i l = .ok (b, size) → ∃ p, b.length + a = p + c ∧ size = p % 2 ^ 64 ∧ 0 < b.length) {s f : Bytes}
    {r : BuildReport} (h : reportFile true mn mx hdr make s = .ok (f, r)) :
    ∃ k P, f.length + a * k = hdr.length + 12 + P + c * k ∧ r.nIl = k % 2 ^ 64 ∧ r.totalSize = P % 2 ^ 64 ∧ k ≤ f.length := by
  rw [reportFile] at h
  obtain ⟨⟨one, s1⟩, -, h⟩ := bind_ok h
  obtain ⟨⟨u, s2⟩, -, h⟩ := bind_ok h
  obtain ⟨nSets, -, h⟩ := bind_ok h
  obtain ⟨⟨tries, r'⟩, hr, h⟩ := bind_ok h
  obtain ⟨rfl, rfl⟩ := Prod.mk.inj (Except.ok.inj h)
  obtain ⟨k, P, e1, e2, e3, e4⟩ := reportLoop_size (hm u) _ _ _ _ _ _ (by decide) (by decide) hr
  rw [Nat.zero_add] at e2 e3
  refine ⟨k, P, ?_, e2, e3, ?_⟩ <;> simp only [if_true, List.length_append, length_leBytes] <;> omega

theorem reportFlat_size {B L : BvIO} {K : RankIO} {pad : Nat} {ltr runs : Bool} {u : Nat} {l : List Nat} {b : Bytes} {size : Nat}
    (h : reportFlat true B L K pad ltr runs u l = .ok (b, size)) : ∃ p, b.length + 0 = p + 2 ∧ size = p % 2 ^ 64 ∧ 0 < b.length := by
  rw [reportFlat] at h
  obtain ⟨t, -, h⟩ := bind_ok h
  have fin : ∀ t : FlatTrie, ∃ p, (t.serialize B L K ltr).1.length + 0 = p + 2 ∧ t.sizeInBytes B L K = p % 2 ^ 64 ∧
      0 < (t.serialize B L K ltr).1.length := by
    intro t
    have e : (t.serialize B L K ltr).1.length = (B.write t.bTrie).length + (K.write (K.of t.bTrie)).length + (L.write t.lastLevel).length + 6 := by
      cases ltr <;> simp [FlatTrie.serialize, header, boolByte, length_leBytes] <;> omega
    exact ⟨_, by rw [e], rfl, by omega⟩
  cases runs
  · obtain ⟨rfl, rfl⟩ := Prod.mk.inj (Except.ok.inj h)
    exact fin t
  · obtain ⟨t', -, h⟩ := bind_ok h
    obtain ⟨rfl, rfl⟩ := Prod.mk.inj (Except.ok.inj h)
    exact fin t'

theorem reportLevel_size {B : BvIO} {K : RankIO} {pad : Nat} {runs : Bool} {u : Nat} {l : List Nat} {b : Bytes} {size : Nat}
    (h : reportLevel true B K pad runs u l = .ok (b, size)) : ∃ p, b.length + 0 = p + 2 ∧ size = p % 2 ^ 64 ∧ 0 < b.length := by
  rw [reportLevel] at h
  obtain ⟨t, -, h⟩ := bind_ok h
  have fin : ∀ t : LevelTrie, ∃ p, (t.serialize B K).1.length + 0 = p + 2 ∧ t.sizeInBytes B K = p % 2 ^ 64 ∧
      0 < (t.serialize B K).1.length := by
    intro t
    have e : (t.serialize B K).1.length = ((t.bTrie.take (t.bTrie.length % 2 ^ 16)).map fun v => (B.write v).length).sum +
        ((t.bTrie.take (t.bTrie.length % 2 ^ 16 - 1)).map fun v => (K.write (K.of v)).length).sum + 6 := by
      simp only [LevelTrie.serialize, header, boolByte, List.length_append, List.length_flatMap, length_leBytes, List.length_cons, List.length_nil]
      omega
    exact ⟨_, by rw [e], rfl, by omega⟩
  cases runs
  · obtain ⟨rfl, rfl⟩ := Prod.mk.inj (Except.ok.inj h)
    exact fin t
  · obtain ⟨t', -, h⟩ := bind_ok h
    obtain ⟨rfl, rfl⟩ := Prod.mk.inj (Except.ok.inj h)
    exact fin t'

theorem reportFastTrie_size {B : BvIO} {K : RankIO} {lg pad : Nat} {junk : Nat → FastJunk} {runs : Bool} {u i : Nat} {l : List Nat}
    {b : Bytes} {size : Nat} (h : reportFastTrie true B K lg pad junk runs u i l = .ok (b, size)) :
    ∃ p, b.length + 14 = p + 0 ∧ size = p % 2 ^ 64 ∧ 0 < b.length := by
  rw [reportFastTrie] at h
  obtain ⟨t, -, h⟩ := bind_ok h
  have fin : ∀ t : FastTrie, ∃ p, (t.serialize B K lg).1.length + 14 = p + 0 ∧ t.sizeInBytes B K lg = p % 2 ^ 64 ∧
      0 < (t.serialize B K lg).1.length := by
    intro t
    have e : (t.serialize B K lg).1.length = (B.write t.bTrie).length + (K.write (K.of t.bTrie)).length + 2 ^ (lg - 3) * t.lastLevel.length + 14 := by
      simp only [FastTrie.serialize, header, boolByte, List.length_append, length_words, length_leBytes, List.length_cons, List.length_nil]
      omega
    exact ⟨_, by rw [e]; omega, rfl, by omega⟩
  cases runs
  · obtain ⟨rfl, rfl⟩ := Prod.mk.inj (Except.ok.inj h)
    exact fin t
  · obtain ⟨t', -, h⟩ := bind_ok h
    obtain ⟨rfl, rfl⟩ := Prod.mk.inj (Except.ok.inj h)
    exact fin t'

/-- C87 is false of the code, `build_tries`: on any input, the size printed leaves out the header and two bytes of every trie. -/
theorem C87_tries_size_negation (F : Formats) (pad : Nat) (ltr : Bool) (mn mx rank block : Nat) (runs levelwise : Bool) {s f : Bytes}
    {r : BuildReport} (h : reportTries true F pad ltr mn mx rank block runs levelwise s = .ok (f, r)) (hf : f.length < 2 ^ 64) :
    f.length = (if rank = 1 then 22 else 18) + r.totalSize + 2 * r.nIl := by
  obtain ⟨k, P, e1, e2, e3, e4⟩ := reportFile_size (a := 0) (c := 2) (fun u i l b size hm => by
    rw [reportTrie] at hm
    by_cases hr : rank = 1
    · rw [if_pos hr] at hm
      cases levelwise
      · exact reportFlat_size hm
      · rw [if_pos rfl, reportLevelIl] at hm
        obtain ⟨t, -, hm⟩ := bind_ok hm
        cases runs
        · cases hm
        · obtain ⟨t', -, hm⟩ := bind_ok hm
          cases hm
    · rw [if_neg hr] at hm
      cases levelwise
      · exact reportFlat_size hm
      · exact reportLevel_size hm) h
  have hh : (triesFileHeader rank block runs levelwise).length = if rank = 1 then 10 else 6 := by
    by_cases hr : rank = 1 <;>
      simp [triesFileHeader, hr, boolByte, length_leBytes]
  rw [hh] at e1
  rw [e2, e3, Nat.mod_eq_of_lt (show k < 2 ^ 64 by omega), Nat.mod_eq_of_lt (show P < 2 ^ 64 by split at e1 <;> omega)]
  split at e1 <;> split <;> omega

/-- C87 is false of the code, `build_fastTries`: the size printed leaves out the header and has 14 bytes too many for every trie. -/
theorem C87_fast_size_negation (B : BvIO) (K : Nat → RankIO) (pad : Nat) (junk : Nat → FastJunk) (mn mx rank : Nat) (runs levelwise : Bool)
    (wsize : Nat) {s f : Bytes} {r : BuildReport} (h : reportFast true B K pad junk mn mx rank runs levelwise wsize s = .ok (some (f, r)))
    (hf : 15 * f.length < 2 ^ 64) : f.length + 14 * r.nIl = 20 + r.totalSize := by
  rw [reportFast] at h
  cases hw : wordLg wsize with
  | none => rw [hw] at h; cases h
  | some lg =>
    rw [hw] at h
    obtain ⟨⟨f', r'⟩, h', h⟩ := bind_ok h
    obtain ⟨rfl, rfl⟩ := Prod.mk.inj (Option.some.inj (Except.ok.inj h))
    obtain ⟨k, P, e1, e2, e3, e4⟩ := reportFile_size (a := 14) (c := 0) (fun u i l b size hm => reportFastTrie_size hm) h'
    have hh : (fastFileHeader rank runs levelwise wsize).length = 8 := by
      simp [fastFileHeader, boolByte, length_leBytes]
    rw [hh] at e1
    rw [e2, e3, Nat.mod_eq_of_lt (show k < 2 ^ 64 by omega), Nat.mod_eq_of_lt (show P < 2 ^ 64 by omega)]
    omega

theorem sum_lt_of_lengths {c : Nat} : (ls : List (List Nat)) → (∀ l ∈ ls, l.length < c) → (ls.map List.length).sum ≤ ls.length * c
  | [], _ => by simp
  | l :: ls, h => by
    have h1 := h l (by simp)
    have h2 := sum_lt_of_lengths ls fun l hl => h l (List.mem_cons_of_mem _ hl)
    rw [List.map_cons, List.sum_cons, List.length_cons, Nat.succ_mul]
    omega

/-! ## The theorems about complete collections -/

/-- C87, `build_tries`: the lists kept and their elements are counted, whatever the options. -/
theorem C87_tries_totals (F : Formats) (pad : Nat) (ltr out : Bool) {mn mx rank block : Nat} (runs levelwise : Bool) {one u : Nat}
    (hone : one < 2 ^ 32) (hu : u < 2 ^ 32) {lists : List (List Nat)} (hl : ∀ l ∈ lists, l.length < 2 ^ 30)
    (hx : ∀ l ∈ lists, ∀ x ∈ l, x < 2 ^ 32) (hn : (kept mn mx lists).length < 2 ^ 32) {f : Bytes} {r : BuildReport}
    (h : reportTries out F pad ltr mn mx rank block runs levelwise (collectionBytes one u lists) = .ok (f, r)) :
    r.nIl = (kept mn mx lists).length ∧ r.totalElements = ((kept mn mx lists).map List.length).sum := by
  obtain ⟨xs, -, -, rfl⟩ := (reportFile_totals hone hu hl (fun l h => hx l (List.mem_of_mem_filter h)) hn out r).1 ⟨f, h⟩
  refine ⟨rfl, Nat.mod_eq_of_lt ?_⟩
  have := sum_lt_of_lengths (c := 2 ^ 30) (kept mn mx lists) fun l h => hl l (List.mem_of_mem_filter h)
  have : (kept mn mx lists).length * 2 ^ 30 ≤ 2 ^ 32 * 2 ^ 30 := Nat.mul_le_mul_right _ (by omega)
  omega

/-- C87, `build_fastTries`: likewise. -/
theorem C87_fast_totals (B : BvIO) (K : Nat → RankIO) (pad : Nat) (junk : Nat → FastJunk) (out : Bool) {mn mx rank wsize : Nat}
    (runs levelwise : Bool) {one u : Nat}
    (hone : one < 2 ^ 32) (hu : u < 2 ^ 32) {lists : List (List Nat)} (hl : ∀ l ∈ lists, l.length < 2 ^ 30)
    (hx : ∀ l ∈ lists, ∀ x ∈ l, x < 2 ^ 32) (hn : (kept mn mx lists).length < 2 ^ 32) {f : Bytes} {r : BuildReport}
    (h : reportFast out B K pad junk mn mx rank runs levelwise wsize (collectionBytes one u lists) = .ok (some (f, r))) :
    r.nIl = (kept mn mx lists).length ∧ r.totalElements = ((kept mn mx lists).map List.length).sum := by
  rw [reportFast] at h
  cases hw : wordLg wsize with
  | none => rw [hw] at h; cases h
  | some lg =>
    rw [hw] at h
    obtain ⟨⟨f', r'⟩, h', h⟩ := bind_ok h
    obtain ⟨rfl, rfl⟩ := Prod.mk.inj (Option.some.inj (Except.ok.inj h))
    obtain ⟨xs, -, -, rfl⟩ := (reportFile_totals hone hu hl (fun l h => hx l (List.mem_of_mem_filter h)) hn out r').1 ⟨f', h'⟩
    refine ⟨rfl, Nat.mod_eq_of_lt ?_⟩
    have := sum_lt_of_lengths (c := 2 ^ 30) (kept mn mx lists) fun l h => hl l (List.mem_of_mem_filter h)
    have : (kept mn mx lists).length * 2 ^ 30 ≤ 2 ^ 32 * 2 ^ 30 := Nat.mul_le_mul_right _ (by omega)
    omega

theorem reportFile_returns {mn mx : Nat} {hdr : Bytes} {make : Nat → Nat → List Nat → R (Bytes × Nat)} {one u : Nat}
    {lists : List (List Nat)} (h1 : one < 2 ^ 32) (hu : u < 2 ^ 32) (hl : ∀ l ∈ lists, l.length < 2 ^ 30)
    (hx : ∀ l ∈ kept mn mx lists, ∀ x ∈ l, x < 2 ^ 32) (hn : (kept mn mx lists).length < 2 ^ 32) (out : Bool)
    (hm : ∀ l ∈ kept mn mx lists, ∀ i, ∃ x, make u i l = .ok x) :
    ∃ x, reportFile out mn mx hdr make (collectionBytes one u lists) = .ok x := by
  choose g hg using fun j : Fin (kept mn mx lists).length => hm _ (List.getElem_mem j.2) j
  obtain ⟨f, h⟩ := (reportFile_totals (hdr := hdr) (make := make) h1 hu hl hx hn out _).2 ⟨List.ofFn g, by simp, fun j h h' => by
    rw [List.getElem_ofFn]; exact hg ⟨j, h⟩, rfl⟩
  exact ⟨_, h⟩

theorem reportFlat_returns {l : List Nat} {u : Nat} (hS : ValidSet l u) (hlen : l.length < 2 ^ 32) (hu : 3 ≤ u) (hu' : u ≤ 2 ^ 62)
    (out : Bool) (B L : BvIO) (K : RankIO) (pad : Nat) (ltr runs : Bool) : ∃ x, reportFlat out B L K pad ltr runs u l = .ok x := by
  obtain ⟨t, t', -, -, hc, he, -⟩ := C26_trieMeasure_runs hS hlen hu hu' pad
  cases runs
  · exact ⟨_, by rw [reportFlat, hc]; rfl⟩
  · refine ⟨(if out then (t'.serialize B L K ltr).1 else [], t'.sizeInBytes B L K), ?_⟩
    rw [reportFlat, hc, R_bind_ok]
    show (do let t ← t.encodeRuns pad; _) = _
    rw [he]
    rfl

/-- C87, `build_tries`: on a collection whose kept lists are sets it ends, with every choice of options, unless `binTrie_il`s are to be
written. Without output file they are no problem. -/
theorem C87_tries_returns (F : Formats) (pad : Nat) (ltr out : Bool) {mn mx rank block : Nat} (runs levelwise : Bool) {one u : Nat}
    (hone : one < 2 ^ 32) (hu : 3 ≤ u) (hu' : u < 2 ^ 32) {lists : List (List Nat)} (hl : ∀ l ∈ lists, l.length < 2 ^ 30)
    (hv : ∀ l ∈ kept mn mx lists, ValidSet l u) (hn : (kept mn mx lists).length < 2 ^ 32) :
    (∃ x, reportTries out F pad ltr mn mx rank block runs levelwise (collectionBytes one u lists) = .ok x) ↔
      ¬ (out = true ∧ rank = 1 ∧ levelwise = true ∧ kept mn mx lists ≠ []) := by
  have hx : ∀ l ∈ kept mn mx lists, ∀ x ∈ l, x < 2 ^ 32 := fun l h x hxl => lt_trans ((hv l h).below x hxl) hu'
  constructor
  · rintro ⟨⟨f, r⟩, h⟩ ⟨rfl, rfl, rfl, hne⟩
    obtain ⟨xs, e1, e2, -⟩ := (reportFile_totals hone hu' hl hx hn true r).1 ⟨f, h⟩
    have h0 := List.length_pos_iff.2 hne
    have := e2 0 h0 (by omega)
    rw [reportTrie, if_pos rfl, if_pos rfl, reportLevelIl] at this
    obtain ⟨t, -, this⟩ := bind_ok this
    cases runs
    · cases this
    · obtain ⟨t', -, this⟩ := bind_ok this
      cases this
  · intro hk
    by_cases hne : kept mn mx lists = []
    · exact reportFile_returns hone hu' hl hx hn out fun l h => by rw [hne] at h; cases h
    refine reportFile_returns hone hu' hl hx hn out fun l h i => ?_
    have hS := hv l h
    have hlen : l.length < 2 ^ 30 := hl l (List.mem_of_mem_filter h)
    rw [reportTrie]
    by_cases hr : rank = 1
    · rw [if_pos hr]
      cases levelwise
      · exact reportFlat_returns hS (by omega) hu (by omega) _ _ _ _ _ _ _
      · cases out
        · rw [if_pos rfl]
          obtain ⟨t, t', hc, he, -⟩ := C05_level_runs_decode hS (by omega) (by omega) (by omega) true pad []
          cases runs
          · exact ⟨([], t.sizeInBytes _ _), by rw [reportLevelIl, hc]; rfl⟩
          · refine ⟨([], t'.sizeInBytes (F.il (builtBlock block)) (F.rankIl (builtBlock block))), ?_⟩
            rw [reportLevelIl, hc, R_bind_ok]
            show (do let t ← t.encodeRuns true pad; _) = _
            rw [he]
            rfl
        · exact absurd ⟨rfl, hr, rfl, hne⟩ hk
    · rw [if_neg hr]
      cases levelwise
      · exact reportFlat_returns hS (by omega) hu (by omega) _ _ _ _ _ _ _
      · rw [if_pos rfl]
        obtain ⟨t, t', hc, he, -⟩ := C05_level_runs_decode hS (by omega) (by omega) (by omega) false pad []
        cases runs
        · exact ⟨_, by rw [reportLevel, hc]; rfl⟩
        · refine ⟨(if out then (t'.serialize F.bv (F.rank rank)).1 else [], t'.sizeInBytes F.bv (F.rank rank)), ?_⟩
          rw [reportLevel, hc, R_bind_ok]
          show (do let t ← t.encodeRuns false pad; _) = _
          rw [he]
          rfl

/-- C87, `build_fastTries`: likewise, for all options. -/
theorem C87_fast_returns (B : BvIO) (K : Nat → RankIO) (pad : Nat) (junk : Nat → FastJunk) (out : Bool) {lg mn mx rank : Nat}
    (hlg : 3 ≤ lg ∧ lg ≤ 6) (runs levelwise : Bool) {one u : Nat} (hone : one < 2 ^ 32) (hu : 2 ^ (lg - 1) < u) (hu' : u < 2 ^ 32)
    {lists : List (List Nat)} (hl : ∀ l ∈ lists, l.length < 2 ^ 30) (hv : ∀ l ∈ kept mn mx lists, ValidSet l u)
    (hn : (kept mn mx lists).length < 2 ^ 32) :
    ∃ f r, reportFast out B K pad junk mn mx rank runs levelwise (2 ^ lg) (collectionBytes one u lists) = .ok (some (f, r)) := by
  have hx : ∀ l ∈ kept mn mx lists, ∀ x ∈ l, x < 2 ^ 32 := fun l h x hxl => lt_trans ((hv l h).below x hxl) hu'
  obtain ⟨⟨f, r⟩, h⟩ := reportFile_returns (hdr := fastFileHeader rank runs levelwise (2 ^ lg))
    (make := reportFastTrie out B (K (if rank = 0 then 0 else 2)) lg pad junk runs) hone hu' hl hx hn out fun l h i => by
      have hlen : l.length < 2 ^ 30 := hl l (List.mem_of_mem_filter h)
      obtain ⟨t, t', hc, he, -⟩ := C30_fast_size hlg (hv l h) (by omega) hu (by omega) (junk i) pad
      cases runs
      · exact ⟨_, by rw [reportFastTrie, hc]; rfl⟩
      · refine ⟨(if out then (t'.serialize B (K (if rank = 0 then 0 else 2)) lg).1 else [], t'.sizeInBytes B (K (if rank = 0 then 0 else 2)) lg), ?_⟩
        rw [reportFastTrie, hc, R_bind_ok]
        show (do let t ← t.encodeRuns lg pad; _) = _
        rw [he]
        rfl
  exact ⟨f, r, by rw [reportFast, (wordLg_pow hlg).1]; dsimp only; rw [h]; rfl⟩

example : (∀ l ∈ kept 1 100 Ex.coll, ValidSet l 64) ∧ (kept 1 100 Ex.coll).length = 3 ∧
    (reportTries true Ex.formats 0 true 1 100 0 512 true false (collectionBytes 1 64 Ex.coll)).map
      (fun x => (x.2.nIl, x.2.totalElements, x.1.length - x.2.totalSize)) = .ok (3, 26, 24) ∧
    (reportTries false Ex.formats 0 true 1 100 0 512 true false (collectionBytes 1 64 Ex.coll)).map
      (fun x => (x.2.nIl, x.2.totalElements, x.1.length)) = .ok (3, 26, 0) ∧
    (reportTries true Ex.formats 0 true 1 100 1 512 true true (collectionBytes 1 64 Ex.coll)) = .error .null ∧
    (reportTries false Ex.formats 0 true 1 100 1 512 true true (collectionBytes 1 64 Ex.coll)).map
      (fun x => (x.2.nIl, x.2.totalElements)) = .ok (3, 26) ∧
    (reportFast true Ex.bvIO (fun _ => Ex.rankIO) 0 (fun _ => Ex.junk) 1 100 0 true false 8 (collectionBytes 1 64 Ex.coll)).map
      (fun x => x.map fun x => (x.2.nIl, x.2.totalElements, x.2.totalSize + 20 - x.1.length)) = .ok (some (3, 26, 42)) := by
  decide +kernel

end CBT
