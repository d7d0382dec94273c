import Verif.Proof.Repeats
import Verif.Props.AnyInter
import Verif.Props.Memory
import Verif.Proof.ToolsTries
import Verif.Props.Limits

/-!
# C99: the ten calls for every query
-/

namespace CBT

open Spec

/-- C99, `intersection_query_log`: whatever the command line, the file, the log and the schedules of the ten calls, the run is the same as
with one call for each query under any schedules on the same machine. -/
theorem C99_tries (F : Formats) (pad : Nat) {hw : Nat} (env : Nat → Nat → Env) (he : ∀ i r, (env i r).hw = hw) (env' : Nat → Env)
    (he' : ∀ i, (env' i).hw = hw) (fs : Files) (texts : Str → Option Str) (argv : List Str) :
    mainQueryLogTen F pad env fs texts argv = mainQueryLog F pad env' fs texts argv := by
  have e : ∀ (runs par : Bool), (fun (i : Nat) (ts : List Nav) => repeated (fun r => intersect ts runs par (env i r)) 9) =
      fun i ts => intersect ts runs par (env' i) := by
    intro runs par
    funext i ts
    refine repeated_same (fun r => ?_) 9
    have h1 := he i r
    have h2 := he' i
    rcases h3 : env i r with ⟨a, b, c⟩
    rcases h4 : env' i with ⟨a', b', c'⟩
    rw [h3] at h1; rw [h4] at h2
    simp only at h1 h2
    subst h1; subst h2
    exact C76_schedule_any ..
  simp only [mainQueryLogTen, mainQueryLog, e]
  rfl

example : (mainBuildTries Ex.formats 0 true (Ex.fileAt ['c'] (collectionBytes 1 64 Ex.coll))
      [['b'], ['c'], sMinSize, ['1'], sLevelwise, sT, sOut, ['o']] >>=
    fun f => mainQueryLogTen Ex.formats 0 (fun i r => ⟨4, [r, i], [r]⟩) (Ex.fileAt ['o'] (f.getD ([], [])).2)
      (fun n => if n = ['q'] then some ['2', ' ', '0', '\n', '1', '\n'] else none) [['p'], ['o'], ['q'], sOut, ['r']]) =
    .ok (.done [some [3, 4, 31], some [0, 3, 17, 31, 60]] (some (['r'], [(2, 3), (1, 5)]))) := by decide +kernel

/-- C99, `intersection_querylog_fastTrie`: likewise. -/
theorem C99_fast (B : BvIO) (K : Nat → RankIO) (pad : Nat) (junk : Nat → FastJunk) {hw : Nat} (env : Nat → Nat → Env)
    (he : ∀ i r, (env i r).hw = hw) (env' : Nat → Env) (he' : ∀ i, (env' i).hw = hw) (fs : Files) (texts : Str → Option Str)
    (argv : List Str) : mainQueryFastTen B K pad junk env fs texts argv = mainQueryFast B K pad junk env' fs texts argv := by
  have e : ∀ (lg : Nat) (Ts : List FNav) (runs par : Bool) (i : Nat),
      repeated (fun r => fastIntersect lg Ts runs par (env i r)) 9 = fastIntersect lg Ts runs par (env' i) := by
    intro lg Ts runs par i
    refine repeated_same (fun r => ?_) 9
    have h1 := he i r
    have h2 := he' i
    rcases h3 : env i r with ⟨a, b, c⟩
    rcases h4 : env' i with ⟨a', b', c'⟩
    rw [h3] at h1; rw [h4] at h2
    simp only at h1 h2
    subst h1; subst h2
    exact C76_fast_schedule_any ..
  simp only [mainQueryFastTen, mainQueryFast, queryFastText, e]
  split
  · rfl
  · cases queryArgs true argv with
    | error _ => rfl
    | ok c =>
      simp only [R_bind_ok]
      cases argGet argv 1 with
      | error _ => rfl
      | ok a =>
        simp only [R_bind_ok]
        cases argGet argv 2 with
        | error _ => rfl
        | ok b =>
          simp only [R_bind_ok]
          cases fs a with
          | none => rfl
          | some s =>
            simp only [bind_assoc]

example : (mainBuildFast Ex.bvIO (fun _ => Ex.rankIO) 0 (fun _ => Ex.junk) (Ex.fileAt ['c'] (collectionBytes 1 64 Ex.coll))
        [['b'], ['c'], sMinSize, ['1'], sWsize, ['8'], sRuns, sT, sOut, ['o']] >>=
      fun f => mainQueryFastTen Ex.bvIO (fun _ => Ex.rankIO) 0 (fun _ => Ex.junk) (fun i r => ⟨4, [r, i], [r]⟩)
        (Ex.fileAt ['o'] (f.getD ([], [])).2)
        (fun n => if n = ['q'] then some ['1', ' ', '0', '\n', '2', '\n'] else none) [['p'], ['o'], ['q'], sParallel, sT]) =
      .ok (.done [some [3, 17, 31], some [0, 1, 2, 3, 4, 5, 6, 7, 8, 9, 10, 11, 12, 13, 14, 15, 31]] none) := by
  decide +kernel

/-- C99, the number of queries printed, and one line in the results file for each: those about at most 16 sets. -/
theorem C99_count {seqs : List Nav} {inter : Nat → List Nav → R (List Nat)} : {qs : List (List Nat)} → {i : Nat} →
    {as : List (Option (List Nat))} → answerLog seqs inter i qs = .ok as →
    as.length = qs.length ∧ queriesDone as = (qs.filter fun q => q.length ≤ 16).length ∧
    (resultRows qs as).map Prod.fst = (qs.filter fun q => q.length ≤ 16).map List.length
  | [], i, as, h => by
    rw [answerLog] at h; cases h
    exact ⟨rfl, rfl, rfl⟩
  | q :: qs, i, as, h => by
    rw [answerLog] at h
    obtain ⟨ts, h1, h⟩ := bind_ok h
    have hlen := getAll_lengths h1
    simp only [hlen] at h
    by_cases hq : q.length ≤ 16
    · simp only [if_pos hq] at h
      obtain ⟨r, -, h⟩ := bind_ok h
      obtain ⟨a, h2, h⟩ := bind_ok h
      obtain ⟨as, h3, h⟩ := bind_ok h
      cases h; cases h2
      obtain ⟨e1, e2, e3⟩ := C99_count h3
      refine ⟨by simp [e1], ?_, ?_⟩
      · rw [queriesDone] at e2 ⊢
        simp [hq, e2]
      · simp [resultRows, hq, e3]
    · simp only [if_neg hq] at h
      obtain ⟨a, h2, h⟩ := bind_ok h
      obtain ⟨as, h3, h⟩ := bind_ok h
      cases h; cases h2
      obtain ⟨e1, e2, e3⟩ := C99_count h3
      refine ⟨by simp [e1], ?_, ?_⟩
      · rw [queriesDone] at e2 ⊢
        simp [hq, e2]
      · simp [resultRows, hq, e3]

example : answerLog [Ex.level.nav true 0] (fun i ts => intersect ts false true ⟨4, [i], []⟩) 0 [[0], List.replicate 17 0, [0, 0]] =
    .ok [some [1, 2, 3, 5, 6, 14], none, some [1, 2, 3, 5, 6, 14]] ∧
    queriesDone [some [1, 2, 3, 5, 6, 14], none, some [1, 2, 3, 5, 6, 14]] = 2 := by decide +kernel

/-- C99, memory: in parallel mode on plain tries, `intersection_query_log` leaves allocated, for every query about at most 16 sets, ten
times what one call leaves (C55), whatever the schedules. -/
theorem C99_leak {pad h : Nat} {sets : Nat → List Nat} {seqs : List Nav} {nav : Nat → Nav} (runs : Bool) {hw : Nat} (hw0 : hw ≠ 0)
    (hw1 : hw < 2 ^ 16) (hcut : Nat.log2 hw + 2 ≤ h) (env : Nat → Nat → Env) (he : ∀ i r, (env i r).hw = hw) :
    (i : Nat) → (qs : List (List Nat)) → (∀ q ∈ qs, q ≠ []) →
    (∀ q ∈ qs, ∀ j ∈ q, seqs[j]? = some (nav j) ∧ PlainTrie pad h (sets j) (nav j)) →
    logLive seqs runs true env i qs =
      .ok (((qs.filter fun q => q.length ≤ 16).map fun q => 10 * leak (q.map sets) runs (Nat.log2 hw) (h - Nat.log2 hw - 1)).sum)
  | _, [], _, _ => rfl
  | i, q :: qs, h0, hq => by
    have ih := C99_leak runs hw0 hw1 hcut env he (i + 1) qs (fun q h => h0 q (List.mem_cons_of_mem _ h))
      (fun q h => hq q (List.mem_cons_of_mem _ h))
    have hq' := hq q List.mem_cons_self
    rw [logLive, getAll_ok q (fun j hj => (hq' j hj).1), R_bind_ok, List.length_map, ih]
    by_cases hl : q.length ≤ 16
    · have hT : List.Forall₂ (PlainTrie pad h) (q.map sets) (q.map nav) := by
        rw [List.forall₂_map_left_iff, List.forall₂_map_right_iff]
        exact List.forall₂_same.2 fun j hj => (hq' j hj).2
      have hne : q.map nav ≠ [] := by simpa using h0 q List.mem_cons_self
      rw [if_pos hl, repeatedLive_same (k := leak (q.map sets) runs (Nat.log2 hw) (h - Nat.log2 hw - 1)) fun r => by
        obtain ⟨R, H, h1, -, h2⟩ := C55_leak_exact_partial runs hT hne (by simpa using hl) (env i r) (by rw [he]; exact hw0)
          (by rw [he]; exact hw1) (by rw [he]; exact hcut)
        exact ⟨R, H, h1, by rw [h2, he]⟩]
      simp [hl]
    · rw [if_neg hl]
      simp [hl]

/-- Two queries, the second about 17 sets; one task of the first is replaced by its halves in each of the ten calls. -/
example : PlainTrie 0 4 [0] (FlatTrie.nav ⟨4, 0, false, false, [true, false, true, false, true, false], [true, false]⟩ 0) ∧
    logLive [FlatTrie.nav ⟨4, 0, false, false, [true, false, true, false, true, false], [true, false]⟩ 0] false true
      (fun _ r => ⟨4, [r], []⟩) 0 [[0], List.replicate 17 0] = .ok 10 :=
  ⟨.flat (u := 16) (by decide +kernel) (by decide +kernel) (by decide) (by decide) (by decide +kernel) rfl, by decide +kernel⟩

/-- C99, memory: in sequential mode nothing is left allocated. -/
theorem C99_sequential {seqs : List Nav} {runs : Bool} {env : Nat → Nat → Env} : {qs : List (List Nat)} → {i k : Nat} →
    logLive seqs runs false env i qs = .ok k → k = 0
  | [], i, k, h => by rw [logLive] at h; cases h; rfl
  | q :: qs, i, k, h => by
    rw [logLive] at h
    obtain ⟨ts, -, h⟩ := bind_ok h
    have key : ∀ (n k : Nat), repeatedLive (fun r => memIntersect ts runs false (env i r)) n = .ok k → k = 0 := by
      intro n
      induction n with
      | zero =>
        intro k h
        rw [repeatedLive] at h
        obtain ⟨⟨R, H⟩, h1, h⟩ := bind_ok h
        cases h
        rw [C55_sequential_partial h1]; rfl
      | succ n ih =>
        intro k h
        rw [repeatedLive] at h
        obtain ⟨k', h0, h⟩ := bind_ok h
        obtain ⟨⟨R, H⟩, h1, h⟩ := bind_ok h
        cases h
        rw [ih k' h0, C55_sequential_partial h1]; rfl
    by_cases hq : ts.length ≤ 16
    · simp only [if_pos hq] at h
      obtain ⟨a, h2, h⟩ := bind_ok h
      obtain ⟨b, h3, h⟩ := bind_ok h
      cases h
      rw [C99_sequential h3, key 9 a h2]
    · simp only [if_neg hq] at h
      obtain ⟨a, h2, h⟩ := bind_ok h
      obtain ⟨b, h3, h⟩ := bind_ok h
      cases h; cases h2
      rw [C99_sequential h3]

example : logLive [Ex.level.nav true 0] false false (fun _ r => ⟨4, [r], []⟩) 0 [[0], List.replicate 17 0, [0, 0]] = .ok 0 := by
  decide +kernel

end CBT
