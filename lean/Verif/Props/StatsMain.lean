import Verif.Model.StatsMain
import Verif.SpecStatsArgs
import Verif.Proof.CommandLine
import Verif.Props.Stats

/-!
# C88: the command lines of the statistics tools
-/

namespace CBT

open Spec

theorem sMinLength_eq : "--min_length".toList = sMinLength := by simp [sMinLength]

theorem lengthWords_ne (o : LengthArg) : o.words ≠ [] := by
  cases o <;> simp [LengthArg.words]

theorem lengthRound_ok (pre : List Str) (o : LengthArg) (rest : List Str) (m : Nat) (h : o.Ok) :
    clause (pre ++ (o.words ++ rest)) sMinLength (actMinLength (pre ++ (o.words ++ rest))) (m, pre.length) =
      .ok (o.apply m, pre.length + o.words.length - 1) := by
  cases o with
  | word w =>
    have g : argGet (pre ++ ((LengthArg.word w).words ++ rest)) pre.length = .ok w := argGet_append pre _ 0 rfl
    rw [clause, g, R_bind_ok, if_neg (by rw [← sMinLength_eq]; exact h)]
    rfl
  | minLength n =>
    have g : argGet (pre ++ ((LengthArg.minLength n).words ++ rest)) pre.length = .ok "--min_length".toList := argGet_append pre _ 0 rfl
    have g' : argGet (pre ++ ((LengthArg.minLength n).words ++ rest)) (pre.length + 1) = .ok (Nat.toDigits 10 n) := argGet_append pre _ 1 rfl
    rw [clause, g, R_bind_ok, if_pos sMinLength_eq, actMinLength]
    dsimp only
    rw [g', R_bind_ok, stoull_digits h, R_bind_ok]
    rfl

theorem lengthArgs_ok {prog input : Str} {args : List LengthArg} (hp : prog ≠ "--min_length".toList)
    (hi : input ≠ "--min_length".toList) (h : ∀ o ∈ args, o.Ok) : ∀ o ∈ .word prog :: .word input :: args, LengthArg.Ok o := by
  intro o ho
  rcases List.mem_cons.1 ho with rfl | ho
  · exact hp
  rcases List.mem_cons.1 ho with rfl | ho
  · exact hi
  · exact h o ho

theorem statsArgs_ok (args : List LengthArg) (h : ∀ o ∈ args, o.Ok) : statsArgs (args.flatMap LengthArg.words) = .ok (args.foldl LengthArg.apply 0) :=
  argLoop_ok LengthArg.words LengthArg.apply LengthArg.Ok (fun argv => clause argv sMinLength (actMinLength argv)) lengthWords_ne
    lengthRound_ok args h [] 0

/-- C88: on a file that can be opened, the statistics tools print the statistics for the last `--min_length` given, or for 0. Nothing else
on the command line matters, wherever it stands. -/
theorem C88_options_partial (prog input : Str) (args : List LengthArg) (hp : prog ≠ "--min_length".toList)
    (hi : input ≠ "--min_length".toList) (h : ∀ o ∈ args, o.Ok) (fs : Files) {s : Bytes} (hs : fs input = some s) :
    (∀ pad, mainMeasures pad fs (prog :: input :: args.flatMap LengthArg.words) =
      (measures pad (args.foldl LengthArg.apply 0) s).map some) ∧
    (∀ stop coder fuel, mainCoders stop coder fuel fs (prog :: input :: args.flatMap LengthArg.words) =
      (coders stop (args.foldl LengthArg.apply 0) coder fuel s).map some) ∧
    (∀ coder fuel, mainPom coder fuel fs (prog :: input :: args.flatMap LengthArg.words) =
      (pom (args.foldl LengthArg.apply 0) coder fuel s).map some) := by
  have e : statsArgs (prog :: input :: args.flatMap LengthArg.words) = .ok (args.foldl LengthArg.apply 0) :=
    statsArgs_ok (.word prog :: .word input :: args) (lengthArgs_ok hp hi h)
  have e1 : argGet (prog :: input :: args.flatMap LengthArg.words) 1 = .ok input := rfl
  have hlen : ¬ (prog :: input :: args.flatMap LengthArg.words).length < 2 := by simp
  refine ⟨fun pad => ?_, fun stop coder fuel => ?_, fun coder fuel => ?_⟩
  · rw [mainMeasures, if_neg hlen, e1, R_bind_ok, e, R_bind_ok, hs]
    dsimp only
    cases measures pad (args.foldl LengthArg.apply 0) s <;> rfl
  · rw [mainCoders, if_neg hlen, e1, R_bind_ok, e, R_bind_ok, hs, openStream]
    show (coders stop (args.foldl LengthArg.apply 0) coder fuel s >>= _) = _
    cases coders stop (args.foldl LengthArg.apply 0) coder fuel s <;> rfl
  · rw [mainPom, if_neg hlen, e1, R_bind_ok, e, R_bind_ok, hs, openStream]
    show (pom (args.foldl LengthArg.apply 0) coder fuel s >>= _) = _
    cases pom (args.foldl LengthArg.apply 0) coder fuel s <;> rfl

example : ([.minLength 5, .word "--min_size".toList, .minLength 1, .word ['9']] : List LengthArg).foldl LengthArg.apply 0 = 1 ∧
    (∀ o ∈ ([.minLength 5, .word "--min_size".toList, .minLength 1, .word ['9']] : List LengthArg), o.Ok) := by
  refine ⟨rfl, ?_⟩
  simp [LengthArg.Ok]

/-- C88, `measures`, from the command line to the totals: they are those of C48. -/
theorem C88_measures_partial (prog input : Str) (args : List LengthArg) (hp : prog ≠ "--min_length".toList)
    (hi : input ≠ "--min_length".toList) (h : ∀ o ∈ args, o.Ok) (fs : Files) {one u m : Nat} {lists : List (List Nat)}
    (hs : fs input = some (collectionBytes one u lists)) (hm : m = args.foldl LengthArg.apply 0)
    (h1 : one < 2 ^ 32) (hu : 3 ≤ u) (hu' : u < 2 ^ 32)
    (hl : ∀ l ∈ lists, l.length < 2 ^ 30) (hv : ∀ l ∈ longer m lists, ValidSet l u) (pad : Nat) :
    ∃ t, mainMeasures pad fs (prog :: input :: args.flatMap LengthArg.words) = .ok (some t) ∧
      t.nSets = (longer m lists).length % 2 ^ 64 ∧ t.nElements = total List.length (longer m lists) ∧
      t.trie = total (fun l => allPrefixes l (Nat.log2 (u - 1) + 1)) (longer m lists) ∧
      t.trieRun = total (fun l => survivingPrefixes l (Nat.log2 (u - 1) + 1)) (longer m lists) := by
  obtain ⟨t, rle, e, a1, a2, a3, a4, -⟩ := C48_totals_partial h1 hu hu' hl hv pad
  refine ⟨t, ?_, a1, a2, a3, a4⟩
  rw [(C88_options_partial prog input args hp hi h fs hs).1, ← hm, e]
  rfl

example : mainMeasures 0 (fun n => if n = ['c'] then some (collectionBytes 1 8 [[0, 1, 2, 3, 7], [4], [2, 5]]) else none)
    ((.word ['m'] :: .word ['c'] :: [.minLength 1] : List LengthArg).flatMap LengthArg.words) = .ok (some ⟨44, 8, 16, 10, 7, 2⟩) := by
  decide +kernel

/-- C88 is false if the value is missing: the null pointer after the arguments is used. -/
theorem C88_missing_value_negation (prog input : Str) (args : List LengthArg) (hp : prog ≠ "--min_length".toList)
    (hi : input ≠ "--min_length".toList) (h : ∀ o ∈ args, o.Ok) (fs : Files) :
    (∀ pad, mainMeasures pad fs (prog :: input :: (args.flatMap LengthArg.words ++ ["--min_length".toList])) = .error .null) ∧
    (∀ stop coder fuel, mainCoders stop coder fuel fs (prog :: input :: (args.flatMap LengthArg.words ++ ["--min_length".toList])) =
      .error .null) ∧
    (∀ coder fuel, mainPom coder fuel fs (prog :: input :: (args.flatMap LengthArg.words ++ ["--min_length".toList])) = .error .null) := by
  have e : statsArgs (prog :: input :: (args.flatMap LengthArg.words ++ ["--min_length".toList])) = .error .null := by
    refine argLoop_fail LengthArg.words LengthArg.apply LengthArg.Ok (fun argv => clause argv sMinLength (actMinLength argv)) lengthWords_ne
      lengthRound_ok (.word prog :: .word input :: args) (lengthArgs_ok hp hi h) [] ["--min_length".toList] (by simp) 0 .null
      (fun pre m => ?_)
    have g : argGet (pre ++ ["--min_length".toList]) (pre.length + 1) = .error .null := by
      have := argGet_end (pre ++ ["--min_length".toList])
      simpa using this
    have g0 : argGet (pre ++ ["--min_length".toList]) pre.length = .ok "--min_length".toList := argGet_append pre _ 0 rfl
    rw [clause, g0, R_bind_ok, if_pos sMinLength_eq, actMinLength]
    dsimp only
    rw [g]
    rfl
  have e1 : argGet (prog :: input :: (args.flatMap LengthArg.words ++ ["--min_length".toList])) 1 = .ok input := rfl
  have hlen : ¬ (prog :: input :: (args.flatMap LengthArg.words ++ ["--min_length".toList])).length < 2 := by simp
  refine ⟨fun pad => ?_, fun stop coder fuel => ?_, fun coder fuel => ?_⟩
  · rw [mainMeasures, if_neg hlen, e1, R_bind_ok, e]; rfl
  · rw [mainCoders, if_neg hlen, e1, R_bind_ok, e]; rfl
  · rw [mainPom, if_neg hlen, e1, R_bind_ok, e]; rfl

/-- C88 is false if the value is no number: nobody catches the exception. -/
theorem C88_bad_value_negation (prog input w : Str) (args : List LengthArg) (hp : prog ≠ "--min_length".toList)
    (hi : input ≠ "--min_length".toList) (h : ∀ o ∈ args, o.Ok) (fs : Files) (hw : scanNumber w = none) :
    (∀ pad, mainMeasures pad fs (prog :: input :: (args.flatMap LengthArg.words ++ ["--min_length".toList, w])) = .error .exc) ∧
    (∀ stop coder fuel, mainCoders stop coder fuel fs (prog :: input :: (args.flatMap LengthArg.words ++ ["--min_length".toList, w])) =
      .error .exc) ∧
    (∀ coder fuel, mainPom coder fuel fs (prog :: input :: (args.flatMap LengthArg.words ++ ["--min_length".toList, w])) = .error .exc) := by
  have e : statsArgs (prog :: input :: (args.flatMap LengthArg.words ++ ["--min_length".toList, w])) = .error .exc := by
    refine argLoop_fail LengthArg.words LengthArg.apply LengthArg.Ok (fun argv => clause argv sMinLength (actMinLength argv)) lengthWords_ne
      lengthRound_ok (.word prog :: .word input :: args) (lengthArgs_ok hp hi h) [] ["--min_length".toList, w] (by simp) 0 .exc
      (fun pre m => ?_)
    have g0 : argGet (pre ++ ["--min_length".toList, w]) pre.length = .ok "--min_length".toList := argGet_append pre _ 0 rfl
    have g : argGet (pre ++ ["--min_length".toList, w]) (pre.length + 1) = .ok w := argGet_append pre _ 1 rfl
    rw [clause, g0, R_bind_ok, if_pos sMinLength_eq, actMinLength]
    dsimp only
    rw [g, R_bind_ok, stoull, hw]
    rfl
  have e1 : argGet (prog :: input :: (args.flatMap LengthArg.words ++ ["--min_length".toList, w])) 1 = .ok input := rfl
  have hlen : ¬ (prog :: input :: (args.flatMap LengthArg.words ++ ["--min_length".toList, w])).length < 2 := by simp
  refine ⟨fun pad => ?_, fun stop coder fuel => ?_, fun coder fuel => ?_⟩
  · rw [mainMeasures, if_neg hlen, e1, R_bind_ok, e]; rfl
  · rw [mainCoders, if_neg hlen, e1, R_bind_ok, e]; rfl
  · rw [mainPom, if_neg hlen, e1, R_bind_ok, e]; rfl

example : scanNumber "five".toList = none ∧ scanNumber "".toList = none := by decide +kernel

end CBT
