import Verif.Props.CommandLine

/-!
# C51: values that are no numbers
-/

namespace CBT

open Spec

theorem isDigit_listed {c : Char} (h : c.isDigit = true) : c ∈ ['0', '1', '2', '3', '4', '5', '6', '7', '8', '9'] := by
  simp only [Char.isDigit, Bool.and_eq_true, decide_eq_true_eq] at h
  have h1 : 48 ≤ c.toNat := h.1
  have h2 : c.toNat ≤ 57 := h.2
  have e : c = Char.ofNat c.toNat := (Char.ofNat_toNat c).symm
  generalize c.toNat = n at h1 h2 e
  subst e
  obtain rfl | rfl | rfl | rfl | rfl | rfl | rfl | rfl | rfl | rfl : n = 48 ∨ n = 49 ∨ n = 50 ∨ n = 51 ∨ n = 52 ∨ n = 53 ∨ n = 54 ∨
    n = 55 ∨ n = 56 ∨ n = 57 := by omega
  all_goals decide

theorem scanNumber_noNumber {w : Str} (h : noNumber w) : scanNumber w = none := by
  obtain ⟨c, r, rfl, hc⟩ := h
  simp only [List.mem_cons, List.not_mem_nil, or_false, not_or] at hc
  obtain ⟨n1, n2, n3, n4, n5, n6, n7, n8, hd⟩ := hc
  have hs : isSpace c = false := by
    have e : ∀ k, c.toNat = k → c = Char.ofNat k := fun k hk => by rw [← hk]; exact (Char.ofNat_toNat c).symm
    simp only [isSpace, Bool.or_eq_false_iff, beq_eq_false_iff_ne, ne_eq]
    exact ⟨⟨⟨⟨⟨n1, n2⟩, n3⟩, n4⟩, fun h => n5 (e _ h)⟩, fun h => n6 (e _ h)⟩
  have hdig : c.isDigit = false := by
    rw [Bool.eq_false_iff]
    intro h
    have := isDigit_listed h
    simp only [List.mem_cons, List.not_mem_nil, or_false] at this
    tauto
  simp [scanNumber, hs, n7, n8, hdig]

theorem noNumber_ne_dash {w s : Str} (h : noNumber w) : w ≠ '-' :: s := by
  obtain ⟨c, r, rfl, hc⟩ := h
  intro e
  injection e with e
  subst e
  exact absurd hc (by decide)

theorem badWords_ne (fast : Bool) (o : BadOption) : o.words fast ≠ [] := by
  cases o with
  | good o => exact buildWords_ne fast o
  | _ => exact List.cons_ne_nil _ _

theorem badRound_ok (fast : Bool) (pre : List Str) (o : BadOption) (rest : List Str) (s : BuildSettings) (h : o.Ok fast) :
    buildRound fast (pre ++ (o.words fast ++ rest)) (s, pre.length) = .ok (o.apply s, pre.length + (o.words fast).length - 1) := by
  obtain ⟨e1, e2, e3, e4, e5, e6, e7, e8, -, e9, e10, e11⟩ := names_eq
  cases o with
  | good o => exact buildRound_ok fast pre o rest s h
  | wsize w =>
    obtain ⟨rfl, h⟩ := h
    have hd : ∀ s, (w = '-' :: s) = False := fun s => by simp [noNumber_ne_dash h]
    have ha : atoi 16 w = .ok 0 := by rw [atoi, scanNumber_noNumber h]
    have h0 : argGet (pre ++ ((BadOption.wsize w).words true ++ rest)) pre.length = .ok sWsize := argGet_append pre _ 0 (by rw [← e7]; rfl)
    have h1 : argGet (pre ++ ((BadOption.wsize w).words true ++ rest)) (pre.length + 1) = .ok w := argGet_append pre _ 1 rfl
    generalize pre ++ ((BadOption.wsize w).words true ++ rest) = argv at h0 h1 ⊢
    simp [buildRound, roundCommon, clause, h0, h1, ha, hd, actWsize, BadOption.apply, BadOption.words, sMinSize,
      sMaxSize, sRank, sRuns, sLevelwise, sOut, sWsize, sVerbose, R_bind_ok]
  | rankIl w =>
    have h : noNumber w := h
    have hd : ∀ s, (w = '-' :: s) = False := fun s => by simp [noNumber_ne_dash h]
    have ha : atoi 32 w = .ok 0 := by rw [atoi, scanNumber_noNumber h]
    have h0 : argGet (pre ++ ((BadOption.rankIl w).words fast ++ rest)) pre.length = .ok sRank := argGet_append pre _ 0 (by rw [← e3]; rfl)
    have h1 : argGet (pre ++ ((BadOption.rankIl w).words fast ++ rest)) (pre.length + 1) = .ok sIl := argGet_append pre _ 1 (by rw [← e10]; rfl)
    have h2 : argGet (pre ++ ((BadOption.rankIl w).words fast ++ rest)) (pre.length + 1 + 1) = .ok w := argGet_append pre _ 2 rfl
    generalize pre ++ ((BadOption.rankIl w).words fast ++ rest) = argv at h0 h1 h2 ⊢
    cases fast <;>
      simp [buildRound, roundCommon, clause, h0, h1, h2, ha, hd, actRank, BadOption.apply, BadOption.words, sMinSize,
        sMaxSize, sRank, sRuns, sLevelwise, sOut, sWsize, sVerbose, sV, sIl, R_bind_ok]

/-- C51, words that are no numbers: as word size or block size they are taken for 0, without any message, whatever the other options. -/
theorem C51_not_a_number (fast : Bool) (prog input : Str) (opts : List BadOption) (h : ∀ o ∈ opts, o.Ok fast) :
    buildArgs fast (prog :: input :: opts.flatMap (BadOption.words fast)) = .ok (opts.foldl BadOption.apply
      { minSize := 0, maxSize := 2 ^ 64 - 1, rank := 0, block := 512, runs := false, levelwise := false, wsize := 64, verbose := false,
        out := [] }) :=
  argLoop_ok (BadOption.words fast) BadOption.apply (BadOption.Ok fast) (buildRound fast) (badWords_ne fast)
    (badRound_ok fast) opts h [prog, input] .default

example : buildArgs true [[], [], sWsize, ['x', '8'], sRank, sIl, ['b'], sRuns, sT] =
    .ok { BuildSettings.default with wsize := 0, rank := 1, block := 0, runs := true } := by decide +kernel

/-- C51 is false of such a word size: `build_fastTries` then writes nothing at all, and ends as if all were well. -/
theorem C51_not_a_number_negation (B : BvIO) (K : Nat → RankIO) (pad : Nat) (junk : Nat → FastJunk) (fs : Files) (prog input : Str)
    (opts : List BuildOption) (h : ∀ o ∈ opts, o.Ok true) (w : Str) (hw : noNumber w) :
    mainBuildFast B K pad junk fs (prog :: input :: (opts.flatMap (BuildOption.words true) ++ ["--wsize".toList, w])) = .ok none := by
  have h1 := C51_not_a_number true prog input (opts.map BadOption.good ++ [.wsize w]) (by
    intro o ho
    rcases List.mem_append.1 ho with ho | ho
    · obtain ⟨o, ho', rfl⟩ := List.mem_map.1 ho
      exact h o ho'
    · rw [List.mem_singleton] at ho
      subst ho
      exact ⟨rfl, hw⟩)
  have e : (opts.map BadOption.good ++ [BadOption.wsize w]).flatMap (BadOption.words true) =
      opts.flatMap (BuildOption.words true) ++ ["--wsize".toList, w] := by
    rw [List.flatMap_append, List.flatMap_map]
    rfl
  rw [e, List.foldl_append, List.foldl_cons, List.foldl_nil, BadOption.apply] at h1
  rw [mainBuildFast, if_neg (by simp only [List.length_cons, List.length_append]; omega),
    show argGet (prog :: input :: (opts.flatMap (BuildOption.words true) ++ ["--wsize".toList, w])) 1 = .ok input from rfl, R_bind_ok, h1,
    R_bind_ok]
  cases fs input with
  | none => rfl
  | some s =>
    simp only
    rw [if_neg (fun h => h.1 rfl)]
    rfl

/-- C51, limits that are no numbers end the program with an exception. -/
theorem C51_bad_limit (fast : Bool) (prog input : Str) (opts : List BuildOption) (h : ∀ o ∈ opts, o.Ok fast) (w : Str) (hw : noNumber w) :
    ∀ name ∈ ["--min_size".toList, "--max_size".toList],
      buildArgs fast (prog :: input :: (opts.flatMap (BuildOption.words fast) ++ [name, w])) = .error .exc := by
  obtain ⟨e1, e2, -⟩ := names_eq
  intro name hn
  refine argLoop_fail (BuildOption.words fast) BuildOption.apply (BuildOption.Ok fast) (buildRound fast) (buildWords_ne fast)
    (buildRound_ok fast) opts h [prog, input] [name, w] (by simp) .default .exc (fun pre s => ?_)
  have h0 : argGet (pre ++ [name, w]) pre.length = .ok name := argGet_append pre _ 0 rfl
  have h1 : argGet (pre ++ [name, w]) (pre.length + 1) = .ok w := argGet_append pre _ 1 rfl
  have ha : stoull w = .error .exc := by rw [stoull, scanNumber_noNumber hw]
  have eb : ∀ {α β : Type} (e : UB) (f : α → R β), ((.error e : R α) >>= f) = .error e := fun _ _ => rfl
  generalize pre ++ [name, w] = argv at h0 h1 ⊢
  rw [e1, e2] at hn
  simp only [List.mem_cons, List.not_mem_nil, or_false] at hn
  rcases hn with rfl | rfl
  · simp [buildRound, roundCommon, clause, h0, h1, eb, ha, actMinSize, R_bind_ok]
  · simp [buildRound, roundCommon, clause, h0, h1, eb, ha, actMaxSize, sMinSize, sMaxSize, R_bind_ok]

example : noNumber ['s', 'm', 'a', 'l', 'l'] ∧ buildArgs false [[], [], sOut, ['f'], sMinSize, ['s', 'm', 'a', 'l', 'l']] = .error .exc :=
  ⟨⟨'s', _, rfl, by decide⟩, by decide +kernel⟩

end CBT
