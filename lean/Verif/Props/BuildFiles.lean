import Verif.Proof.BuildFiles
import Verif.Props.Report
import Verif.Props.CommandLine

/-!
# C103: what the builders do to files
-/

namespace CBT

open Spec

/-- C103, in every run of `build_tries`, also one that fails: no file changes but the one given with `--out`. -/
theorem C103_other_files (F : Formats) (pad : Nat) (ltr : Bool) (writable : Str → Bool) (fs : Files) (argv : List Str) {n : Str}
    (h : ∀ o, buildArgs false argv = .ok o → o.out ≠ [] → writable o.out = true → n ≠ o.out) :
    (mainBuildTriesFiles F pad ltr writable fs argv).1 n = fs n := by
  rw [mainBuildTriesFiles]
  cases h1 : argGet argv 1 with
  | error e => rfl
  | ok input =>
    cases h2 : buildArgs false argv with
    | error e => rfl
    | ok o => exact buildOn_other _ _ _ _ _ (h o h2)

/-- C103, `build_fastTries`: likewise. -/
theorem C103_fast_other_files (B : BvIO) (K : Nat → RankIO) (pad : Nat) (junk : Nat → FastJunk) (writable : Str → Bool) (fs : Files)
    (argv : List Str) {n : Str} (h : ∀ o, buildArgs true argv = .ok o → o.out ≠ [] → writable o.out = true → n ≠ o.out) :
    (mainBuildFastFiles B K pad junk writable fs argv).1 n = fs n := by
  rw [mainBuildFastFiles]
  by_cases ha : argv.length < 3
  · rw [if_pos ha]
  rw [if_neg ha]
  cases h1 : argGet argv 1 with
  | error e => rfl
  | ok input =>
    cases h2 : buildArgs true argv with
    | error e => rfl
    | ok o =>
      simp only [R_bind_ok]
      cases wordLg o.wsize with
      | none => rfl
      | some lg => exact buildOn_other _ _ _ _ _ (h o h2)

/-- C103, a file to be written: afterwards it is the file of `Model/CommandLine`, with which the other theorems deal, whatever it was
before. -/
theorem C103_output (F : Formats) (pad : Nat) (ltr : Bool) {writable : Str → Bool} {fs : Files} {argv : List Str} {out : Str} {f : Bytes}
    (h : mainBuildTries F pad ltr fs argv = .ok (some (out, f))) (hw : writable out = true) :
    ∃ r, mainBuildTriesFiles F pad ltr writable fs argv = (fs.put out f, .ok (some r)) := by
  rw [mainBuildTries] at h
  obtain ⟨input, h1, h⟩ := bind_ok h
  obtain ⟨o, h2, h⟩ := bind_ok h
  cases hi : fs input with
  | none => rw [hi] at h; exact nomatch h
  | some s =>
    rw [hi] at h
    simp only at h
    by_cases hio : o.out = input
    · rw [if_pos hio] at h; exact nomatch h
    rw [if_neg hio] at h
    obtain ⟨f', h3, h⟩ := bind_ok h
    injection h with h
    by_cases he : o.out = []
    · rw [if_pos he] at h; exact nomatch h
    rw [if_neg he] at h
    obtain ⟨rfl, rfl⟩ := Prod.mk.inj (Option.some.inj h)
    rw [← C87_tries_same] at h3
    cases hr : reportTries true F pad ltr o.minSize o.maxSize o.rank o.block o.runs o.levelwise s with
    | error e => rw [hr] at h3; exact nomatch h3
    | ok x =>
      obtain ⟨f'', r⟩ := x
      rw [hr] at h3
      obtain rfl : f'' = f' := Except.ok.inj h3
      refine ⟨r, ?_⟩
      rw [mainBuildTriesFiles, h1, R_bind_ok, h2, R_bind_ok]
      simp only [buildOn, hi, if_neg he, hw, if_neg hio, hr]
      rfl

/-- C103, `build_fastTries`: likewise. -/
theorem C103_fast_output (B : BvIO) (K : Nat → RankIO) (pad : Nat) (junk : Nat → FastJunk) {writable : Str → Bool} {fs : Files}
    {argv : List Str} {out : Str} {f : Bytes} (h : mainBuildFast B K pad junk fs argv = .ok (some (out, f))) (hw : writable out = true) :
    ∃ r, mainBuildFastFiles B K pad junk writable fs argv = (fs.put out f, .ok (some r)) := by
  rw [mainBuildFast] at h
  by_cases ha : argv.length < 3
  · rw [if_pos ha] at h; exact nomatch h
  rw [if_neg ha] at h
  obtain ⟨input, h1, h⟩ := bind_ok h
  obtain ⟨o, h2, h⟩ := bind_ok h
  cases hi : fs input with
  | none => rw [hi] at h; exact nomatch h
  | some s =>
    rw [hi] at h
    simp only at h
    cases hl : wordLg o.wsize with
    | none =>
      rw [if_neg (fun c => c.1 hl), buildFast, hl] at h
      exact nomatch h
    | some lg =>
      by_cases hio : o.out = input
      · rw [if_pos ⟨by rw [hl]; simp, hio⟩] at h; exact nomatch h
      rw [if_neg (fun c => hio c.2), ← C87_fast_same, reportFast, hl] at h
      simp only at h
      cases hr : reportFile true o.minSize o.maxSize (fastFileHeader o.rank o.runs o.levelwise o.wsize)
          (reportFastTrie true B (K (if o.rank = 0 then 0 else 2)) lg pad junk o.runs) s with
      | error e => rw [hr] at h; exact nomatch h
      | ok x =>
        obtain ⟨f', r⟩ := x
        rw [hr] at h
        have h' : (.ok (if o.out = [] then none else some (o.out, f')) : R (Option (Str × Bytes))) = .ok (some (out, f)) := h
        injection h' with h'
        by_cases he : o.out = []
        · rw [if_pos he] at h'; exact nomatch h'
        rw [if_neg he] at h'
        obtain ⟨rfl, rfl⟩ := Prod.mk.inj (Option.some.inj h')
        refine ⟨r, ?_⟩
        rw [mainBuildFastFiles, if_neg ha, h1, R_bind_ok, h2, R_bind_ok]
        simp only [hl, buildOn, hi, if_neg he, hw, if_neg hio, hr]
        rfl

/-- C103, a file that cannot be written to: the builders stop before they build anything, whatever the collection is. -/
theorem C103_unwritable (F : Formats) (B : BvIO) (K : Nat → RankIO) (pad : Nat) (ltr : Bool) (junk : Nat → FastJunk) {writable : Str → Bool}
    (fs : Files) {fast : Bool} {argv : List Str} {input : Str} (h1 : argGet argv 1 = .ok input) {o : BuildSettings}
    (h2 : buildArgs fast argv = .ok o) (hout : o.out ≠ []) (hw : writable o.out = false) :
    (fast = false → mainBuildTriesFiles F pad ltr writable fs argv = (fs, .ok none)) ∧
    (fast = true → mainBuildFastFiles B K pad junk writable fs argv = (fs, .ok none)) := by
  constructor
  · rintro rfl
    rw [mainBuildTriesFiles, h1, R_bind_ok, h2, R_bind_ok]
    simp only [buildOn, if_neg hout, if_pos hw]
    cases fs input <;> rfl
  · rintro rfl
    rw [mainBuildFastFiles, h1, R_bind_ok, h2, R_bind_ok]
    by_cases ha : argv.length < 3
    · rw [if_pos ha]
    rw [if_neg ha]
    simp only [buildOn, if_neg hout, if_pos hw]
    cases wordLg o.wsize with
    | none => rfl
    | some lg => cases fs input <;> rfl

/-- C103: after a run that ended normally, the same command changes nothing and prints the same totals. -/
theorem C103_again {F : Formats} {pad : Nat} {ltr : Bool} {writable : Str → Bool} {fs fs' : Files} {argv : List Str} {r : Option BuildReport}
    (h : mainBuildTriesFiles F pad ltr writable fs argv = (fs', .ok r)) : mainBuildTriesFiles F pad ltr writable fs' argv = (fs', .ok r) := by
  rw [mainBuildTriesFiles] at h ⊢
  cases h1 : argGet argv 1 with
  | error e => rw [h1] at h; exact nomatch (Prod.mk.inj h).2
  | ok input =>
    cases h2 : buildArgs false argv with
    | error e => rw [h1, h2] at h; exact nomatch (Prod.mk.inj h).2
    | ok o =>
      rw [h1, h2] at h
      exact buildOn_again h

/-- C103, `build_fastTries`: likewise, if the members that are never written have the same values in both runs (C70). -/
theorem C103_fast_again {B : BvIO} {K : Nat → RankIO} {pad : Nat} {junk : Nat → FastJunk} {writable : Str → Bool} {fs fs' : Files}
    {argv : List Str} {r : Option BuildReport} (h : mainBuildFastFiles B K pad junk writable fs argv = (fs', .ok r)) :
    mainBuildFastFiles B K pad junk writable fs' argv = (fs', .ok r) := by
  rw [mainBuildFastFiles] at h ⊢
  by_cases ha : argv.length < 3
  · rw [if_pos ha] at h ⊢
    obtain ⟨rfl, hr'⟩ := Prod.mk.inj h
    exact Prod.ext rfl hr'
  rw [if_neg ha] at h ⊢
  cases h1 : argGet argv 1 with
  | error e => rw [h1] at h; exact nomatch (Prod.mk.inj h).2
  | ok input =>
    cases h2 : buildArgs true argv with
    | error e => rw [h1, h2] at h; exact nomatch (Prod.mk.inj h).2
    | ok o =>
      rw [h1, h2] at h
      simp only [R_bind_ok] at h ⊢
      cases hl : wordLg o.wsize with
      | none =>
        rw [hl] at h
        obtain ⟨rfl, hr'⟩ := Prod.mk.inj h
        exact Prod.ext rfl hr'
      | some lg =>
        rw [hl] at h
        exact buildOn_again h

/-- `build_tries c --min_size 1 --out o`, where `o` was something else before. -/
example :
    (mainBuildTries Ex.formats 0 true (Ex.fileAt ['c'] (collectionBytes 1 64 Ex.coll)) [['b'], ['c'], sMinSize, ['1'], sOut, ['o']]).toBool = true ∧
    ((mainBuildTriesFiles Ex.formats 0 true (fun _ => true) ((Ex.fileAt ['c'] (collectionBytes 1 64 Ex.coll)).put ['o'] [7])
      [['b'], ['c'], sMinSize, ['1'], sOut, ['o']]).1 ['o']).isSome = true ∧
    (mainBuildTriesFiles Ex.formats 0 true (fun _ => true) ((Ex.fileAt ['c'] (collectionBytes 1 64 Ex.coll)).put ['o'] [7])
      [['b'], ['c'], sMinSize, ['1'], sOut, ['o']]).1 ['o'] ≠ some [7] ∧
    (mainBuildTriesFiles Ex.formats 0 true (fun _ => false) ((Ex.fileAt ['c'] (collectionBytes 1 64 Ex.coll)).put ['o'] [7])
      [['b'], ['c'], sMinSize, ['1'], sOut, ['o']]).1 ['o'] = some [7] := by
  decide +kernel

/-- C103 is false if the output is the input: nothing is left of the collection, whatever it was, and the behaviour is undefined. -/
theorem C103_input_lost_negation (F : Formats) (B : BvIO) (K : Nat → RankIO) (pad : Nat) (ltr : Bool) (junk : Nat → FastJunk)
    {writable : Str → Bool} {fs : Files} {fast : Bool} {argv : List Str} (ha : 3 ≤ argv.length) {input : Str} (h1 : argGet argv 1 = .ok input)
    {o : BuildSettings} (h2 : buildArgs fast argv = .ok o) (hio : o.out = input) (hout : o.out ≠ []) (hw : writable o.out = true) {s : Bytes}
    (hi : fs input = some s) (hl : wordLg o.wsize ≠ none) :
    (fast = false → mainBuildTriesFiles F pad ltr writable fs argv = (fs.put input [], .error .uninit)) ∧
    (fast = true → mainBuildFastFiles B K pad junk writable fs argv = (fs.put input [], .error .uninit)) := by
  constructor
  · rintro rfl
    rw [mainBuildTriesFiles, h1, R_bind_ok, h2, R_bind_ok]
    simp only [buildOn, hi, if_neg hout, hw, if_pos hio]
    simp [hio]
  · rintro rfl
    rw [mainBuildFastFiles, if_neg (by omega), h1, R_bind_ok, h2, R_bind_ok]
    cases hg : wordLg o.wsize with
    | none => exact absurd hg hl
    | some lg =>
      simp only [hg, buildOn, hi, if_neg hout, hw, if_pos hio]
      simp [hio]

/-- `build_tries c --out c`. -/
example : argGet [['b'], ['c'], sOut, ['c']] 1 = .ok ['c'] ∧
    buildArgs false [['b'], ['c'], sOut, ['c']] = .ok { BuildSettings.default with out := ['c'] } ∧
    wordLg BuildSettings.default.wsize ≠ none := by
  decide +kernel

end CBT
