import Verif.Proof.Listed
import Verif.Props.Memory

/-!
# C56: no data races
-/

namespace CBT

open Spec

/-- C56. In every parallel section that `Intersect` reaches, no two threads conflict: for all tries, in whatever state, all numbers of
hardware threads, with and without runs. -/
theorem C56_race_free {Ts : List Nav} {runs parallel : Bool} {env : Env} {R : List Nat} {sections : List (List (List Access))}
    (h : accessIntersect Ts runs parallel env = .ok (R, sections)) : ∀ s ∈ sections, RaceFree s := by
  cases Ts with
  | nil => cases h
  | cons T Ts =>
    rw [accessIntersect] at h
    split at h
    · cases h; exact fun s hs => nomatch hs
    · exact accessBody_raceFree h

/-- C56, fast tries. -/
theorem C56_fast_race_free {lg : Nat} {Ts : List FNav} {runs parallel : Bool} {env : Env} {R : List Nat}
    {sections : List (List (List Access))} (h : accessFastIntersect lg Ts runs parallel env = .ok (R, sections)) :
    ∀ s ∈ sections, RaceFree s := by
  cases Ts with
  | nil => cases h
  | cons T Ts =>
    rw [accessFastIntersect] at h
    split at h
    · cases h; exact fun s hs => nomatch hs
    split at h
    · cases h
    · exact accessBody_raceFree h

/-- C56. These are the accesses of `Intersect` as modelled for all other properties: same results, same undefined behaviour. -/
theorem C56_same (Ts : List Nav) (runs parallel : Bool) (env : Env) :
    (accessIntersect Ts runs parallel env).map Prod.fst = intersect Ts runs parallel env := by
  cases Ts with
  | nil => rfl
  | cons T Ts =>
    rw [accessIntersect, intersect, ite_map, accessBody_map]
    rfl

/-- C56, fast tries. -/
theorem C56_fast_same (lg : Nat) (Ts : List FNav) (runs parallel : Bool) (env : Env) :
    (accessFastIntersect lg Ts runs parallel env).map Prod.fst = fastIntersect lg Ts runs parallel env := by
  cases Ts with
  | nil => rfl
  | cons T Ts =>
    rw [accessFastIntersect, fastIntersect, ite_map, ite_map, accessBody_map]
    rfl

/-- C56. No write of the first section is missing from the list: a thread with results has a write of them. -/
theorem C56_results_listed {Ts : List Nav} {c : Cfg} {runs : Bool} {next : List Task} {levels : List Nat} {t : Nat} {l : List Access}
    {task : Task} {level : Nat} {out : List Nat} (h : sectionOne Ts c runs next levels t = .ok l) (ht : vGet next t = .ok task)
    (hl : vGet levels t = .ok level)
    (ho : (if runs then runsAND Ts c (c.stop - level) level task.roots task.active task.part []
           else AND Ts c (c.stop - level) level task.roots task.part []) = .ok out) (hne : out ≠ []) : (Loc.result t, true) ∈ l := by
  rw [sectionOne, ht, hl] at h
  simp only [R_bind_ok] at h
  cases runs with
  | true =>
    simp only [if_true] at h ho
    obtain ⟨⟨x, r⟩, h1, h⟩ := bind_ok h
    rw [← runsANDa_snd Ts c t (c.stop - level) level true, h1] at ho
    cases h; cases ho
    exact List.mem_append_right _ (runsANDa_writes Ts c t _ _ _ _ _ _ _ _ _ h1 hne)
  | false =>
    simp only [Bool.false_eq_true, if_false] at h ho
    obtain ⟨⟨x, r⟩, h1, h⟩ := bind_ok h
    rw [← ANDa_snd Ts c t (c.stop - level) level true, h1] at ho
    cases h; cases ho
    exact List.mem_append_right _ (ANDa_writes Ts c t _ _ _ _ _ _ _ _ h1 hne)

/-- C56. No write of the second section is missing from the list. -/
theorem C56_output_listed {inter : List Nat} {results : List (List Nat)} {t : Nat} {l : List Access} {v : List Nat} {sh : Nat}
    (h : sectionTwo inter results t = .ok l) (hv : vGet results t = .ok v) (hs : vGet (shiftsOf results inter.length) t = .ok sh) :
    ∀ e ∈ ((List.range v.length).zip v).map (fun jx => (jx.1 + sh, jx.2)), (Loc.out e.1, true) ∈ l := by
  rw [sectionTwo, hv, hs] at h
  cases h
  intro e he
  obtain ⟨⟨j, x⟩, hj, rfl⟩ := List.mem_map.1 he
  exact List.mem_flatMap.2 ⟨j, (List.of_mem_zip hj).1, by simp [wr]⟩

/-- C56. No section is missing: if a parallel call without runs that splits the work returns something, then the first section is in the
list with a thread that pushes a result, and if it returns more than 450000 elements then the second section is in the list and
every element of the output is written in it. -/
theorem C56_sections_listed {T : Nav} {Ts : List Nav} {env : Env} {R : List Nat} {sections : List (List (List Access))}
    (h : accessIntersect (T :: Ts) false true env = .ok (R, sections)) (hh : 2 ≤ T.height) (hh' : T.height < 2 ^ 64)
    (hcut : Nat.log2 env.hw ≤ T.height - 2) (hR : R ≠ []) :
    ∃ one more, sections = one :: more ∧ (∃ t, ∃ th ∈ one, (Loc.result t, true) ∈ th) ∧
      (R.length > 450000 → ∃ two, more = [two] ∧ ∀ k < R.length, ∃ th ∈ two, (Loc.out k, true) ∈ th) := by
  rw [accessIntersect] at h
  split at h
  · cases h; exact absurd rfl hR
  · exact accessBody_plain_listed h (by omega) hR

/-- C56, fast tries. -/
theorem C56_fast_sections_listed {lg : Nat} {T : FNav} {Ts : List FNav} {env : Env} {R : List Nat} {sections : List (List (List Access))}
    (h : accessFastIntersect lg (T :: Ts) false true env = .ok (R, sections)) (hh : 2 ≤ T.height) (hh' : T.height < 2 ^ 64)
    (hcut : Nat.log2 env.hw ≤ T.height - 2) (hR : R ≠ []) :
    ∃ one more, sections = one :: more ∧ (∃ t, ∃ th ∈ one, (Loc.result t, true) ∈ th) ∧
      (R.length > 450000 → ∃ two, more = [two] ∧ ∀ k < R.length, ∃ th ∈ two, (Loc.out k, true) ∈ th) := by
  rw [accessFastIntersect] at h
  split at h
  · cases h; exact absurd rfl hR
  split at h
  · cases h
  · exact accessBody_plain_listed h (by omega) hR

/-- C56, with or without runs. What the calling thread found itself, `s'.r`, comes first; everything after it was pushed in the first
section, and a large output was written in the second. -/
theorem C56_body_listed {Ts : List Nav} {c : Cfg} {height : Nat} {runs : Bool} {env : Env} {R : List Nat}
    {sections : List (List (List Access))} (h : accessBody Ts c height runs true env = .ok (R, sections)) (hw : env.hw ≠ 0)
    (hcut : Nat.log2 env.hw ≤ (height + 2 ^ 64 - 2) % 2 ^ 64) {s : PSt}
    (hs : partialAND Ts c runs (Nat.log2 env.hw) 0 (List.replicate 16 (some 0)) (List.replicate 16 true) 0 ⟨[], []⟩ = .ok s) :
    (s.tasks = [] ∧ R = s.r ∧ sections = []) ∨
    ∃ rest used s', fillThreads Ts c runs (Nat.log2 env.hw) (2 ^ Nat.log2 env.hw) (s.tasks.length % 2 ^ 16)
        (s.tasks.take (s.tasks.length % 2 ^ 16)) 0 (s.tasks.length % 2 ^ 16) { s with tasks := [] } = .ok (rest, used, s') ∧
      ((s'.tasks ++ rest = [] ∧ R = s'.r ∧ sections = []) ∨
       ∃ (outs : List (List Nat)) (one : List (List Access)) (more : List (List (List Access))),
        R = s'.r ++ outs.flatten ∧ outs.length = used ∧ sections = one :: more ∧
        (∀ t v, outs[t]? = some v → v ≠ [] → ∃ th ∈ one, (Loc.result t, true) ∈ th) ∧
        (R.length > 450000 → ∃ two, more = [two] ∧ ∀ k, s'.r.length ≤ k → k < R.length → ∃ th ∈ two, (Loc.out k, true) ∈ th)) :=
  accessBody_listed h hw hcut hs

/-- A call as `C56_sections_listed` wants it. -/
example : ∃ R sections, accessIntersect [Ex.flat.nav 0, Ex.level.nav true 0] false true ⟨4, [], []⟩ = .ok (R, sections) ∧ R ≠ [] ∧
    2 ≤ (Ex.flat.nav 0).height ∧ Nat.log2 4 ≤ (Ex.flat.nav 0).height - 2 := by
  have h : (accessIntersect [Ex.flat.nav 0, Ex.level.nav true 0] false true ⟨4, [], []⟩).map (fun p => p.1) =
    .ok [1, 2, 3, 5, 14] := by decide +kernel
  rcases e : accessIntersect [Ex.flat.nav 0, Ex.level.nav true 0] false true ⟨4, [], []⟩ with _ | ⟨R, sections⟩
  · rw [e] at h; cases h
  · rw [e] at h
    have : R = [1, 2, 3, 5, 14] := by injection h
    exact ⟨R, sections, rfl, by simp [this], by decide, by decide +kernel⟩

/-- Three threads and the calling one; each of the three writes its own result. -/
example : (accessIntersect [Ex.flat.nav 0, Ex.level.nav true 0] false true ⟨4, [1, 0, 2, 1, 1], [1, 0, 0]⟩).map
      (fun p => (p.1, p.2.map fun s => s.map fun l => l.filterMap fun a => if a.2 then some a.1 else none)) =
    .ok ([1, 2, 3, 5, 14], [[[.result 0, .result 0, .result 0], [.result 1], [.result 2], []]]) := by decide +kernel

/-- What would be a race. -/
example : ¬ RaceFree [[wr (.result 0)], [rd (.result 0)]] := fun h =>
  h 0 1 (by decide) (by decide) (by decide) _ (List.mem_singleton.2 rfl) _ (List.mem_singleton.2 rfl) ⟨rfl, .inl rfl⟩

/-- The second section, of three threads, on a small output. -/
example : threadAccesses 3 3 (sectionTwo [7] [[8, 9], [], [10]]) =
    .ok [[rd (.result 0), rd (.shift 0), wr (.out 1), rd (.result 0), rd (.shift 0), wr (.out 2)], [],
      [rd (.result 2), rd (.shift 2), wr (.out 3)], []] := by decide +kernel

end CBT
