import Verif.Model.BuildFiles
import Verif.Proof.CommandLine

/-!
# Lemmas on the files of the builders
-/

namespace CBT

theorem Files.put_other (fs : Files) {name n : Str} (h : n ≠ name) (b : Bytes) : fs.put name b n = fs n := if_neg h

theorem Files.put_same (fs : Files) (name : Str) (b : Bytes) : fs.put name b name = some b := if_pos rfl

theorem Files.put_put (fs : Files) (name : Str) (b b' : Bytes) : (fs.put name b).put name b' = fs.put name b' := by
  funext n
  by_cases h : n = name <;> simp [Files.put, h]

theorem Files.put_self {fs : Files} {name : Str} {b : Bytes} (h : fs name = some b) : fs.put name b = fs := by
  funext n
  by_cases hn : n = name
  · rw [hn, put_same, h]
  · exact fs.put_other hn b

theorem buildOn_other (writable : Str → Bool) (fs : Files) (input out : Str) (build : Bool → Bytes → R (Bytes × BuildReport)) {n : Str}
    (h : out ≠ [] → writable out = true → n ≠ out) : (buildOn writable fs input out build).1 n = fs n := by
  unfold buildOn
  cases fs input with
  | none => rfl
  | some s =>
    simp only
    by_cases h1 : out = []
    · rw [if_pos h1]
    rw [if_neg h1]
    by_cases h2 : writable out = false
    · rw [if_pos h2]
    rw [if_neg h2]
    have hn := h h1 (by simpa using h2)
    by_cases h3 : out = input
    · rw [if_pos h3]; exact fs.put_other hn _
    rw [if_neg h3]
    cases build true s with
    | error e => exact fs.put_other hn _
    | ok x => exact fs.put_other hn _

theorem buildOn_again {writable : Str → Bool} {fs fs' : Files} {input out : Str} {build : Bool → Bytes → R (Bytes × BuildReport)}
    {r : Option BuildReport} (h : buildOn writable fs input out build = (fs', .ok r)) : buildOn writable fs' input out build = (fs', .ok r) := by
  unfold buildOn at h
  cases hi : fs input with
  | none =>
    rw [hi] at h
    obtain ⟨rfl, hr'⟩ := Prod.mk.inj h
    unfold buildOn
    rw [hi]
    exact Prod.ext rfl hr'
  | some s =>
    rw [hi] at h
    simp only at h
    by_cases h1 : out = []
    · rw [if_pos h1] at h
      obtain ⟨rfl, hr'⟩ := Prod.mk.inj h
      unfold buildOn
      rw [hi]
      simp only [if_pos h1]
      exact Prod.ext rfl hr'
    rw [if_neg h1] at h
    by_cases h2 : writable out = false
    · rw [if_pos h2] at h
      obtain ⟨rfl, hr'⟩ := Prod.mk.inj h
      unfold buildOn
      rw [hi]
      simp only [if_neg h1, if_pos h2]
      exact Prod.ext rfl hr'
    rw [if_neg h2] at h
    by_cases h3 : out = input
    · rw [if_pos h3] at h
      exact nomatch (Prod.mk.inj h).2
    rw [if_neg h3] at h
    cases hb : build true s with
    | error e => rw [hb] at h; exact nomatch (Prod.mk.inj h).2
    | ok x =>
      rw [hb] at h
      obtain ⟨rfl, hr'⟩ := Prod.mk.inj h
      unfold buildOn
      rw [fs.put_other (Ne.symm h3), hi]
      simp only [if_neg h1, if_neg h2, if_neg h3, hb, Files.put_put]
      exact Prod.ext rfl hr'

end CBT
