import Verif.Proof.AnyOutcome
import Verif.Props.AnyDecode

/-!
# C101: the worst that `decode` and `Intersect` do to tries in any state
-/

namespace CBT

open Spec

/-! ## `decode` -/

/-- C101. Whatever a flat trie contains, `decode` returns, or it reads outside a bit vector. -/
theorem C101_decode (t : FlatTrie) (hp : t.runsEncoded = false → t.height ≤ 64) (hr : t.runsEncoded = true → t.height ≤ 63) (pad : Nat)
    (out : List Nat) : (∃ D, t.decode pad out = .ok D) ∨ t.decode pad out = .error .oob := by
  rw [FlatTrie.decode]
  cases he : t.runsEncoded with
  | false => exact (recDecode_good (t.oobNav pad) (hp he) ..).okOob
  | true => exact (Good.ite (.ok trivial) (runsRecDecode_good (t.oobNav pad) (hr he) ..)).okOob

/-- C101, for the level-wise classes. -/
theorem C101_level_decode (t : LevelTrie) (hp : t.runsEncoded = false → t.height ≤ 64) (hr : t.runsEncoded = true → t.height ≤ 63) (il : Bool)
    (pad : Nat) (out : List Nat) : (∃ D, t.decode il pad out = .ok D) ∨ t.decode il pad out = .error .oob := by
  rw [LevelTrie.decode]
  cases he : t.runsEncoded with
  | false => exact (recDecode_good (t.oobNav il pad) (hp he) ..).okOob
  | true => exact (Good.ite (.ok trivial) (runsRecDecode_good (t.oobNav il pad) (hr he) ..)).okOob

/-- C101, for fast tries of words of `2^lg` bits whose heights agree. -/
theorem C101_fast_decode {lg : Nat} (hlg : lg ≤ 6) (t : FastTrie) (_hh : t.height + lg = t.heightU + 1) (h0 : t.height ≠ 0)
    (hw : ∀ w ∈ t.lastLevel, w < 2 ^ 2 ^ lg) (hp : t.runsEncoded = false → t.heightU ≤ 64) (hr : t.runsEncoded = true → t.heightU ≤ 63)
    (pad : Nat) (out : List Nat) : (∃ D, t.decode lg pad out = .ok D) ∨ t.decode lg pad out = .error .oob := by
  rw [FastTrie.decode, if_neg h0]
  cases he : t.runsEncoded with
  | false => exact (fastRecDecode_good hlg (t.oobNav pad) (t.wordLtGood hw pad) (hp he) ..).okOob
  | true => exact (Good.ite (.ok trivial) (fastRunsRecDecode_good hlg (t.oobNav pad) (t.wordLtGood hw pad) (hr he) ..)).okOob

/-! ## `Intersect` -/

/-- C101. Whatever the tries contain, and however many there are, `Intersect` returns, or it reads outside an array: in all four modes.
Tries of height 1 are left out of the parallel mode, where the code goes below the last level (C32). -/
theorem C101_intersect {Ts : List Nav} {runs parallel : Bool} (hT : ∀ n ∈ Ts, SomeTrie n ∧ n.height ≤ if runs then 63 else 64)
    (_hp : parallel = true → ∀ n ∈ Ts, 2 ≤ n.height) (env : Env) (hw : env.hw ≠ 0) (hw2 : env.hw < 2 ^ 16) :
    (∃ R, intersect Ts runs parallel env = .ok R) ∨ intersect Ts runs parallel env = .error .oob := by
  cases Ts with
  | nil => exact .inr rfl
  | cons T Ts =>
    have hh := (hT T (by simp)).2
    rw [intersect]
    refine (Good.ite (.ok trivial) (body_good (fun n hn => (hT n hn).1.oob) ?_ ?_ hw hw2)).okOob
    · rintro rfl; exact flat_goodCfg (by simpa using hh)
    · rintro rfl; exact flat_goodCfgR (by simpa using hh)

/-- C101, for fast tries. -/
theorem C101_fast_intersect {lg : Nat} (hlg : lg ≤ 6) {Ts : List FNav} {runs parallel : Bool}
    (hT : ∀ n ∈ Ts, (∃ (t : FastTrie) (pad : Nat), n = t.nav pad) ∧ n.height ≠ 0 ∧ n.height + lg ≤ if runs then 64 else 65)
    (_hp : parallel = true → ∀ n ∈ Ts, 2 ≤ n.height) (env : Env) (hw : env.hw ≠ 0) (hw2 : env.hw < 2 ^ 16) :
    (∃ R, fastIntersect lg Ts runs parallel env = .ok R) ∨ fastIntersect lg Ts runs parallel env = .error .oob := by
  cases Ts with
  | nil => exact .inr rfl
  | cons T Ts =>
    obtain ⟨-, h0, hh⟩ := hT T (by simp)
    have hword : ∀ n ∈ T :: Ts, ∀ i, Good (fun _ => True) (n.getWord i) := by
      intro n hn
      obtain ⟨t, pad, rfl⟩ := (hT n hn).1
      exact t.wordGood pad
    rw [fastIntersect, if_neg h0]
    refine (Good.ite (.ok trivial) (body_good (fun n hn => ?_) ?_ ?_ hw hw2)).okOob
    · obtain ⟨n', hn', rfl⟩ := List.mem_map.1 hn
      obtain ⟨t, pad, rfl⟩ := (hT n' hn').1
      exact t.oobNav pad
    · rintro rfl; exact fast_goodCfg hlg hword (by simpa using hh)
    · rintro rfl; exact fast_goodCfgR hlg hword (by simpa using hh)

/-! ## Whose fault it is -/

/-- A trie with any contents, of height `h`, and what its `decode` does by the plain method. -/
inductive PlainDecoder (h : Nat) (o : R (List Nat)) : Nav → Prop
  | flat (t : FlatTrie) (pad : Nat) : t.height = h → t.runsEncoded = false → t.decode pad [] = o → PlainDecoder h o (t.nav pad)
  | level (t : LevelTrie) (il : Bool) (pad : Nat) : t.height = h → (∀ v ∈ t.bTrie, v.length < 2 ^ 64) → t.runsEncoded = false →
      t.decode il pad [] = o → PlainDecoder h o (t.nav il pad)

/-- A trie with any contents, of height `h`, marked as run-encoded and not as empty, and what its `decode` does. -/
inductive RunsDecoder (h : Nat) (o : R (List Nat)) : Nav → Prop
  | flat (t : FlatTrie) (pad : Nat) : t.height = h → t.runsEncoded = true → t.emptyTrie = false → t.decode pad [] = o →
      RunsDecoder h o (t.nav pad)
  | level (t : LevelTrie) (il : Bool) (pad : Nat) : t.height = h → (∀ v ∈ t.bTrie, v.length < 2 ^ 64) → t.heightWithRuns = h →
      t.runsEncoded = true → t.emptyTrie = false → t.decode il pad [] = o → RunsDecoder h o (t.nav il pad)

/-- A fast trie with any contents and what its `decode` does. -/
inductive FastDecoder (lg h : Nat) (runs : Bool) (o : R (List Nat)) : FNav → Prop
  | mk (t : FastTrie) (pad : Nat) : t.heightU = h → t.height + lg = h + 1 → (∀ w ∈ t.lastLevel, w < 2 ^ 2 ^ lg) → t.runsEncoded = runs →
      (runs = true → t.emptyTrie = false) → t.decode lg pad [] = o → FastDecoder lg h runs o (t.nav pad)

theorem PlainDecoder.reads {h : Nat} {D : List Nat} {n : Nav} (hn : PlainDecoder h (.ok D) n) : PlainReads h D n := by
  cases hn with
  | flat t pad h1 h2 h3 => exact .flat t pad h1 h2 h3
  | level t il pad h1 h2 h3 h4 => exact .level t il pad h1 h2 h3 h4

theorem RunsDecoder.reads {h : Nat} {D : List Nat} {n : Nav} (hn : RunsDecoder h (.ok D) n) : RunsReads h D n := by
  cases hn with
  | flat t pad h1 h2 h3 h4 => exact .flat t pad h1 h2 h3 h4
  | level t il pad h1 h2 h3 h4 h5 h6 => exact .level t il pad h1 h2 h3 h4 h5 h6

theorem FastDecoder.reads {lg h : Nat} {runs : Bool} {D : List Nat} {n : FNav} (hn : FastDecoder lg h runs (.ok D) n) :
    FastReads lg h runs D n := by
  cases hn with
  | mk t pad h1 h2 h3 h4 h5 h6 => exact .mk t pad h1 h2 h3 h4 h5 h6

theorem PlainDecoder.outcome {h : Nat} (hh : h ≤ 64) {o : R (List Nat)} {n : Nav} (hn : PlainDecoder h o n) :
    (SomeTrie n ∧ n.height = h) ∧ ((∃ D, o = .ok D) ∨ o = .error .oob) := by
  cases hn with
  | flat t pad h1 h2 h3 => exact ⟨⟨.flat t pad, h1⟩, h3 ▸ C101_decode t (fun _ => by omega) (fun h => by rw [h2] at h; cases h) pad []⟩
  | level t il pad h1 h2 h3 h4 =>
    exact ⟨⟨.level t il pad, h1⟩, h4 ▸ C101_level_decode t (fun _ => by omega) (fun h => by rw [h3] at h; cases h) il pad []⟩

theorem RunsDecoder.outcome {h : Nat} (hh : h ≤ 63) {o : R (List Nat)} {n : Nav} (hn : RunsDecoder h o n) :
    (SomeTrie n ∧ n.height = h) ∧ ((∃ D, o = .ok D) ∨ o = .error .oob) := by
  cases hn with
  | flat t pad h1 h2 h3 h4 => exact ⟨⟨.flat t pad, h1⟩, h4 ▸ C101_decode t (fun _ => by omega) (fun _ => by omega) pad []⟩
  | level t il pad h1 h2 h3 h4 h5 h6 =>
    exact ⟨⟨.level t il pad, h1⟩, h6 ▸ C101_level_decode t (fun _ => by omega) (fun _ => by omega) il pad []⟩

theorem FastDecoder.outcome {lg h : Nat} {runs : Bool} (hlg : lg ≤ 6) (h1 : lg ≤ h) (hh : h ≤ if runs then 63 else 64) {o : R (List Nat)}
    {n : FNav} (hn : FastDecoder lg h runs o n) :
    ((∃ (t : FastTrie) (pad : Nat), n = t.nav pad) ∧ n.height + lg = h + 1) ∧ ((∃ D, o = .ok D) ∨ o = .error .oob) := by
  cases hn with
  | mk t pad h2 h3 h4 h5 h6 h7 =>
    refine ⟨⟨⟨t, pad, rfl⟩, h3⟩, h7 ▸ C101_fast_decode hlg t (by omega) (by omega) h4 ?_ ?_ pad []⟩
    · intro h
      rw [h] at h5; subst h5
      simpa [h2] using hh
    · intro h
      rw [h] at h5; subst h5
      simpa [h2] using hh

theorem all_read {β : Type} {P : R (List Nat) → β → Prop} {Q : List Nat → β → Prop} (hQ : ∀ D n, P (.ok D) n → Q D n) : (Ts : List β) →
    (∀ n ∈ Ts, ∃ o, P o n ∧ ((∃ D, o = .ok D) ∨ o = .error .oob)) → (¬ ∃ n ∈ Ts, P (.error .oob) n) → ∃ Ds, List.Forall₂ Q Ds Ts
  | [], _, _ => ⟨[], .nil⟩
  | n :: Ts, h, hno => by
    obtain ⟨Ds, hDs⟩ := all_read hQ Ts (fun n hn => h n (by simp [hn])) fun ⟨n, hn, h⟩ => hno ⟨n, by simp [hn], h⟩
    obtain ⟨o, ho, ⟨D, rfl⟩ | rfl⟩ := h n (by simp)
    · exact ⟨D :: Ds, .cons (hQ _ _ ho) hDs⟩
    · exact (hno ⟨n, by simp, ho⟩).elim

/-- C101. If a call on one to 16 tries of one height goes wrong, then by a read outside an array, and then `decode` of one of the tries alone
goes wrong in the same way. -/
theorem C101_blame {h : Nat} {parallel : Bool} (h1 : (if parallel then 2 else 1) ≤ h) (h2 : h ≤ 64) {Ts : List Nav}
    (hT : ∀ n ∈ Ts, ∃ o, PlainDecoder h o n) (hne : Ts ≠ []) (hlen : Ts.length ≤ 16) (env : Env) (hw : env.hw ≠ 0) (hw2 : env.hw < 2 ^ 16)
    {e : UB} (he : intersect Ts false parallel env = .error e) : e = .oob ∧ ∃ n ∈ Ts, PlainDecoder h (.error .oob) n := by
  constructor
  · have k1 : ∀ n ∈ Ts, SomeTrie n ∧ n.height ≤ if false then 63 else 64 := fun n hn => by
      obtain ⟨o, ho⟩ := hT n hn
      have := (ho.outcome h2).1
      exact ⟨this.1, by simp; omega⟩
    have k2 : parallel = true → ∀ n ∈ Ts, 2 ≤ n.height := fun hp n hn => by
      obtain ⟨o, ho⟩ := hT n hn
      have := (ho.outcome h2).1.2
      rw [if_pos hp] at h1
      omega
    rcases C101_intersect k1 k2 env hw hw2 with ⟨R, h'⟩ | h'
    · rw [he] at h'; cases h'
    · rw [he] at h'; injection h'
  · by_contra hno
    obtain ⟨Ds, hDs⟩ := all_read (P := PlainDecoder h) (fun D n hn => hn.reads) Ts (fun n hn => by
      obtain ⟨o, ho⟩ := hT n hn
      exact ⟨o, ho, (ho.outcome h2).2⟩) hno
    cases parallel with
    | false =>
      obtain ⟨R, hR, -⟩ := C100_plain (by simpa using h1) h2 hDs hne hlen env hw
      rw [he] at hR; cases hR
    | true =>
      obtain ⟨R, hR, -⟩ := C100_parallel (by simpa using h1) h2 hDs hne hlen env hw hw2
      rw [he] at hR; cases hR

/-- C101, with `runs`. -/
theorem C101_runs_blame {h : Nat} {parallel : Bool} (h1 : (if parallel then 2 else 1) ≤ h) (h2 : h ≤ 63) {Ts : List Nav}
    (hT : ∀ n ∈ Ts, ∃ o, RunsDecoder h o n) (hne : Ts ≠ []) (hlen : Ts.length ≤ 16) (env : Env) (hw : env.hw ≠ 0) (hw2 : env.hw < 2 ^ 16)
    {e : UB} (he : intersect Ts true parallel env = .error e) : e = .oob ∧ ∃ n ∈ Ts, RunsDecoder h (.error .oob) n := by
  constructor
  · have k1 : ∀ n ∈ Ts, SomeTrie n ∧ n.height ≤ if true then 63 else 64 := fun n hn => by
      obtain ⟨o, ho⟩ := hT n hn
      have := (ho.outcome h2).1
      exact ⟨this.1, by simp; omega⟩
    have k2 : parallel = true → ∀ n ∈ Ts, 2 ≤ n.height := fun hp n hn => by
      obtain ⟨o, ho⟩ := hT n hn
      have := (ho.outcome h2).1.2
      rw [if_pos hp] at h1
      omega
    rcases C101_intersect k1 k2 env hw hw2 with ⟨R, h'⟩ | h'
    · rw [he] at h'; cases h'
    · rw [he] at h'; injection h'
  · by_contra hno
    obtain ⟨Ds, hDs⟩ := all_read (P := RunsDecoder h) (fun D n hn => hn.reads) Ts (fun n hn => by
      obtain ⟨o, ho⟩ := hT n hn
      exact ⟨o, ho, (ho.outcome h2).2⟩) hno
    cases parallel with
    | false =>
      obtain ⟨R, hR, -⟩ := C100_runs (by simpa using h1) h2 hDs hne hlen env hw
      rw [he] at hR; cases hR
    | true =>
      obtain ⟨R, hR, -⟩ := C100_runs_parallel (by simpa using h1) h2 hDs hne hlen env hw hw2
      rw [he] at hR; cases hR

/-- C101, for fast tries, in all four modes. -/
theorem C101_fast_blame {lg h : Nat} (hlg : lg ≤ 6) {runs parallel : Bool} (h1 : (if parallel then lg + 1 else lg) ≤ h)
    (h2 : h ≤ if runs then 63 else 64) {Ts : List FNav} (hT : ∀ n ∈ Ts, ∃ o, FastDecoder lg h runs o n) (hne : Ts ≠ []) (hlen : Ts.length ≤ 16)
    (env : Env) (hw : env.hw ≠ 0) (hw2 : env.hw < 2 ^ 16) {e : UB} (he : fastIntersect lg Ts runs parallel env = .error e) :
    e = .oob ∧ ∃ n ∈ Ts, FastDecoder lg h runs (.error .oob) n := by
  have hl : lg ≤ h := by split at h1 <;> omega
  constructor
  · have k1 : ∀ n ∈ Ts, (∃ (t : FastTrie) (pad : Nat), n = t.nav pad) ∧ n.height ≠ 0 ∧ n.height + lg ≤ if runs then 64 else 65 :=
      fun n hn => by
        obtain ⟨o, ho⟩ := hT n hn
        have := (ho.outcome hlg hl h2).1
        exact ⟨this.1, by omega, by cases runs <;> simp at h2 ⊢ <;> omega⟩
    have k2 : parallel = true → ∀ n ∈ Ts, 2 ≤ n.height := fun hp n hn => by
      obtain ⟨o, ho⟩ := hT n hn
      have := (ho.outcome hlg hl h2).1.2
      rw [if_pos hp] at h1
      omega
    rcases C101_fast_intersect hlg k1 k2 env hw hw2 with ⟨R, h'⟩ | h'
    · rw [he] at h'; cases h'
    · rw [he] at h'; injection h'
  · by_contra hno
    obtain ⟨Ds, hDs⟩ := all_read (P := FastDecoder lg h runs) (fun D n hn => hn.reads) Ts (fun n hn => by
      obtain ⟨o, ho⟩ := hT n hn
      exact ⟨o, ho, (ho.outcome hlg hl h2).2⟩) hno
    obtain ⟨R, hR⟩ : ∃ R, fastIntersect lg Ts runs parallel env = .ok R := by
      cases runs <;> cases parallel
      · obtain ⟨R, hR, -⟩ := C100_fast hlg (by simpa using h2) hDs hne hlen env hw
        exact ⟨R, hR⟩
      · obtain ⟨R, hR, -⟩ := C100_fast_parallel hlg (by simpa using h1) (by simpa using h2) hDs hne hlen env hw hw2
        exact ⟨R, hR⟩
      · obtain ⟨R, hR, -⟩ := C100_fast_runs hlg (by simpa using h2) hDs hne hlen env hw
        exact ⟨R, hR⟩
      · obtain ⟨R, hR, -⟩ := C100_fast_runs_parallel hlg (by simpa using h1) (by simpa using h2) hDs hne hlen env hw hw2
        exact ⟨R, hR⟩
    rw [he] at hR; cases hR

/-- A call that goes wrong, on tries as `C101_blame` wants them; here it is the second trie. -/
example : (∀ n ∈ [Ex.levelBare.nav false 0, Ex.levelTorn.nav false 0], ∃ o, PlainDecoder 3 o n) ∧
    intersect [Ex.levelBare.nav false 0, Ex.levelTorn.nav false 0] false false ⟨2, [], []⟩ = .error .oob ∧
    Ex.levelBare.decode false 0 [] = .ok [0, 1, 2, 5] ∧ Ex.levelTorn.decode false 0 [] = .error .oob := by
  refine ⟨?_, by decide +kernel, by decide +kernel, by decide +kernel⟩
  intro n hn
  rcases (by simpa using hn : n = Ex.levelBare.nav false 0 ∨ n = Ex.levelTorn.nav false 0) with rfl | rfl
  · exact ⟨_, .level _ _ _ rfl (by decide +kernel) rfl rfl⟩
  · exact ⟨_, .level _ _ _ rfl (by decide +kernel) rfl rfl⟩

/-- The same with `runs`, in parallel. -/
example : RunsDecoder 3 (.error .oob) ({ Ex.levelTorn with runsEncoded := true }.nav false 0) ∧
    intersect [{ Ex.levelTorn with runsEncoded := true }.nav false 0] true true ⟨2, [], []⟩ = .error .oob :=
  ⟨.level _ _ _ rfl (by decide +kernel) rfl rfl rfl (by decide +kernel), by decide +kernel⟩

/-- The same for fast tries. -/
example : FastDecoder 3 5 false (.error .oob) (Ex.fastTorn.nav 0) ∧
    fastIntersect 3 [Ex.fastBare.nav 0, Ex.fastTorn.nav 0] false true ⟨2, [1, 0, 1], [0]⟩ = .error .oob :=
  ⟨.mk _ _ rfl rfl (by decide +kernel) rfl (by simp) (by decide +kernel), by decide +kernel⟩

/-- C101: there is no converse. A trie that cannot be decoded can be intersected, if the others keep the call away from where it is torn. -/
theorem C101_converse_false : Ex.levelTorn.decode false 0 [] = .error .oob ∧
    intersect [Ex.levelTorn.nav false 0, (⟨3, false, false, [[true, false], [true, false], [true, true]]⟩ : LevelTrie).nav false 0] false false
      ⟨2, [], []⟩ = .ok [0, 1] := by
  decide +kernel

end CBT
