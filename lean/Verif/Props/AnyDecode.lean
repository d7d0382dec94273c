import Verif.Props.AnyRuns
import Verif.Proof.AnyDecode

/-!
# C100: `decode` and `Intersect` agree on tries in any state
-/

namespace CBT

open Spec

/-- A trie with any contents, of height `h`, whose `decode` returns `D` by the plain method. -/
inductive PlainReads (h : Nat) (D : List Nat) : Nav → Prop
  | flat (t : FlatTrie) (pad : Nat) : t.height = h → t.runsEncoded = false → t.decode pad [] = .ok D → PlainReads h D (t.nav pad)
  | level (t : LevelTrie) (il : Bool) (pad : Nat) : t.height = h → (∀ v ∈ t.bTrie, v.length < 2 ^ 64) → t.runsEncoded = false →
      t.decode il pad [] = .ok D → PlainReads h D (t.nav il pad)

/-- A trie with any contents, of height `h`, marked as run-encoded and not as empty, whose `decode` returns `D`. -/
inductive RunsReads (h : Nat) (D : List Nat) : Nav → Prop
  | flat (t : FlatTrie) (pad : Nat) : t.height = h → t.runsEncoded = true → t.emptyTrie = false → t.decode pad [] = .ok D →
      RunsReads h D (t.nav pad)
  | level (t : LevelTrie) (il : Bool) (pad : Nat) : t.height = h → (∀ v ∈ t.bTrie, v.length < 2 ^ 64) → t.heightWithRuns = h →
      t.runsEncoded = true → t.emptyTrie = false → t.decode il pad [] = .ok D → RunsReads h D (t.nav il pad)

/-- A fast trie with any contents whose `decode` returns `D`; `h` is the number of bits of its values. -/
inductive FastReads (lg h : Nat) (runs : Bool) (D : List Nat) : FNav → Prop
  | mk (t : FastTrie) (pad : Nat) : t.heightU = h → t.height + lg = h + 1 → (∀ w ∈ t.lastLevel, w < 2 ^ 2 ^ lg) → t.runsEncoded = runs →
      (runs = true → t.emptyTrie = false) → t.decode lg pad [] = .ok D → FastReads lg h runs D (t.nav pad)

theorem PlainReads.tree {d : Nat} (hd : d ≤ 63) {D : List Nat} {n : Nav} (h : PlainReads (d + 1) D n) :
    n.height = d + 1 ∧ ∃ t, Rep n (leafP n) d 0 t 0 ∧ D = enum (d + 1) (has 1 d t) 0 := by
  cases h with
  | flat t pad hh hr hD =>
    rw [FlatTrie.decode, hr, hh] at hD
    have := recDecode_any (t.coherent pad) (by show t.height ≤ 64; omega) d 0 0 0 [] D (by show t.height = _; omega)
      (dvd_zero _) hD
    exact ⟨hh, by simpa using this⟩
  | level t il pad hh hv hr hD =>
    rw [LevelTrie.decode, hr, hh] at hD
    have := recDecode_any (t.coherent il pad hv) (by show t.height ≤ 64; omega) d 0 0 0 [] D
      (by show t.height = _; omega) (dvd_zero _) hD
    exact ⟨hh, by simpa using this⟩

theorem RunsReads.tree {d : Nat} (hd : d ≤ 62) {D : List Nat} {n : Nav} (h : RunsReads (d + 1) D n) :
    n.height = d + 1 ∧ ∃ t, Rep n (leafQ n) d 0 t 0 ∧ D = enum (d + 1) (hasR 1 d t) 0 := by
  cases h with
  | flat t pad hh hr he hD =>
    rw [FlatTrie.decode, hr, he, hh] at hD
    have := runsRecDecode_any (t.coherent pad) (by show t.height < 64; omega) d 0 0 0 [] D (by show t.height = _; omega)
      (dvd_zero _) hD
    exact ⟨hh, by simpa using this⟩
  | level t il pad hh hv hwr hr he hD =>
    rw [LevelTrie.decode, hr, he, hwr] at hD
    have := runsRecDecode_any (t.coherent il pad hv) (by show t.height < 64; omega) d 0 0 0 [] D
      (by show t.height = _; omega) (dvd_zero _) hD
    exact ⟨hh, by simpa using this⟩

theorem FastTrie.getWord_lt {lg : Nat} {t : FastTrie} (hw : ∀ w ∈ t.lastLevel, w < 2 ^ 2 ^ lg) (pad id w : Nat)
    (h : (t.nav pad).getWord id = .ok w) : w < 2 ^ 2 ^ lg := by
  change t.getWord id = .ok w at h
  rw [FastTrie.getWord] at h
  split at h
  · cases h
  · unfold vGet at h
    split at h
    · next x hx => cases h; exact hw _ (List.mem_of_getElem? hx)
    · cases h

theorem FastReads.height {lg h : Nat} {runs : Bool} {D : List Nat} {n : FNav} (hr : FastReads lg h runs D n) :
    n.height + lg = h + 1 ∧ n.height ≠ 0 := by
  cases hr with
  | mk t pad hu hh hw hr he hD =>
    refine ⟨hh, ?_⟩
    intro h0
    have h0 : t.height = 0 := h0
    rw [FastTrie.decode, if_pos h0] at hD
    cases hD

theorem FastReads.plain_tree {lg d : Nat} (hlg : lg ≤ 6) (hd : d + lg ≤ 64) {D : List Nat} {n : FNav} (h : FastReads lg (d + lg) false D n) :
    n.height = d + 1 ∧ ∃ t, Rep n.toNav (leafV lg n) d 0 t 0 ∧ D = enum (d + lg) (has lg d t) 0 := by
  have hn := h.height
  cases h with
  | mk t pad hu hh hw hr he hD =>
    have hh' : t.height = d + 1 := by omega
    rw [FastTrie.decode, if_neg (by omega), hr, hh', hu] at hD
    have := fastRecDecode_any (t.coherent pad) (t.getWord_lt hw pad) hlg hd d 0 0 0 [] D
      (by show t.height = _; omega) (by omega) (dvd_zero _) hD
    exact ⟨hh', by simpa using this⟩

theorem FastReads.runs_tree {lg d : Nat} (hlg : lg ≤ 6) (hd : d + lg ≤ 63) {D : List Nat} {n : FNav} (h : FastReads lg (d + lg) true D n) :
    n.height = d + 1 ∧ ∃ t, Rep n.toNav (leafV lg n) d 0 t 0 ∧ D = enum (d + lg) (hasR lg d t) 0 := by
  have hn := h.height
  cases h with
  | mk t pad hu hh hw hr he hD =>
    have hh' : t.height = d + 1 := by omega
    rw [FastTrie.decode, if_neg (by omega), hr, he rfl, hh', hu] at hD
    have := fastRunsRecDecode_any (t.coherent pad) (t.getWord_lt hw pad) hlg (show d + lg < 64 by omega) d 0 0 0 [] D
      (by show t.height = _; omega) (by omega) (dvd_zero _) hD
    exact ⟨hh', by simpa using this⟩

/-! ## What `decode` returns -/

/-- C100. Whatever a trie contains, if `decode` returns, the values are strictly increasing and fit the height. -/
theorem C100_decode {h : Nat} (h1 : 1 ≤ h) {D : List Nat} {n : Nav} (hD : h ≤ 64 ∧ PlainReads h D n ∨ h ≤ 63 ∧ RunsReads h D n) :
    D.Pairwise (· < ·) ∧ ∀ x ∈ D, x < 2 ^ h := by
  obtain ⟨d, rfl⟩ : ∃ d, h = d + 1 := ⟨h - 1, by omega⟩
  rcases hD with ⟨h2, hD⟩ | ⟨h2, hD⟩
  · obtain ⟨_, t, _, rfl⟩ := hD.tree (by omega)
    exact ⟨enum_sorted _ _ _, fun x hx => enum_zero_lt hx⟩
  · obtain ⟨_, t, _, rfl⟩ := hD.tree (by omega)
    exact ⟨enum_sorted _ _ _, fun x hx => enum_zero_lt hx⟩

/-- C100, for fast tries of words of `2^lg` bits. -/
theorem C100_fast_decode {lg h : Nat} (hlg : lg ≤ 6) {runs : Bool} (h2 : h ≤ 63) {D : List Nat} {n : FNav} (hD : FastReads lg h runs D n) :
    D.Pairwise (· < ·) ∧ ∀ x ∈ D, x < 2 ^ h := by
  obtain ⟨d, rfl⟩ : ∃ d, h = d + lg := ⟨h - lg, by have := hD.height; omega⟩
  cases runs with
  | false =>
    obtain ⟨_, t, _, rfl⟩ := hD.plain_tree hlg (by omega)
    exact ⟨enum_sorted _ _ _, fun x hx => enum_zero_lt hx⟩
  | true =>
    obtain ⟨_, t, _, rfl⟩ := hD.runs_tree hlg (by omega)
    exact ⟨enum_sorted _ _ _, fun x hx => enum_zero_lt hx⟩

/-! ## What `Intersect` returns -/

theorem forall2_ne {α β : Type} {r : α → β → Prop} {l : List α} {m : List β} (h : List.Forall₂ r l m) (hm : m ≠ []) : l ≠ [] := by
  rintro rfl
  cases h
  exact hm rfl

/-- C100. One to 16 tries with any contents, of any of the classes, on which `decode` returns: the sequential call without `runs` returns the
intersection of what is decoded. -/
theorem C100_plain {h : Nat} (h1 : 1 ≤ h) (h2 : h ≤ 64) {Ds : List (List Nat)} {Ts : List Nav} (hT : List.Forall₂ (PlainReads h) Ds Ts)
    (hne : Ts ≠ []) (hlen : Ts.length ≤ 16) (env : Env) (hw : env.hw ≠ 0) :
    ∃ R, intersect Ts false false env = .ok R ∧ IsIntersection Ds R := by
  obtain ⟨d, rfl⟩ : ∃ d, h = d + 1 := ⟨h - 1, by omega⟩
  obtain ⟨ts, e1, e2, e3⟩ := trees_any (rep := fun n t => Rep n (leafP n) d 0 t 0) (P := has 1 d) (k := d + 1)
    (hT.imp fun _ _ h => (h.tree (by omega)).2)
  refine ⟨_, ?_, isIntersection_enum (forall2_ne hT hne) e3 e2⟩
  rw [intersect_unfold hne (forall2_imp_right hT fun _ _ h => (h.tree (by omega)).1)]
  have := seq_plain id leafP (height := d + 1) (flat_leafOK_any Ts (d + 1)) e1 hlen (by rfl) (by rfl) (show d + 1 ≤ 64 by omega) hw
  rw [List.map_id] at this
  exact this

/-- C100, in parallel mode: heights from 2. -/
theorem C100_parallel {h : Nat} (h1 : 2 ≤ h) (h2 : h ≤ 64) {Ds : List (List Nat)} {Ts : List Nav} (hT : List.Forall₂ (PlainReads h) Ds Ts)
    (hne : Ts ≠ []) (hlen : Ts.length ≤ 16) (env : Env) (hw : env.hw ≠ 0) (hw2 : env.hw < 2 ^ 16) :
    ∃ R, intersect Ts false true env = .ok R ∧ IsIntersection Ds R := by
  obtain ⟨R, hR, hI⟩ := C100_plain (by omega) h2 hT hne hlen env hw
  refine ⟨R, (C77_plain_any (fun n hn => ?_) env hw hw2 R).2 hR, hI⟩
  obtain ⟨d, rfl⟩ : ∃ d, h = d + 1 := ⟨h - 1, by omega⟩
  have := forall2_imp_right hT (fun _ _ h => (h.tree (by omega)).1) n hn
  omega

/-- C100, with `runs`: the sequential call on tries marked as run-encoded. -/
theorem C100_runs {h : Nat} (h1 : 1 ≤ h) (h2 : h ≤ 63) {Ds : List (List Nat)} {Ts : List Nav} (hT : List.Forall₂ (RunsReads h) Ds Ts)
    (hne : Ts ≠ []) (hlen : Ts.length ≤ 16) (env : Env) (hw : env.hw ≠ 0) :
    ∃ R, intersect Ts true false env = .ok R ∧ IsIntersection Ds R := by
  obtain ⟨d, rfl⟩ : ∃ d, h = d + 1 := ⟨h - 1, by omega⟩
  obtain ⟨ts, e1, e2, e3⟩ := trees_any (rep := fun n t => Rep n (leafQ n) d 0 t 0) (P := hasR 1 d) (k := d + 1)
    (hT.imp fun _ _ h => (h.tree (by omega)).2)
  refine ⟨_, ?_, isIntersection_enum (forall2_ne hT hne) e3 e2⟩
  rw [intersect_unfold hne (forall2_imp_right hT fun _ _ h => (h.tree (by omega)).1)]
  have := seq_runs id leafQ (height := d + 1) (flat_leafOKR_any Ts (d + 1)) e1 hlen (by rfl) (by rfl) (show d + 1 < 64 by omega) hw
  rw [List.map_id] at this
  rw [this, allO_some]

/-- C100, for fast tries. -/
theorem C100_fast {lg h : Nat} (hlg : lg ≤ 6) (h2 : h ≤ 64) {Ds : List (List Nat)} {Ts : List FNav}
    (hT : List.Forall₂ (FastReads lg h false) Ds Ts) (hne : Ts ≠ []) (hlen : Ts.length ≤ 16) (env : Env) (hw : env.hw ≠ 0) :
    ∃ R, fastIntersect lg Ts false false env = .ok R ∧ IsIntersection Ds R := by
  obtain ⟨d, rfl⟩ : ∃ d, h = d + lg := by
    cases hT with
    | nil => exact (hne rfl).elim
    | cons h1 _ => exact ⟨h - lg, by have := h1.height; omega⟩
  obtain ⟨ts, e1, e2, e3⟩ := trees_any (rep := fun n t => Rep n.toNav (leafV lg n) d 0 t 0) (P := has lg d) (k := d + lg)
    (hT.imp fun _ _ h => (h.plain_tree hlg (by omega)).2)
  refine ⟨_, ?_, isIntersection_enum (forall2_ne hT hne) e3 e2⟩
  rw [fastIntersect_unfold hne (forall2_imp_right hT fun _ _ h => (h.plain_tree hlg (by omega)).1)]
  exact seq_plain FNav.toNav (leafV lg) (height := d + 1) (fast_leafOK_any hlg Ts (d + 1)) e1 hlen (by rfl)
    (by simp only [fastCfg]; omega) (by simp only [fastCfg]; omega) hw

/-- C100, for fast tries in parallel mode: at least one level above the words. -/
theorem C100_fast_parallel {lg h : Nat} (hlg : lg ≤ 6) (h1 : lg + 1 ≤ h) (h2 : h ≤ 64) {Ds : List (List Nat)} {Ts : List FNav}
    (hT : List.Forall₂ (FastReads lg h false) Ds Ts) (hne : Ts ≠ []) (hlen : Ts.length ≤ 16) (env : Env) (hw : env.hw ≠ 0)
    (hw2 : env.hw < 2 ^ 16) : ∃ R, fastIntersect lg Ts false true env = .ok R ∧ IsIntersection Ds R := by
  obtain ⟨R, hR, hI⟩ := C100_fast hlg h2 hT hne hlen env hw
  refine ⟨R, (C77_fast_plain_any lg (fun n hn => ?_) env hw hw2 R).2 hR, hI⟩
  have := forall2_imp_right hT (fun _ _ h => h.height) n hn
  omega

/-- C100, for fast tries marked as run-encoded. -/
theorem C100_fast_runs {lg h : Nat} (hlg : lg ≤ 6) (h2 : h ≤ 63) {Ds : List (List Nat)} {Ts : List FNav}
    (hT : List.Forall₂ (FastReads lg h true) Ds Ts) (hne : Ts ≠ []) (hlen : Ts.length ≤ 16) (env : Env) (hw : env.hw ≠ 0) :
    ∃ R, fastIntersect lg Ts true false env = .ok R ∧ IsIntersection Ds R := by
  obtain ⟨d, rfl⟩ : ∃ d, h = d + lg := by
    cases hT with
    | nil => exact (hne rfl).elim
    | cons h1 _ => exact ⟨h - lg, by have := h1.height; omega⟩
  obtain ⟨ts, e1, e2, e3⟩ := trees_any (rep := fun n t => Rep n.toNav (leafV lg n) d 0 t 0) (P := hasR lg d) (k := d + lg)
    (hT.imp fun _ _ h => (h.runs_tree hlg (by omega)).2)
  refine ⟨_, ?_, isIntersection_enum (forall2_ne hT hne) e3 e2⟩
  rw [fastIntersect_unfold hne (forall2_imp_right hT fun _ _ h => (h.runs_tree hlg (by omega)).1), ← allO_some]
  exact seq_runs FNav.toNav (leafV lg) (height := d + 1) (fast_leafOKR_any hlg Ts (d + 1)) e1 hlen (by rfl)
    (by simp only [fastCfg]; omega) (by simp only [fastCfg]; omega) hw

/-- C100, with `runs` in parallel mode: elements may be missing and the order may be another (C12, C13), but the call returns, nothing is
returned twice, and everything returned is in all that is decoded. -/
theorem C100_runs_parallel {h : Nat} (h1 : 2 ≤ h) (h2 : h ≤ 63) {Ds : List (List Nat)} {Ts : List Nav}
    (hT : List.Forall₂ (RunsReads h) Ds Ts) (hne : Ts ≠ []) (hlen : Ts.length ≤ 16) (env : Env) (hw : env.hw ≠ 0) (hw2 : env.hw < 2 ^ 16) :
    ∃ R, intersect Ts true true env = .ok R ∧ R.Nodup ∧ ∀ x ∈ R, ∀ D ∈ Ds, x ∈ D := by
  obtain ⟨R, hR, hI⟩ := C100_runs (by omega) h2 hT hne hlen env hw
  obtain ⟨L, hL, hs⟩ := C78_runs_parallel (fun n hn => by
    obtain ⟨d, rfl⟩ : ∃ d, h = d + 1 := ⟨h - 1, by omega⟩
    have := forall2_imp_right hT (fun _ _ h => (h.tree (by omega)).1) n hn
    omega) env hw hw2 hR
  obtain ⟨l, hl, hs⟩ := hs
  refine ⟨L, hL, ?_, fun x hx => (hI.2 x).1 (hs.subset (hl.mem_iff.2 hx))⟩
  exact hl.nodup_iff.1 (List.Nodup.sublist hs (hI.1.imp fun h => Nat.ne_of_lt h))

/-- C100, for fast tries with `runs` in parallel mode. -/
theorem C100_fast_runs_parallel {lg h : Nat} (hlg : lg ≤ 6) (h1 : lg + 1 ≤ h) (h2 : h ≤ 63) {Ds : List (List Nat)} {Ts : List FNav}
    (hT : List.Forall₂ (FastReads lg h true) Ds Ts) (hne : Ts ≠ []) (hlen : Ts.length ≤ 16) (env : Env) (hw : env.hw ≠ 0)
    (hw2 : env.hw < 2 ^ 16) : ∃ R, fastIntersect lg Ts true true env = .ok R ∧ R.Nodup ∧ ∀ x ∈ R, ∀ D ∈ Ds, x ∈ D := by
  obtain ⟨R, hR, hI⟩ := C100_fast_runs hlg h2 hT hne hlen env hw
  obtain ⟨L, hL, hs⟩ := C78_fast_runs_parallel lg (fun n hn => by
    have := forall2_imp_right hT (fun _ _ h => h.height) n hn
    omega) env hw hw2 hR
  obtain ⟨l, hl, hs⟩ := hs
  refine ⟨L, hL, ?_, fun x hx => (hI.2 x).1 (hs.subset (hl.mem_iff.2 hx))⟩
  exact hl.nodup_iff.1 (List.Nodup.sublist hs (hI.1.imp fun h => Nat.ne_of_lt h))

/-- C100: `Intersect` of one trie is `decode`. -/
theorem C100_one {h : Nat} (h1 : 1 ≤ h) {D : List Nat} {n : Nav} (env : Env) (hw : env.hw ≠ 0) :
    (h ≤ 64 → PlainReads h D n → intersect [n] false false env = .ok D) ∧
    (h ≤ 63 → RunsReads h D n → intersect [n] true false env = .ok D) := by
  constructor
  · intro h2 hD
    obtain ⟨R, hR, hI⟩ := C100_plain h1 h2 (.cons hD .nil) (by simp) (by simp) env hw
    rw [hR, IsIntersection.unique hI ⟨(C100_decode h1 (.inl ⟨h2, hD⟩)).1, by simp⟩]
  · intro h2 hD
    obtain ⟨R, hR, hI⟩ := C100_runs h1 h2 (.cons hD .nil) (by simp) (by simp) env hw
    rw [hR, IsIntersection.unique hI ⟨(C100_decode h1 (.inr ⟨h2, hD⟩)).1, by simp⟩]

namespace Ex

/-- Bits that no constructor writes: node 2 is empty, and so is the first node of the last level. -/
def flatBare (runs empty : Bool) : FlatTrie := ⟨3, 3, runs, empty, [true, true, true, true, false, false], [false, false, false, true]⟩

end Ex

/-- Tries that no constructor makes, of two classes, in both modes. -/
example : List.Forall₂ (PlainReads 3) [[3], [0, 1, 2, 5]] [(Ex.flatBare false false).nav 0, Ex.levelBare.nav true 0] ∧
    List.Forall₂ (RunsReads 3) [[0, 1, 3, 4, 5, 6, 7], [0, 1, 2, 5, 6, 7]] [(Ex.flatBare true false).nav 0,
      { Ex.levelBare with runsEncoded := true }.nav false 0] ∧
    intersect [(Ex.flatBare true false).nav 0, { Ex.levelBare with runsEncoded := true }.nav false 0] true false ⟨2, [], []⟩ =
      .ok [0, 1, 5, 6, 7] := by
  refine ⟨.cons (.flat _ _ rfl rfl (by decide +kernel)) (.cons (.level _ _ _ rfl (by decide +kernel) rfl (by decide +kernel)) .nil),
    .cons (.flat _ _ rfl rfl rfl (by decide +kernel))
      (.cons (.level _ _ _ rfl (by decide +kernel) rfl rfl rfl (by decide +kernel)) .nil), by decide +kernel⟩

/-- The same for fast tries. -/
example : List.Forall₂ (FastReads 3 5 false) [[0, 2, 24, 25, 26, 27, 28, 29, 30, 31]] [Ex.fastBare.nav 0] ∧
    FastReads 3 5 true [0, 2] (FastTrie.nav ⟨3, 3, 5, true, false, [true, false, true, true], [5, 0]⟩ 0) :=
  ⟨.cons (.mk _ _ rfl rfl (by decide +kernel) rfl (by simp) (by decide +kernel)) .nil,
    .mk _ _ rfl rfl (by decide +kernel) rfl (by simp) (by decide +kernel)⟩

/-- C100: the conditions of `RunsReads` cannot be dropped. A trie marked as empty, or one whose stored height is below its number of levels,
is read differently by the two. -/
theorem C100_runs_conditions :
    ((Ex.flatBare true true).decode 0 [] = .ok [] ∧
      intersect [(Ex.flatBare true true).nav 0] true false ⟨2, [], []⟩ = .ok [0, 1, 3, 4, 5, 6, 7]) ∧
    ((⟨1, true, false, [[true, false], [true, true]]⟩ : LevelTrie).decode false 0 [] = .ok [0] ∧
      intersect [(⟨1, true, false, [[true, false], [true, true]]⟩ : LevelTrie).nav false 0] true false ⟨2, [], []⟩ = .ok [0, 1]) := by
  decide +kernel

end CBT
