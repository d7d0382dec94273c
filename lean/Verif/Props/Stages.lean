import Verif.SpecStages
import Verif.Props.Intersect
import Verif.Props.Parallel
import Verif.Props.BuildCost

/-!
# C69: intersecting any number of sets in stages
-/

namespace CBT

open Spec

theorem isIntersection_append {A B : List (List Nat)} {Q R : List Nat} (hQ : IsIntersection A Q) (hR : IsIntersection (Q :: B) R) :
    IsIntersection (A ++ B) R :=
  ⟨hR.increasing, fun x => by simp [hR.mem, hQ.mem, or_imp, forall_and]⟩

theorem isIntersection_empty {A B : List (List Nat)} (hQ : IsIntersection A []) : IsIntersection (A ++ B) [] :=
  ⟨.nil, fun x => ⟨by simp, fun h => absurd ((hQ.mem x).2 fun S hS => h S (by simp [hS])) (by simp)⟩⟩

theorem isIntersection_length_le {A : List (List Nat)} {Q S : List Nat} (hQ : IsIntersection A Q) (hS : S ∈ A) :
    Q.length ≤ S.length :=
  (List.subperm_of_subset (hQ.increasing.imp fun h => Nat.ne_of_lt h) fun x hx => (hQ.mem x).1 hx S hS).length_le

/-- `P S T`: the trie `T` holds `S`. The intersections are right and the builder makes a trie of every non-empty
intersection of sets of tries. -/
theorem inStages_ok {N : Type} {P : List Nat → N → Prop} {inter : List N → R (List Nat)} {build : List Nat → R N}
    (hi : ∀ sets Ts, List.Forall₂ P sets Ts → Ts ≠ [] → Ts.length ≤ 16 → ∃ A, inter Ts = .ok A ∧ IsIntersection sets A)
    (hb : ∀ A, A ≠ [] → A.Pairwise (· < ·) → (∃ S T, P S T ∧ (∀ x ∈ A, x ∈ S) ∧ A.length ≤ S.length) → ∃ T, build A = .ok T ∧ P A T) :
    ∀ (groups : List (List N)) (rest : List (List (List Nat))) (sets : List (List Nat)) (Ts : List N),
    List.Forall₂ P sets Ts → Ts ≠ [] → Ts.length ≤ 16 → List.Forall₂ (List.Forall₂ P) rest groups →
    (∀ g ∈ groups, g.length ≤ 15) → ∃ A, inStages inter build Ts groups = .ok A ∧ IsIntersection (sets ++ rest.flatten) A
  | [], rest, sets, Ts, hT, hne, hlen, hg, _ => by
    cases hg
    simpa [inStages] using hi sets Ts hT hne hlen
  | g :: groups, _, sets, Ts, hT, hne, hlen, .cons (a := r) (l₁ := rest) hg hgs, hl => by
    obtain ⟨A, h1, h2⟩ := hi sets Ts hT hne hlen
    rw [inStages, h1, R_bind_ok, List.flatten_cons, ← List.append_assoc]
    by_cases hA : A = []
    · subst hA
      rw [if_pos rfl, List.append_assoc]
      exact ⟨[], rfl, isIntersection_empty h2⟩
    · rw [if_neg hA]
      cases hT with
      | nil => exact absurd rfl hne
      | cons hST hT' =>
        obtain ⟨T', h3, h4⟩ := hb A hA h2.increasing ⟨_, _, hST, fun x hx => (h2.mem x).1 hx _ (by simp), isIntersection_length_le h2 (by simp)⟩
        rw [h3, R_bind_ok]
        obtain ⟨B, h5, h6⟩ := inStages_ok hi hb groups rest (A :: r) (T' :: g) (.cons h4 hg) (by simp)
          (by have := hl g (by simp); simp; omega) hgs (fun g' hg' => hl g' (by simp [hg']))
        refine ⟨B, h5, ?_⟩
        rw [List.append_assoc]
        exact isIntersection_append h2 h6

/-- The class of the tries made from intermediate results. -/
inductive StageTrie
  | flat
  | level (il : Bool)

/-- Building one from a vector and a universe. -/
def StageTrie.build (pad u : Nat) : StageTrie → List Nat → R Nav
  | .flat, A => do
    let t ← flatCtor A u
    .ok (t.nav pad)
  | .level il, A => do
    let t ← levelCtor A u
    .ok (t.nav il pad)

/-- A trie of height `h` that holds a set small enough for the class of the intermediate tries (C68). -/
def StageTrie.Fits : StageTrie → List Nat → Prop
  | .flat, S => S.length < 2 ^ 32
  | .level _, S => S.length < 2 ^ 64

theorem height_pow {u h : Nat} (hu : 2 ≤ u) (hh : Nat.log2 (u - 1) + 1 = h) : u ≤ 2 ^ h ∧ 2 ^ h ≤ 2 * (u - 1) := by
  have h0 : u - 1 ≠ 0 := by omega
  subst hh
  have h1 := (Nat.log2_lt h0 (k := Nat.log2 (u - 1) + 1)).1 (by omega)
  have h2 := (Nat.le_log2 h0 (k := Nat.log2 (u - 1))).1 (by omega)
  rw [Nat.pow_succ] at h1 ⊢
  omega

theorem StageTrie.build_ok {pad h u : Nat} {K : StageTrie} (hu : 3 ≤ u) (hu' : u ≤ 2 ^ 62) (hh : Nat.log2 (u - 1) + 1 = h)
    {A : List Nat} (hne : A ≠ []) (hs : A.Pairwise (· < ·)) (hb : ∀ x ∈ A, x < 2 ^ h) (hf : K.Fits A) :
    ∃ T, K.build pad u A = .ok T ∧ PlainTrie pad h A T ∧ K.Fits A := by
  have hd := (log2_bounds hu hu').2
  have hp := height_pow (by omega) hh
  have hp' : 2 ^ h ≤ 2 ^ 62 := Nat.pow_le_pow_right (by omega) (by omega)
  have hv : ValidSet A (2 ^ h) := ⟨hne, hs, hb⟩
  obtain ⟨e1, e2, -⟩ := C67_round_up (u := u) (by omega)
  rw [hh] at e1 e2
  have hlog : Nat.log2 (2 ^ h - 1) = Nat.log2 (u - 1) := by
    have h0 : 2 ^ h - 1 ≠ 0 := by omega
    have h1 : Nat.log2 (2 ^ h - 1) < h := (Nat.log2_lt h0).2 (by omega)
    have h2 : Nat.log2 (u - 1) ≤ Nat.log2 (2 ^ h - 1) :=
      (Nat.le_log2 h0).2 (Nat.le_trans ((Nat.le_log2 (n := u - 1) (by omega)).1 (Nat.le_refl _)) (by omega))
    omega
  cases K with
  | flat =>
    obtain ⟨T, h1, -, -⟩ := flat_built hv hf (by omega) hp'
    refine ⟨_, by rw [StageTrie.build, e1, h1]; rfl, ?_, hf⟩
    exact .flat hv hf (by omega) hp' h1 (by simp only [flatOf]; omega)
  | level il =>
    obtain ⟨T, h1, -, -⟩ := level_built hv hf (by omega) (by omega)
    refine ⟨_, by rw [StageTrie.build, e2, h1]; rfl, ?_, hf⟩
    exact .level il hv hf (by omega) (by omega) h1 (by rw [levelOf_height]; omega)

theorem StageTrie.Fits.mono {K : StageTrie} {A S : List Nat} (h : K.Fits S) (hl : A.length ≤ S.length) : K.Fits A := by
  cases K <;> exact Nat.lt_of_le_of_lt hl h

/-- C69. Any number of plain tries of one height: intersecting a first group of at most 16, then groups of at most 15
together with the trie built from the previous result, gives the elements common to all sets, in increasing order,
sequentially and in parallel. The universe passed to the constructor may be any that has the height of the tries. -/
theorem C69_plain {pad h u : Nat} {K : StageTrie} (hu : 3 ≤ u) (hu' : u ≤ 2 ^ 62) (hh : Nat.log2 (u - 1) + 1 = h)
    {sets : List (List Nat)} {rest : List (List (List Nat))} {Ts : List Nav} {groups : List (List Nav)}
    (hT : List.Forall₂ (fun S T => PlainTrie pad h S T ∧ K.Fits S) sets Ts) (hne : Ts ≠ []) (hlen : Ts.length ≤ 16)
    (hg : List.Forall₂ (List.Forall₂ fun S T => PlainTrie pad h S T ∧ K.Fits S) rest groups) (hl : ∀ g ∈ groups, g.length ≤ 15)
    (par : Bool) (env : Env) (hw : env.hw ≠ 0) (hw' : env.hw < 2 ^ 16) :
    ∃ A, inStages (fun Ts => intersect Ts false par env) (K.build pad u) Ts groups = .ok A ∧
      IsIntersection (sets ++ rest.flatten) A := by
  have h2 : 2 ≤ h := by
    have : 1 ≤ Nat.log2 (u - 1) := (Nat.le_log2 (by omega)).2 (by omega)
    omega
  refine inStages_ok (P := fun S T => PlainTrie pad h S T ∧ K.Fits S) (fun sets Ts hT hne hlen => ?_)
    (fun A hA hs ⟨S, T, hP, hsub, hAl⟩ => ?_) groups rest sets Ts hT hne hlen hg hl
  · have hT' := hT.imp fun _ _ h => h.1
    cases par with
    | true => obtain ⟨R, h1, -, h3⟩ := C11_parallel_plain h2 hT' hne hlen env env hw hw' hw; exact ⟨R, h1, h3⟩
    | false => exact C07_seq_intersect_plain hT' hne hlen env hw
  · exact StageTrie.build_ok hu hu' hh hA hs
      (fun x hx => by have := hP.1.holds.below x (hsub x hx); rwa [Nat.sub_add_cancel (by omega)] at this) (hP.2.mono hAl)

/-- C69, run-aware sequential calls, plain and run-encoded tries. -/
theorem C69_runs {pad h u : Nat} {K : StageTrie} (hu : 3 ≤ u) (hu' : u ≤ 2 ^ 62) (hh : Nat.log2 (u - 1) + 1 = h)
    {sets : List (List Nat)} {rest : List (List (List Nat))} {Ts : List Nav} {groups : List (List Nav)}
    (hT : List.Forall₂ (fun S T => RunsTrie pad h S T ∧ K.Fits S) sets Ts) (hne : Ts ≠ []) (hlen : Ts.length ≤ 16)
    (hg : List.Forall₂ (List.Forall₂ fun S T => RunsTrie pad h S T ∧ K.Fits S) rest groups) (hl : ∀ g ∈ groups, g.length ≤ 15)
    (env : Env) (hw : env.hw ≠ 0) :
    ∃ A, inStages (fun Ts => intersect Ts true false env) (K.build pad u) Ts groups = .ok A ∧
      IsIntersection (sets ++ rest.flatten) A := by
  have h2 : 2 ≤ h := by
    have : 1 ≤ Nat.log2 (u - 1) := (Nat.le_log2 (by omega)).2 (by omega)
    omega
  refine inStages_ok (P := fun S T => RunsTrie pad h S T ∧ K.Fits S) (fun sets Ts hT hne hlen => ?_)
    (fun A hA hs ⟨S, T, hP, hsub, hAl⟩ => ?_) groups rest sets Ts hT hne hlen hg hl
  · exact C08_seq_intersect_runs_partial (hT.imp fun _ _ h => h.1) hne hlen env hw
  · obtain ⟨T, h3, h4, h5⟩ := StageTrie.build_ok (pad := pad) (K := K) hu hu' hh hA hs
      (fun x hx => by have := hP.1.holds.below x (hsub x hx); rwa [Nat.sub_add_cancel (by omega)] at this) (hP.2.mono hAl)
    exact ⟨T, h3, .plain h4, h5⟩

/-- Building an intermediate fast trie. -/
def stageFast (lg pad u : Nat) (junk : FastJunk) (A : List Nat) : R FNav := do
  let t ← fastCtor lg junk A u
  .ok (t.nav pad)

theorem stageFast_ok {lg pad h u : Nat} (hlg : 3 ≤ lg ∧ lg ≤ 6) (hu : 2 ^ (lg - 1) < u) (hu' : u ≤ 2 ^ 62)
    (hh : Nat.log2 (u - 1) + 2 = h + lg) (junk : FastJunk) {A : List Nat} (hne : A ≠ []) (hs : A.Pairwise (· < ·))
    (hb : ∀ x ∈ A, x < 2 ^ (h - 1 + lg)) (hf : A.length < 2 ^ 32) :
    ∃ T, stageFast lg pad u junk A = .ok T ∧ FastPlain lg pad h A T := by
  obtain ⟨h0, h1, h2⟩ := fast_depth hlg hu hu'
  have hh' : Nat.log2 (u - 1) + 1 = h - 1 + lg := by omega
  have hp := height_pow h0 hh'
  have hp' : 2 ^ (h - 1 + lg) ≤ 2 ^ 62 := Nat.pow_le_pow_right (by omega) (by omega)
  have hv : ValidSet A (2 ^ (h - 1 + lg)) := ⟨hne, hs, hb⟩
  obtain ⟨-, -, e⟩ := C67_round_up (u := u) h0
  rw [hh'] at e
  have hlog : Nat.log2 (2 ^ (h - 1 + lg) - 1) = Nat.log2 (u - 1) := by
    have h0' : 2 ^ (h - 1 + lg) - 1 ≠ 0 := by omega
    have h1 : Nat.log2 (2 ^ (h - 1 + lg) - 1) < h - 1 + lg := (Nat.log2_lt h0').2 (by omega)
    have h2 : Nat.log2 (u - 1) ≤ Nat.log2 (2 ^ (h - 1 + lg) - 1) :=
      (Nat.le_log2 h0').2 (Nat.le_trans ((Nat.le_log2 (n := u - 1) (by omega)).1 (Nat.le_refl _)) (by omega))
    omega
  obtain ⟨T, h3, -, -⟩ := fast_built hlg hv hf (by omega) hp' junk
  refine ⟨_, by rw [stageFast, e, h3]; rfl, ?_⟩
  exact .mk hv hf (by omega) hp' h3 (by simp only [fastOf]; omega)

theorem FastRuns.short {lg pad h : Nat} {S : List Nat} {T : FNav} (H : FastRuns lg pad h S T) : S.length < 2 ^ 32 := by
  cases H with
  | plain H => cases H; assumption
  | runs => assumption

/-- C69, plain fast tries of height at least 2 (the parallel call is wrong below that, C13). -/
theorem C69_fast_plain {lg pad h u : Nat} (hlg : 3 ≤ lg ∧ lg ≤ 6) (hu : 2 ^ (lg - 1) < u) (hu' : u ≤ 2 ^ 62)
    (hh : Nat.log2 (u - 1) + 2 = h + lg) (h2 : 2 ≤ h) (junk : FastJunk)
    {sets : List (List Nat)} {rest : List (List (List Nat))} {Ts : List FNav} {groups : List (List FNav)}
    (hT : List.Forall₂ (FastPlain lg pad h) sets Ts) (hne : Ts ≠ []) (hlen : Ts.length ≤ 16)
    (hg : List.Forall₂ (List.Forall₂ (FastPlain lg pad h)) rest groups) (hl : ∀ g ∈ groups, g.length ≤ 15)
    (par : Bool) (env : Env) (hw : env.hw ≠ 0) (hw' : env.hw < 2 ^ 16) :
    ∃ A, inStages (fun Ts => fastIntersect lg Ts false par env) (stageFast lg pad u junk) Ts groups = .ok A ∧
      IsIntersection (sets ++ rest.flatten) A := by
  refine inStages_ok (P := FastPlain lg pad h) (fun sets Ts hT hne hlen => ?_)
    (fun A hA hs ⟨S, T, hP, hsub, hAl⟩ => ?_) groups rest sets Ts hT hne hlen hg hl
  · cases par with
    | true => obtain ⟨R, h1, -, h3⟩ := C13_fast_parallel_plain hlg h2 hT hne hlen env env hw hw' hw; exact ⟨R, h1, h3⟩
    | false => exact C09_fast_seq_intersect_plain hlg hT hne hlen env hw
  · exact stageFast_ok hlg hu hu' hh junk hA hs (fun x hx => (hP.holds hlg).below x (hsub x hx))
      (Nat.lt_of_le_of_lt hAl (FastRuns.plain hP).short)

/-- C69, run-aware sequential calls on fast tries. -/
theorem C69_fast_runs {lg pad h u : Nat} (hlg : 3 ≤ lg ∧ lg ≤ 6) (hu : 2 ^ (lg - 1) < u) (hu' : u ≤ 2 ^ 62)
    (hh : Nat.log2 (u - 1) + 2 = h + lg) (junk : FastJunk)
    {sets : List (List Nat)} {rest : List (List (List Nat))} {Ts : List FNav} {groups : List (List FNav)}
    (hT : List.Forall₂ (FastRuns lg pad h) sets Ts) (hne : Ts ≠ []) (hlen : Ts.length ≤ 16)
    (hg : List.Forall₂ (List.Forall₂ (FastRuns lg pad h)) rest groups) (hl : ∀ g ∈ groups, g.length ≤ 15)
    (env : Env) (hw : env.hw ≠ 0) :
    ∃ A, inStages (fun Ts => fastIntersect lg Ts true false env) (stageFast lg pad u junk) Ts groups = .ok A ∧
      IsIntersection (sets ++ rest.flatten) A := by
  refine inStages_ok (P := FastRuns lg pad h) (fun sets Ts hT hne hlen => ?_)
    (fun A hA hs ⟨S, T, hP, hsub, hAl⟩ => ?_) groups rest sets Ts hT hne hlen hg hl
  · exact C10_fast_seq_intersect_runs hlg hT hne hlen env hw
  · obtain ⟨T, h3, h4⟩ := stageFast_ok (pad := pad) hlg hu hu' hh junk hA hs (fun x hx => (hP.holds hlg).below x (hsub x hx))
      (Nat.lt_of_le_of_lt hAl hP.short)
    exact ⟨T, h3, .plain h4⟩

/-- Eighteen tries, which one call cannot take (C16): sixteen, then two. -/
example : List.Forall₂ (fun S T => PlainTrie 0 4 S T ∧ StageTrie.flat.Fits S) (List.replicate 16 Ex.sF)
      (List.replicate 16 (Ex.flat.nav 0)) ∧
    List.Forall₂ (List.Forall₂ fun S T => PlainTrie 0 4 S T ∧ StageTrie.flat.Fits S) [[Ex.sL, Ex.sF]]
      [[Ex.level.nav true 0, Ex.flat.nav 0]] ∧
    inStages (fun Ts => intersect Ts false false ⟨8, [], []⟩) (StageTrie.flat.build 0 16) (List.replicate 16 (Ex.flat.nav 0))
      [[Ex.level.nav true 0, Ex.flat.nav 0]] = .ok [1, 2, 3, 5, 14] :=
  ⟨by
    have hf : PlainTrie 0 4 Ex.sF (Ex.flat.nav 0) ∧ StageTrie.flat.Fits Ex.sF := ⟨Ex.flat_plain, by unfold StageTrie.Fits; decide⟩
    iterate 16 refine .cons hf ?_
    exact .nil,
   .cons (.cons ⟨Ex.level_plain, by unfold StageTrie.Fits; decide⟩ (.cons ⟨Ex.flat_plain, by unfold StageTrie.Fits; decide⟩ .nil)) .nil,
   by decide +kernel⟩

/-- Run-encoded tries, and an intermediate result that is empty. -/
example : inStages (fun Ts => intersect Ts true false ⟨8, [], []⟩) ((StageTrie.level false).build 0 16) [Ex.flatR.nav 0]
      [[Ex.level.nav true 0], [Ex.levelR.nav false 0]] = .ok [1, 2, 3, 5, 14] ∧
    (do let t ← flatCtor [0, 1] 4
        let t' ← flatCtor [2, 3] 4
        inStages (fun Ts => intersect Ts false true ⟨8, [], []⟩) (StageTrie.flat.build 0 4) [t.nav 0, t'.nav 0] [[t.nav 0]]) =
      (.ok [] : R (List Nat)) := by decide +kernel

example : List.Forall₂ (FastRuns 3 0 3) [Ex.sV, Ex.sW] [Ex.fast.nav 0, Ex.fast2.nav 0] ∧
    List.Forall₂ (List.Forall₂ (FastRuns 3 0 3)) [[Ex.sW]] [[Ex.fastR.nav 0]] ∧
    inStages (fun Ts => fastIntersect 3 Ts true false ⟨8, [], []⟩) (stageFast 3 0 32 ⟨9, 9, 9, true, true⟩)
      [Ex.fast.nav 0, Ex.fast2.nav 0] [[Ex.fastR.nav 0]] = .ok [4, 17, 31] :=
  ⟨.cons (.plain Ex.fast_plain) (.cons (.plain Ex.fast2_plain) .nil), .cons (.cons Ex.fast_runs .nil) .nil, by decide +kernel⟩

end CBT
