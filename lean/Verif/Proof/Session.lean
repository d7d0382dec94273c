import Verif.SpecSession
import Verif.Props.Canonical
import Verif.Props.Parallel
import Verif.Props.Intersect

/-!
# Every object of a program that obeys the rules holds its set
-/

namespace CBT

open Spec

/-! ## Objects with their own counts -/

theorem FlatObj.encodeRuns_eq {K : RankIO} (t : FlatTrie) (pad : Nat) :
    FlatObj.encodeRuns (K := K) ⟨t, K.of t.bTrie⟩ pad = t.encodeRuns pad >>= fun t' => .ok ⟨t', K.of t'.bTrie⟩ := by
  rw [FlatObj.encodeRuns, FlatTrie.encodeRuns, FlatObj.nav_eq]
  by_cases h : t.height = 0
  · simp only [h, if_true, bind, Except.bind]
  · simp only [h, if_false, bind_assoc, R_bind_ok]

theorem FlatObj.serialize_eq (B L : BvIO) {K : RankIO} (t : FlatTrie) :
    FlatObj.serialize B L (K := K) ⟨t, K.of t.bTrie⟩ = (t.serialize B L K true).1 := rfl

theorem LevelObj.encodeRuns_eq {K : RankIO} (t : LevelTrie) (pad : Nat) :
    LevelObj.encodeRuns (K := K) ⟨t, t.bTrie.dropLast.map K.of⟩ pad =
      t.encodeRuns false pad >>= fun t' => .ok ⟨t', t'.bTrie.dropLast.map K.of⟩ := by
  rw [LevelObj.encodeRuns, LevelTrie.encodeRuns, LevelObj.nav_eq]
  by_cases h : t.height = 0
  · simp only [h, if_true, bind, Except.bind]
  · simp only [h, if_false, bind_assoc, R_bind_ok, Bool.false_eq_true]

theorem LevelObj.serialize_eq (B : BvIO) {K : RankIO} (t : LevelTrie) (h : t.bTrie.length < 2 ^ 16) :
    LevelObj.serialize B (K := K) ⟨t, t.bTrie.dropLast.map K.of⟩ = (t.serialize B K).1 := by
  simp only [LevelObj.serialize, LevelTrie.serialize, Nat.mod_eq_of_lt h]
  congr 1
  rw [List.take_of_length_le (by simp), List.flatMap_map, List.dropLast_eq_take]

theorem FastObj.encodeRuns_eq {K : RankIO} (lg : Nat) (t : FastTrie) (pad : Nat) :
    FastObj.encodeRuns (K := K) lg ⟨t, K.of t.bTrie⟩ pad = t.encodeRuns lg pad >>= fun t' => .ok ⟨t', K.of t'.bTrie⟩ := by
  rw [FastObj.encodeRuns, FastTrie.encodeRuns, FastObj.nav_eq]
  by_cases h : t.height = 0
  · simp only [h, if_true, bind, Except.bind]
  · simp only [h, if_false, bind_assoc, R_bind_ok]

theorem FastObj.serialize_eq (B : BvIO) {K : RankIO} (lg : Nat) (t : FastTrie) :
    FastObj.serialize B (K := K) lg ⟨t, K.of t.bTrie⟩ = (t.serialize B K lg).1 := rfl

/-! ## What the object is -/

section
variable {F : Bool → ObjFormats} {pad : Nat}

/-- The object was made from the set, and run-encoded if `coded`. -/
def MadeObj (pad : Nat) (S : List Nat) (u : Nat) (coded : Bool) : Kind → Obj F → Prop
  | .flat il, o => (3 ≤ u ∧ u ≤ 2 ^ 62) ∧ (coded = true → hasPart S) ∧ ∃ t t₀, flatCtor S u = .ok t₀ ∧
      (if coded then t₀.encodeRuns pad = .ok t else t₀ = t) ∧ o = .flat il ⟨t, (F il).rank.of t.bTrie⟩
  | .level false, o => ∃ t t₀, levelCtor S u = .ok t₀ ∧
      (if coded then t₀.encodeRuns false pad = .ok t else t₀ = t) ∧ o = .level ⟨t, t.bTrie.dropLast.map (F false).rank.of⟩
  | .level true, o => ∃ t t₀, levelCtor S u = .ok t₀ ∧ (if coded then t₀.encodeRuns true pad = .ok t else t₀ = t) ∧ o = .levelIl t

/-- What is known of the object is true. -/
def KnownObj (pad : Nat) (k : Known) (o : Obj F) : Prop :=
  ∃ u, ValidSet k.set u ∧ k.set.length < 2 ^ 32 ∧ 2 ≤ u ∧ u ≤ 2 ^ 63 ∧ k.bits = Nat.log2 (u - 1) + 1 ∧ MadeObj pad k.set u k.coded k.kind o

theorem KnownObj.ofBuild {S : List Nat} {u : Nat} {k : Kind} (hS : ValidSet S u) (hlen : S.length < 2 ^ 32) (hu : 2 ≤ u) (hu' : u ≤ 2 ^ 63)
    (h3 : ∀ il, k = .flat il → 3 ≤ u ∧ u ≤ 2 ^ 62) : ∃ o, Obj.build F S u k = .ok o ∧ KnownObj pad ⟨S, Nat.log2 (u - 1) + 1, k, false⟩ o := by
  cases k with
  | flat il =>
    obtain ⟨t, hc, -⟩ := C01_flat_build_decode hS hlen (h3 il rfl).1 (h3 il rfl).2 0 []
    exact ⟨_, by rw [Obj.build, hc]; rfl, u, hS, hlen, hu, hu', rfl, h3 il rfl, by simp, t, t, hc, by simp, rfl⟩
  | level il =>
    obtain ⟨t, hc, -⟩ := C02_level_build_decode hS (by omega) hu (by omega) false 0 []
    cases il with
    | false => exact ⟨_, by rw [Obj.build, hc]; rfl, u, hS, hlen, hu, hu', rfl, t, t, hc, by simp, rfl⟩
    | true => exact ⟨_, by rw [Obj.build, hc]; rfl, u, hS, hlen, hu, hu', rfl, t, t, hc, by simp, rfl⟩

theorem KnownObj.encode {k : Known} {o : Obj F} (H : KnownObj pad k o) (hk : k.coded = false) (hp : ∀ il, k.kind = .flat il → hasPart k.set) :
    ∃ o', o.encodeRuns pad = .ok o' ∧ KnownObj pad { k with coded := true } o' := by
  obtain ⟨S, b, kind, coded⟩ := k
  obtain ⟨u, hS, hlen, hu, hu', hb, H⟩ := H
  simp only at hk hp hS hlen hb H
  subst hk
  cases kind with
  | flat il =>
    obtain ⟨h3, -, t, t₀, hc, h, rfl⟩ := H
    simp only [Bool.false_eq_true, if_false] at h
    subst h
    obtain ⟨t₁, t', hc', he, -⟩ := C04_flat_runs_decode_iff hS hlen h3.1 h3.2 pad []
    rw [hc] at hc'; cases hc'
    exact ⟨_, by rw [Obj.encodeRuns, FlatObj.encodeRuns_eq, he]; rfl, u, hS, hlen, hu, hu', hb, h3, fun _ => hp il rfl, t', t₀, hc, by simpa, rfl⟩
  | level il =>
    cases il with
    | false =>
      obtain ⟨t, t₀, hc, h, rfl⟩ := H
      simp only [Bool.false_eq_true, if_false] at h
      subst h
      obtain ⟨t₁, t', hc', he, -⟩ := C05_level_runs_decode hS (by omega) hu hu' false pad []
      rw [hc] at hc'; cases hc'
      exact ⟨_, by rw [Obj.encodeRuns, LevelObj.encodeRuns_eq, he]; rfl, u, hS, hlen, hu, hu', hb, t', t₀, hc, by simpa, rfl⟩
    | true =>
      obtain ⟨t, t₀, hc, h, rfl⟩ := H
      simp only [Bool.false_eq_true, if_false] at h
      subst h
      obtain ⟨t₁, t', hc', he, -⟩ := C05_level_runs_decode hS (by omega) hu hu' true pad []
      rw [hc] at hc'; cases hc'
      exact ⟨_, by rw [Obj.encodeRuns, he]; rfl, u, hS, hlen, hu, hu', hb, t', t₀, hc, by simpa, rfl⟩

theorem KnownObj.decode {k : Known} {o : Obj F} (H : KnownObj pad k o) (out : List Nat) : o.decode pad out = .ok (out ++ k.set) := by
  obtain ⟨S, b, kind, coded⟩ := k
  obtain ⟨u, hS, hlen, hu, hu', hb, H⟩ := H
  simp only at hS hlen hb H
  cases kind with
  | flat il =>
    obtain ⟨h3, hp, t, t₀, hc, h, rfl⟩ := H
    rw [Obj.decode, FlatObj.decode_eq]
    cases coded with
    | false =>
      simp only [Bool.false_eq_true, if_false] at h
      subst h
      obtain ⟨t', hc', hd⟩ := C01_flat_build_decode hS hlen h3.1 h3.2 pad out
      rw [hc] at hc'; cases hc'
      exact hd
    | true =>
      simp only [if_true] at h
      obtain ⟨t₁, t', hc', he, hd, -⟩ := C04_flat_runs_decode_iff hS hlen h3.1 h3.2 pad out
      rw [hc] at hc'; cases hc'
      rw [h] at he; cases he
      exact hd.2 (.inl (hp rfl))
  | level il =>
    have key : ∀ il t t₀, levelCtor S u = .ok t₀ → (if coded then t₀.encodeRuns il pad = .ok t else t₀ = t) →
        t.decode il pad out = .ok (out ++ S) := by
      intro il t t₀ hc h
      cases coded with
      | false =>
        simp only [Bool.false_eq_true, if_false] at h
        subst h
        obtain ⟨t', hc', hd⟩ := C02_level_build_decode hS (by omega) hu (by omega) il pad out
        rw [hc] at hc'; cases hc'
        exact hd
      | true =>
        simp only [if_true] at h
        obtain ⟨t₁, t', hc', he, hd⟩ := C05_level_runs_decode hS (by omega) hu hu' il pad out
        rw [hc] at hc'; cases hc'
        rw [h] at he; cases he
        exact hd
    cases il with
    | false =>
      obtain ⟨t, t₀, hc, h, rfl⟩ := H
      rw [Obj.decode, LevelObj.decode_eq]
      exact key _ _ _ hc h
    | true =>
      obtain ⟨t, t₀, hc, h, rfl⟩ := H
      exact key _ _ _ hc h

theorem KnownObj.reload {k : Known} {o : Obj F} (H : KnownObj pad k o) (hk : k.kind ≠ .level true) : o.reload = .ok o := by
  obtain ⟨S, b, kind, coded⟩ := k
  obtain ⟨u, hS, hlen, hu, hu', hb, H⟩ := H
  simp only at hS hlen hb H hk
  cases kind with
  | flat il =>
    obtain ⟨h3, hp, t, t₀, hc, h, rfl⟩ := H
    have hm : FlatMade pad S u t := by
      cases coded with
      | false => simp only [Bool.false_eq_true, if_false] at h; subst h; exact .inl hc
      | true => exact .inr ⟨t₀, hc, by simpa using h⟩
    obtain ⟨h1, h2, h4, h5⟩ := hm.small hS hlen h3.1 h3.2
    have hl := flatLoad_serialize (F il).bv (F il).last (F il).rank h1 h2 h4 h5 []
    rw [List.append_nil] at hl
    rw [Obj.reload, FlatObj.serialize_eq, hl]
    rfl
  | level il =>
    cases il with
    | true => exact absurd rfl hk
    | false =>
      obtain ⟨t, t₀, hc, h, rfl⟩ := H
      have hm : LevelMade false pad S u t := by
        cases coded with
        | false => simp only [Bool.false_eq_true, if_false] at h; subst h; exact .inl hc
        | true => exact .inr ⟨t₀, hc, by simpa using h⟩
      obtain ⟨h1, h2, h4, h5⟩ := hm.small hS hlen hu hu'
      have hl := levelLoad_serialize (F false).bv (F false).rank h1 h2 h4 h5 []
      rw [List.append_nil] at hl
      rw [Obj.reload, LevelObj.serialize_eq _ _ h2, hl]
      rfl

theorem KnownObj.trie {k : Known} {o : Obj F} (H : KnownObj pad k o) : CodedTrie pad k.bits (k.coded, k.set) (o.nav pad) := by
  obtain ⟨S, b, kind, coded⟩ := k
  obtain ⟨u, hS, hlen, hu, hu', hb, H⟩ := H
  simp only at hS hlen hb H
  subst hb
  cases kind with
  | flat il =>
    obtain ⟨h3, hp, t, t₀, hc, h, rfl⟩ := H
    rw [Obj.nav, FlatObj.nav_eq]
    obtain ⟨T, hc', hne, hT⟩ := flat_built hS hlen h3.1 h3.2
    have hh : t₀.height = Nat.log2 (u - 1) + 1 := by rw [hc] at hc'; cases hc'; rfl
    cases coded with
    | false =>
      simp only [Bool.false_eq_true, if_false] at h
      subst h
      exact .plain (.flat hS hlen h3.1 h3.2 hc hh)
    | true =>
      simp only [if_true] at h
      exact .flat hS hlen h3.1 h3.2 hc h (by rw [(flat_encode_heights t₀ pad t h).1, hh]) (.inl (hp rfl))
  | level il =>
    have key : ∀ il t t₀, levelCtor S u = .ok t₀ → (if coded then t₀.encodeRuns il pad = .ok t else t₀ = t) →
        CodedTrie pad (Nat.log2 (u - 1) + 1) (coded, S) (t.nav il pad) := by
      intro il t t₀ hc h
      obtain ⟨T, hc', hne, hT⟩ := level_built hS (by omega) hu (by omega)
      have hd := level_depth hu hu'
      obtain ⟨k, _, _, he'⟩ := levelOf_encode (pad := pad) (il := il) (hw := 0) (runs := false) (by omega) hne
      rw [hc] at hc'; cases hc'
      cases coded with
      | false =>
        simp only [Bool.false_eq_true, if_false] at h
        subst h
        exact .plain (.level il hS (by omega) hu hu' hc levelOf_height)
      | true =>
        simp only [if_true] at h
        refine .level il hS (by omega) hu hu' hc h ?_
        rw [h] at he'; cases he'
        exact levelOf_height
    cases il with
    | false =>
      obtain ⟨t, t₀, hc, h, rfl⟩ := H
      rw [Obj.nav, LevelObj.nav_eq]
      exact key _ _ _ hc h
    | true =>
      obtain ⟨t, t₀, hc, h, rfl⟩ := H
      exact key _ _ _ hc h

theorem KnownObj.increasing {k : Known} {o : Obj F} (H : KnownObj pad k o) : k.set.Pairwise (· < ·) := H.choose_spec.1.increasing

end

/-! ## Fast tries -/

/-- What is known of the fast trie is true. -/
def FastKnownObj (lg pad : Nat) {K : RankIO} (k : FastKnown) (o : FastObj K) : Prop :=
  ∃ u junk t t₀, ValidSet k.set u ∧ k.set.length < 2 ^ 32 ∧ 2 ^ (lg - 1) < u ∧ u ≤ 2 ^ 62 ∧ junk.heightWithRuns < 2 ^ 16 ∧
    k.bits = Nat.log2 (u - 1) + 1 ∧ k.emptyTrie = junk.emptyTrie ∧ fastCtor lg junk k.set u = .ok t₀ ∧
    (if k.coded then t₀.encodeRuns lg pad = .ok t else t₀ = t) ∧ o = ⟨t, K.of t.bTrie⟩

section
variable {lg pad : Nat} {K : RankIO}

theorem FastKnownObj.ofBuild (hlg : 3 ≤ lg ∧ lg ≤ 6) {S : List Nat} {u : Nat} (junk : FastJunk) (hS : ValidSet S u) (hlen : S.length < 2 ^ 32)
    (hu : 2 ^ (lg - 1) < u) (hu' : u ≤ 2 ^ 62) (hj : junk.heightWithRuns < 2 ^ 16) :
    ∃ t, fastCtor lg junk S u = .ok t ∧
      FastKnownObj lg pad (K := K) ⟨S, Nat.log2 (u - 1) + 1, false, junk.emptyTrie⟩ ⟨t, K.of t.bTrie⟩ := by
  obtain ⟨t, hc, -⟩ := C03_fast_build_decode hlg hS hlen hu hu' junk 0 []
  exact ⟨t, hc, u, junk, t, t, hS, hlen, hu, hu', hj, rfl, rfl, hc, by simp, rfl⟩

theorem FastKnownObj.encode (hlg : 3 ≤ lg ∧ lg ≤ 6) {k : FastKnown} {o : FastObj K} (H : FastKnownObj lg pad k o) (hk : k.coded = false) :
    ∃ o', o.encodeRuns lg pad = .ok o' ∧ FastKnownObj lg pad { k with coded := true } o' := by
  obtain ⟨u, junk, t, t₀, hS, hlen, hu, hu', hj, hb, he, hc, h, rfl⟩ := H
  rw [hk] at h
  simp only [Bool.false_eq_true, if_false] at h
  subst h
  obtain ⟨t₁, t', hc', henc, -⟩ := C06_fast_runs_decode_exact hlg hS hlen hu hu' junk pad []
  rw [hc] at hc'; cases hc'
  exact ⟨_, by rw [FastObj.encodeRuns_eq, henc]; rfl, u, junk, t', t₀, hS, hlen, hu, hu', hj, hb, he, hc, by simpa, rfl⟩

theorem FastKnownObj.decode (hlg : 3 ≤ lg ∧ lg ≤ 6) {k : FastKnown} {o : FastObj K} (H : FastKnownObj lg pad k o)
    (hk : k.coded = true → k.emptyTrie = false) (out : List Nat) : o.decode lg pad out = .ok (out ++ k.set) := by
  obtain ⟨u, junk, t, t₀, hS, hlen, hu, hu', hj, hb, he, hc, h, rfl⟩ := H
  rw [FastObj.decode_eq]
  cases hcd : k.coded with
  | false =>
    rw [hcd] at h
    simp only [Bool.false_eq_true, if_false] at h
    subst h
    obtain ⟨t', hc', hd⟩ := C03_fast_build_decode hlg hS hlen hu hu' junk pad out
    rw [hc] at hc'; cases hc'
    exact hd
  | true =>
    rw [hcd] at h
    simp only [if_true] at h
    obtain ⟨t₁, t', hc', henc, hd⟩ := C06_fast_runs_decode_exact hlg hS hlen hu hu' junk pad out
    rw [hc] at hc'; cases hc'
    rw [h] at henc; cases henc
    rw [hd, ← he, hk hcd]
    rfl

theorem FastKnownObj.trie (hlg : 3 ≤ lg ∧ lg ≤ 6) {k : FastKnown} {o : FastObj K} (H : FastKnownObj lg pad k o) :
    lg ≤ k.bits ∧ FastCoded lg pad (k.bits + 1 - lg) (k.coded, k.set) (o.nav pad) := by
  obtain ⟨S, b, coded, em⟩ := k
  obtain ⟨u, junk, t, t₀, hS, hlen, hu, hu', hj, hb, he, hc, h, rfl⟩ := H
  simp only at hS hlen hb he hc h
  obtain ⟨h0, h1, h2⟩ := fast_depth hlg hu hu'
  obtain ⟨T, hc', hne, hT⟩ := fast_built hlg hS hlen hu hu' junk
  obtain ⟨d, hd, hh⟩ : ∃ d, Nat.log2 (u - 1) + 1 = d + lg ∧ t₀.height = d + 1 := by
    rw [hc] at hc'; cases hc'
    exact ⟨_, h1, rfl⟩
  have e : b + 1 - lg = d + 1 := by omega
  refine ⟨by change lg ≤ b; omega, ?_⟩
  rw [FastObj.nav_eq]
  simp only [e]
  cases coded with
  | false =>
    simp only [Bool.false_eq_true, if_false] at h
    subst h
    exact .plain (.mk hS hlen hu hu' hc hh)
  | true =>
    simp only [if_true] at h
    exact .runs hS hlen hu hu' hc h (by rw [(fast_encode_heights lg t₀ pad t h).1, hh])

theorem FastKnownObj.reload (B : BvIO) (hlg : 3 ≤ lg ∧ lg ≤ 6) (junk' : FastJunk) {k : FastKnown} {o : FastObj K} (H : FastKnownObj lg pad k o) :
    fastLoad B K lg (fastDefault junk') (o.serialize B lg) = .ok (o, []) := by
  obtain ⟨u, junk, t, t₀, hS, hlen, hu, hu', hj, hb, he, hc, h, rfl⟩ := H
  have hm : FastMade lg junk pad k.set u t := by
    cases hcd : k.coded with
    | false => rw [hcd] at h; simp only [Bool.false_eq_true, if_false] at h; subst h; exact .inl hc
    | true => rw [hcd] at h; exact .inr ⟨t₀, hc, by simpa using h⟩
  obtain ⟨h1, h2, h3, h4, h5, h6⟩ := hm.small hlg hS hlen hu hu' hj
  have hl := fastLoad_serialize B K hlg.1 (fastDefault junk') h1 h2 h4 h5 h6 []
  rw [List.append_nil, ← h3] at hl
  rw [FastObj.serialize_eq, hl]
  rfl

theorem FastKnownObj.increasing {k : FastKnown} {o : FastObj K} (H : FastKnownObj lg pad k o) : k.set.Pairwise (· < ·) := by
  obtain ⟨u, junk, t, t₀, hS, -⟩ := H
  exact hS.increasing

end

/-! ## Arrays -/

theorem isIntersection_common {sets : List (List Nat)} (hne : sets ≠ []) (h : ∀ S ∈ sets, S.Pairwise (· < ·)) :
    IsIntersection sets (common sets) := by
  cases sets with
  | nil => exact absurd rfl hne
  | cons S sets =>
    refine ⟨(h S (by simp)).filter _, fun x => ?_⟩
    simp [common]

theorem forall2_getElem? {α β : Type} {P : α → β → Prop} {as : List α} {bs : List β} (h : List.Forall₂ P as bs) {i : Nat} {a : α}
    (ha : as[i]? = some a) : ∃ b, bs[i]? = some b ∧ P a b := by
  induction h generalizing i with
  | nil => simp at ha
  | cons hab _ ih =>
    cases i with
    | zero => simp at ha; subst ha; exact ⟨_, rfl, hab⟩
    | succ i => exact ih (by simpa using ha)

theorem forall2_with_mem {α β : Type} {P : α → β → Prop} {as : List α} {bs : List β} (h : List.Forall₂ P as bs) :
    List.Forall₂ (fun a b => a ∈ as ∧ P a b) as bs := by
  induction h with
  | nil => exact .nil
  | cons hab _ ih => exact .cons ⟨List.mem_cons_self, hab⟩ (ih.imp fun _ _ h => ⟨List.mem_cons_of_mem _ h.1, h.2⟩)

theorem forall2_set {α β : Type} {P : α → β → Prop} {as : List α} {bs : List β} (h : List.Forall₂ P as bs) (i : Nat) {a : α} {b : β}
    (hab : P a b) : List.Forall₂ P (as.set i a) (bs.set i b) := by
  induction h generalizing i with
  | nil => exact .nil
  | cons hab' h ih =>
    cases i with
    | zero => exact .cons hab h
    | succ i => exact .cons hab' (ih i)

theorem forall2_concat {α β : Type} {P : α → β → Prop} {as : List α} {bs : List β} (h : List.Forall₂ P as bs) {a : α} {b : β}
    (hab : P a b) : List.Forall₂ P (as ++ [a]) (bs ++ [b]) := by
  induction h with
  | nil => exact .cons hab .nil
  | cons hab' _ ih => exact .cons hab' ih

theorem vGet_getElem? {α : Type} {v : List α} {i : Nat} {a : α} (h : v[i]? = some a) : vGet v i = .ok a := by
  rw [vGet, h]

theorem select_forall2 {α β : Type} {P : α → β → Prop} {as : List α} {bs : List β} (h : List.Forall₂ P as bs) {is : List Nat} {as' : List α}
    (hs : List.Forall₂ (fun i a => as[i]? = some a) is as') : ∃ bs', select bs is = .ok bs' ∧ List.Forall₂ P as' bs' := by
  induction hs with
  | nil => exact ⟨[], rfl, .nil⟩
  | cons hi _ ih =>
    obtain ⟨b, hb, hab⟩ := forall2_getElem? h hi
    obtain ⟨bs', h1, h2⟩ := ih
    exact ⟨b :: bs', by rw [select, vGet_getElem? hb, R_bind_ok, h1, R_bind_ok], .cons hab h2⟩

theorem map_getD_of {α : Type} {f : α → List Nat} {as : List α} {is : List Nat} {as' : List α}
    (hs : List.Forall₂ (fun i a => as[i]? = some a) is as') : (is.map fun i => (as.map f).getD i []) = as'.map f := by
  induction hs with
  | nil => rfl
  | cons hi _ ih => rw [List.map_cons, List.map_cons, ih]; simp [hi]

theorem map_getD_one {α : Type} {f : α → List Nat} {as : List α} {i : Nat} {a : α} (h : as[i]? = some a) : (as.map f).getD i [] = f a := by
  simp [h]

theorem map_set_same {α : Type} {f : α → List Nat} {as : List α} {i : Nat} {a a' : α} (h : as[i]? = some a) (hf : f a' = f a) :
    (as.set i a').map f = as.map f := by
  rw [List.map_set]
  refine List.ext_getElem? fun j => ?_
  rw [List.getElem?_set]
  split
  · rename_i e
    subst e
    have hi : i < as.length := (List.getElem?_eq_some_iff.1 h).1
    have e : as[i] = a := by simpa [hi] using h
    simp [hi, hf, e]
  · rfl

/-! ## One call of `Intersect` -/

section
variable {F : Bool → ObjFormats} {pad : Nat}

theorem mayIntersect_ok {ks : List Known} {os : List (Obj F)} {h : Nat} {runs parallel : Bool} {env : Env}
    (H : List.Forall₂ (KnownObj pad) ks os) (hm : mayIntersect ks h runs parallel env) :
    intersect (os.map (Obj.nav pad)) runs parallel env = .ok (common (ks.map Known.set)) := by
  obtain ⟨hne, hlen, hh, hr, hw, hp⟩ := hm
  have hlo := H.length_eq
  have hTs : List.Forall₂ (fun k n => k ∈ ks ∧ CodedTrie pad h (k.coded, k.set) n) ks (os.map (Obj.nav pad)) := by
    rw [List.forall₂_map_right_iff]
    refine (forall2_with_mem H).imp fun k o hko => ?_
    exact ⟨hko.1, hh k hko.1 ▸ hko.2.trie⟩
  have hset : ∀ S ∈ ks.map Known.set, S.Pairwise (· < ·) := by
    intro S hS
    obtain ⟨k, hk, rfl⟩ := List.mem_map.1 hS
    obtain ⟨i, hi⟩ := List.mem_iff_getElem?.1 hk
    obtain ⟨o, -, ho⟩ := forall2_getElem? H hi
    exact ho.increasing
  have hne' : os.map (Obj.nav pad) ≠ [] := by
    intro e
    rw [List.map_eq_nil_iff] at e
    subst e
    exact hne (List.length_eq_zero_iff.1 hlo)
  have hlen' : (os.map (Obj.nav pad)).length ≤ 16 := by rw [List.length_map]; omega
  have fin : ∀ R, IsIntersection (ks.map Known.set) R → R = common (ks.map Known.set) := fun R hR =>
    IsIntersection.unique hR (isIntersection_common (by simpa using hne) hset)
  cases runs with
  | false =>
    have hc : ∀ k ∈ ks, k.coded = false := hr.resolve_left (by simp)
    have hT : List.Forall₂ (PlainTrie pad h) (ks.map Known.set) (os.map (Obj.nav pad)) := by
      rw [List.forall₂_map_left_iff]
      refine hTs.imp fun k n hkn => ?_
      have := hkn.2
      rw [hc k hkn.1] at this
      exact this.uncoded
    cases parallel with
    | false =>
      obtain ⟨R, h1, h2⟩ := C07_seq_intersect_plain hT hne' hlen' env hw
      rw [h1, fin R h2]
    | true =>
      obtain ⟨h2, hw2, -⟩ := hp rfl
      obtain ⟨R, h1, -, h3⟩ := C11_parallel_plain h2 hT hne' hlen' env env hw hw2 hw
      rw [h1, fin R h3]
  | true =>
    cases parallel with
    | false =>
      obtain ⟨R, h1, h2⟩ := C08_seq_intersect_runs_partial (List.forall₂_map_left_iff.2 (hTs.imp fun k n hkn => hkn.2.runs)) hne' hlen' env hw
      rw [h1, fin R h2]
    | true =>
      obtain ⟨h2, hw2, hb⟩ := hp rfl
      obtain ⟨R, h1, -, h3⟩ := C12_parallel_runs_partial (sets := ks.map Known.set) h2 env env (by
        rw [List.forall₂_map_left_iff]
        refine hTs.imp fun k n hkn => ?_
        cases hc : k.coded with
        | false =>
          have := hkn.2
          rw [hc] at this
          exact .inl this.uncoded
        | true => exact .inr ⟨hkn.2.runs, hb k hkn.1 hc⟩) hne' hlen' hw hw2 hw
      rw [h1, fin R h3]

end

theorem mayIntersectFast_ok {lg pad : Nat} {K : RankIO} (hlg : 3 ≤ lg ∧ lg ≤ 6) {ks : List FastKnown} {os : List (FastObj K)} {h : Nat}
    {runs parallel : Bool} {env : Env} (H : List.Forall₂ (FastKnownObj lg pad) ks os) (hm : mayIntersectFast lg ks h runs parallel env) :
    fastIntersect lg (os.map fun o => o.nav pad) runs parallel env = .ok (common (ks.map FastKnown.set)) := by
  obtain ⟨hne, hlen, hh, hr, hw, hp⟩ := hm
  have hlo := H.length_eq
  have hTs : List.Forall₂ (fun k n => k ∈ ks ∧ FastCoded lg pad (h + 1 - lg) (k.coded, k.set) n) ks (os.map fun o => o.nav pad) := by
    rw [List.forall₂_map_right_iff]
    refine (forall2_with_mem H).imp fun k o hko => ?_
    exact ⟨hko.1, hh k hko.1 ▸ (hko.2.trie hlg).2⟩
  have hset : ∀ S ∈ ks.map FastKnown.set, S.Pairwise (· < ·) := by
    intro S hS
    obtain ⟨k, hk, rfl⟩ := List.mem_map.1 hS
    obtain ⟨i, hi⟩ := List.mem_iff_getElem?.1 hk
    obtain ⟨o, -, ho⟩ := forall2_getElem? H hi
    exact ho.increasing
  have hne' : (os.map fun o => o.nav pad) ≠ [] := by
    intro e
    rw [List.map_eq_nil_iff] at e
    subst e
    exact hne (List.length_eq_zero_iff.1 hlo)
  have hlen' : (os.map fun o => o.nav pad).length ≤ 16 := by rw [List.length_map]; omega
  have fin : ∀ R, IsIntersection (ks.map FastKnown.set) R → R = common (ks.map FastKnown.set) := fun R hR =>
    IsIntersection.unique hR (isIntersection_common (by simpa using hne) hset)
  cases runs with
  | false =>
    have hc : ∀ k ∈ ks, k.coded = false := hr.resolve_left (by simp)
    have hT : List.Forall₂ (FastPlain lg pad (h + 1 - lg)) (ks.map FastKnown.set) (os.map fun o => o.nav pad) := by
      rw [List.forall₂_map_left_iff]
      refine hTs.imp fun k n hkn => ?_
      have := hkn.2
      rw [hc k hkn.1] at this
      exact this.uncoded
    cases parallel with
    | false =>
      obtain ⟨R, h1, h2⟩ := C09_fast_seq_intersect_plain hlg hT hne' hlen' env hw
      rw [h1, fin R h2]
    | true =>
      obtain ⟨h2, hw2, -⟩ := hp rfl
      obtain ⟨R, h1, -, h3⟩ := C13_fast_parallel_plain hlg (by omega) hT hne' hlen' env env hw hw2 hw
      rw [h1, fin R h3]
  | true =>
    cases parallel with
    | false =>
      obtain ⟨R, h1, h2⟩ := C10_fast_seq_intersect_runs hlg (List.forall₂_map_left_iff.2 (hTs.imp fun k n hkn => hkn.2.toRuns)) hne' hlen' env hw
      rw [h1, fin R h2]
    | true =>
      obtain ⟨h2, hw2, hb⟩ := hp rfl
      obtain ⟨R, h1, -, h3⟩ := C13_fast_parallel_runs_partial (sets := ks.map FastKnown.set) (h := h + 1 - lg) hlg (by omega) env env (by
        rw [List.forall₂_map_left_iff]
        refine hTs.imp fun k n hkn => ?_
        cases hc : k.coded with
        | false =>
          have := hkn.2
          rw [hc] at this
          exact .inl this.uncoded
        | true =>
          refine .inr ⟨hkn.2.toRuns, ?_⟩
          rw [show h + 1 - lg + lg - 1 = h by omega]
          exact hb k hkn.1 hc) hne' hlen' hw hw2 hw
      rw [h1, fin R h3]

end CBT
