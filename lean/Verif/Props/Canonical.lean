import Verif.Proof.ToolsTries
import Verif.Proof.ToolsFast
import Verif.Props.Decode
import Verif.Props.Runs
import Verif.Props.Serialize

/-!
# C70: different sets have different tries and different files, the same set always the same file
-/

namespace CBT

open Spec

/-- `t` is the flat trie built from `S`, or that trie after `encodeRuns`. -/
def FlatMade (pad : Nat) (S : List Nat) (u : Nat) (t : FlatTrie) : Prop :=
  flatCtor S u = .ok t ∨ ∃ t₀, flatCtor S u = .ok t₀ ∧ t₀.encodeRuns pad = .ok t

def LevelMade (il : Bool) (pad : Nat) (S : List Nat) (u : Nat) (t : LevelTrie) : Prop :=
  levelCtor S u = .ok t ∨ ∃ t₀, levelCtor S u = .ok t₀ ∧ t₀.encodeRuns il pad = .ok t

def FastMade (lg : Nat) (junk : FastJunk) (pad : Nat) (S : List Nat) (u : Nat) (t : FastTrie) : Prop :=
  fastCtor lg junk S u = .ok t ∨ ∃ t₀, fastCtor lg junk S u = .ok t₀ ∧ t₀.encodeRuns lg pad = .ok t

/-- With as many readable bits as `lastLevel` has, every made flat trie decodes. -/
theorem FlatMade.decodes {pad : Nat} {S : List Nat} {u : Nat} {t : FlatTrie} (hS : ValidSet S u) (hlen : S.length < 2 ^ 32) (hu : 3 ≤ u)
    (hu' : u ≤ 2 ^ 62) (h : FlatMade pad S u t) : t.decode t.lastLevel.length [] = .ok S := by
  rcases h with h | ⟨t₀, h, he⟩
  · obtain ⟨t', h', hd⟩ := C01_flat_build_decode hS hlen hu hu' t.lastLevel.length []
    rw [h] at h'
    cases h'
    simpa using hd
  · obtain ⟨h1, h2⟩ := log2_bounds hu hu'
    obtain ⟨T, hc, hne, hT⟩ := flat_built hS hlen hu hu'
    rw [h] at hc
    cases hc
    have hb : ∀ x ∈ S, x < 2 ^ (Nat.log2 (u - 1) + 1) := fun x hx => lt_height (hS.below x hx)
    have key : ∀ pad', t.height = Nat.log2 (u - 1) + 1 → t.runsEncoded = true → t.emptyTrie = false →
        Rep (t.nav pad') (leafF (t.nav pad')) _ 0 (prune 1 _ T) 0 → t.decode pad' [] = .ok S := by
      intro pad' hh hr hem hrep
      rw [FlatTrie.decode, hr, hem, hh]
      simp only [if_true, Bool.false_eq_true, if_false]
      rw [runsRecDecode_rep (by rw [FlatTrie.nav, hh]; simp; omega) _ _ 0 _ 0 0 [] hrep (by simp [FlatTrie.nav, hh]) (dvd_zero _)
        (Stops.refl _ _), (hT.prune hne).enum hS.increasing hb]
      simp
    rcases flat_encodeRuns_ok (pad := pad) rfl (flatOf_rep (hw := 0) (runs := false) hne.nz) hne with
      ⟨hl, he'⟩ | ⟨hl, b, z, k, hbits, hk, he'⟩
    · rw [he] at he'
      cases he'
      exact key _ rfl rfl rfl (flatOf_rep hne.prune_nz)
    · rw [he] at he'
      cases he'
      exact key _ rfl rfl rfl (flat_rep (z := z + 1) rfl hbits (by simp) (fun h => by omega) (fun _ => hl) hne.prune_nz)

theorem FlatMade.small {pad : Nat} {S : List Nat} {u : Nat} {t : FlatTrie} (hS : ValidSet S u) (hlen : S.length < 2 ^ 32) (hu : 3 ≤ u)
    (hu' : u ≤ 2 ^ 62) (h : FlatMade pad S u t) : t.height < 2 ^ 16 ∧ t.heightWithRuns < 2 ^ 16 ∧ t.bTrie.length < 2 ^ 64 ∧
      t.lastLevel.length < 2 ^ 64 := by
  obtain ⟨t₁, t₁', ht, he, h1, h2⟩ := C30_flat_size hS hlen hu hu' pad
  obtain ⟨T, ht', -⟩ := flat_built hS hlen hu hu'
  obtain ⟨g1, g2⟩ := flat_encode_heights t₁ pad t₁' he
  have hd := log2_bounds hu hu'
  have hth : t₁.height = Nat.log2 (u - 1) + 1 ∧ t₁.heightWithRuns = 0 := by
    rw [ht] at ht'; injection ht' with e; subst e; exact ⟨rfl, rfl⟩
  have hb : t₁.bTrie.length + t₁.lastLevel.length < 2 ^ 64 := by
    have : S.length * (t₁.height - 1) ≤ 2 ^ 32 * 62 := Nat.mul_le_mul (by omega) (by omega)
    omega
  rcases h with h | ⟨t₀, h, he'⟩
  · rw [ht] at h
    cases h
    omega
  · rw [ht] at h
    cases h
    rw [he] at he'
    cases he'
    omega

/-- C70, flat tries in memory: of different sets, they are different, run-encoded or not, whatever the universes. -/
theorem C70_flat_state {S S' : List Nat} {u u' pad pad' : Nat} {t : FlatTrie} (hS : ValidSet S u) (hlen : S.length < 2 ^ 32)
    (hu : 3 ≤ u) (hu' : u ≤ 2 ^ 62) (hS' : ValidSet S' u') (hlen' : S'.length < 2 ^ 32) (hv : 3 ≤ u') (hv' : u' ≤ 2 ^ 62)
    (h : FlatMade pad S u t) (h' : FlatMade pad' S' u' t) : S = S' := by
  have e := h.decodes hS hlen hu hu'
  rw [h'.decodes hS' hlen' hv hv'] at e
  exact (Except.ok.inj e).symm

/-- C70, the files of flat tries. -/
theorem C70_flat_file (B L : BvIO) (K : RankIO) {S S' : List Nat} {u u' pad pad' : Nat} {t t' : FlatTrie} (hS : ValidSet S u)
    (hlen : S.length < 2 ^ 32) (hu : 3 ≤ u) (hu' : u ≤ 2 ^ 62) (hS' : ValidSet S' u') (hlen' : S'.length < 2 ^ 32) (hv : 3 ≤ u')
    (hv' : u' ≤ 2 ^ 62) (h : FlatMade pad S u t) (h' : FlatMade pad' S' u' t')
    (e : (t.serialize B L K true).1 = (t'.serialize B L K true).1) : S = S' := by
  obtain ⟨a1, a2, a3, a4⟩ := h.small hS hlen hu hu'
  obtain ⟨b1, b2, b3, b4⟩ := h'.small hS' hlen' hv hv'
  obtain ⟨o, h1, h2, -⟩ := C19_flat_roundtrip_partial B L K a1 a2 a3 a4 []
  obtain ⟨o', h1', h2', -⟩ := C19_flat_roundtrip_partial B L K b1 b2 b3 b4 []
  rw [e, h1'] at h1
  cases h1
  rw [h2] at h2'
  subst h2'
  exact C70_flat_state hS hlen hu hu' hS' hlen' hv hv' h h'

/-- C70, level-wise tries in memory. -/
theorem C70_level_state {S S' : List Nat} {u u' pad pad' : Nat} {il : Bool} {t : LevelTrie} (hS : ValidSet S u)
    (hlen : S.length < 2 ^ 64) (hu : 2 ≤ u) (hu' : u ≤ 2 ^ 63) (hS' : ValidSet S' u') (hlen' : S'.length < 2 ^ 64) (hv : 2 ≤ u')
    (hv' : u' ≤ 2 ^ 63) (h : LevelMade il pad S u t) (h' : LevelMade il pad' S' u' t) : S = S' := by
  have key : ∀ {S : List Nat} {u pad : Nat}, ValidSet S u → S.length < 2 ^ 64 → 2 ≤ u → u ≤ 2 ^ 63 → LevelMade il pad S u t →
      t.decode il 0 [] = .ok S := by
    intro S u pad hS hlen hu hu' h
    obtain ⟨T, hc, hne, hT⟩ := level_built hS hlen hu (by omega)
    have hd := level_depth hu hu'
    rcases h with h | ⟨t₀, h, he⟩
    · obtain ⟨t', h', hd'⟩ := C02_level_build_decode hS hlen hu (by omega) il 0 []
      rw [h] at h'
      cases h'
      simpa using hd'
    · rw [h] at hc
      cases hc
      obtain ⟨k, hk, hst, he'⟩ := levelOf_encode (pad := pad) (il := il) (hw := 0) (runs := false) (by omega) hne
      rw [he] at he'
      cases he'
      have := levelOf_decode (pad := 0) (il := il) (by omega) hne.prune_nz hst (hT.prune hne) hS.increasing
        (fun x hx => lt_height (hS.below x hx)) []
      simpa using this
  have e := key hS hlen hu hu' h
  rw [key hS' hlen' hv hv' h'] at e
  exact (Except.ok.inj e).symm

theorem LevelMade.small {pad : Nat} {S : List Nat} {u : Nat} {t : LevelTrie} (hS : ValidSet S u) (hlen : S.length < 2 ^ 32) (hu : 2 ≤ u)
    (hu' : u ≤ 2 ^ 63) (h : LevelMade false pad S u t) : t.bTrie ≠ [] ∧ t.bTrie.length < 2 ^ 16 ∧ t.heightWithRuns < 2 ^ 16 ∧
      ∀ v ∈ t.bTrie, v.length < 2 ^ 64 := by
  obtain ⟨t₁, t₁', ht, he, h1, h2⟩ := C30_level_size hS (by omega) hu (by omega) false pad
  obtain ⟨T, ht', hne, -⟩ := level_built hS (by omega) hu (by omega)
  have hd := level_depth hu hu'
  obtain ⟨k, hk, -, he'⟩ := levelOf_encode (pad := pad) (il := false) (hw := 0) (runs := false) (by omega) hne
  rw [ht] at ht'; injection ht' with e; subst e
  rw [he] at he'; injection he' with e; subst e
  have hh : ∀ {T : Tr (Nat.log2 (u - 1))} {hw : Nat} {runs : Bool}, (levelOf _ T hw runs).bTrie.length = Nat.log2 (u - 1) + 1 :=
    fun {T hw runs} => levelOf_height (T := T) (hw := hw) (runs := runs)
  have hf : (levelOf _ T 0 false).bTrie.flatten.length < 2 ^ 64 := by
    have hh := levelOf_height (T := T) (hw := 0) (runs := false)
    have : S.length * ((levelOf _ T 0 false).height - 1) ≤ 2 ^ 32 * 62 := Nat.mul_le_mul (by omega) (by omega)
    omega
  have hb : ∀ x : LevelTrie, x.bTrie.flatten.length < 2 ^ 64 → ∀ v ∈ x.bTrie, v.length < 2 ^ 64 := by
    intro x hx v hv
    have := (List.sublist_flatten_of_mem hv).length_le
    omega
  have hne0 : ∀ x : LevelTrie, x.bTrie.length = Nat.log2 (u - 1) + 1 → x.bTrie ≠ [] := fun x hx h => by rw [h] at hx; simp at hx
  rcases h with h | ⟨t₀, h, he'⟩
  · rw [ht] at h
    cases h
    exact ⟨hne0 _ hh, by rw [hh]; omega, by simp [levelOf], hb _ hf⟩
  · rw [ht] at h
    cases h
    rw [he] at he'
    cases he'
    exact ⟨hne0 _ hh, by rw [hh]; omega, by simp only [levelOf]; omega, hb _ (by omega)⟩

/-- C70, the files of level-wise tries (`binTrie`; `binTrie_il` has no files, C20). -/
theorem C70_level_file (B : BvIO) (K : RankIO) {S S' : List Nat} {u u' pad pad' : Nat} {t t' : LevelTrie} (hS : ValidSet S u)
    (hlen : S.length < 2 ^ 32) (hu : 2 ≤ u) (hu' : u ≤ 2 ^ 63) (hS' : ValidSet S' u') (hlen' : S'.length < 2 ^ 32) (hv : 2 ≤ u')
    (hv' : u' ≤ 2 ^ 63) (h : LevelMade false pad S u t) (h' : LevelMade false pad' S' u' t')
    (e : (t.serialize B K).1 = (t'.serialize B K).1) : S = S' := by
  obtain ⟨a1, a2, a3, a4⟩ := h.small hS hlen hu hu'
  obtain ⟨b1, b2, b3, b4⟩ := h'.small hS' hlen' hv hv'
  obtain ⟨o, h1, h2, -⟩ := C20_level_roundtrip_partial B K a1 a2 a3 a4 []
  obtain ⟨o', h1', h2', -⟩ := C20_level_roundtrip_partial B K b1 b2 b3 b4 []
  rw [e, h1'] at h1
  cases h1
  rw [h2] at h2'
  subst h2'
  exact C70_level_state hS (by omega) hu hu' hS' (by omega) hv hv' h h'

/-- C70, fast tries in memory, whatever the members the constructor leaves unwritten. -/
theorem C70_fast_state {lg : Nat} (hlg : 3 ≤ lg ∧ lg ≤ 6) {junk junk' : FastJunk} {S S' : List Nat} {u u' pad pad' : Nat} {t : FastTrie}
    (hS : ValidSet S u) (hlen : S.length < 2 ^ 32) (hu : 2 ^ (lg - 1) < u) (hu' : u ≤ 2 ^ 62) (hS' : ValidSet S' u')
    (hlen' : S'.length < 2 ^ 32) (hv : 2 ^ (lg - 1) < u') (hv' : u' ≤ 2 ^ 62)
    (h : FastMade lg junk pad S u t) (h' : FastMade lg junk' pad' S' u' t) : S = S' := by
  have key : ∀ {junk : FastJunk} {S : List Nat} {u pad : Nat}, ValidSet S u → S.length < 2 ^ 32 → 2 ^ (lg - 1) < u → u ≤ 2 ^ 62 →
      FastMade lg junk pad S u t → FastTrie.decode lg { t with emptyTrie := false } 0 [] = .ok S := by
    intro junk S u pad hS hlen hu hu' h
    obtain ⟨h0, h1, h2⟩ := fast_depth hlg hu hu'
    obtain ⟨T, hc, hne, hT⟩ := fast_built hlg hS hlen hu hu' junk
    rcases h with h | ⟨t₀, h, he⟩
    · rw [h] at hc
      cases hc
      obtain ⟨t', h', hd'⟩ := C03_fast_build_decode hlg hS hlen hu hu' junk 0 []
      rw [h] at h'
      cases h'
      simp only [FastTrie.decode, fastOf, List.nil_append] at hd' ⊢
      exact hd'
    · rw [h] at hc
      cases hc
      obtain ⟨k, he'⟩ := fastOf_encode (pad := pad) (hw := junk.heightWithRuns) (runs := false) (empty := junk.emptyTrie) hne
      rw [he] at he'
      cases he'
      have := fastOf_decode (pad := 0) (hw := k) hlg.2 (by omega) hne.prune_nz (hT.prune hne) hS.increasing
        (fun x hx => h1 ▸ lt_height (hS.below x hx)) []
      simpa [fastOf] using this
  have e := key hS hlen hu hu' h
  rw [key hS' hlen' hv hv' h'] at e
  exact (Except.ok.inj e).symm

theorem FastMade.small {lg : Nat} (hlg : 3 ≤ lg ∧ lg ≤ 6) {junk : FastJunk} {S : List Nat} {u pad : Nat} {t : FastTrie}
    (hS : ValidSet S u) (hlen : S.length < 2 ^ 32) (hu : 2 ^ (lg - 1) < u) (hu' : u ≤ 2 ^ 62) (hj : junk.heightWithRuns < 2 ^ 16)
    (h : FastMade lg junk pad S u t) : t.height < 2 ^ 16 ∧ t.heightWithRuns < 2 ^ 16 ∧ t.heightU = (t.height + lg - 1) % 2 ^ 16 ∧
      t.bTrie.length < 2 ^ 64 ∧ t.lastLevel.length < 2 ^ 64 ∧ ∀ w ∈ t.lastLevel, w < 2 ^ 2 ^ lg := by
  obtain ⟨t₁, t₁', hc, he, h1, h2, h3, h4⟩ := C30_fast_size hlg hS hlen hu hu' junk pad
  have hs := fastCtor_sound lg junk S u t₁ hc
  have hs' := fast_encode_sound hs pad t₁' he
  obtain ⟨g1, g2⟩ := fast_encode_heights lg t₁ pad t₁' he
  obtain ⟨T, hc', -⟩ := fast_built hlg hS hlen hu hu' junk
  obtain ⟨q0, q1, q2⟩ := fast_depth hlg hu hu'
  have hth : t₁.height = Nat.log2 (u - 1) + 1 - lg + 1 ∧ t₁.heightWithRuns = junk.heightWithRuns := by
    rw [hc] at hc'; injection hc' with e; subst e; exact ⟨rfl, rfl⟩
  have hb : t₁.bTrie.length < 2 ^ 64 := by
    have : S.length * (t₁.height - 1) ≤ 2 ^ 32 * 62 := Nat.mul_le_mul (by omega) (by omega)
    omega
  have fits : ∀ (x : FastTrie), x.Sound lg → x.height ≤ 63 → x.heightU = (x.height + lg - 1) % 2 ^ 16 := by
    intro x hx hh
    rw [Nat.mod_eq_of_lt (by omega)]
    have := hx.1
    omega
  rcases h with h | ⟨t₀, h, he'⟩
  · rw [hc] at h
    cases h
    exact ⟨by omega, by omega, fits _ hs (by omega), hb, by omega, hs.2⟩
  · rw [hc] at h
    cases h
    rw [he] at he'
    cases he'
    exact ⟨by omega, by omega, fits _ hs' (by omega), by omega, by omega, hs'.2⟩

theorem FastMade.loads (B : BvIO) (K : RankIO) {lg : Nat} (hlg : 3 ≤ lg ∧ lg ≤ 6) {junk : FastJunk} {S : List Nat} {u pad : Nat} {t : FastTrie}
    (hS : ValidSet S u) (hlen : S.length < 2 ^ 32) (hu : 2 ^ (lg - 1) < u) (hu' : u ≤ 2 ^ 62) (hj : junk.heightWithRuns < 2 ^ 16)
    (h : FastMade lg junk pad S u t) :
    ∃ o : FastObj K, fastLoad B K lg (fastDefault junk) ((t.serialize B K lg).1 ++ []) = .ok (o, []) ∧ o.trie = t := by
  obtain ⟨h1, h2, h3, h4, h5, h6⟩ := h.small hlg hS hlen hu hu' hj
  obtain ⟨o, e1, e2, -⟩ := C21_fast_roundtrip B K hlg.1 (t := t) (t0 := fastDefault junk) rfl h1 h2 h3 h4 h5 h6 []
  exact ⟨o, e1, e2⟩

/-- C70, the files of fast tries. -/
theorem C70_fast_file (B : BvIO) (K : RankIO) {lg : Nat} (hlg : 3 ≤ lg ∧ lg ≤ 6) {junk junk' : FastJunk} {S S' : List Nat}
    {u u' pad pad' : Nat} {t t' : FastTrie} (hS : ValidSet S u) (hlen : S.length < 2 ^ 32) (hu : 2 ^ (lg - 1) < u) (hu' : u ≤ 2 ^ 62)
    (hj : junk.heightWithRuns < 2 ^ 16) (hS' : ValidSet S' u') (hlen' : S'.length < 2 ^ 32) (hv : 2 ^ (lg - 1) < u') (hv' : u' ≤ 2 ^ 62)
    (hj' : junk'.heightWithRuns < 2 ^ 16) (h : FastMade lg junk pad S u t) (h' : FastMade lg junk' pad' S' u' t')
    (e : (t.serialize B K lg).1 = (t'.serialize B K lg).1) : S = S' := by
  obtain ⟨o, h1, h2⟩ := h.loads B K hlg hS hlen hu hu' hj
  obtain ⟨o', h1', h2'⟩ := h'.loads B K hlg hS' hlen' hv hv' hj'
  have e0 : ∀ s, fastLoad B K lg (fastDefault junk) s = fastLoad B K lg (fastDefault junk') s := fun s => rfl
  rw [e, e0, h1'] at h1
  cases h1
  rw [h2] at h2'
  subst h2'
  exact C70_fast_state hlg hS hlen hu hu' hS' hlen' hv hv' h h'

/-- The members the constructor does not write go into the trie unchanged, and nothing else depends on them. -/
theorem fastCtor_junk {lg : Nat} {junk junk' : FastJunk} {S : List Nat} {u : Nat} {t : FastTrie} (h : fastCtor lg junk S u = .ok t) :
    fastCtor lg junk' S u = .ok { t with heightWithRuns := junk'.heightWithRuns, emptyTrie := junk'.emptyTrie } ∧
      t.heightWithRuns = junk.heightWithRuns ∧ t.emptyTrie = junk.emptyTrie := by
  rw [fastCtor] at h ⊢
  obtain ⟨hu, h1, h⟩ := bind_ok h
  rw [h1, R_bind_ok]
  by_cases hs : hu + 1 < lg
  · simp only [hs, if_true] at h
    cases h
  · simp only [hs, if_false] at h ⊢
    obtain ⟨mx, h2, h⟩ := bind_ok h
    obtain ⟨s, h3, h⟩ := bind_ok h
    cases h
    simp only [h2, R_bind_ok, h3, and_self]

/-- `encodeRuns` reads neither of them, keeps `empty_trie` and sets `height_with_runs`. -/
theorem fastEncode_junk {lg : Nat} {t r : FastTrie} {pad hw : Nat} {e : Bool} (h : t.encodeRuns lg pad = .ok r) :
    FastTrie.encodeRuns lg { t with heightWithRuns := hw, emptyTrie := e } pad = .ok { r with emptyTrie := e } ∧ r.emptyTrie = t.emptyTrie := by
  rw [FastTrie.encodeRuns] at h ⊢
  by_cases h0 : t.height = 0
  · simp only [h0, if_true] at h
    cases h
  · simp only [h0, if_false] at h ⊢
    obtain ⟨⟨s, nl, w⟩, h1, h⟩ := bind_ok h
    simp only at h
    obtain ⟨b, h2, h⟩ := bind_ok h
    cases h
    have e1 : fastWriteCompress lg (FastTrie.nav { t with heightWithRuns := hw, emptyTrie := e } pad) (t.height - 1)
        { ones := List.replicate t.height [], pos := List.replicate t.height 0 } [] 0 0 = .ok (s, nl, w) := h1
    rw [e1, R_bind_ok]
    simp only [h2, R_bind_ok, and_self]

/-- C70 (partial). Two runs of the same program on the same set write the same file of a plain fast trie exactly if the two
members the constructor leaves unwritten happen to have the same values. -/
theorem C70_fast_plain_same_partial (B : BvIO) (K : RankIO) {lg : Nat} (hlg : 3 ≤ lg ∧ lg ≤ 6) {junk junk' : FastJunk} {S : List Nat} {u : Nat}
    (hS : ValidSet S u) (hlen : S.length < 2 ^ 32) (hu : 2 ^ (lg - 1) < u) (hu' : u ≤ 2 ^ 62) (hj : junk.heightWithRuns < 2 ^ 16)
    (hj' : junk'.heightWithRuns < 2 ^ 16) :
    ∃ t t', fastCtor lg junk S u = .ok t ∧ fastCtor lg junk' S u = .ok t' ∧
      ((t.serialize B K lg).1 = (t'.serialize B K lg).1 ↔
        junk.heightWithRuns = junk'.heightWithRuns ∧ junk.emptyTrie = junk'.emptyTrie) := by
  obtain ⟨t, h, -⟩ := C03_fast_build_decode hlg hS hlen hu hu' junk 0 []
  obtain ⟨h', e1, e2⟩ := fastCtor_junk (junk' := junk') h
  refine ⟨t, _, h, h', fun e => ?_, fun e => ?_⟩
  · obtain ⟨o, h1, h2⟩ := FastMade.loads B K hlg hS hlen hu hu' hj (pad := 0) (.inl h)
    obtain ⟨o', h1', h2'⟩ := FastMade.loads B K hlg hS hlen hu hu' hj' (pad := 0) (.inl h')
    have e0 : ∀ s, fastLoad B K lg (fastDefault junk) s = fastLoad B K lg (fastDefault junk') s := fun s => rfl
    rw [e, e0, h1'] at h1
    cases h1
    rw [h2] at h2'
    rw [← e1, ← e2, h2']
    exact ⟨rfl, rfl⟩
  · rw [← e.1, ← e.2, ← e1, ← e2]

/-- C70 (partial). After `encodeRuns`, exactly if `empty_trie` happens to have the same value. -/
theorem C70_fast_runs_same_partial (B : BvIO) (K : RankIO) {lg : Nat} (hlg : 3 ≤ lg ∧ lg ≤ 6) {junk junk' : FastJunk} {S : List Nat} {u : Nat}
    (hS : ValidSet S u) (hlen : S.length < 2 ^ 32) (hu : 2 ^ (lg - 1) < u) (hu' : u ≤ 2 ^ 62) (hj : junk.heightWithRuns < 2 ^ 16)
    (hj' : junk'.heightWithRuns < 2 ^ 16) (pad : Nat) :
    ∃ t t' r r', fastCtor lg junk S u = .ok t ∧ fastCtor lg junk' S u = .ok t' ∧ t.encodeRuns lg pad = .ok r ∧
      t'.encodeRuns lg pad = .ok r' ∧
      ((r.serialize B K lg).1 = (r'.serialize B K lg).1 ↔ junk.emptyTrie = junk'.emptyTrie) := by
  obtain ⟨t, r, h, he, -⟩ := C06_fast_runs_decode_exact hlg hS hlen hu hu' junk pad []
  obtain ⟨h', e1, e2⟩ := fastCtor_junk (junk' := junk') h
  obtain ⟨he', e3⟩ := fastEncode_junk (hw := junk'.heightWithRuns) (e := junk'.emptyTrie) he
  refine ⟨t, _, r, _, h, h', he, he', fun e => ?_, fun e => ?_⟩
  · obtain ⟨o, h1, h2⟩ := FastMade.loads B K hlg hS hlen hu hu' hj (pad := pad) (.inr ⟨t, h, he⟩)
    obtain ⟨o', h1', h2'⟩ := FastMade.loads B K hlg hS hlen hu hu' hj' (pad := pad) (.inr ⟨_, h', he'⟩)
    have e0 : ∀ s, fastLoad B K lg (fastDefault junk) s = fastLoad B K lg (fastDefault junk') s := fun s => rfl
    rw [e, e0, h1'] at h1
    cases h1
    rw [h2] at h2'
    rw [← e2, ← e3, h2']
  · rw [← e, ← e2, ← e3]

/-- C70 is false of fast tries: one set, two different files. -/
theorem C70_fast_negation (B : BvIO) (K : RankIO) : ∃ (S : List Nat) (u : Nat) (junk junk' : FastJunk) (t t' : FastTrie),
    ValidSet S u ∧ fastCtor 6 junk S u = .ok t ∧ fastCtor 6 junk' S u = .ok t' ∧
    (t.serialize B K 6).1 ≠ (t'.serialize B K 6).1 := by
  have hS : ValidSet [1, 3] 64 := by decide
  obtain ⟨t, t', h1, h2, h3⟩ := C70_fast_plain_same_partial B K (lg := 6) (by decide) (junk := ⟨0, 0, 0, false, false⟩)
    (junk' := ⟨0, 1, 0, false, false⟩) hS (by decide) (by decide) (by decide) (by decide) (by decide)
  exact ⟨_, _, _, _, t, t', hS, h1, h2, fun e => by simpa using h3.1 e⟩

/-- Two sets over different universes, plain and run-encoded, and their files. -/
example : ValidSet [0, 1, 2, 3, 5] 8 ∧ ValidSet [0, 1, 2, 3, 6] 8 ∧
    (do let t ← flatCtor [0, 1, 2, 3, 5] 8
        let t' ← flatCtor [0, 1, 2, 3, 6] 8
        let r ← t.encodeRuns 0
        let r' ← t'.encodeRuns 0
        .ok (decide ((r.serialize Ex.bvIO Ex.bvIO Ex.rankIO true).1 = (r'.serialize Ex.bvIO Ex.bvIO Ex.rankIO true).1),
          decide ((t.serialize Ex.bvIO Ex.bvIO Ex.rankIO true).1 = (r.serialize Ex.bvIO Ex.bvIO Ex.rankIO true).1))) =
      (.ok (false, false) : R (Bool × Bool)) := by decide +kernel

end CBT
