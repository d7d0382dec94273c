import Verif.Props.Memory
import Verif.Props.Affinity
import Verif.Proof.ExactList
import Verif.Proof.ExactMem

/-!
# C12, C13, C55, C57 for run-encoded tries, exactly

What run-aware parallel calls return, leave allocated, and do on macOS, in terms of the sets and of which tries were
run-encoded.
-/

namespace CBT

open Spec

theorem CodedTrie.tree {pad h : Nat} {c : Bool × List Nat} {n : Nav} (H : CodedTrie pad h c n) :
    ∃ T, Rep n (leafF n) (h - 1) 0 T 0 ∧ CTree 1 (h - 1) c T := by
  have hb := H.runs.holds.below
  cases H with
  | plain H =>
    obtain ⟨T, h1, h2, h3⟩ := H.holds.tree
    exact ⟨T, h1, hb, T, h2, h3, rfl⟩
  | flat hS hlen hu hu' hc he hh hpart =>
    obtain ⟨T, hc', hne, hT⟩ := flat_built hS hlen hu hu'
    rw [hc'] at hc
    cases hc
    obtain ⟨t'', he', hh', -, -, hrep, -⟩ := flatOf_encode_cases (pad := pad) (hw := 0) (runs := false) hne
    rw [he'] at he
    cases he
    rw [hh'] at hh
    subst hh
    exact ⟨_, hrep (hpart.imp (leaves_of_part hT hS.below (log2_bounds hu hu').1) id), hb, T, hne, hT, rfl⟩
  | level il hS hlen hu hu' hc he hh =>
    obtain ⟨T, hc', hne, hT⟩ := level_built hS hlen hu (by omega)
    rw [hc'] at hc
    cases hc
    have hd := level_depth hu hu'
    obtain ⟨k, _, _, he'⟩ := levelOf_encode (pad := pad) (il := il) (hw := 0) (runs := false) (by omega) hne
    rw [he'] at he
    cases he
    rw [levelOf_height] at hh
    subst hh
    exact ⟨_, levelOf_rep (by omega) hne.prune_nz, hb, T, hne, hT, rfl⟩

theorem FastCoded.tree {lg pad h : Nat} (hlg : 3 ≤ lg ∧ lg ≤ 6) {c : Bool × List Nat} {n : FNav} (H : FastCoded lg pad h c n) :
    ∃ T, Rep n.toNav (leafW lg n) (h - 1) 0 T 0 ∧ CTree lg (h - 1) c T := by
  have hb := (H.toRuns.holds hlg).below
  cases H with
  | plain H =>
    obtain ⟨T, h1, h2, h3⟩ := (H.holds hlg).tree
    exact ⟨T, h1, hb, T, h2, h3, rfl⟩
  | @runs S u junk t t' hS hlen hu hu' hc he hh =>
    obtain ⟨h0, h1, h2⟩ := fast_depth hlg hu hu'
    obtain ⟨T, hc', hne, hT⟩ := fast_built hlg hS hlen hu hu' junk
    rw [hc'] at hc
    cases hc
    obtain ⟨k, he'⟩ := fastOf_encode (pad := pad) (hw := junk.heightWithRuns) (runs := false) (empty := junk.emptyTrie) hne
    rw [he'] at he
    cases he
    subst hh
    exact ⟨_, fastOf_rep hne.prune_nz, hb, T, hne, hT, rfl⟩

theorem forall2_trees {α β γ : Type} {P : α → β → Prop} {Q : β → γ → Prop} {Q' : α → γ → Prop} {as : List α} {bs : List β}
    (h : List.Forall₂ P as bs) (hp : ∀ a b, P a b → ∃ t, Q b t ∧ Q' a t) : ∃ ts, List.Forall₂ Q bs ts ∧ List.Forall₂ Q' as ts := by
  induction h with
  | nil => exact ⟨[], .nil, .nil⟩
  | cons h1 _ ih =>
    obtain ⟨ts, g1, g2⟩ := ih
    obtain ⟨t, g3, g4⟩ := hp _ _ h1
    exact ⟨t :: ts, .cons g3 g1, .cons g4 g2⟩

/-! ## The result -/

/-- C12, exactly: what a run-aware parallel call returns, if it starts threads at all (`floor(log2(hw)) + 2 ≤ h`; otherwise it is
the sequential call). The result depends neither on the schedule nor on the number of hardware threads beyond its logarithm. -/
theorem C12_parallel_runs_result_partial {pad h : Nat} {cs : List (Bool × List Nat)} {Ts : List Nav}
    (hTs : List.Forall₂ (CodedTrie pad h) cs Ts) (hne : Ts ≠ []) (hlen : Ts.length ≤ 16)
    (env : Env) (hw : env.hw ≠ 0) (hw2 : env.hw < 2 ^ 16) (hcut : Nat.log2 env.hw + 2 ≤ h) :
    intersect Ts true true env = .ok (runsResult cs (h - Nat.log2 env.hw) (Nat.log2 env.hw)) := by
  obtain ⟨d, hd⟩ : ∃ d, h - 1 = d + 1 + Nat.log2 env.hw := ⟨h - 2 - Nat.log2 env.hw, by omega⟩
  obtain ⟨e, rfl⟩ : ∃ e, h = e + 1 := ⟨h - 1, by omega⟩
  rw [Nat.add_sub_cancel] at hd
  subst hd
  have hcs : cs ≠ [] := by rintro rfl; cases hTs; exact hne rfl
  obtain ⟨ts, h1, h2⟩ := forall2_trees (Q := fun n t => Rep n (leafF n) (d + 1 + Nat.log2 env.hw) 0 t 0)
    (Q' := CTree 1 (d + 1 + Nat.log2 env.hw)) hTs fun _ _ H => H.tree
  have hd : d + 1 + Nat.log2 env.hw ≤ 62 := by
    cases hTs with
    | nil => exact (hne rfl).elim
    | cons h _ => exact h.runs.holds.depth
  have hh := forall2_imp_right hTs fun _ _ h => h.runs.holds.height
  rw [Nat.add_sub_cancel] at hh
  have := par_body_exact id leafF (c := flatCfg (d + 1 + Nat.log2 env.hw + 1)) (height := d + 1 + Nat.log2 env.hw + 1)
    hne (flat_leafOK Ts _) (flat_leafOKR Ts _) h1 hlen (by rfl) (by rfl) (show d + 1 + Nat.log2 env.hw + 1 < 64 by omega) hw hw2 (by omega)
  rw [List.map_id, exactOut_eq (agree_of h2 hcs)] at this
  rw [intersect_unfold hne hh, this, show d + 1 + Nat.log2 env.hw + 1 - Nat.log2 env.hw = d + 1 + 1 by omega]

/-- C13, exactly, likewise. -/
theorem C13_fast_parallel_runs_result_partial {lg pad h : Nat} (hlg : 3 ≤ lg ∧ lg ≤ 6) {cs : List (Bool × List Nat)} {Ts : List FNav}
    (hTs : List.Forall₂ (FastCoded lg pad h) cs Ts) (hne : Ts ≠ []) (hlen : Ts.length ≤ 16)
    (env : Env) (hw : env.hw ≠ 0) (hw2 : env.hw < 2 ^ 16) (hcut : Nat.log2 env.hw + 2 ≤ h) :
    fastIntersect lg Ts true true env = .ok (runsResult cs (h - 1 - Nat.log2 env.hw + lg) (Nat.log2 env.hw)) := by
  obtain ⟨d, hd⟩ : ∃ d, h - 1 = d + 1 + Nat.log2 env.hw := ⟨h - 2 - Nat.log2 env.hw, by omega⟩
  obtain ⟨e, rfl⟩ : ∃ e, h = e + 1 := ⟨h - 1, by omega⟩
  rw [Nat.add_sub_cancel] at hd
  subst hd
  have hcs : cs ≠ [] := by rintro rfl; cases hTs; exact hne rfl
  obtain ⟨ts, h1, h2⟩ := forall2_trees (Q := fun n t => Rep n.toNav (leafW lg n) (d + 1 + Nat.log2 env.hw) 0 t 0)
    (Q' := CTree lg (d + 1 + Nat.log2 env.hw)) hTs fun _ _ H => H.tree hlg
  have hd : d + 1 + Nat.log2 env.hw + lg ≤ 62 := by
    cases hTs with
    | nil => exact (hne rfl).elim
    | cons h _ => exact (h.toRuns.holds hlg).depth
  have hh := forall2_imp_right hTs fun _ _ h => (h.toRuns.holds hlg).height
  rw [Nat.add_sub_cancel] at hh
  have := par_body_exact FNav.toNav (leafW lg) (c := fastCfg lg Ts (d + 1 + Nat.log2 env.hw + 1)) (height := d + 1 + Nat.log2 env.hw + 1)
    hne (fast_leafOK hlg.2 Ts _) (fast_leafOKR hlg.2 Ts _) h1 hlen (by rfl) (by simp only [fastCfg]; omega)
    (by simp only [fastCfg]; omega) hw hw2 (by omega)
  rw [exactOut_eq (agree_of h2 hcs)] at this
  rw [fastIntersect_unfold hne hh, this, show d + 1 + Nat.log2 env.hw + 1 - 1 - Nat.log2 env.hw + lg = d + 1 + lg by omega]

namespace Ex

theorem levelA_coded : CodedTrie 0 4 (true, sA) (levelA.nav false 0) :=
  .level (u := 16) (t := ⟨0, false, false, [[true, true], [true, true, true, true],
      [true, true, true, false, true, true, false, true],
      [true, true, true, true, false, true, true, true, true, true, true, false]]⟩) false
    (by decide +kernel) (by decide +kernel) (by decide) (by decide) (by decide +kernel) (by decide +kernel) rfl

theorem levelB_coded : CodedTrie 0 4 (true, sB) (levelB.nav false 0) :=
  .level (u := 16) (t := ⟨0, false, false, [[true, true], [true, true, true, true],
      [true, true, true, true, true, false, false, true],
      [true, true, true, true, true, true, true, true, true, false, true, false]]⟩) false
    (by decide +kernel) (by decide +kernel) (by decide) (by decide) (by decide +kernel) (by decide +kernel) rfl

theorem levelC_coded : CodedTrie 0 4 (true, sC) (levelC.nav false 0) :=
  .level (u := 16) (t := ⟨0, false, false, [[true, true], [true, false, true, true],
      [true, false, true, true, true, true],
      [true, false, true, true, true, true, true, true, true, true]]⟩) false
    (by decide +kernel) (by decide +kernel) (by decide) (by decide) (by decide +kernel) (by decide +kernel) rfl

theorem fastD_coded : FastCoded 3 0 4 (true, sW) (fastD.nav 0) :=
  .runs (u := 64) (junk := junk) (t := ⟨4, 9, 6, false, true, [true, false, true, true, true, true, true, true], [255, 255, 2, 128]⟩)
    (by decide +kernel) (by decide +kernel) (by decide) (by decide) (by decide +kernel) (by decide +kernel) rfl

end Ex

/-- Two run-encoded tries of which elements are lost; the first one plain; both plain; blocks reported before smaller elements. -/
example : List.Forall₂ (CodedTrie 0 4) [(true, Ex.sA), (true, Ex.sB)] [Ex.levelA.nav false 0, Ex.levelB.nav false 0] ∧
    List.Forall₂ (CodedTrie 0 4) [(true, Ex.sC), (true, Ex.sC)] [Ex.levelC.nav false 0, Ex.levelC.nav false 0] ∧
    runsResult [(true, Ex.sA), (true, Ex.sB)] 2 2 = [14] ∧ runsResult [(false, Ex.sA), (true, Ex.sB)] 2 2 = [8, 14] ∧
    runsResult [(false, Ex.sA), (false, Ex.sB)] 2 2 = [0, 1, 2, 3, 5, 8, 14] ∧
    runsResult [(true, Ex.sC), (true, Ex.sC)] 2 2 = [8, 9, 10, 11, 12, 13, 14, 15, 0] :=
  ⟨.cons Ex.levelA_coded (.cons Ex.levelB_coded .nil), .cons Ex.levelC_coded (.cons Ex.levelC_coded .nil), by decide +kernel, by decide +kernel,
    by decide +kernel, by decide +kernel⟩

example : List.Forall₂ (FastCoded 3 0 4) [(true, Ex.sW), (false, [3, 17, 31])] [Ex.fastD.nav 0, Ex.fastE.nav 0] ∧
    runsResult [(true, Ex.sW), (false, [3, 17, 31])] 4 2 = [17, 31] :=
  ⟨.cons Ex.fastD_coded (.cons (.plain Ex.fastE_plain) .nil), by decide +kernel⟩

/-- C12: which common elements are returned, and which are lost. Lost are the elements of the blocks that are collapsed in some,
but not all, of the tries, if the blocks are larger than those handed to threads; or as large, if they were replaced by their
halves. -/
theorem C12_parallel_runs_lost_partial {pad h : Nat} {cs : List (Bool × List Nat)} {Ts : List Nav}
    (hTs : List.Forall₂ (CodedTrie pad h) cs Ts) (hne : Ts ≠ []) (hlen : Ts.length ≤ 16)
    (env : Env) (hw : env.hw ≠ 0) (hw2 : env.hw < 2 ^ 16) (hcut : Nat.log2 env.hw + 2 ≤ h) :
    ∃ R, intersect Ts true true env = .ok R ∧ R.Nodup ∧ ∀ x, x ∈ R ↔ (∀ c ∈ cs, x ∈ c.2) ∧
      ¬ uneven cs h (if isSplit cs (h - Nat.log2 env.hw) (Nat.log2 env.hw) (x / 2 ^ (h - Nat.log2 env.hw)) then h - Nat.log2 env.hw
        else h - Nat.log2 env.hw + 1) x := by
  have e := C12_parallel_runs_result_partial hTs hne hlen env hw hw2 hcut
  have hH : List.Forall₂ (HoldsR (h - 1)) (cs.map Prod.snd) Ts := List.forall₂_map_left_iff.2 (hTs.imp fun _ _ H => H.runs.holds)
  obtain ⟨R, e', h1, h2⟩ := intersect_par_runs hH (by omega) hne hlen hw hw2
  rw [e'] at e
  cases e
  refine ⟨_, e', h2, fun x => ?_⟩
  have hb := forall2_imp_left hTs fun _ _ H => H.runs.holds.below
  have hth : h - Nat.log2 env.hw + Nat.log2 env.hw = h := by omega
  by_cases hx : x < 2 ^ h
  · have := mem_runsResult (cs := cs) (j := h - Nat.log2 env.hw) (cut := Nat.log2 env.hw) (x := x) (by omega) (by rwa [hth])
    rwa [hth] at this
  · cases hTs with
    | nil => exact (hne rfl).elim
    | @cons c T cs Ts hc _ =>
      have hx' : x ∉ c.2 := fun hm => hx (by
        have := hb c List.mem_cons_self x hm
        rwa [show h - 1 + 1 = h by omega] at this)
      constructor
      · intro hm
        exact (hx' (h1 x hm c.2 (by simp))).elim
      · rintro ⟨hm, -⟩
        exact (hx' (hm c List.mem_cons_self)).elim

/-- C13, likewise. -/
theorem C13_fast_parallel_runs_lost_partial {lg pad h : Nat} (hlg : 3 ≤ lg ∧ lg ≤ 6) {cs : List (Bool × List Nat)} {Ts : List FNav}
    (hTs : List.Forall₂ (FastCoded lg pad h) cs Ts) (hne : Ts ≠ []) (hlen : Ts.length ≤ 16)
    (env : Env) (hw : env.hw ≠ 0) (hw2 : env.hw < 2 ^ 16) (hcut : Nat.log2 env.hw + 2 ≤ h) {j : Nat} (hj : j = h - 1 - Nat.log2 env.hw + lg) :
    ∃ R, fastIntersect lg Ts true true env = .ok R ∧ R.Nodup ∧ ∀ x, x ∈ R ↔ (∀ c ∈ cs, x ∈ c.2) ∧
      ¬ uneven cs (h - 1 + lg) (if isSplit cs j (Nat.log2 env.hw) (x / 2 ^ j) then j else j + 1) x := by
  have e := C13_fast_parallel_runs_result_partial hlg hTs hne hlen env hw hw2 hcut
  rw [← hj] at e
  have hH : List.Forall₂ (FHoldsR lg (h - 1)) (cs.map Prod.snd) Ts := List.forall₂_map_left_iff.2 (hTs.imp fun _ _ H => H.toRuns.holds hlg)
  obtain ⟨R, e', h1, h2⟩ := fastIntersect_par_runs (by omega) hH (by omega) hne hlen hw hw2
  rw [e'] at e
  cases e
  refine ⟨_, e', h2, fun x => ?_⟩
  have hb := forall2_imp_left hTs fun _ _ H => (H.toRuns.holds hlg).below
  have hth : j + Nat.log2 env.hw = h - 1 + lg := by omega
  by_cases hx : x < 2 ^ (h - 1 + lg)
  · have := mem_runsResult (cs := cs) (j := j) (cut := Nat.log2 env.hw) (x := x) (by omega) (by rwa [hth])
    rwa [hth] at this
  · cases hTs with
    | nil => exact (hne rfl).elim
    | @cons c T cs Ts hc _ =>
      have hx' : x ∉ c.2 := fun hm => hx (hb c List.mem_cons_self x hm)
      constructor
      · intro hm
        exact (hx' (h1 x hm c.2 (by simp))).elim
      · rintro ⟨hm, -⟩
        exact (hx' (hm c List.mem_cons_self)).elim

/-- Of the common elements of `sA` and `sB` on 4 hardware threads, 0 is lost in the full block of 8 that only `sB` has, 8 in the block
of 4 that only `sA` has and that was replaced by its halves; 14 is returned. -/
example : uneven [(true, Ex.sA), (true, Ex.sB)] 4 3 0 ∧ ¬ uneven [(true, Ex.sA), (true, Ex.sB)] 4 3 8 ∧
    isSplit [(true, Ex.sA), (true, Ex.sB)] 2 2 2 = true ∧ uneven [(true, Ex.sA), (true, Ex.sB)] 4 2 8 ∧
    ¬ uneven [(true, Ex.sA), (true, Ex.sB)] 4 2 14 := by
  refine ⟨⟨3, by decide, by decide, by decide +kernel, by decide +kernel⟩, ?_, by decide +kernel,
    ⟨2, by decide, by decide, by decide +kernel, by decide +kernel⟩, ?_⟩
  · rintro ⟨i, h1, h2, h3, -⟩
    obtain rfl | rfl : i = 3 ∨ i = 4 := by omega
    · revert h3; decide +kernel
    · revert h3; decide +kernel
  · rintro ⟨i, h1, h2, h3, -⟩
    obtain rfl | rfl | rfl : i = 2 ∨ i = 3 ∨ i = 4 := by omega
    · revert h3; decide +kernel
    · revert h3; decide +kernel
    · revert h3; decide +kernel

/-! ## Memory and macOS -/

theorem mem_parallel {Ts : List Nav} (hne : Ts ≠ []) {H : Nat} (hh : ∀ n ∈ Ts, n.height = H) (runs : Bool) (env : Env) :
    memIntersect Ts runs true env = memBody Ts (flatCfg H) H runs true env := by
  cases Ts with
  | nil => exact (hne rfl).elim
  | cons T Ts =>
    have h0 := hh T List.mem_cons_self
    have hall : ¬ (T :: Ts).any (fun T' => T'.height ≠ T.height) = true := by
      simp only [List.any_eq_true, not_exists, not_and]
      intro T' hT'
      rw [hh T' hT', h0]
      simp
    rw [memIntersect, if_neg hall, h0]

theorem fast_mem_parallel {lg : Nat} {Ts : List FNav} (hne : Ts ≠ []) {H : Nat} (hH : H ≠ 0) (hh : ∀ n ∈ Ts, n.height = H) (runs : Bool)
    (env : Env) : memFastIntersect lg Ts runs true env = memBody (Ts.map FNav.toNav) (fastCfg lg Ts H) H runs true env := by
  cases Ts with
  | nil => exact (hne rfl).elim
  | cons T Ts =>
    have h0 := hh T List.mem_cons_self
    have hall : ¬ (T :: Ts).any (fun T' => T'.height ≠ T.height) = true := by
      simp only [List.any_eq_true, not_exists, not_and]
      intro T' hT'
      rw [hh T' hT', h0]
      simp
    rw [memFastIntersect, if_neg hall, h0, if_neg hH]

theorem mac_parallel {Ts : List Nav} (hne : Ts ≠ []) {H : Nat} (hh : ∀ n ∈ Ts, n.height = H) (runs : Bool) (env : Env) :
    macIntersect Ts runs true env = macBody Ts (flatCfg H) H runs true env := by
  cases Ts with
  | nil => exact (hne rfl).elim
  | cons T Ts =>
    have h0 := hh T List.mem_cons_self
    have hall : ¬ (T :: Ts).any (fun T' => T'.height ≠ T.height) = true := by
      simp only [List.any_eq_true, not_exists, not_and]
      intro T' hT'
      rw [hh T' hT', h0]
      simp
    rw [macIntersect, if_neg hall, h0]

theorem fast_mac_parallel {lg : Nat} {Ts : List FNav} (hne : Ts ≠ []) {H : Nat} (hH : H ≠ 0) (hh : ∀ n ∈ Ts, n.height = H) (runs : Bool)
    (env : Env) : macFastIntersect lg Ts runs true env = macBody (Ts.map FNav.toNav) (fastCfg lg Ts H) H runs true env := by
  cases Ts with
  | nil => exact (hne rfl).elim
  | cons T Ts =>
    have h0 := hh T List.mem_cons_self
    have hall : ¬ (T :: Ts).any (fun T' => T'.height ≠ T.height) = true := by
      simp only [List.any_eq_true, not_exists, not_and]
      intro T' hT'
      rw [hh T' hT', h0]
      simp
    rw [macFastIntersect, if_neg hall, h0, if_neg hH]

/-- C55, exactly, for run-aware calls on plain and run-encoded tries: two arrays are left allocated for every task replaced by its
halves. -/
theorem C55_runs_leak_exact_partial {pad h : Nat} {cs : List (Bool × List Nat)} {Ts : List Nav}
    (hTs : List.Forall₂ (CodedTrie pad h) cs Ts) (hne : Ts ≠ []) (hlen : Ts.length ≤ 16)
    (env : Env) (hw : env.hw ≠ 0) (hw2 : env.hw < 2 ^ 16) (hcut : Nat.log2 env.hw + 2 ≤ h) :
    ∃ H, memIntersect Ts true true env = .ok (runsResult cs (h - Nat.log2 env.hw) (Nat.log2 env.hw), H) ∧
      H.live = 2 * splitBlocks cs (h - Nat.log2 env.hw) (Nat.log2 env.hw) := by
  have e := C12_parallel_runs_result_partial hTs hne hlen env hw hw2 hcut
  rw [← C55_no_invalid_free_partial] at e
  cases hm : memIntersect Ts true true env with
  | error _ => rw [hm] at e; cases e
  | ok p =>
    obtain ⟨R', H⟩ := p
    rw [hm] at e
    cases e
    refine ⟨H, rfl, ?_⟩
    obtain ⟨d, hd⟩ : ∃ d, h - 1 = d + 1 + Nat.log2 env.hw := ⟨h - 2 - Nat.log2 env.hw, by omega⟩
    obtain ⟨e, rfl⟩ : ∃ e, h = e + 1 := ⟨h - 1, by omega⟩
    rw [Nat.add_sub_cancel] at hd
    subst hd
    have hcs : cs ≠ [] := by rintro rfl; cases hTs; exact hne rfl
    obtain ⟨ts, h1, h2⟩ := forall2_trees (Q := fun n t => Rep n (leafF n) (d + 1 + Nat.log2 env.hw) 0 t 0)
      (Q' := CTree 1 (d + 1 + Nat.log2 env.hw)) hTs fun _ _ H => H.tree
    have hd : d + 1 + Nat.log2 env.hw ≤ 62 := by
      cases hTs with
      | nil => exact (hne rfl).elim
      | cons h _ => exact h.runs.holds.depth
    have hh := forall2_imp_right hTs fun _ _ h => h.runs.holds.height
    rw [Nat.add_sub_cancel] at hh
    rw [mem_parallel hne hh] at hm
    have := memBody_live_exact id leafF (b := 1) (c := flatCfg (d + 1 + Nat.log2 env.hw + 1)) (height := d + 1 + Nat.log2 env.hw + 1)
      hne h1 hlen (by rfl) (show d + 1 + Nat.log2 env.hw + 1 < 64 by omega) hw hw2 (by omega) (by rw [List.map_id]; exact hm)
    rw [this, splitCount_eq (agree_of h2 hcs), show d + 1 + Nat.log2 env.hw + 1 - Nat.log2 env.hw = d + 1 + 1 by omega]
    rfl

theorem C55_fast_runs_leak_exact_partial {lg pad h : Nat} (hlg : 3 ≤ lg ∧ lg ≤ 6) {cs : List (Bool × List Nat)} {Ts : List FNav}
    (hTs : List.Forall₂ (FastCoded lg pad h) cs Ts) (hne : Ts ≠ []) (hlen : Ts.length ≤ 16)
    (env : Env) (hw : env.hw ≠ 0) (hw2 : env.hw < 2 ^ 16) (hcut : Nat.log2 env.hw + 2 ≤ h) :
    ∃ H, memFastIntersect lg Ts true true env = .ok (runsResult cs (h - 1 - Nat.log2 env.hw + lg) (Nat.log2 env.hw), H) ∧
      H.live = 2 * splitBlocks cs (h - 1 - Nat.log2 env.hw + lg) (Nat.log2 env.hw) := by
  have e := C13_fast_parallel_runs_result_partial hlg hTs hne hlen env hw hw2 hcut
  rw [← C55_fast_no_invalid_free_partial] at e
  cases hm : memFastIntersect lg Ts true true env with
  | error _ => rw [hm] at e; cases e
  | ok p =>
    obtain ⟨R', H⟩ := p
    rw [hm] at e
    cases e
    refine ⟨H, rfl, ?_⟩
    obtain ⟨d, hd⟩ : ∃ d, h - 1 = d + 1 + Nat.log2 env.hw := ⟨h - 2 - Nat.log2 env.hw, by omega⟩
    obtain ⟨e, rfl⟩ : ∃ e, h = e + 1 := ⟨h - 1, by omega⟩
    rw [Nat.add_sub_cancel] at hd
    subst hd
    have hcs : cs ≠ [] := by rintro rfl; cases hTs; exact hne rfl
    obtain ⟨ts, h1, h2⟩ := forall2_trees (Q := fun n t => Rep n.toNav (leafW lg n) (d + 1 + Nat.log2 env.hw) 0 t 0)
      (Q' := CTree lg (d + 1 + Nat.log2 env.hw)) hTs fun _ _ H => H.tree hlg
    have hd : d + 1 + Nat.log2 env.hw + lg ≤ 62 := by
      cases hTs with
      | nil => exact (hne rfl).elim
      | cons h _ => exact (h.toRuns.holds hlg).depth
    have hh := forall2_imp_right hTs fun _ _ h => (h.toRuns.holds hlg).height
    rw [Nat.add_sub_cancel] at hh
    rw [fast_mem_parallel hne (Nat.succ_ne_zero _) hh] at hm
    have := memBody_live_exact FNav.toNav (leafW lg) (b := lg) (c := fastCfg lg Ts (d + 1 + Nat.log2 env.hw + 1))
      (height := d + 1 + Nat.log2 env.hw + 1) hne h1 hlen (by simp only [fastCfg]; omega) (by simp only [fastCfg]; omega) hw hw2
      (by omega) hm
    rw [this, splitCount_eq (agree_of h2 hcs), show d + 1 + Nat.log2 env.hw + 1 - 1 - Nat.log2 env.hw + lg = d + 1 + lg by omega]
    rfl

/-- One task replaced by its halves, and none. -/
example : splitBlocks [(true, Ex.sA), (true, Ex.sB)] 2 2 = 2 ∧ splitBlocks [(true, Ex.sC), (true, Ex.sC)] 2 2 = 1 ∧
    splitBlocks [(false, Ex.sA), (false, Ex.sB)] 2 2 = 0 := by decide +kernel

/-- C57, exactly, for run-aware calls on plain and run-encoded tries. -/
theorem C57_runs_mac_exact_partial {pad h : Nat} {cs : List (Bool × List Nat)} {Ts : List Nav}
    (hTs : List.Forall₂ (CodedTrie pad h) cs Ts) (hne : Ts ≠ []) (hlen : Ts.length ≤ 16)
    (env : Env) (hw : env.hw ≠ 0) (hw2 : env.hw < 2 ^ 16) (hcut : Nat.log2 env.hw + 2 ≤ h) :
    macIntersect Ts true true env = if threadBlocks cs (h - Nat.log2 env.hw) (Nat.log2 env.hw) ≤ 32 then
      .ok (runsResult cs (h - Nat.log2 env.hw) (Nat.log2 env.hw)) else .error .shift := by
  have er := C12_parallel_runs_result_partial hTs hne hlen env hw hw2 hcut
  obtain ⟨d, hd⟩ : ∃ d, h - 1 = d + 1 + Nat.log2 env.hw := ⟨h - 2 - Nat.log2 env.hw, by omega⟩
  obtain ⟨e, rfl⟩ : ∃ e, h = e + 1 := ⟨h - 1, by omega⟩
  rw [Nat.add_sub_cancel] at hd
  subst hd
  have hcs : cs ≠ [] := by rintro rfl; cases hTs; exact hne rfl
  obtain ⟨ts, h1, h2⟩ := forall2_trees (Q := fun n t => Rep n (leafF n) (d + 1 + Nat.log2 env.hw) 0 t 0)
    (Q' := CTree 1 (d + 1 + Nat.log2 env.hw)) hTs fun _ _ H => H.tree
  have hd : d + 1 + Nat.log2 env.hw ≤ 62 := by
    cases hTs with
    | nil => exact (hne rfl).elim
    | cons h _ => exact h.runs.holds.depth
  have hh := forall2_imp_right hTs fun _ _ h => h.runs.holds.height
  rw [Nat.add_sub_cancel] at hh
  have := macBody_exact id leafF (b := 1) (c := flatCfg (d + 1 + Nat.log2 env.hw + 1)) (height := d + 1 + Nat.log2 env.hw + 1)
    hne h1 hlen (by rfl) (show d + 1 + Nat.log2 env.hw + 1 < 64 by omega) hw hw2 (by omega)
  rw [List.map_id, taskCount_eq (agree_of h2 hcs), ← intersect_unfold hne hh, er] at this
  rw [mac_parallel hne hh, this, show d + 1 + Nat.log2 env.hw + 1 - Nat.log2 env.hw = d + 1 + 1 by omega]

theorem C57_fast_runs_mac_exact_partial {lg pad h : Nat} (hlg : 3 ≤ lg ∧ lg ≤ 6) {cs : List (Bool × List Nat)} {Ts : List FNav}
    (hTs : List.Forall₂ (FastCoded lg pad h) cs Ts) (hne : Ts ≠ []) (hlen : Ts.length ≤ 16)
    (env : Env) (hw : env.hw ≠ 0) (hw2 : env.hw < 2 ^ 16) (hcut : Nat.log2 env.hw + 2 ≤ h) :
    macFastIntersect lg Ts true true env = if threadBlocks cs (h - 1 - Nat.log2 env.hw + lg) (Nat.log2 env.hw) ≤ 32 then
      .ok (runsResult cs (h - 1 - Nat.log2 env.hw + lg) (Nat.log2 env.hw)) else .error .shift := by
  have er := C13_fast_parallel_runs_result_partial hlg hTs hne hlen env hw hw2 hcut
  obtain ⟨d, hd⟩ : ∃ d, h - 1 = d + 1 + Nat.log2 env.hw := ⟨h - 2 - Nat.log2 env.hw, by omega⟩
  obtain ⟨e, rfl⟩ : ∃ e, h = e + 1 := ⟨h - 1, by omega⟩
  rw [Nat.add_sub_cancel] at hd
  subst hd
  have hcs : cs ≠ [] := by rintro rfl; cases hTs; exact hne rfl
  obtain ⟨ts, h1, h2⟩ := forall2_trees (Q := fun n t => Rep n.toNav (leafW lg n) (d + 1 + Nat.log2 env.hw) 0 t 0)
    (Q' := CTree lg (d + 1 + Nat.log2 env.hw)) hTs fun _ _ H => H.tree hlg
  have hd : d + 1 + Nat.log2 env.hw + lg ≤ 62 := by
    cases hTs with
    | nil => exact (hne rfl).elim
    | cons h _ => exact (h.toRuns.holds hlg).depth
  have hh := forall2_imp_right hTs fun _ _ h => (h.toRuns.holds hlg).height
  rw [Nat.add_sub_cancel] at hh
  have := macBody_exact FNav.toNav (leafW lg) (b := lg) (c := fastCfg lg Ts (d + 1 + Nat.log2 env.hw + 1))
    (height := d + 1 + Nat.log2 env.hw + 1) hne h1 hlen (by simp only [fastCfg]; omega) (by simp only [fastCfg]; omega) hw hw2 (by omega)
  rw [taskCount_eq (agree_of h2 hcs), ← fastIntersect_unfold hne hh, er] at this
  rw [fast_mac_parallel hne (Nat.succ_ne_zero _) hh, this, show d + 1 + Nat.log2 env.hw + 1 - 1 - Nat.log2 env.hw + lg = d + 1 + lg by omega]

/-- Run encoding decides: of the numbers below 15, the first eight are a collapsed block. -/
example : threadBlocks [(false, List.range 15)] 2 2 = 4 ∧ threadBlocks [(true, List.range 15)] 2 2 = 2 := by decide +kernel

end CBT
