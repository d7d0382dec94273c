import Verif.Model.Access
import Verif.SpecRace
import Verif.Proof.Memory
import Verif.Proof.Threads

/-!
# The accesses of the parallel sections
-/

namespace CBT

open Spec

/-! ## The accesses belong to `Intersect` -/

theorem ANDa_snd (Ts : List Nav) (c : Cfg) (t : Nat) : (rem level : Nat) → (top : Bool) → (roots : List (Option Nat)) →
    (pref : Nat) → (r : List Nat) → (ANDa Ts c t rem level top roots pref r).map Prod.snd = AND Ts c rem level roots pref r
  | 0, level, top, roots, pref, r => by
    rw [ANDa, AND]
    cases c.base roots pref r <;> rfl
  | rem + 1, level, top, roots, pref, r => by
    rw [ANDa, AND, R_map_bind]
    refine R_bind_congr _ fun res _ => ?_
    dsimp only
    rw [ite_map]
    split
    · rfl
    rw [ite_map]
    split
    · rw [R_map_bind]
      refine R_bind_congr _ fun ln _ => ?_
      rw [← ANDa_snd Ts c t rem (level + 1) false]
      cases ANDa Ts c t rem (level + 1) false ln pref r <;> rfl
    rw [ite_map]
    split
    · rw [R_map_bind]
      refine R_bind_congr _ fun s _ => ?_
      rw [R_map_bind]
      refine R_bind_congr _ fun ln _ => ?_
      rw [← ANDa_snd Ts c t rem (level + 1) false]
      cases ANDa Ts c t rem (level + 1) false ln (pref ||| s) r <;> rfl
    rw [ite_map]
    split
    · rw [R_map_bind]
      refine R_bind_congr _ fun s _ => ?_
      rw [R_map_bind]
      refine R_bind_congr _ fun ln _ => ?_
      rw [← ANDa_snd Ts c t rem (level + 1) false ln, R_bind_map, R_map_bind]
      refine R_bind_congr _ fun ⟨a, r'⟩ _ => ?_
      rw [← ANDa_snd Ts c t rem (level + 1) false]
      dsimp only
      cases ANDa Ts c t rem (level + 1) false (succRoots ln) (pref ||| s) r' <;> rfl
    · rfl

theorem runsANDa_snd (Ts : List Nav) (c : Cfg) (t : Nat) : (rem level : Nat) → (top : Bool) → (roots : List (Option Nat)) →
    (active : List Bool) → (pref : Nat) → (r : List Nat) →
    (runsANDa Ts c t rem level top roots active pref r).map Prod.snd = runsAND Ts c rem level roots active pref r
  | 0, level, top, roots, active, pref, r => by
    rw [runsANDa, runsAND]
    cases c.runsBase roots active pref r <;> rfl
  | rem + 1, level, top, roots, active, pref, r => by
    rw [runsANDa, runsAND, R_map_bind]
    refine R_bind_congr _ fun ⟨tmp, an, orr⟩ _ => ?_
    dsimp only
    rw [ite_map]
    split
    · rfl
    rw [ite_map]
    split
    · cases fillRange pref (c.top - level) r <;> rfl
    rw [ite_map]
    split
    · rw [R_map_bind]
      refine R_bind_congr _ fun ln _ => ?_
      rw [← runsANDa_snd Ts c t rem (level + 1) false]
      cases runsANDa Ts c t rem (level + 1) false ln tmp pref r <;> rfl
    rw [ite_map]
    split
    · rw [R_map_bind]
      refine R_bind_congr _ fun s _ => ?_
      rw [R_map_bind]
      refine R_bind_congr _ fun ln _ => ?_
      rw [← runsANDa_snd Ts c t rem (level + 1) false]
      cases runsANDa Ts c t rem (level + 1) false ln tmp (pref ||| s) r <;> rfl
    rw [ite_map]
    split
    · rw [R_map_bind]
      refine R_bind_congr _ fun s _ => ?_
      rw [R_map_bind]
      refine R_bind_congr _ fun ln _ => ?_
      rw [← runsANDa_snd Ts c t rem (level + 1) false ln, R_bind_map, R_map_bind]
      refine R_bind_congr _ fun ⟨a, r'⟩ _ => ?_
      rw [← runsANDa_snd Ts c t rem (level + 1) false]
      dsimp only
      cases runsANDa Ts c t rem (level + 1) false (succRoots ln) tmp (pref ||| s) r' <;> rfl
    · rfl

/-- Both fail alike, or neither does. -/
def SameUB {A B : Type} (x : R A) (y : R B) : Prop := x.map (fun _ => ()) = y.map (fun _ => ())

theorem SameUB.bind {A B C : Type} {x : R A} {y : R B} (h : SameUB x y) (k : B → R C) : (x >>= fun _ => y >>= k) = y >>= k := by
  cases x with
  | ok _ => rfl
  | error e =>
    cases y with
    | ok _ => cases h
    | error e' =>
      have : e = e' := by injection h
      subst this; rfl

theorem SameUB.ok {A B : Type} {x : R A} {y : R B} (h : SameUB x y) {b : B} (hy : y = .ok b) : ∃ a, x = .ok a := by
  subst hy
  cases x with
  | ok a => exact ⟨a, rfl⟩
  | error _ => cases h

theorem SameUB.mapM {A B C : Type} {f : A → R B} {g : A → R C} (h : ∀ a, SameUB (f a) (g a)) : (l : List A) → SameUB (l.mapM f) (l.mapM g)
  | [] => rfl
  | a :: l => by
    have h1 := h a
    have h2 := SameUB.mapM h l
    rw [List.mapM_cons, List.mapM_cons]
    unfold SameUB at *
    cases hf : f a <;> cases hg : g a <;> rw [hf, hg] at h1
    · injection h1 with h1; subst h1; rfl
    · cases h1
    · cases h1
    · simp only [R_bind_ok]
      cases hl : l.mapM f <;> cases hm : l.mapM g <;> rw [hl, hm] at h2
      · injection h2 with h2; subst h2; rfl
      · cases h2
      · cases h2
      · rfl

/-- The threads of a section fail as those of the loop do. -/
theorem sameUB_chunks {α : Type} {f : Nat → R (List Access)} {g : Nat → R (List α)} (h : ∀ t, SameUB (f t) (g t)) (l : List (Nat × Nat)) :
    SameUB (l.mapM fun c => (do let bs ← (chunkIndices c).mapM f; pure bs.flatten : R (List Access)))
      (l.mapM fun c => (do let bs ← (chunkIndices c).mapM g; pure bs.flatten : R (List α))) := by
  refine SameUB.mapM (fun c => ?_) l
  have := SameUB.mapM h (chunkIndices c)
  unfold SameUB at *
  cases hf : (chunkIndices c).mapM f <;> cases hg : (chunkIndices c).mapM g <;> rw [hf, hg] at this
  · injection this with this; subst this; rfl
  · cases this
  · cases this
  · rfl

theorem threadAccesses_bind {α σ A : Type} {act : α → σ → R σ} {sched : List Nat} {nb k : Nat} {f : Nat → R (List Access)}
    {g : Nat → R (List α)} (h : ∀ t, SameUB (f t) (g t)) (s : σ) (K : σ → R A) :
    (threadAccesses nb k f >>= fun _ => parallelFor act sched nb k g s >>= K) = (parallelFor act sched nb k g s >>= K) := by
  rw [threadAccesses, parallelFor]
  cases parallelChunks nb k with
  | error _ => rfl
  | ok chunks =>
    simp only [R_bind_ok, bind_assoc]
    exact (sameUB_chunks h chunks).bind _

theorem threadAccesses_ok {α σ : Type} {act : α → σ → R σ} {sched : List Nat} {nb k : Nat} {f : Nat → R (List Access)}
    {g : Nat → R (List α)} (h : ∀ t, SameUB (f t) (g t)) {s s' : σ} (hp : parallelFor act sched nb k g s = .ok s') :
    ∃ l, threadAccesses nb k f = .ok l := by
  rw [parallelFor] at hp
  obtain ⟨chunks, hc, hp⟩ := bind_ok hp
  obtain ⟨progs, hp', -⟩ := bind_ok hp
  rw [threadAccesses, hc]
  exact (sameUB_chunks h chunks).ok hp'

theorem sectionOne_sameUB (Ts : List Nav) (c : Cfg) (runs : Bool) (next : List Task) (levels : List Nat) (t : Nat) :
    SameUB (sectionOne Ts c runs next levels t) (do
      let task ← vGet next t
      let level ← vGet levels t
      let out ← if runs then runsAND Ts c (c.stop - level) level task.roots task.active task.part []
                else AND Ts c (c.stop - level) level task.roots task.part []
      pure (out.map fun x => (t, x)) : R (List (Nat × Nat))) := by
  rw [sectionOne, SameUB]
  cases vGet next t with
  | error _ => rfl
  | ok task =>
    simp only [R_bind_ok]
    cases vGet levels t with
    | error _ => rfl
    | ok level =>
      simp only [R_bind_ok]
      cases runs with
      | true =>
        simp only [if_true]
        rw [← runsANDa_snd Ts c t (c.stop - level) level true]
        cases runsANDa Ts c t (c.stop - level) level true task.roots task.active task.part [] <;> rfl
      | false =>
        simp only [Bool.false_eq_true, if_false]
        rw [← ANDa_snd Ts c t (c.stop - level) level true]
        cases ANDa Ts c t (c.stop - level) level true task.roots task.part [] <;> rfl

theorem sectionTwo_sameUB (inter : List Nat) (results : List (List Nat)) (t : Nat) :
    SameUB (sectionTwo inter results t) (do
        let v ← vGet results t
        let sh ← vGet (shiftsOf results inter.length) t
        pure ((List.range v.length).zip v |>.map fun jx => (jx.1 + sh, jx.2)) : R (List (Nat × Nat))) := by
  rw [sectionTwo, SameUB]
  cases vGet results t with
  | error _ => rfl
  | ok v =>
    simp only [R_bind_ok]
    cases vGet (shiftsOf results inter.length) t <;> rfl

/-- Listing the accesses changes nothing. -/
theorem accessBody_map (Ts : List Nav) (c : Cfg) (height : Nat) (runs parallel : Bool) (env : Env) :
    (accessBody Ts c height runs parallel env).map Prod.fst = intersectBody Ts c height runs parallel env := by
  by_cases hw : env.hw = 0
  · simp only [accessBody, intersectBody, hw, if_true]
    rfl
  by_cases hc : parallel = true ∧ Nat.log2 env.hw ≤ (height + 2 ^ 64 - 2) % 2 ^ 64
  · rw [accessBody, intersectBody]
    generalize List.replicate 16 (some 0) = ro at *
    generalize Nat.log2 env.hw = cut at *
    simp only [hw, hc, if_false, and_self, if_true]
    rw [R_map_bind]
    refine R_bind_congr _ fun s hs => ?_
    by_cases h0 : s.tasks.length = 0
    · rw [if_pos h0, if_pos h0]
      rfl
    rw [if_neg h0, if_neg h0]
    rw [R_map_bind]
    refine R_bind_congr _ fun ⟨rest, used, s'⟩ hf => ?_
    dsimp only
    by_cases hz : (s'.tasks ++ rest).length = 0
    · rw [if_pos hz, if_pos hz]
      rfl
    rw [if_neg hz, if_neg hz]
    rw [← threadAccesses_bind (sectionOne_sameUB Ts c runs (s'.tasks ++ rest) _), R_map_bind]
    refine R_bind_congr _ fun one _ => ?_
    rw [R_map_bind]
    refine R_bind_congr _ fun results hr => ?_
    rw [R_map_bind]
    cases hg : gather env.sched2 s'.r results used with
    | error _ => rfl
    | ok r =>
      simp only [R_bind_ok]
      by_cases hb : s'.r.length + (results.map List.length).sum > 450000
      · rw [gather] at hg
        simp only [hb, if_true] at hg ⊢
        obtain ⟨two, e⟩ := threadAccesses_ok (sectionTwo_sameUB s'.r results) hg
        rw [e]
        rfl
      · simp only [hb, if_false]
        rfl
  · simp only [accessBody, intersectBody, hw, hc, if_false]
    cases runs
    · simp only [Bool.false_eq_true, if_false]
      rw [R_map_bind]
      cases AND Ts c c.stop 0 (List.replicate 16 (some 0)) 0 [] <;> rfl
    · simp only [if_true]
      rw [R_map_bind]
      cases runsAND Ts c c.stop 0 (List.replicate 16 (some 0)) (List.replicate 16 true) 0 [] <;> rfl

/-! ## No conflicts -/

/-- Thread `i` may make the access: it reads a location that belongs to nobody, or the location belongs to index `i`. -/
def Owned (owner : Loc → Option Nat) (i : Nat) (a : Access) : Prop := owner a.1 = none ∧ a.2 = false ∨ owner a.1 = some i

theorem owned_noConflict {owner : Loc → Option Nat} {i j : Nat} (hij : i ≠ j) {a b : Access} (ha : Owned owner i a) (hb : Owned owner j b) :
    ¬ Conflict a b := by
  rintro ⟨h1, h2⟩
  rw [Owned, h1] at ha
  rw [Owned] at hb
  rcases ha with ⟨ha, ha'⟩ | ha <;> rcases hb with ⟨hb, hb'⟩ | hb <;> rw [ha] at hb
  · rcases h2 with h2 | h2
    · rw [ha'] at h2; cases h2
    · rw [hb'] at h2; cases h2
  · cases hb
  · cases hb
  · injection hb with hb; exact hij hb

theorem access_mapM {A B : Type} {f : A → R B} : (l : List A) → {m : List B} → l.mapM f = .ok m → List.Forall₂ (fun a b => f a = .ok b) l m
  | [], m, h => by cases h; exact .nil
  | a :: l, m, h => by
    rw [List.mapM_cons] at h
    obtain ⟨b, hb, h⟩ := bind_ok h
    obtain ⟨bs, hbs, h⟩ := bind_ok h
    cases h
    exact .cons hb (access_mapM l hbs)

theorem access_get {A B : Type} {P : A → B → Prop} {l : List A} {m : List B} (h : List.Forall₂ P l m) {i : Nat} (hi : i < m.length)
    (hi' : i < l.length) : P l[i] m[i] := by
  induction h generalizing i with
  | nil => exact absurd hi (Nat.not_lt_zero _)
  | cons h _ ih =>
    cases i with
    | zero => exact h
    | succ i => exact ih (Nat.lt_of_succ_lt_succ hi) (Nat.lt_of_succ_lt_succ hi')

theorem threadAccesses_raceFree {nb k : Nat} {body : Nat → R (List Access)} {threads : List (List Access)} (owner : Loc → Option Nat)
    (hb : ∀ i l, body i = .ok l → ∀ a ∈ l, Owned owner i a) (h : threadAccesses nb k body = .ok threads) : RaceFree threads := by
  rw [threadAccesses] at h
  obtain ⟨chunks, hc, h⟩ := bind_ok h
  have hk : 0 < k := by
    rcases Nat.eq_zero_or_pos k with rfl | hk
    · cases hc
    · exact hk
  obtain ⟨chunks', hc', -, -, hfl⟩ := parallelChunks_ok (n := nb) hk
  have : chunks' = chunks := by rw [hc] at hc'; injection hc' with e; exact e.symm
  subst this
  have hnd : (chunks'.map chunkIndices).flatten.Nodup := by rw [hfl]; exact List.nodup_range
  rw [List.nodup_flatten] at hnd
  have hpw := hnd.2
  rw [List.pairwise_map] at hpw
  have hmem : ∀ c l, (do let bs ← (chunkIndices c).mapM body; pure bs.flatten : R (List Access)) = .ok l → ∀ a ∈ l,
      ∃ i ∈ chunkIndices c, Owned owner i a := by
    intro c l hl a ha
    obtain ⟨bs, hbs, e⟩ := bind_ok hl
    cases e
    obtain ⟨b, hbm, hab⟩ := List.mem_flatten.1 ha
    have hf := access_mapM _ hbs
    obtain ⟨n, hn, rfl⟩ := List.getElem_of_mem hbm
    have hn' : n < (chunkIndices c).length := by rw [hf.length_eq]; exact hn
    exact ⟨_, List.getElem_mem hn', hb _ _ (access_get hf hn hn') a hab⟩
  have hf := access_mapM _ h
  intro i j hi hj hij a ha b hb'
  have hi' : i < chunks'.length := by rw [hf.length_eq]; exact hi
  have hj' : j < chunks'.length := by rw [hf.length_eq]; exact hj
  obtain ⟨x, hx, hax⟩ := hmem _ _ (access_get hf hi hi') a ha
  obtain ⟨y, hy, hby⟩ := hmem _ _ (access_get hf hj hj') b hb'
  have hxy : x ≠ y := by
    rintro rfl
    rw [List.pairwise_iff_getElem] at hpw
    rcases Nat.lt_or_gt_of_ne hij with h' | h'
    · exact hpw i j hi' hj' h' hx hy
    · exact hpw j i hj' hi' h' hy hx
  exact owned_noConflict hxy hax hby

/-- In the first section a thread owns its result. -/
def owner1 : Loc → Option Nat
  | .result t => some t
  | _ => none

theorem loopReads_owned (n t i : Nat) (top : Bool) : ∀ a ∈ loopReads n t top, Owned owner1 i a := by
  intro a ha
  simp only [loopReads, List.mem_append, List.mem_cons, List.not_mem_nil, or_false, List.mem_map] at ha
  rcases ha with ((rfl | rfl) | ⟨x, -, rfl⟩) | ha
  · exact .inl ⟨rfl, rfl⟩
  · exact .inl ⟨rfl, rfl⟩
  · exact .inl ⟨rfl, rfl⟩
  · cases top
    · simp at ha
    · simp only [if_true, List.mem_cons, List.not_mem_nil, or_false] at ha
      rcases ha with rfl | rfl <;> exact .inl ⟨rfl, rfl⟩

theorem result_owned (t : Nat) : Owned owner1 t (wr (.result t)) := .inr rfl

theorem ANDa_owned (Ts : List Nav) (c : Cfg) (t : Nat) : (rem level : Nat) → (top : Bool) → (roots : List (Option Nat)) →
    (pref : Nat) → (r : List Nat) → (l : List Access) → (r' : List Nat) → ANDa Ts c t rem level top roots pref r = .ok (l, r') →
    ∀ a ∈ l, Owned owner1 t a
  | 0, level, top, roots, pref, r, l, r', h => by
    rw [ANDa] at h
    obtain ⟨_, _, h⟩ := bind_ok h
    cases h
    intro a ha
    rcases List.mem_append.1 ha with ha | ha
    · exact loopReads_owned _ _ _ _ a ha
    · rw [List.mem_singleton.1 ha]; exact result_owned t
  | rem + 1, level, top, roots, pref, r, l, r', h => by
    rw [ANDa] at h
    obtain ⟨res, _, h⟩ := bind_ok h
    dsimp only at h
    split at h
    · cases h; exact loopReads_owned _ _ _ _
    split at h
    · obtain ⟨ln, _, h⟩ := bind_ok h
      obtain ⟨⟨x, r1⟩, h1, h⟩ := bind_ok h
      cases h
      intro a ha
      rcases List.mem_append.1 ha with ha | ha
      · exact loopReads_owned _ _ _ _ a ha
      · exact ANDa_owned Ts c t rem _ _ _ _ _ _ _ h1 a ha
    split at h
    · obtain ⟨s, _, h⟩ := bind_ok h
      obtain ⟨ln, _, h⟩ := bind_ok h
      obtain ⟨⟨x, r1⟩, h1, h⟩ := bind_ok h
      cases h
      intro a ha
      rcases List.mem_append.1 ha with ha | ha
      · exact loopReads_owned _ _ _ _ a ha
      · exact ANDa_owned Ts c t rem _ _ _ _ _ _ _ h1 a ha
    split at h
    · obtain ⟨s, _, h⟩ := bind_ok h
      obtain ⟨ln, _, h⟩ := bind_ok h
      obtain ⟨⟨x, r1⟩, h1, h⟩ := bind_ok h
      obtain ⟨⟨y, r2⟩, h2, h⟩ := bind_ok h
      cases h
      intro a ha
      rcases List.mem_append.1 ha with ha | ha
      · rcases List.mem_append.1 ha with ha | ha
        · exact loopReads_owned _ _ _ _ a ha
        · exact ANDa_owned Ts c t rem _ _ _ _ _ _ _ h1 a ha
      · exact ANDa_owned Ts c t rem _ _ _ _ _ _ _ h2 a ha
    · cases h; exact loopReads_owned _ _ _ _

theorem runsANDa_owned (Ts : List Nav) (c : Cfg) (t : Nat) : (rem level : Nat) → (top : Bool) → (roots : List (Option Nat)) →
    (active : List Bool) → (pref : Nat) → (r : List Nat) → (l : List Access) → (r' : List Nat) →
    runsANDa Ts c t rem level top roots active pref r = .ok (l, r') → ∀ a ∈ l, Owned owner1 t a
  | 0, level, top, roots, active, pref, r, l, r', h => by
    rw [runsANDa] at h
    obtain ⟨_, _, h⟩ := bind_ok h
    cases h
    intro a ha
    rcases List.mem_append.1 ha with ha | ha
    · exact loopReads_owned _ _ _ _ a ha
    · rw [List.mem_singleton.1 ha]; exact result_owned t
  | rem + 1, level, top, roots, active, pref, r, l, r', h => by
    rw [runsANDa] at h
    obtain ⟨⟨tmp, an, orr⟩, _, h⟩ := bind_ok h
    dsimp only at h
    split at h
    · cases h; exact loopReads_owned _ _ _ _
    split at h
    · obtain ⟨_, _, h⟩ := bind_ok h
      cases h
      intro a ha
      rcases List.mem_append.1 ha with ha | ha
      · exact loopReads_owned _ _ _ _ a ha
      · rw [List.mem_singleton.1 ha]; exact result_owned t
    split at h
    · obtain ⟨ln, _, h⟩ := bind_ok h
      obtain ⟨⟨x, r1⟩, h1, h⟩ := bind_ok h
      cases h
      intro a ha
      rcases List.mem_append.1 ha with ha | ha
      · exact loopReads_owned _ _ _ _ a ha
      · exact runsANDa_owned Ts c t rem _ _ _ _ _ _ _ _ h1 a ha
    split at h
    · obtain ⟨s, _, h⟩ := bind_ok h
      obtain ⟨ln, _, h⟩ := bind_ok h
      obtain ⟨⟨x, r1⟩, h1, h⟩ := bind_ok h
      cases h
      intro a ha
      rcases List.mem_append.1 ha with ha | ha
      · exact loopReads_owned _ _ _ _ a ha
      · exact runsANDa_owned Ts c t rem _ _ _ _ _ _ _ _ h1 a ha
    split at h
    · obtain ⟨s, _, h⟩ := bind_ok h
      obtain ⟨ln, _, h⟩ := bind_ok h
      obtain ⟨⟨x, r1⟩, h1, h⟩ := bind_ok h
      obtain ⟨⟨y, r2⟩, h2, h⟩ := bind_ok h
      cases h
      intro a ha
      rcases List.mem_append.1 ha with ha | ha
      · rcases List.mem_append.1 ha with ha | ha
        · exact loopReads_owned _ _ _ _ a ha
        · exact runsANDa_owned Ts c t rem _ _ _ _ _ _ _ _ h1 a ha
      · exact runsANDa_owned Ts c t rem _ _ _ _ _ _ _ _ h2 a ha
    · cases h; exact loopReads_owned _ _ _ _

theorem sectionOne_owned (Ts : List Nav) (c : Cfg) (runs : Bool) (next : List Task) (levels : List Nat) (t : Nat) (l : List Access)
    (h : sectionOne Ts c runs next levels t = .ok l) : ∀ a ∈ l, Owned owner1 t a := by
  rw [sectionOne] at h
  obtain ⟨task, _, h⟩ := bind_ok h
  obtain ⟨level, _, h⟩ := bind_ok h
  have hx : ∃ x, (∀ a ∈ x, Owned owner1 t a) ∧
      l = [rd (Loc.level t), rd (Loc.rootsPtr t), rd (Loc.part t)] ++ (if runs = true then [rd (Loc.activePtr t)] else []) ++ x := by
    cases runs with
    | true =>
      simp only [if_true] at h ⊢
      obtain ⟨⟨x, r⟩, h1, h⟩ := bind_ok h
      cases h
      exact ⟨x, runsANDa_owned Ts c t _ _ _ _ _ _ _ _ _ h1, rfl⟩
    | false =>
      simp only [Bool.false_eq_true, if_false] at h ⊢
      obtain ⟨⟨x, r⟩, h1, h⟩ := bind_ok h
      cases h
      exact ⟨x, ANDa_owned Ts c t _ _ _ _ _ _ _ _ h1, rfl⟩
  obtain ⟨x, hx, rfl⟩ := hx
  intro a ha
  rcases List.mem_append.1 ha with ha | ha
  · rcases List.mem_append.1 ha with ha | ha
    · simp only [List.mem_cons, List.not_mem_nil, or_false] at ha
      rcases ha with rfl | rfl | rfl <;> exact .inl ⟨rfl, rfl⟩
    · cases runs
      · simp at ha
      · simp only [if_true, List.mem_singleton] at ha
        rw [ha]; exact .inl ⟨rfl, rfl⟩
  · exact hx a ha

/-- The thread that writes position `k` of the output. -/
def ownerOut : (results : List (List Nat)) → (base k : Nat) → Option Nat
  | [], _, _ => none
  | v :: vs, base, k => if k < base + v.length then some 0 else (ownerOut vs (base + v.length) k).map (· + 1)

theorem ownerOut_eq : (results : List (List Nat)) → (base t : Nat) → (v : List Nat) → (sh j : Nat) → results[t]? = some v →
    (shiftsOf results base)[t]? = some sh → j < v.length → base ≤ sh ∧ ownerOut results base (j + sh) = some t
  | [], base, t, v, sh, j, h, _, _ => by simp at h
  | w :: vs, base, 0, v, sh, j, h, h', hj => by
    simp only [List.getElem?_cons_zero, shiftsOf] at h h'
    injection h with h; subst h
    injection h' with h'; subst h'
    exact ⟨Nat.le_refl _, by rw [ownerOut, if_pos (by omega)]⟩
  | w :: vs, base, t + 1, v, sh, j, h, h', hj => by
    simp only [List.getElem?_cons_succ, shiftsOf] at h h'
    obtain ⟨h1, h2⟩ := ownerOut_eq vs (base + w.length) t v sh j h h' hj
    refine ⟨by omega, ?_⟩
    rw [ownerOut, if_neg (by omega), h2]
    rfl

/-- In the second section a thread owns the positions it writes. -/
def owner2 (inter : List Nat) (results : List (List Nat)) : Loc → Option Nat
  | .out k => ownerOut results inter.length k
  | _ => none

theorem access_vGet {A : Type} {l : List A} {i : Nat} {a : A} (h : vGet l i = .ok a) : l[i]? = some a := by
  rw [vGet] at h
  split at h
  · rename_i e; rw [e]; cases h; rfl
  · cases h

theorem sectionTwo_owned (inter : List Nat) (results : List (List Nat)) (t : Nat) (l : List Access)
    (h : sectionTwo inter results t = .ok l) : ∀ a ∈ l, Owned (owner2 inter results) t a := by
  rw [sectionTwo] at h
  obtain ⟨v, hv, h⟩ := bind_ok h
  obtain ⟨sh, hs, h⟩ := bind_ok h
  cases h
  intro a ha
  obtain ⟨j, hj, ha⟩ := List.mem_flatMap.1 ha
  simp only [List.mem_cons, List.not_mem_nil, or_false] at ha
  rcases ha with rfl | rfl | rfl
  · exact .inl ⟨rfl, rfl⟩
  · exact .inl ⟨rfl, rfl⟩
  · exact .inr (ownerOut_eq results inter.length t v sh j (access_vGet hv) (access_vGet hs) (List.mem_range.1 hj)).2

theorem accessBody_raceFree {Ts : List Nav} {c : Cfg} {height : Nat} {runs parallel : Bool} {env : Env} {R : List Nat}
    {sections : List (List (List Access))} (h : accessBody Ts c height runs parallel env = .ok (R, sections)) :
    ∀ s ∈ sections, RaceFree s := by
  have nil : ∀ s ∈ ([] : List (List (List Access))), RaceFree s := fun s hs => nomatch hs
  by_cases hw : env.hw = 0
  · rw [accessBody] at h
    simp only [hw, if_true] at h
    cases h
  rw [accessBody] at h
  generalize List.replicate 16 (some 0) = ro at *
  generalize Nat.log2 env.hw = cut at *
  simp only [hw, if_false] at h
  split at h
  · obtain ⟨s, _, h⟩ := bind_ok h
    split at h
    · cases h; exact nil
    obtain ⟨⟨rest, used, s'⟩, _, h⟩ := bind_ok h
    dsimp only at h
    split at h
    · cases h; exact nil
    obtain ⟨one, h1, h⟩ := bind_ok h
    obtain ⟨results, _, h⟩ := bind_ok h
    obtain ⟨r, _, h⟩ := bind_ok h
    have r1 := threadAccesses_raceFree owner1 (sectionOne_owned Ts c runs _ _) h1
    split at h
    · obtain ⟨two, h2, h⟩ := bind_ok h
      cases h
      have r2 := threadAccesses_raceFree _ (sectionTwo_owned s'.r results) h2
      intro s hs
      simp only [List.mem_cons, List.not_mem_nil, or_false] at hs
      rcases hs with rfl | rfl
      · exact r1
      · exact r2
    · cases h
      intro s hs
      rw [List.mem_singleton.1 hs]
      exact r1
  split at h
  · obtain ⟨_, _, h⟩ := bind_ok h
    cases h; exact nil
  · obtain ⟨_, _, h⟩ := bind_ok h
    cases h; exact nil

/-! ## No write is missing -/

theorem ANDa_writes (Ts : List Nav) (c : Cfg) (t : Nat) : (rem level : Nat) → (top : Bool) → (roots : List (Option Nat)) →
    (pref : Nat) → (r : List Nat) → (l : List Access) → (r' : List Nat) → ANDa Ts c t rem level top roots pref r = .ok (l, r') →
    r' ≠ r → wr (.result t) ∈ l
  | 0, level, top, roots, pref, r, l, r', h, _ => by
    rw [ANDa] at h
    obtain ⟨_, _, h⟩ := bind_ok h
    cases h
    simp
  | rem + 1, level, top, roots, pref, r, l, r', h, hr => by
    rw [ANDa] at h
    obtain ⟨res, _, h⟩ := bind_ok h
    dsimp only at h
    split at h
    · cases h; exact absurd rfl hr
    split at h
    · obtain ⟨ln, _, h⟩ := bind_ok h
      obtain ⟨⟨x, r1⟩, h1, h⟩ := bind_ok h
      cases h
      exact List.mem_append_right _ (ANDa_writes Ts c t rem _ _ _ _ _ _ _ h1 hr)
    split at h
    · obtain ⟨s, _, h⟩ := bind_ok h
      obtain ⟨ln, _, h⟩ := bind_ok h
      obtain ⟨⟨x, r1⟩, h1, h⟩ := bind_ok h
      cases h
      exact List.mem_append_right _ (ANDa_writes Ts c t rem _ _ _ _ _ _ _ h1 hr)
    split at h
    · obtain ⟨s, _, h⟩ := bind_ok h
      obtain ⟨ln, _, h⟩ := bind_ok h
      obtain ⟨⟨x, r1⟩, h1, h⟩ := bind_ok h
      obtain ⟨⟨y, r2⟩, h2, h⟩ := bind_ok h
      cases h
      by_cases h1r : r1 = r
      · subst h1r
        exact List.mem_append_right _ (ANDa_writes Ts c t rem _ _ _ _ _ _ _ h2 hr)
      · exact List.mem_append_left _ (List.mem_append_right _ (ANDa_writes Ts c t rem _ _ _ _ _ _ _ h1 h1r))
    · cases h; exact absurd rfl hr

theorem runsANDa_writes (Ts : List Nav) (c : Cfg) (t : Nat) : (rem level : Nat) → (top : Bool) → (roots : List (Option Nat)) →
    (active : List Bool) → (pref : Nat) → (r : List Nat) → (l : List Access) → (r' : List Nat) →
    runsANDa Ts c t rem level top roots active pref r = .ok (l, r') → r' ≠ r → wr (.result t) ∈ l
  | 0, level, top, roots, active, pref, r, l, r', h, _ => by
    rw [runsANDa] at h
    obtain ⟨_, _, h⟩ := bind_ok h
    cases h
    simp
  | rem + 1, level, top, roots, active, pref, r, l, r', h, hr => by
    rw [runsANDa] at h
    obtain ⟨⟨tmp, an, orr⟩, _, h⟩ := bind_ok h
    dsimp only at h
    split at h
    · cases h; exact absurd rfl hr
    split at h
    · obtain ⟨_, _, h⟩ := bind_ok h
      cases h
      simp
    split at h
    · obtain ⟨ln, _, h⟩ := bind_ok h
      obtain ⟨⟨x, r1⟩, h1, h⟩ := bind_ok h
      cases h
      exact List.mem_append_right _ (runsANDa_writes Ts c t rem _ _ _ _ _ _ _ _ h1 hr)
    split at h
    · obtain ⟨s, _, h⟩ := bind_ok h
      obtain ⟨ln, _, h⟩ := bind_ok h
      obtain ⟨⟨x, r1⟩, h1, h⟩ := bind_ok h
      cases h
      exact List.mem_append_right _ (runsANDa_writes Ts c t rem _ _ _ _ _ _ _ _ h1 hr)
    split at h
    · obtain ⟨s, _, h⟩ := bind_ok h
      obtain ⟨ln, _, h⟩ := bind_ok h
      obtain ⟨⟨x, r1⟩, h1, h⟩ := bind_ok h
      obtain ⟨⟨y, r2⟩, h2, h⟩ := bind_ok h
      cases h
      by_cases h1r : r1 = r
      · subst h1r
        exact List.mem_append_right _ (runsANDa_writes Ts c t rem _ _ _ _ _ _ _ _ h2 hr)
      · exact List.mem_append_left _ (List.mem_append_right _ (runsANDa_writes Ts c t rem _ _ _ _ _ _ _ _ h1 h1r))
    · cases h; exact absurd rfl hr

end CBT
