import Verif.Proof.Partial
import Verif.Proof.Inter

/-!
# Parallel `Intersect`
-/

namespace CBT

section
variable {α : Type} (nav : α → Nav) (leaf : α → Nat → Nat → Nat → Prop)

theorem fillThreads_reps {g : Prop} {runs : Bool} {as : List α} {c : Cfg} {b d cut nThreads total : Nat} (htop : c.top < 64)
    (hct : c.top = cut + (d + 1) + b) (hth : nThreads < 2 ^ 32) :
    ∀ (todo : List Task) (outs : List (List Nat)) (i used : Nat) (s : PSt),
    List.Forall₂ (TaskOK nav leaf g 1 runs as b (d + 1) cut) todo outs → used = todo.length + s.tasks.length →
    (used ≤ nThreads ∧ used < 2 ^ 16 ∧ (nThreads ≤ 2 ^ 16 ∨ 2 * todo.length + s.tasks.length < 2 ^ 16)) → total = todo.length + i →
    ∃ rr new rest outsN outsR, fillThreads (as.map nav) c runs cut nThreads total todo i used s =
        .ok (rest, (s.tasks ++ new).length + rest.length, ⟨s.r ++ rr, s.tasks ++ new⟩) ∧
      List.Forall₂ (TaskOK nav leaf g 0 runs as b d (cut + 1)) new outsN ∧
      List.Forall₂ (TaskOK nav leaf g 1 runs as b (d + 1) cut) rest outsR ∧
      (s.tasks ++ new).length + rest.length ≤ nThreads ∧
      (rr ++ (outsN ++ outsR).flatten).Subperm outs.flatten ∧
      ((runs = true → g) → as ≠ [] → rr = [] ∧ (outsN ++ outsR).flatten = outs.flatten) := by
  intro todo
  induction todo with
  | nil =>
    intro outs i used s h hu hle ht
    cases h
    refine ⟨[], [], [], [], [], ?_, .nil, .nil, ?_, by simp, by simp⟩
    · rw [fillThreads, hu]
      simp
    · simpa [hu] using hle.1
  | cons t todo ih =>
    intro outs i used s h hu hle ht
    cases h with
    | @cons _ o _ outs hto h =>
      rw [fillThreads]
      have hmod : (nThreads + 2 ^ 32 - used) % 2 ^ 32 = nThreads - used := by omega
      rw [hmod]
      simp only [List.length_cons] at hu ht hle
      split
      · rename_i hgt
        obtain ⟨ts, h1, h2, h3, h4, h5⟩ := hto
        obtain ⟨rr, new, on, e, g1, g2, g3, g4⟩ := partialAND_reps nav leaf (g := g) (m := 0) (runs := runs) (as := as) (c := c) (b := b) htop 1 d cut
          ts t.roots t.active t.part s h1 h2 (by omega) h3 h5
        rw [e, R_bind_ok]
        have hl : new.length ≤ 2 := by simpa using g2
        simp only [List.length_append]
        have hu' : (total + (s.tasks.length + new.length) - (i + 1)) % 2 ^ 16 = todo.length + (s.tasks ++ new).length := by
          rw [List.length_append]; omega
        rw [hu']
        obtain ⟨rr', new', rest, oN, oR, e', k1, k2, k3, k4, k5⟩ := ih outs (i + 1) _ ⟨s.r ++ rr, s.tasks ++ new⟩ h rfl
          (by dsimp only; rw [List.length_append]; omega) (by omega)
        refine ⟨rr ++ rr', new ++ new', rest, on ++ oN, oR, ?_, List.rel_append g1 k1, k2, ?_, ?_, ?_⟩
        · rw [e']; simp [Nat.add_assoc]
        · simpa [Nat.add_assoc] using k3
        · rw [List.append_assoc on, List.flatten_append, List.flatten_cons, h4]
          exact subperm_split g3 k4
        · intro hg hne
          obtain ⟨a1, a2⟩ := g4 hg hne
          obtain ⟨a3, a4⟩ := k5 hg hne
          refine ⟨by rw [a1, a3]; rfl, ?_⟩
          rw [List.append_assoc, List.flatten_append, List.flatten_cons, h4, a2, a4]
      · refine ⟨[], [], t :: todo, [], o :: outs, ?_, .nil, .cons hto h, ?_, List.Subperm.refl _, by simp⟩
        · rw [hu]
          simp [Nat.add_comm]
        · simp only [List.append_nil, List.length_cons]; omega

/-- Running a task. -/
theorem task_run {g : Prop} {m : Nat} {runs : Bool} {as : List α} {c : Cfg} {b e d ℓ : Nat} (hP : LeafOK nav leaf as c b e)
    (hR : LeafOKR nav leaf as c b e) (htop : c.top < 64) (hstop : c.stop = ℓ + d + e) (ht : c.top = ℓ + d + b) {t : Task} {out : List Nat}
    (h : TaskOK nav leaf g m runs as b d ℓ t out) :
    (if runs = true then runsAND (as.map nav) c (c.stop - ℓ) ℓ t.roots t.active t.part []
      else AND (as.map nav) c (c.stop - ℓ) ℓ t.roots t.part []) = .ok out := by
  obtain ⟨ts, h1, h2, h3, rfl, _⟩ := h
  rw [hstop, show ℓ + d + e - ℓ = d + e by omega]
  cases runs with
  | false =>
    rw [if_neg (by simp), AND_reps nav leaf hP (by omega) d ℓ ts _ _ _ h1 ht h3]
    rfl
  | true =>
    rw [if_pos rfl, allS_true, runsAND_reps nav leaf hR htop d ℓ (ts.map some) _ _ _ _
      (RepsA.of_reps nav leaf _ _ _ _ h1 (h2 rfl).1 (h2 rfl).2) ht h3]
    rfl

theorem bind_ite_pure {A B : Type} {p : Prop} [Decidable p] {x y : R A} {a : A} (h : (if p then x else y) = .ok a) {f : A → R B} :
    (if p then x >>= f else y >>= f) = f a := by
  by_cases hp : p
  · rw [if_pos hp] at h ⊢
    rw [h]
    rfl
  · rw [if_neg hp] at h ⊢
    rw [h]
    rfl

theorem forall2_get {A B : Type} {r : A → B → Prop} {l : List A} {m : List B} (h : List.Forall₂ r l m) {i : Nat} (hi : i < m.length) :
    ∃ a, l[i]? = some a ∧ r a m[i] := by
  induction h generalizing i with
  | nil => simp at hi
  | cons h1 _ ih =>
    cases i with
    | zero => exact ⟨_, rfl, h1⟩
    | succ i => simpa using ih (by simpa using hi)

/-- The parallel path, when a `uint16_t` can count the tasks: what is found in the first levels comes first, then the results of the
tasks. -/
theorem par_body {g : Prop} {runs : Bool} {as : List α} {c : Cfg} {b e d height : Nat} {ts : List (Tr d)} {env : Env}
    (hP : LeafOK nav leaf as c b e) (hR : LeafOKR nav leaf as c b e)
    (hts : List.Forall₂ (fun a t => Rep (nav a) (leaf a) d 0 t 0) as ts) (hlen : as.length ≤ 16) (hstop : c.stop = d + e)
    (htop : c.top = d + b) (h64 : c.top < 64) (hw : env.hw ≠ 0) (hw' : Nat.log2 env.hw < 32)
    (hT : ∀ s, partialAND (as.map nav) c runs (Nat.log2 env.hw) 0 (List.replicate 16 (some 0)) (List.replicate 16 true) 0 ⟨[], []⟩ = .ok s →
      s.tasks.length ≤ 2 ^ Nat.log2 env.hw → s.tasks.length < 2 ^ 16 ∧ (Nat.log2 env.hw ≤ 16 ∨ s.tasks.length < 2 ^ 15))
    (hh : height = d + 1) (hd : 1 ≤ d) (hd' : d ≤ 62)
    (hg : g → ∀ t ∈ ts, Top (Nat.log2 env.hw + 1) d t) (hcut : Nat.log2 env.hw + 1 ≤ d) :
    ∃ rr outs, intersectBody (as.map nav) c height runs true env = .ok (rr ++ outs) ∧
      (rr ++ outs).Subperm (enum (d + b) (allS runs b d ts) 0) ∧
      ((runs = true → g) → as ≠ [] → rr ++ outs = enum (d + b) (allS runs b d ts) 0) := by
  obtain ⟨d', hdd⟩ : ∃ d', d = d' + 1 + Nat.log2 env.hw := ⟨d - 1 - Nat.log2 env.hw, by omega⟩
  generalize hcutdef : Nat.log2 env.hw = cut at *
  have hthr : 2 ^ cut < 2 ^ 32 := Nat.pow_lt_pow_right (by omega) hw'
  subst hdd
  have hroot := Reps.root nav leaf 16 hlen hts
  obtain ⟨rr, tasks, outs, e1, h1, h2, h3, h4⟩ := partialAND_reps nav leaf (g := g) (m := 1) (runs := runs) (as := as) (c := c) (b := b) h64 cut (d' + 1) 0
    ts _ (List.replicate 16 true) 0 ⟨[], []⟩ hroot (fun _ => ⟨by simpa using hlen, by simp⟩) (by omega) (dvd_zero _)
    (by rw [Nat.add_comm 1 cut]; exact hg)
  obtain ⟨hlt, hlt'⟩ : tasks.length < 2 ^ 16 ∧ (cut ≤ 16 ∨ tasks.length < 2 ^ 15) := by simpa using hT _ e1 (by simpa using h2)
  have hthr' : 2 ^ cut ≤ 2 ^ 16 ∨ 2 * tasks.length < 2 ^ 16 :=
    hlt'.imp (Nat.pow_le_pow_right (by omega)) fun h => by omega
  rw [intersectBody, if_neg hw, hcutdef]
  have hc : cut ≤ (height + 2 ^ 64 - 2) % 2 ^ 64 := by omega
  simp only [R_bind_ok, true_and, hc, if_true, e1, List.nil_append]
  split
  · rename_i h0
    have : tasks = [] := List.length_eq_zero_iff.1 h0
    subst this
    cases h1
    refine ⟨rr, [], by simp, by simpa using h3, ?_⟩
    intro hg' hne
    obtain ⟨a1, a2⟩ := h4 hg' hne
    rw [a1, ← a2]
    rfl
  · rename_i h0
    have hmod : tasks.length % 2 ^ 16 = tasks.length := Nat.mod_eq_of_lt (by omega)
    rw [hmod, List.take_length]
    have h1' : List.Forall₂ (TaskOK nav leaf g 1 runs as b (d' + 1) cut) tasks outs := by simpa using h1
    obtain ⟨rr', new, rest, oN, oR, e2, k1, k2, k3, k4, k5⟩ := fillThreads_reps nav leaf (nThreads := 2 ^ cut) (total := tasks.length)
      h64 (by omega) hthr tasks outs 0 tasks.length ⟨rr, []⟩ h1' (by simp) ⟨h2, hlt, by simpa using hthr'⟩ (by simp)
    rw [e2]
    simp only [R_bind_ok, List.nil_append]
    have hsub : ((rr ++ rr') ++ (oN ++ oR).flatten).Subperm (enum (d' + 1 + cut + b) (allS runs b (d' + 1 + cut) ts) 0) := by
      rw [List.append_assoc]
      exact ((List.subperm_append_left rr).2 k4).trans h3
    have heq : (runs = true → g) → as ≠ [] → (rr ++ rr') ++ (oN ++ oR).flatten = enum (d' + 1 + cut + b) (allS runs b (d' + 1 + cut) ts) 0 := by
      intro hg' hne
      obtain ⟨a1, a2⟩ := h4 hg' hne
      obtain ⟨a3, a4⟩ := k5 hg' hne
      rw [a1, a3, a4, a2]
      rfl
    split
    · rename_i hz
      have hz : new = [] ∧ rest = [] := by
        rw [List.length_eq_zero_iff] at hz
        simpa using hz
      obtain ⟨rfl, rfl⟩ := hz
      cases k1
      cases k2
      exact ⟨rr ++ rr', [], by simp, by simpa using hsub, by simpa using heq⟩
    · rename_i hz
      have hl1 := k1.length_eq
      have hl2 := k2.length_eq
      have hused : new.length + rest.length = (oN ++ oR).length := by simp [hl1, hl2]
      have hnil : (oN ++ oR) ≠ [] := by
        rw [← List.length_pos_iff]
        rw [List.length_append] at hz
        omega
      rw [hused, parallelFor_push hnil, R_bind_ok, gather_ok _ _ _ hnil]
      · exact ⟨_, _, rfl, hsub, heq⟩
      · intro t ht
        rw [List.length_append] at ht
        by_cases htn : t < new.length
        · obtain ⟨task, hget, hok⟩ := forall2_get k1 (i := t) (by omega)
          have e3 : vGet (new ++ rest) t = .ok task := by
            rw [vGet, List.getElem?_append_left htn, hget]
          have e4 : vGet (List.replicate new.length (cut + 1) ++ List.replicate rest.length cut) t = .ok (cut + 1) := by
            rw [vGet, List.getElem?_append_left (by simpa using htn), List.getElem?_replicate, if_pos htn]
          rw [e3, e4]
          simp only [R_bind_ok]
          have hrun := task_run nav leaf hP hR h64 (by omega) (by omega) hok
          rw [bind_ite_pure hrun]
          simp [List.getElem_append_left (show t < oN.length by omega)]
        · obtain ⟨task, hget, hok⟩ := forall2_get k2 (i := t - new.length) (by omega)
          have e3 : vGet (new ++ rest) t = .ok task := by
            rw [vGet, List.getElem?_append_right (by omega), hget]
          have e4 : vGet (List.replicate new.length (cut + 1) ++ List.replicate rest.length cut) t = .ok cut := by
            rw [vGet, List.getElem?_append_right (by simpa using htn), List.getElem?_replicate, if_pos (by simp; omega)]
          rw [e3, e4]
          simp only [R_bind_ok]
          have hrun := task_run nav leaf hP hR h64 (by omega) (by omega) hok
          rw [bind_ite_pure hrun]
          simp [List.getElem_append_right (show oN.length ≤ t by omega), hl1]

end


/-! ## Trees without collapsed nodes in the first levels -/

theorem NE.top {b : Nat} : (m d : Nat) → (t : Tr d) → NE b d t → Top m d t
  | 0, _, _, _ => trivial
  | _ + 1, 0, _, _ => trivial
  | m + 1, d + 1, _, h => ⟨h.1, fun s hs => NE.top m d s (h.2.1 s hs), fun s hs => NE.top m d s (h.2.2 s hs)⟩

/-- Every block of `2^k` numbers lacks one. -/
theorem top_of_blocks {b k : Nat} : (m d : Nat) → (t : Tr d) → k + m ≤ d + b + 1 →
    (∀ x < 2 ^ (d + b), ∃ y, y / 2 ^ k = x / 2 ^ k ∧ hasR b d t y = false) → Top m d t
  | 0, _, _, _, _ => trivial
  | _ + 1, 0, _, _, _ => trivial
  | m + 1, d + 1, t, hk, h => by
    have hp := pow_split d b
    have hpos := Nat.two_pow_pos (d + b)
    have hb : t.bare = false := by
      by_contra hc
      obtain ⟨y, _, hy⟩ := h 0 (by omega)
      have hc : t.bare = true := by simpa using hc
      simp [hasR, hc] at hy
    refine ⟨hb, fun s hs => ?_, fun s hs => ?_⟩
    · cases m with
      | zero => trivial
      | succ m =>
        refine top_of_blocks (b := b) (k := k) (m + 1) d s (by omega) fun x hx => ?_
        obtain ⟨y, hy, hn⟩ := h x (by omega)
        refine ⟨y, hy, ?_⟩
        rwa [hasR_lo (sameBlock_lt hy (by omega) hx) hb, hs] at hn
    · cases m with
      | zero => trivial
      | succ m =>
        refine top_of_blocks (b := b) (k := k) (m + 1) d s (by omega) fun x hx => ?_
        obtain ⟨y, hy, hn⟩ := h (2 ^ (d + b) + x) (by omega)
        have hge := sameBlock_ge hy (by omega : k ≤ d + b) (by omega)
        obtain ⟨z, rfl⟩ : ∃ z, y = 2 ^ (d + b) + z := ⟨y - 2 ^ (d + b), by omega⟩
        refine ⟨z, (sameBlock_add (by omega)).1 hy, ?_⟩
        rwa [hasR_hi hb, hs] at hn

open Spec

theorem body_fallback {Ts : List Nav} {c : Cfg} {height : Nat} {runs : Bool} {env : Env} (h2 : 2 ≤ height) (hh : height < 2 ^ 63)
    (hcut : height < Nat.log2 env.hw + 2) :
    intersectBody Ts c height runs true env = intersectBody Ts c height runs false env := by
  have : ¬ Nat.log2 env.hw ≤ (height + 2 ^ 64 - 2) % 2 ^ 64 := by omega
  simp only [intersectBody, this, and_false, Bool.false_eq_true, if_false]

/-- All parallel calls, on both kinds of tries, when a `uint16_t` can count the tasks. -/
theorem par_inter_counted {α : Type} {nav : α → Nav} {leaf : α → Nat → Nat → Nat → Prop} {g : Prop} {runs : Bool} {as : List α} {c : Cfg}
    {b e d : Nat} {ts : List (Tr d)} {env : Env} {sets : List (List Nat)} (hne : as ≠ [])
    (hP : LeafOK nav leaf as c b e) (hR : LeafOKR nav leaf as c b e)
    (hts : List.Forall₂ (fun a t => Rep (nav a) (leaf a) d 0 t 0) as ts) (hlen : as.length ≤ 16) (hstop : c.stop = d + e)
    (htop : c.top = d + b) (h64 : c.top < 64) (hw : env.hw ≠ 0) (hw' : Nat.log2 env.hw < 32)
    (hT : Nat.log2 env.hw + 1 ≤ d →
      ∀ s, partialAND (as.map nav) c runs (Nat.log2 env.hw) 0 (List.replicate 16 (some 0)) (List.replicate 16 true) 0 ⟨[], []⟩ = .ok s →
      s.tasks.length ≤ 2 ^ Nat.log2 env.hw → s.tasks.length < 2 ^ 16 ∧ (Nat.log2 env.hw ≤ 16 ∨ s.tasks.length < 2 ^ 15)) (hd : 1 ≤ d) (hd' : d ≤ 62)
    (hg : g → Nat.log2 env.hw + 1 ≤ d → ∀ t ∈ ts, Top (Nat.log2 env.hw + 1) d t)
    (hb : ∀ S ∈ sets, ∀ x ∈ S, x < 2 ^ (d + b)) (hS : List.Forall₂ (fun S t => Holds (d + b) (hasS runs b d t) S) sets ts) :
    ∃ R, intersectBody (as.map nav) c (d + 1) runs true env = .ok R ∧ (∀ x ∈ R, ∀ S ∈ sets, x ∈ S) ∧ R.Nodup ∧
      ((runs = true → g) → IsIntersection sets R) := by
  have hsne : sets ≠ [] := by
    rintro rfl
    cases hS
    cases hts
    exact hne rfl
  have hI : IsIntersection sets (enum (d + b) (allS runs b d ts) 0) := isIntersection_enum hsne hb hS
  have hnd : (enum (d + b) (allS runs b d ts) 0).Nodup := hI.increasing.imp fun h => Nat.ne_of_lt h
  by_cases hcut : Nat.log2 env.hw + 1 ≤ d
  · obtain ⟨rr, outs, h1, h2, h3⟩ := par_body nav leaf (g := g) (runs := runs) hP hR hts hlen hstop htop h64 hw hw' (hT hcut) rfl hd hd'
      (fun h => hg h hcut) hcut
    refine ⟨_, h1, fun x hx => (hI.mem x).1 (h2.subset hx), ?_, fun h => h3 h hne ▸ hI⟩
    obtain ⟨l, hl, hl'⟩ := h2
    exact hl.nodup_iff.1 (hnd.sublist hl')
  · rw [body_fallback (by omega) (by omega) (by omega)]
    cases runs with
    | false =>
      rw [seq_plain nav leaf hP hts hlen hstop htop (by omega) hw]
      exact ⟨_, rfl, fun x hx => (hI.mem x).1 hx, hnd, fun _ => hI⟩
    | true =>
      rw [seq_runs nav leaf hR hts hlen hstop htop h64 hw]
      rw [allS_true] at hI hnd
      exact ⟨_, rfl, fun x hx => (hI.mem x).1 hx, hnd, fun _ => hI⟩

/-- All parallel calls, on both kinds of tries. -/
theorem par_inter {α : Type} {nav : α → Nav} {leaf : α → Nat → Nat → Nat → Prop} {g : Prop} {runs : Bool} {as : List α} {c : Cfg}
    {b e d : Nat} {ts : List (Tr d)} {env : Env} {sets : List (List Nat)} (hne : as ≠ [])
    (hP : LeafOK nav leaf as c b e) (hR : LeafOKR nav leaf as c b e)
    (hts : List.Forall₂ (fun a t => Rep (nav a) (leaf a) d 0 t 0) as ts) (hlen : as.length ≤ 16) (hstop : c.stop = d + e)
    (htop : c.top = d + b) (h64 : c.top < 64) (hw : env.hw ≠ 0) (hw' : env.hw < 2 ^ 16) (hd : 1 ≤ d) (hd' : d ≤ 62)
    (hg : g → Nat.log2 env.hw + 1 ≤ d → ∀ t ∈ ts, Top (Nat.log2 env.hw + 1) d t)
    (hb : ∀ S ∈ sets, ∀ x ∈ S, x < 2 ^ (d + b)) (hS : List.Forall₂ (fun S t => Holds (d + b) (hasS runs b d t) S) sets ts) :
    ∃ R, intersectBody (as.map nav) c (d + 1) runs true env = .ok R ∧ (∀ x ∈ R, ∀ S ∈ sets, x ∈ S) ∧ R.Nodup ∧
      ((runs = true → g) → IsIntersection sets R) :=
  have hp : 2 ^ Nat.log2 env.hw < 2 ^ 16 := Nat.lt_of_le_of_lt (Nat.log2_self_le hw) hw'
  have hlog : Nat.log2 env.hw < 16 := (Nat.pow_lt_pow_iff_right (by omega)).1 hp
  par_inter_counted hne hP hR hts hlen hstop htop h64 hw (by omega)
    (fun _ _ _ h => ⟨Nat.lt_of_le_of_lt h hp, .inl (by omega)⟩) hd hd' hg hb hS

/-- Every block of `2^k` numbers below `2^m` lacks one. -/
def NoBlock (k m : Nat) (S : List Nat) : Prop := ∀ x < 2 ^ m, ∃ y, y / 2 ^ k = x / 2 ^ k ∧ y ∉ S

theorem top_of_noBlock {b d k m : Nat} {T : Tr d} {S : List Nat} (hT : Holds (d + b) (hasR b d T) S) (hk : k + m ≤ d + b + 1) (hm : 1 ≤ m)
    (h : NoBlock k (d + b) S) : Top m d T := by
  refine top_of_blocks m d T hk fun x hx => ?_
  obtain ⟨y, hy, hn⟩ := h x hx
  refine ⟨y, hy, ?_⟩
  rw [hT y (sameBlock_lt hy (by omega) hx)]
  simpa using hn

/-- A trie whose collapsed subtrees are all below the levels `0 … m-1`. -/
def HoldsT (m d : Nat) (S : List Nat) (n : Nav) : Prop :=
  HoldsR d S n ∧ ∃ T, Rep n (leafF n) d 0 T 0 ∧ Holds (d + 1) (hasR 1 d T) S ∧ (m ≤ d → Top m d T)

theorem HoldsP.toT {m d : Nat} {S : List Nat} {n : Nav} (h : HoldsP d S n) : HoldsT m d S n := by
  obtain ⟨T, h1, h2, h3⟩ := h.tree
  exact ⟨h.toR, T, h1, fun x hx => by rw [h2.hasR_eq]; exact h3 x hx, fun _ => h2.top m d T⟩

theorem HoldsR.toT {m d : Nat} {S : List Nat} {n : Nav} (h : HoldsR d S n) (hm : 1 ≤ m) (hS : m ≤ d → NoBlock (d + 2 - m) (d + 1) S) :
    HoldsT m d S n := by
  obtain ⟨T, h1, h2⟩ := h.tree
  exact ⟨h, T, h1, h2, fun hmd => top_of_noBlock h2 (by omega) hm (hS hmd)⟩

theorem HoldsT.trees {m d : Nat} {sets : List (List Nat)} {Ts : List Nav} (h : List.Forall₂ (HoldsT m d) sets Ts) :
    ∃ ts : List (Tr d), List.Forall₂ (fun n t => Rep n (leafF n) d 0 t 0) Ts ts ∧ (m ≤ d → ∀ t ∈ ts, Top m d t) ∧
      List.Forall₂ (fun S t => Holds (d + 1) (hasR 1 d t) S) sets ts := by
  induction h with
  | nil => exact ⟨[], .nil, by simp, .nil⟩
  | cons h1 _ ih =>
    obtain ⟨ts, h3, hn, h4⟩ := ih
    obtain ⟨_, T, h5, h6, h7⟩ := h1
    exact ⟨T :: ts, .cons h5 h3, fun hm => by simpa using ⟨h7 hm, hn hm⟩, .cons h6 h4⟩

theorem intersect_par_plain {d : Nat} {sets : List (List Nat)} {Ts : List Nav} (h : List.Forall₂ (HoldsP d) sets Ts) (hd : 1 ≤ d)
    (hne : Ts ≠ []) (hlen : Ts.length ≤ 16) {env : Env} (hw : env.hw ≠ 0) (hw' : env.hw < 2 ^ 16) :
    ∃ R, intersect Ts false true env = .ok R ∧ IsIntersection sets R := by
  obtain ⟨ts, h1, _, h3⟩ := HoldsP.trees h
  have hd' : d ≤ 62 := by
    cases h with
    | nil => exact (hne rfl).elim
    | cons h _ => exact h.depth
  obtain ⟨R, hR, _, _, hI⟩ := par_inter (runs := false) (nav := id) hne (flat_leafOK Ts (d + 1)) (flat_leafOKR Ts (d + 1)) h1 hlen
    (by rfl) (by rfl) (show d + 1 < 64 by omega) hw hw' hd (by omega) (g := False) (fun h => h.elim)
    (forall2_imp_left h fun _ _ h => h.below) h3
  rw [List.map_id] at hR
  exact ⟨R, by rw [intersect_unfold hne (forall2_imp_right h fun _ _ h => h.height), hR], hI (by simp)⟩

theorem intersect_par_runs {d : Nat} {sets : List (List Nat)} {Ts : List Nav} (h : List.Forall₂ (HoldsR d) sets Ts) (hd : 1 ≤ d)
    (hne : Ts ≠ []) (hlen : Ts.length ≤ 16) {env : Env} (hw : env.hw ≠ 0) (hw' : env.hw < 2 ^ 16) :
    ∃ R, intersect Ts true true env = .ok R ∧ (∀ x ∈ R, ∀ S ∈ sets, x ∈ S) ∧ R.Nodup := by
  obtain ⟨ts, h1, h3⟩ := HoldsR.trees h
  have hd' : d ≤ 62 := by
    cases h with
    | nil => exact (hne rfl).elim
    | cons h _ => exact h.depth
  obtain ⟨R, hR, hI, hn, _⟩ := par_inter (runs := true) (nav := id) hne (flat_leafOK Ts (d + 1)) (flat_leafOKR Ts (d + 1)) h1 hlen
    (by rfl) (by rfl) (show d + 1 < 64 by omega) hw hw' hd (by omega) (g := False) (fun h => h.elim)
    (forall2_imp_left h fun _ _ h => h.below) h3
  rw [List.map_id] at hR
  exact ⟨R, by rw [intersect_unfold hne (forall2_imp_right h fun _ _ h => h.height), hR], hI, hn⟩

theorem intersect_par_runs_exact {d : Nat} {sets : List (List Nat)} {Ts : List Nav} {env : Env}
    (h : List.Forall₂ (HoldsT (Nat.log2 env.hw + 1) d) sets Ts) (hd : 1 ≤ d)
    (hne : Ts ≠ []) (hlen : Ts.length ≤ 16) (hw : env.hw ≠ 0) (hw' : env.hw < 2 ^ 16) :
    ∃ R, intersect Ts true true env = .ok R ∧ IsIntersection sets R := by
  obtain ⟨ts, h1, h2, h3⟩ := HoldsT.trees h
  have hd' : d ≤ 62 := by
    cases h with
    | nil => exact (hne rfl).elim
    | cons h _ => exact h.1.depth
  obtain ⟨R, hR, _, _, hI⟩ := par_inter (runs := true) (nav := id) hne (flat_leafOK Ts (d + 1)) (flat_leafOKR Ts (d + 1)) h1 hlen
    (by rfl) (by rfl) (show d + 1 < 64 by omega) hw hw' hd (by omega) (g := True) (fun _ => h2)
    (forall2_imp_left h fun _ _ h => h.1.below) h3
  rw [List.map_id] at hR
  exact ⟨R, by rw [intersect_unfold hne (forall2_imp_right h fun _ _ h => h.1.height), hR], hI (by simp)⟩

/-! ## Fast tries -/

def FHoldsT (lg m d : Nat) (S : List Nat) (n : FNav) : Prop :=
  FHoldsR lg d S n ∧ ∃ T, Rep n.toNav (leafW lg n) d 0 T 0 ∧ Holds (d + lg) (hasR lg d T) S ∧ (m ≤ d → Top m d T)

theorem FHoldsP.toT {lg m d : Nat} {S : List Nat} {n : FNav} (h : FHoldsP lg d S n) : FHoldsT lg m d S n := by
  obtain ⟨T, h1, h2, h3⟩ := h.tree
  exact ⟨h.toR, T, h1, fun x hx => by rw [h2.hasR_eq]; exact h3 x hx, fun _ => h2.top m d T⟩

theorem FHoldsR.toT {lg m d : Nat} {S : List Nat} {n : FNav} (h : FHoldsR lg d S n) (hm : 1 ≤ m)
    (hS : m ≤ d → NoBlock (d + lg + 1 - m) (d + lg) S) : FHoldsT lg m d S n := by
  obtain ⟨T, h1, h2⟩ := h.tree
  exact ⟨h, T, h1, h2, fun hmd => top_of_noBlock h2 (by omega) hm (hS hmd)⟩

theorem FHoldsT.trees {lg m d : Nat} {sets : List (List Nat)} {Ts : List FNav} (h : List.Forall₂ (FHoldsT lg m d) sets Ts) :
    ∃ ts : List (Tr d), List.Forall₂ (fun n t => Rep n.toNav (leafW lg n) d 0 t 0) Ts ts ∧ (m ≤ d → ∀ t ∈ ts, Top m d t) ∧
      List.Forall₂ (fun S t => Holds (d + lg) (hasR lg d t) S) sets ts := by
  induction h with
  | nil => exact ⟨[], .nil, by simp, .nil⟩
  | cons h1 _ ih =>
    obtain ⟨ts, h3, hn, h4⟩ := ih
    obtain ⟨_, T, h5, h6, h7⟩ := h1
    exact ⟨T :: ts, .cons h5 h3, fun hm => by simpa using ⟨h7 hm, hn hm⟩, .cons h6 h4⟩

theorem fastIntersect_par_plain {lg d : Nat} (hlg : 1 ≤ lg ∧ lg ≤ 6) {sets : List (List Nat)} {Ts : List FNav}
    (h : List.Forall₂ (FHoldsP lg d) sets Ts) (hd : 1 ≤ d)
    (hne : Ts ≠ []) (hlen : Ts.length ≤ 16) {env : Env} (hw : env.hw ≠ 0) (hw' : env.hw < 2 ^ 16) :
    ∃ R, fastIntersect lg Ts false true env = .ok R ∧ IsIntersection sets R := by
  obtain ⟨ts, h1, _, h3⟩ := FHoldsP.trees h
  have hd' : d + lg ≤ 62 := by
    cases h with
    | nil => exact (hne rfl).elim
    | cons h _ => exact h.depth
  obtain ⟨R, hR, _, _, hI⟩ := par_inter (runs := false) (nav := FNav.toNav) hne (fast_leafOK hlg.2 Ts (d + 1)) (fast_leafOKR hlg.2 Ts (d + 1)) h1 hlen
    (by rfl) (by simp only [fastCfg]; omega) (by simp only [fastCfg]; omega) hw hw' hd (by omega) (g := False) (fun h => h.elim)
    (forall2_imp_left h fun _ _ h => h.below) h3
  exact ⟨R, by rw [fastIntersect_unfold hne (forall2_imp_right h fun _ _ h => h.height), hR], hI (by simp)⟩

theorem fastIntersect_par_runs {lg d : Nat} (hlg : 1 ≤ lg ∧ lg ≤ 6) {sets : List (List Nat)} {Ts : List FNav}
    (h : List.Forall₂ (FHoldsR lg d) sets Ts) (hd : 1 ≤ d)
    (hne : Ts ≠ []) (hlen : Ts.length ≤ 16) {env : Env} (hw : env.hw ≠ 0) (hw' : env.hw < 2 ^ 16) :
    ∃ R, fastIntersect lg Ts true true env = .ok R ∧ (∀ x ∈ R, ∀ S ∈ sets, x ∈ S) ∧ R.Nodup := by
  obtain ⟨ts, h1, h3⟩ := FHoldsR.trees h
  have hd' : d + lg ≤ 62 := by
    cases h with
    | nil => exact (hne rfl).elim
    | cons h _ => exact h.depth
  obtain ⟨R, hR, hI, hn, _⟩ := par_inter (runs := true) (nav := FNav.toNav) hne (fast_leafOK hlg.2 Ts (d + 1)) (fast_leafOKR hlg.2 Ts (d + 1)) h1 hlen
    (by rfl) (by simp only [fastCfg]; omega) (by simp only [fastCfg]; omega) hw hw' hd (by omega) (g := False) (fun h => h.elim)
    (forall2_imp_left h fun _ _ h => h.below) h3
  exact ⟨R, by rw [fastIntersect_unfold hne (forall2_imp_right h fun _ _ h => h.height), hR], hI, hn⟩

theorem fastIntersect_par_runs_exact {lg d : Nat} (hlg : 1 ≤ lg ∧ lg ≤ 6) {sets : List (List Nat)} {Ts : List FNav} {env : Env}
    (h : List.Forall₂ (FHoldsT lg (Nat.log2 env.hw + 1) d) sets Ts) (hd : 1 ≤ d)
    (hne : Ts ≠ []) (hlen : Ts.length ≤ 16) (hw : env.hw ≠ 0) (hw' : env.hw < 2 ^ 16) :
    ∃ R, fastIntersect lg Ts true true env = .ok R ∧ IsIntersection sets R := by
  obtain ⟨ts, h1, h2, h3⟩ := FHoldsT.trees h
  have hd' : d + lg ≤ 62 := by
    cases h with
    | nil => exact (hne rfl).elim
    | cons h _ => exact h.1.depth
  obtain ⟨R, hR, _, _, hI⟩ := par_inter (runs := true) (nav := FNav.toNav) hne (fast_leafOK hlg.2 Ts (d + 1)) (fast_leafOKR hlg.2 Ts (d + 1)) h1 hlen
    (by rfl) (by simp only [fastCfg]; omega) (by simp only [fastCfg]; omega) hw hw' hd (by omega) (g := True) (fun _ => h2)
    (forall2_imp_left h fun _ _ h => h.1.below) h3
  exact ⟨R, by rw [fastIntersect_unfold hne (forall2_imp_right h fun _ _ h => h.1.height), hR], hI (by simp)⟩

end CBT
