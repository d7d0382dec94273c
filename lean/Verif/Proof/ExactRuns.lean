import Verif.Proof.MemoryLeak
import Verif.Proof.Affinity

/-!
# What a run-aware parallel call returns, exactly: walking the trees
-/

namespace CBT

open Spec

def allBare {d : Nat} (ts : List (Tr (d + 1))) : Bool := !anyL ts && !anyR ts

/-- The members reported by `partialAND` itself in the first `k` levels. -/
def rp (b : Nat) : (k : Nat) → {d : Nat} → List (Tr (d + k)) → Nat → Bool
  | 0, _, _, _ => false
  | k + 1, d, ts, x => allBare (d := d + k) ts ||
      (if x < 2 ^ (d + k + b) then allL (d := d + k) ts && rp b k (lefts (d := d + k) ts) x
        else allR (d := d + k) ts && rp b k (rights (d := d + k) ts) (x - 2 ^ (d + k + b)))

/-- The tasks after `k` levels: where their block starts, and their trees. -/
def walk (b : Nat) : (k : Nat) → {d : Nat} → Nat → List (Tr (d + k)) → List (Nat × List (Tr d))
  | 0, _, p, ts => [(p, ts)]
  | k + 1, d, p, ts => (if allL (d := d + k) ts then walk b k p (lefts (d := d + k) ts) else []) ++
      (if allR (d := d + k) ts then walk b k (p + 2 ^ (d + k + b)) (rights (d := d + k) ts) else [])

theorem rp_bare {b k d p : Nat} {ts : List (Tr (d + (k + 1)))} (h : allBare (d := d + k) ts = true) :
    enum (d + (k + 1) + b) (rp b (k + 1) ts) p = enum (d + (k + 1) + b) (fun _ => true) p :=
  enum_congr fun x _ => by simp [rp, h]

theorem rp_split {b k d p : Nat} {ts : List (Tr (d + (k + 1)))} (h : allBare (d := d + k) ts = false) :
    enum (d + (k + 1) + b) (rp b (k + 1) ts) p =
      (if allL (d := d + k) ts then enum (d + k + b) (rp b k (lefts (d := d + k) ts)) p else []) ++
      (if allR (d := d + k) ts then enum (d + k + b) (rp b k (rights (d := d + k) ts)) (p + 2 ^ (d + k + b)) else []) := by
  have h1 : enum (d + k + b) (rp b (k + 1) ts) p =
      enum (d + k + b) (fun x => allL (d := d + k) ts && rp b k (lefts (d := d + k) ts) x) p :=
    enum_congr fun x hx => by simp [rp, h, hx]
  have h2 : enum (d + k + b) (fun x => rp b (k + 1) ts (2 ^ (d + k + b) + x)) (p + 2 ^ (d + k + b)) =
      enum (d + k + b) (fun x => allR (d := d + k) ts && rp b k (rights (d := d + k) ts) x) (p + 2 ^ (d + k + b)) :=
    enum_congr fun x _ => by simp [rp, h]
  rw [show d + (k + 1) + b = d + k + b + 1 by omega, enum_succ, h1, h2, enum_and, enum_and]

theorem walk_length (b : Nat) : (k : Nat) → {d : Nat} → (p : Nat) → (ts : List (Tr (d + k))) → (walk b k p ts).length = (sub k ts).length
  | 0, _, _, _ => rfl
  | k + 1, d, p, ts => by
    rw [walk, sub, List.length_append, List.length_append]
    congr 1
    · split
      · exact walk_length b k _ _
      · rfl
    · split
      · exact walk_length b k _ _
      · rfl

/-- What a task finds. -/
def taskOut (b : Nat) {d : Nat} (v : Nat × List (Tr d)) : List Nat := enum (d + b) (allS true b d v.2) v.1

/-- The number of tasks replaced by their halves. -/
def splitCount (b : Nat) {d k : Nat} (ts : List (Tr (d + 1 + k))) : Nat :=
  replaced (2 ^ k) (walk b k 0 ts).length ((walk b k 0 ts).map fun u => (walk b 1 u.1 u.2).length)

/-- The number of tasks after that. -/
def taskCount (b : Nat) {d k : Nat} (ts : List (Tr (d + 1 + k))) : Nat :=
  threadCount (2 ^ k) (walk b k 0 ts).length ((walk b k 0 ts).map fun u => (walk b 1 u.1 u.2).length)

/-- The result of a parallel call with runs. -/
def exactOut (b : Nat) {d k : Nat} (ts : List (Tr (d + 1 + k))) : List Nat :=
  enum (d + 1 + k + b) (rp b k ts) 0 ++
  (((walk b k 0 ts).take (splitCount b ts)).flatMap fun u => enum (d + 1 + b) (rp b 1 u.2) u.1) ++
  ((((walk b k 0 ts).take (splitCount b ts)).flatMap fun u => walk b 1 u.1 u.2).flatMap (taskOut b) ++
    ((walk b k 0 ts).drop (splitCount b ts)).flatMap (taskOut b))

theorem walk_length_le (b k : Nat) {d : Nat} (p : Nat) (ts : List (Tr (d + k))) : (walk b k p ts).length ≤ 2 ^ k :=
  walk_length b k p ts ▸ sub_length_le k ts

theorem replaced_le (n : Nat) : (used : Nat) → (cs : List Nat) → replaced n used cs ≤ cs.length
  | _, [] => Nat.le_refl _
  | used, c :: cs => by
    rw [replaced, List.length_cons]
    split
    · have := replaced_le n (used + c - 1) cs
      omega
    · omega

section
variable {α : Type} (nav : α → Nav) (leaf : α → Nat → Nat → Nat → Prop)

/-- The task walks the trees in the block. -/
def TaskR (as : List α) (b d ℓ : Nat) (T : Task) (v : Nat × List (Tr d)) : Prop :=
  Reps nav leaf d ℓ as v.2 T.roots ∧ ActOK true as.length T.active ∧ T.part = v.1 ∧ 2 ^ (d + b) ∣ v.1

theorem partialAND_exact {as : List α} {c : Cfg} {b : Nat} (htop : c.top < 64) (hne : as ≠ []) :
    ∀ (k d ℓ : Nat) (ts : List (Tr (d + k))) (os : List (Option Nat)) (act : List Bool) (part : Nat) (s : PSt),
    Reps nav leaf (d + k) ℓ as ts os → ActOK true as.length act → c.top = ℓ + (d + k) + b → 2 ^ (d + k + b) ∣ part →
    ∃ new, partialAND (as.map nav) c true k ℓ os act part s = .ok ⟨s.r ++ enum (d + k + b) (rp b k ts) part, s.tasks ++ new⟩ ∧
      List.Forall₂ (TaskR nav leaf as b d (ℓ + k)) new (walk b k part ts) := by
  intro k
  induction k with
  | zero =>
    intro d ℓ ts os act part s hr ha ht hd
    refine ⟨[⟨part, os.take (as.map nav).length, act.take (as.map nav).length⟩], ?_, .cons ⟨?_, ?_, rfl, hd⟩ .nil⟩
    · rw [partialAND, if_neg, enum_false (P := rp b 0 ts) (fun _ _ => rfl), List.append_nil]
      · simp only [if_true]
      · rintro (h | ⟨h1, h2⟩)
        · rw [List.length_map] at h
          have := hr.length_le
          omega
        · rw [List.length_map] at h2
          have := (ha h1).1
          omega
    · simpa using hr.take
    · intro h
      have := ha h
      simp only [List.length_map]
      exact ⟨by simpa using this.1, fun a ha => this.2 a (List.mem_of_mem_take ha)⟩
  | succ k ih =>
    intro d ℓ ts os act part s hr ha ht hd
    have hd' : 2 ^ (d + k + b + 1) ∣ part := by rwa [show d + k + b + 1 = d + (k + 1) + b by omega]
    have hs : shl1 (c.top - ℓ - 1) = .ok (2 ^ (d + k + b)) := by
      rw [ht, show ℓ + (d + (k + 1)) + b - ℓ - 1 = d + k + b by omega]; exact shl1_ok (by omega)
    obtain ⟨tmp, h3, hat⟩ := partialNodes_reps (runs := true) (d := d + k) nav leaf as ts os act hr ha true true false false
    rw [Bool.true_and, Bool.true_and, Bool.false_or, Bool.false_or, Bool.true_and, Bool.true_and, node2_tt, node2_ff] at h3
    rw [partialAND, h3]
    simp only [R_bind_ok, hs, or_two_pow hd', Bool.not_true, Bool.false_eq_true, false_and, if_false, true_and]
    rw [show ℓ + (k + 1) = ℓ + 1 + k by omega]
    by_cases hfull : anyL (d := d + k) ts = false ∧ anyR (d := d + k) ts = false
    · obtain ⟨h1, h2⟩ := hfull
      have hL : allL (d := d + k) ts = false ∧ allR (d := d + k) ts = false := by
        cases ts with
        | nil => cases as with
          | nil => exact (hne rfl).elim
          | cons _ _ => simp [Reps] at hr
        | cons t ts =>
          simp only [anyL, anyR, List.any_cons, Bool.or_eq_false_iff] at h1 h2
          exact ⟨by simp only [allL, List.all_cons, h1.1, Bool.false_and], by simp only [allR, List.all_cons, h2.1, Bool.false_and]⟩
      simp only [h1, h2, node2_ff, if_true]
      rw [ht, show ℓ + (d + (k + 1)) + b - ℓ = d + (k + 1) + b by omega, fillRange_ok s.r (by omega) hd (fun x _ => rfl), R_bind_ok,
        rp_bare (by simp [allBare, h1, h2])]
      refine ⟨[], by rw [List.append_nil], ?_⟩
      rw [walk, hL.1, hL.2]
      exact .nil
    · have hn00 : node2 (anyL (d := d + k) ts) (anyR (d := d + k) ts) ≠ 0 := by
        intro h2
        rw [node2_eq_zero] at h2
        exact hfull h2
      have hnb : allBare (d := d + k) ts = false := by
        cases hb : allBare (d := d + k) ts with
        | false => rfl
        | true =>
          rw [allBare, Bool.and_eq_true, Bool.not_eq_true', Bool.not_eq_true'] at hb
          exact (hfull hb).elim
      simp only [hn00, if_false]
      rw [rp_split hnb, walk]
      cases hL : allL (d := d + k) ts with
      | false =>
        cases hR : allR (d := d + k) ts with
        | false =>
          simp only [node2_ff, Nat.reduceEqDiff, if_false, Bool.false_eq_true, List.append_nil]
          exact ⟨[], by simp, .nil⟩
        | true =>
          obtain ⟨cs, e1, h1⟩ := children_right (d := d + k) nav leaf as ts os hr hR
          simp only [node2_ft, Nat.reduceEqDiff, if_false, if_true, e1, R_bind_ok, Bool.false_eq_true, List.nil_append]
          exact ih d (ℓ + 1) _ cs tmp _ s h1 hat (by omega) (dvd_hi hd')
      | true =>
        obtain ⟨cs, e1, h1, h2⟩ := children_left (d := d + k) nav leaf as ts os hr hL
        obtain ⟨new, e2, h4⟩ := ih d (ℓ + 1) _ cs tmp part s h1 hat (by omega) (dvd_lo hd')
        cases hR : allR (d := d + k) ts with
        | false =>
          simp only [node2_tf, Nat.reduceEqDiff, if_false, if_true, e1, R_bind_ok, Bool.false_eq_true,
            List.append_nil]
          exact ⟨new, e2, h4⟩
        | true =>
          simp only [node2_tt, Nat.reduceEqDiff, if_false, if_true, e1, R_bind_ok, e2]
          obtain ⟨new', e2', h4'⟩ := ih d (ℓ + 1) _ _ tmp _ ⟨s.r ++ enum (d + k + b) (rp b k (lefts (d := d + k) ts)) part, s.tasks ++ new⟩
            (h2 hR) hat (by omega) (dvd_hi hd')
          refine ⟨new ++ new', ?_, List.rel_append h4 h4'⟩
          rw [e2', List.append_assoc, List.append_assoc]

theorem fillThreads_exact {as : List α} {c : Cfg} {b d cut n total : Nat} (htop : c.top < 64)
    (hne : as ≠ []) (hct : c.top = cut + (d + 1) + b) (hth : n < 2 ^ 16) :
    ∀ (todo : List Task) (us : List (Nat × List (Tr (d + 1)))) (i used : Nat) (s : PSt),
    List.Forall₂ (TaskR nav leaf as b (d + 1) cut) todo us → used = todo.length + s.tasks.length → used ≤ n →
    total = todo.length + i →
    ∃ new, fillThreads (as.map nav) c true cut n total todo i used s =
        .ok (todo.drop (replaced n used (us.map fun u => (walk b 1 u.1 u.2).length)),
          threadCount n used (us.map fun u => (walk b 1 u.1 u.2).length),
          ⟨s.r ++ (us.take (replaced n used (us.map fun u => (walk b 1 u.1 u.2).length))).flatMap fun u => enum (d + 1 + b) (rp b 1 u.2) u.1,
            s.tasks ++ new⟩) ∧
      List.Forall₂ (TaskR nav leaf as b d (cut + 1)) new
        ((us.take (replaced n used (us.map fun u => (walk b 1 u.1 u.2).length))).flatMap fun u => walk b 1 u.1 u.2) ∧
      threadCount n used (us.map fun u => (walk b 1 u.1 u.2).length) = (s.tasks ++ new).length +
        (todo.drop (replaced n used (us.map fun u => (walk b 1 u.1 u.2).length))).length ∧
      threadCount n used (us.map fun u => (walk b 1 u.1 u.2).length) ≤ n := by
  intro todo
  induction todo with
  | nil =>
    intro us i used s h hu hle ht
    cases h
    refine ⟨[], ?_, .nil, ?_, ?_⟩
    · rw [fillThreads, hu]
      simp [threadCount, replaced]
    · simpa [threadCount, replaced] using hu
    · simpa [threadCount] using hle
  | cons T todo ih =>
    intro us i used s h hu hle ht
    cases h with
    | @cons _ u _ us hto h =>
      rw [fillThreads]
      have hmod : (n + 2 ^ 32 - used) % 2 ^ 32 = n - used := by omega
      rw [hmod]
      simp only [List.length_cons] at hu ht
      rw [List.map_cons, replaced, threadCount]
      by_cases hgt : used + 1 < n
      · rw [if_pos (by omega), if_pos hgt, if_pos hgt]
        obtain ⟨h1, h2, h3, h4⟩ := hto
        obtain ⟨new, e, g1⟩ := partialAND_exact nav leaf (as := as) (c := c) (b := b) htop hne 1 d cut
          u.2 T.roots T.active T.part s h1 h2 (by omega) (h3 ▸ h4)
        rw [e, R_bind_ok]
        rw [h3] at g1
        have hl : new.length = (walk b 1 u.1 u.2).length := g1.length_eq
        have hl2 := walk_length_le b 1 u.1 u.2
        have hu' : (total + (s.tasks ++ new).length - (i + 1)) % 2 ^ 16 = todo.length + (s.tasks ++ new).length := by
          rw [List.length_append]; omega
        dsimp only
        rw [hu']
        have hlast : used + (walk b 1 u.1 u.2).length - 1 = todo.length + (s.tasks ++ new).length := by
          rw [List.length_append]; omega
        rw [hlast]
        obtain ⟨new', e', k1, k2, k3⟩ := ih us (i + 1) _ ⟨s.r ++ enum (d + 1 + b) (rp b 1 u.2) u.1, s.tasks ++ new⟩ h rfl
          (by rw [List.length_append]; omega) (by omega)
        dsimp only at k2 e'
        rw [h3, e']
        refine ⟨new ++ new', ?_, ?_, ?_, k3⟩
        · rw [Nat.add_comm 1, List.take_succ_cons, List.drop_succ_cons, List.flatMap_cons, List.append_assoc, List.append_assoc]
        · rw [Nat.add_comm 1, List.take_succ_cons, List.flatMap_cons]
          exact List.rel_append g1 k1
        · rw [Nat.add_comm 1, List.drop_succ_cons, k2, List.append_assoc]
      · rw [if_neg (by omega), if_neg hgt, if_neg hgt]
        refine ⟨[], ?_, .nil, ?_, hle⟩
        · simp
        · simp; omega

theorem TaskR.toOK {as : List α} {b d ℓ : Nat} {T : Task} {v : Nat × List (Tr d)} (h : TaskR nav leaf as b d ℓ T v) :
    TaskOK nav leaf False 0 true as b d ℓ T (taskOut b v) := by
  obtain ⟨h1, h2, h3, h4⟩ := h
  exact ⟨v.2, h1, h2, h3 ▸ h4, by rw [taskOut, h3], fun h => h.elim⟩

theorem forall2_toOK {as : List α} {b d ℓ : Nat} {Ts : List Task} {vs : List (Nat × List (Tr d))}
    (h : List.Forall₂ (TaskR nav leaf as b d ℓ) Ts vs) :
    List.Forall₂ (TaskOK nav leaf False 0 true as b d ℓ) Ts (vs.map (taskOut b)) := by
  induction h with
  | nil => exact .nil
  | cons h1 _ ih => exact .cons (TaskR.toOK nav leaf h1) ih

/-- The parallel path with runs. -/
theorem par_body_exact {as : List α} {c : Cfg} {b e d height : Nat} {env : Env} {ts : List (Tr (d + 1 + Nat.log2 env.hw))}
    (hne : as ≠ []) (hP : LeafOK nav leaf as c b e) (hR : LeafOKR nav leaf as c b e)
    (hts : List.Forall₂ (fun a t => Rep (nav a) (leaf a) (d + 1 + Nat.log2 env.hw) 0 t 0) as ts) (hlen : as.length ≤ 16)
    (hstop : c.stop = d + 1 + Nat.log2 env.hw + e)
    (htop : c.top = d + 1 + Nat.log2 env.hw + b) (h64 : c.top < 64) (hw : env.hw ≠ 0) (hw' : env.hw < 2 ^ 16)
    (hh : Nat.log2 env.hw ≤ (height + 2 ^ 64 - 2) % 2 ^ 64) :
    intersectBody (as.map nav) c height true true env = .ok (exactOut b ts) := by
  have hthr : 2 ^ Nat.log2 env.hw ≤ env.hw := Nat.log2_self_le hw
  rw [intersectBody, if_neg hw]
  simp only [hh, and_self, if_true]
  generalize Nat.log2 env.hw = cut at *
  obtain ⟨tasks, e1, h1⟩ := partialAND_exact nav leaf (as := as) (c := c) (b := b) h64 hne cut (d + 1) 0
    ts _ (List.replicate 16 true) 0 ⟨[], []⟩ (Reps.root nav leaf 16 hlen hts) (fun _ => ⟨by simpa using hlen, by simp⟩) (by omega) (dvd_zero _)
  rw [Nat.zero_add] at h1
  rw [e1, R_bind_ok]
  simp only [List.nil_append]
  have hle := walk_length_le b cut 0 ts
  have hl := h1.length_eq
  by_cases h0 : tasks.length = 0
  · rw [if_pos h0, exactOut, List.length_eq_zero_iff.1 (hl.symm.trans h0)]
    simp
  rw [if_neg h0]
  have hmod : tasks.length % 2 ^ 16 = tasks.length := Nat.mod_eq_of_lt (by omega)
  rw [hmod, List.take_length]
  obtain ⟨new, e2, k1, k2, k3⟩ := fillThreads_exact nav leaf (n := 2 ^ cut) (total := tasks.length) h64 hne (by omega) (by omega) tasks _ 0
    tasks.length ⟨enum (d + 1 + cut + b) (rp b cut ts) 0, []⟩ h1 (by simp) (by omega) (by simp)
  rw [e2, R_bind_ok, exactOut, splitCount]
  simp only [List.nil_append] at k2 ⊢
  rw [hl] at k1 k2 k3 ⊢
  generalize hus : walk b cut 0 ts = us at *
  generalize hm : replaced (2 ^ cut) us.length (us.map fun u => (walk b 1 u.1 u.2).length) = m at *
  rw [k2]
  have hok1 := forall2_toOK nav leaf k1
  have hok2 := forall2_toOK nav leaf (List.forall₂_drop m h1)
  have hl1 := k1.length_eq
  generalize hrest : tasks.drop m = rest at *
  by_cases hz : (new ++ rest).length = 0
  · rw [if_pos hz]
    rw [List.length_eq_zero_iff, List.append_eq_nil_iff] at hz
    obtain ⟨rfl, rfl⟩ := hz
    cases h2 : (us.take m).flatMap fun u => walk b 1 u.1 u.2 with
    | cons _ _ => rw [h2] at hl1; simp at hl1
    | nil =>
      cases h3 : us.drop m with
      | cons _ _ => rw [h3] at hok2; cases hok2
      | nil => simp
  rw [if_neg hz]
  generalize hoN : ((us.take m).flatMap fun u => walk b 1 u.1 u.2).map (taskOut b) = oN at *
  generalize hoR : (us.drop m).map (taskOut b) = oR at *
  have hlN := hok1.length_eq
  have hlR := hok2.length_eq
  have hused : new.length + rest.length = (oN ++ oR).length := by simp [hlN, hlR]
  have hnil : (oN ++ oR) ≠ [] := by
    rw [← List.length_pos_iff, List.length_append]
    rw [List.length_append] at hz
    omega
  rw [hused, parallelFor_push hnil, R_bind_ok, gather_ok _ _ _ hnil]
  · rw [← hoN, ← hoR, List.flatten_append, List.flatMap_def, List.flatMap_def, List.append_assoc, List.append_assoc]
    simp [List.flatMap_def]
  · intro t ht
    rw [List.length_append] at ht
    by_cases htn : t < new.length
    · obtain ⟨task, hget, hok⟩ := forall2_get hok1 (i := t) (by omega)
      have e3 : vGet (new ++ rest) t = .ok task := by
        rw [vGet, List.getElem?_append_left htn, hget]
      have e4 : vGet (List.replicate new.length (cut + 1) ++ List.replicate rest.length cut) t = .ok (cut + 1) := by
        rw [vGet, List.getElem?_append_left (by simpa using htn), List.getElem?_replicate, if_pos htn]
      rw [e3, e4]
      simp only [R_bind_ok]
      have hrun := task_run nav leaf hP hR h64 (by omega) (by omega) hok
      rw [if_pos rfl] at hrun
      rw [hrun]
      simp [List.getElem_append_left (show t < oN.length by omega)]
    · obtain ⟨task, hget, hok⟩ := forall2_get hok2 (i := t - new.length) (by omega)
      have e3 : vGet (new ++ rest) t = .ok task := by
        rw [vGet, List.getElem?_append_right (by omega), hget]
      have e4 : vGet (List.replicate new.length (cut + 1) ++ List.replicate rest.length cut) t = .ok cut := by
        rw [vGet, List.getElem?_append_right (by simpa using htn), List.getElem?_replicate, if_pos (by simp; omega)]
      rw [e3, e4]
      simp only [R_bind_ok]
      have hrun := task_run nav leaf hP hR h64 (by omega) (by omega) hok
      rw [if_pos rfl] at hrun
      rw [hrun]
      simp [List.getElem_append_right (show oN.length ≤ t by omega), hlN]

/-- What it leaves allocated. -/
theorem memBody_live_exact {as : List α} {c : Cfg} {b d height : Nat} {env : Env} {ts : List (Tr (d + 1 + Nat.log2 env.hw))}
    (hne : as ≠ [])
    (hts : List.Forall₂ (fun a t => Rep (nav a) (leaf a) (d + 1 + Nat.log2 env.hw) 0 t 0) as ts) (hlen : as.length ≤ 16)
    (htop : c.top = d + 1 + Nat.log2 env.hw + b) (h64 : c.top < 64) (hw : env.hw ≠ 0) (hw' : env.hw < 2 ^ 16)
    (hh : Nat.log2 env.hw ≤ (height + 2 ^ 64 - 2) % 2 ^ 64) {R : List Nat} {H : Heap}
    (h : memBody (as.map nav) c height true true env = .ok (R, H)) : H.live = perTask true * splitCount b ts := by
  have hthr : 2 ^ Nat.log2 env.hw ≤ env.hw := Nat.log2_self_le hw
  rw [memBody_par _ _ _ _ _ hw hh] at h
  generalize Nat.log2 env.hw = cut at *
  obtain ⟨tasks, e1, h1⟩ := partialAND_exact nav leaf (as := as) (c := c) (b := b) h64 hne cut (d + 1) 0
    ts _ (List.replicate 16 true) 0 ⟨[], []⟩ (Reps.root nav leaf 16 hlen hts) (fun _ => ⟨by simpa using hlen, by simp⟩) (by omega) (dvd_zero _)
  rw [Nat.zero_add] at h1
  rw [e1, R_bind_ok] at h
  simp only [List.nil_append] at h
  have hle := walk_length_le b cut 0 ts
  have hl := h1.length_eq
  by_cases h0 : tasks.length = 0
  · rw [if_pos h0] at h
    cases h
    rw [splitCount, List.length_eq_zero_iff.1 (hl.symm.trans h0)]
    rfl
  rw [if_neg h0] at h
  have hmod : tasks.length % 2 ^ 16 = tasks.length := Nat.mod_eq_of_lt (by omega)
  rw [hmod, List.take_length] at h
  obtain ⟨new, e2, k1, k2, k3⟩ := fillThreads_exact nav leaf (n := 2 ^ cut) (total := tasks.length) h64 hne (by omega) (by omega) tasks _ 0
    tasks.length ⟨enum (d + 1 + cut + b) (rp b cut ts) 0, []⟩ h1 (by simp) (by omega) (by simp)
  rw [e2, R_bind_ok] at h
  simp only [List.nil_append] at h k2
  rw [hl] at k2 h
  have hm : splitCount b ts ≤ tasks.length := by
    rw [splitCount, hl]
    refine (replaced_le _ _ _).trans ?_
    rw [List.length_map]
  rw [show replaced (2 ^ cut) (walk b cut 0 ts).length ((walk b cut 0 ts).map fun u => (walk b 1 u.1 u.2).length) = splitCount b ts
    from rfl] at h k2
  generalize splitCount b ts = m at *
  have hr : (tasks.drop m).length = tasks.length - m := List.length_drop
  generalize tasks.drop m = rest at *
  rw [k2] at h
  rw [← hl] at h
  by_cases hz : (new ++ rest).length = 0
  · rw [if_pos hz] at h
    cases h
    rw [List.length_append] at hz
    rw [live_blocks, List.length_append]
    congr 1
    omega
  rw [if_neg hz] at h
  obtain ⟨results, _, h⟩ := bind_ok h
  obtain ⟨r, _, h⟩ := bind_ok h
  obtain ⟨H', e3, hl3⟩ := freeTasks_ok true tasks new rest (new.length + rest.length) (tasks.length - rest.length) (by omega) (by omega)
  rw [e3, R_bind_ok] at h
  cases h
  have : perTask true * (tasks.length + new.length) = perTask true * m + perTask true * (new.length + rest.length) := by
    rw [← Nat.mul_add]
    congr 1
    omega
  omega

/-- The same call on macOS. -/
theorem macBody_exact {as : List α} {c : Cfg} {b d height : Nat} {env : Env} {ts : List (Tr (d + 1 + Nat.log2 env.hw))}
    (hne : as ≠ [])
    (hts : List.Forall₂ (fun a t => Rep (nav a) (leaf a) (d + 1 + Nat.log2 env.hw) 0 t 0) as ts) (hlen : as.length ≤ 16)
    (htop : c.top = d + 1 + Nat.log2 env.hw + b) (h64 : c.top < 64) (hw : env.hw ≠ 0) (hw' : env.hw < 2 ^ 16)
    (hh : Nat.log2 env.hw ≤ (height + 2 ^ 64 - 2) % 2 ^ 64) :
    macBody (as.map nav) c height true true env =
      if taskCount b ts ≤ 32 then intersectBody (as.map nav) c height true true env else .error .shift := by
  have hthr : 2 ^ Nat.log2 env.hw ≤ env.hw := Nat.log2_self_le hw
  obtain ⟨tasks, e1, h1⟩ := partialAND_exact nav leaf (as := as) (c := c) (b := b) h64 hne (Nat.log2 env.hw) (d + 1) 0
    ts _ (List.replicate 16 true) 0 ⟨[], []⟩ (Reps.root nav leaf 16 hlen hts) (fun _ => ⟨by simpa using hlen, by simp⟩) (by omega) (dvd_zero _)
  rw [Nat.zero_add] at h1
  simp only [List.nil_append] at e1
  have hle := walk_length_le b (Nat.log2 env.hw) 0 ts
  have hl := h1.length_eq
  have hmod : tasks.length % 2 ^ 16 = tasks.length := Nat.mod_eq_of_lt (by omega)
  obtain ⟨new, e2, k1, k2, k3⟩ := fillThreads_exact nav leaf (n := 2 ^ Nat.log2 env.hw) (total := tasks.length) h64 hne (by omega) (by omega) tasks _ 0
    tasks.length ⟨enum (d + 1 + Nat.log2 env.hw + b) (rp b (Nat.log2 env.hw) ts) 0, []⟩ h1 (by simp) (by omega) (by simp)
  simp only [List.nil_append] at e2 k2
  rw [hl] at k2
  change taskCount b ts = _ at k2
  have e2' : fillThreads (as.map nav) c true (Nat.log2 env.hw) (2 ^ Nat.log2 env.hw) (tasks.length % 2 ^ 16) (tasks.take (tasks.length % 2 ^ 16)) 0
      (tasks.length % 2 ^ 16) ⟨enum (d + 1 + Nat.log2 env.hw + b) (rp b (Nat.log2 env.hw) ts) 0, []⟩ =
      fillThreads (as.map nav) c true (Nat.log2 env.hw) (2 ^ Nat.log2 env.hw) tasks.length tasks 0
      tasks.length ⟨enum (d + 1 + Nat.log2 env.hw + b) (rp b (Nat.log2 env.hw) ts) 0, []⟩ := by
    rw [hmod, List.take_length]
  have k4 : threadCount (2 ^ Nat.log2 env.hw) tasks.length ((walk b (Nat.log2 env.hw) 0 ts).map fun u => (walk b 1 u.1 u.2).length) =
      taskCount b ts := by rw [hl]; rfl
  rw [k4] at e2
  rw [e2] at e2'
  by_cases hu : taskCount b ts ≤ 32
  · rw [if_pos hu]
    refine macBody_le fun s rest' used s' g1 g2 => ?_
    rw [e1] at g1
    cases g1
    rw [e2'] at g2
    cases g2
    exact hu
  · rw [if_neg hu]
    refine macBody_gt hw hh e1 e2' ?_ ?_ (by omega)
    · intro h0
      have h0 : tasks.length = 0 := h0
      rw [taskCount, List.length_eq_zero_iff.1 (hl.symm.trans h0)] at hu
      simp [threadCount] at hu
    · dsimp only
      rw [List.length_append, hl, ← k2]
      omega

end

end CBT
