import Verif.Proof.StrictSets
import Verif.Proof.MemoryLeak
import Verif.Proof.ExactList

/-!
# Indeterminate values read by parallel calls
-/

namespace CBT

open Spec

/-! ## Parallel loops that fail -/

theorem mapM_either {β γ : Type} {f : β → R γ} {e : UB} : (l : List β) → (∀ x ∈ l, (∃ y, f x = .ok y) ∨ f x = .error e) →
    (∃ ys, l.mapM f = .ok ys) ∨ l.mapM f = .error e
  | [], _ => .inl ⟨[], rfl⟩
  | x :: l, h => by
    rw [List.mapM_cons]
    rcases h x (by simp) with ⟨y, hy⟩ | hy
    · rw [hy, R_bind_ok]
      rcases mapM_either l fun z hz => h z (by simp [hz]) with ⟨ys, hys⟩ | hys
      · exact .inl ⟨y :: ys, by rw [hys]; rfl⟩
      · exact .inr (by rw [hys]; rfl)
    · exact .inr (by rw [hy]; rfl)

theorem mapM_fails {β γ : Type} {f : β → R γ} {e : UB} : (l : List β) → (∀ x ∈ l, (∃ y, f x = .ok y) ∨ f x = .error e) →
    (∃ x ∈ l, f x = .error e) → l.mapM f = .error e
  | [], _, h => by simp at h
  | x :: l, h, hx => by
    rw [List.mapM_cons]
    rcases h x (by simp) with ⟨y, hy⟩ | hy
    · rw [hy, R_bind_ok, mapM_fails l fun z hz => h z (by simp [hz])]
      · rfl
      · obtain ⟨z, hz, hz'⟩ := hx
        rcases List.mem_cons.1 hz with rfl | hz
        · rw [hy] at hz'; cases hz'
        · exact ⟨z, hz, hz'⟩
    · rw [hy]; rfl

theorem parallelFor_fails {β σ : Type} {act : β → σ → R σ} {sched : List Nat} {n k : Nat} {body : Nat → R (List β)} {s : σ} {e : UB}
    (hk : 0 < k) (h : ∀ i < n, (∃ y, body i = .ok y) ∨ body i = .error e) (hi : ∃ i < n, body i = .error e) :
    parallelFor act sched n k body s = .error e := by
  obtain ⟨chunks, hc, _, hle, hfl⟩ := parallelChunks_ok (n := n) hk
  have hlt : ∀ c ∈ chunks, ∀ i ∈ chunkIndices c, i < n := by
    intro c hcm i hi
    have := hle c hcm
    simp only [chunkIndices, List.mem_range'_1] at hi
    omega
  rw [parallelFor, hc, R_bind_ok, mapM_fails (e := e)]
  · rfl
  · intro c hcm
    rcases mapM_either (chunkIndices c) fun i hi => h i (hlt c hcm i hi) with ⟨ys, hy⟩ | hy
    · exact .inl ⟨ys.flatten, by rw [hy]; rfl⟩
    · exact .inr (by rw [hy]; rfl)
  · obtain ⟨i, hin, hie⟩ := hi
    have : i ∈ (chunks.map chunkIndices).flatten := by rw [hfl]; exact List.mem_range.2 hin
    obtain ⟨l, hl, hil⟩ := List.mem_flatten.1 this
    obtain ⟨c, hcm, rfl⟩ := List.mem_map.1 hl
    refine ⟨c, hcm, ?_⟩
    rw [mapM_fails (chunkIndices c) (fun i hi => h i (hlt c hcm i hi)) ⟨i, hil, hie⟩]
    rfl

/-! ## The tasks of a call without runs -/

section
variable {α : Type} (nav : α → Nav) (leaf : α → Nat → Nat → Nat → Prop)

/-- The task walks the trees in the block. -/
def TaskP (as : List α) (b d ℓ : Nat) (T : Task) (v : Nat × List (Tr d)) : Prop :=
  Reps nav leaf d ℓ as v.2 T.roots ∧ T.part = v.1 ∧ 2 ^ (d + b) ∣ v.1

theorem partialAND_plain {as : List α} {c : Cfg} {b : Nat} (htop : c.top < 64) :
    ∀ (k d ℓ : Nat) (ts : List (Tr (d + k))) (os : List (Option Nat)) (act : List Bool) (part : Nat) (s : PSt),
    Reps nav leaf (d + k) ℓ as ts os → c.top = ℓ + (d + k) + b → 2 ^ (d + k + b) ∣ part →
    ∃ new, partialAND (as.map nav) c false k ℓ os act part s = .ok ⟨s.r, s.tasks ++ new⟩ ∧
      List.Forall₂ (TaskP nav leaf as b d (ℓ + k)) new (walk b k part ts) := by
  intro k
  induction k with
  | zero =>
    intro d ℓ ts os act part s hr ht hd
    refine ⟨[⟨part, os.take (as.map nav).length, []⟩], ?_, .cons ⟨?_, rfl, hd⟩ .nil⟩
    · rw [partialAND, if_neg]
      · simp
      · rintro (h | ⟨h1, _⟩)
        · rw [List.length_map] at h
          have := hr.length_le
          omega
        · cases h1
    · simpa using hr.take
  | succ k ih =>
    intro d ℓ ts os act part s hr ht hd
    have hd' : 2 ^ (d + k + b + 1) ∣ part := by rwa [show d + k + b + 1 = d + (k + 1) + b by omega]
    have hs : shl1 (c.top - ℓ - 1) = .ok (2 ^ (d + k + b)) := by
      rw [ht, show ℓ + (d + (k + 1)) + b - ℓ - 1 = d + k + b by omega]; exact shl1_ok (by omega)
    obtain ⟨tmp, h3, -⟩ := partialNodes_reps (runs := false) (d := d + k) nav leaf as ts os act hr (fun h => nomatch h) true true false false
    rw [Bool.true_and, Bool.true_and, node2_tt, node2_ff] at h3
    rw [partialAND, h3, walk]
    simp only [R_bind_ok, hs, or_two_pow hd', Bool.not_false, Bool.false_eq_true, false_and, if_false, true_and]
    rw [show ℓ + (k + 1) = ℓ + 1 + k by omega]
    cases hL : allL (d := d + k) ts with
    | false =>
      cases hR : allR (d := d + k) ts with
      | false =>
        simp only [node2_ff, Bool.false_eq_true, if_true, if_false, List.append_nil]
        exact ⟨[], by simp, .nil⟩
      | true =>
        obtain ⟨cs, e1, h1⟩ := children_right (d := d + k) nav leaf as ts os hr hR
        simp only [node2_ft, Nat.reduceEqDiff, if_false, if_true, e1, R_bind_ok, Bool.false_eq_true, List.nil_append, one_ne_zero]
        exact ih d (ℓ + 1) _ cs tmp _ s h1 (by omega) (dvd_hi hd')
    | true =>
      obtain ⟨cs, e1, h1, h2⟩ := children_left (d := d + k) nav leaf as ts os hr hL
      obtain ⟨new, e2, h4⟩ := ih d (ℓ + 1) _ cs tmp part s h1 (by omega) (dvd_lo hd')
      cases hR : allR (d := d + k) ts with
      | false =>
        simp only [node2_tf, Nat.reduceEqDiff, if_false, if_true, e1, R_bind_ok, Bool.false_eq_true,
          List.append_nil, two_ne_zero]
        exact ⟨new, e2, h4⟩
      | true =>
        simp only [node2_tt, Nat.reduceEqDiff, if_false, if_true, e1, R_bind_ok, e2]
        obtain ⟨new', e2', h4'⟩ := ih d (ℓ + 1) _ _ tmp _ ⟨s.r, s.tasks ++ new⟩ (h2 hR) (by omega) (dvd_hi hd')
        refine ⟨new ++ new', ?_, List.rel_append h4 h4'⟩
        rw [e2', List.append_assoc]

theorem fillThreads_plain {as : List α} {c : Cfg} {b d cut n total : Nat} (htop : c.top < 64)
    (hct : c.top = cut + (d + 1) + b) (hth : n < 2 ^ 16) :
    ∀ (todo : List Task) (us : List (Nat × List (Tr (d + 1)))) (i used : Nat) (s : PSt),
    List.Forall₂ (TaskP nav leaf as b (d + 1) cut) todo us → used = todo.length + s.tasks.length → used ≤ n →
    total = todo.length + i →
    ∃ new, fillThreads (as.map nav) c false cut n total todo i used s =
        .ok (todo.drop (replaced n used (us.map fun u => (walk b 1 u.1 u.2).length)),
          threadCount n used (us.map fun u => (walk b 1 u.1 u.2).length), ⟨s.r, s.tasks ++ new⟩) ∧
      List.Forall₂ (TaskP nav leaf as b d (cut + 1)) new
        ((us.take (replaced n used (us.map fun u => (walk b 1 u.1 u.2).length))).flatMap fun u => walk b 1 u.1 u.2) ∧
      threadCount n used (us.map fun u => (walk b 1 u.1 u.2).length) = (s.tasks ++ new).length +
        (todo.drop (replaced n used (us.map fun u => (walk b 1 u.1 u.2).length))).length := by
  intro todo
  induction todo with
  | nil =>
    intro us i used s h hu hle ht
    cases h
    refine ⟨[], ?_, .nil, ?_⟩
    · rw [fillThreads, hu]
      simp [threadCount, replaced]
    · simpa [threadCount, replaced] using hu
  | cons T todo ih =>
    intro us i used s h hu hle ht
    cases h with
    | @cons _ u _ us hto h =>
      rw [fillThreads]
      have hmod : (n + 2 ^ 32 - used) % 2 ^ 32 = n - used := by omega
      rw [hmod]
      simp only [List.length_cons] at hu ht
      rw [List.map_cons, replaced, threadCount]
      by_cases hgt : used + 1 < n
      · rw [if_pos (by omega), if_pos hgt, if_pos hgt]
        obtain ⟨h1, h3, h4⟩ := hto
        obtain ⟨new, e, g1⟩ := partialAND_plain nav leaf (as := as) (c := c) (b := b) htop 1 d cut
          u.2 T.roots T.active T.part s h1 (by omega) (h3 ▸ h4)
        rw [e, R_bind_ok]
        rw [h3] at g1
        have hl : new.length = (walk b 1 u.1 u.2).length := g1.length_eq
        have hl2 := walk_length_le b 1 u.1 u.2
        have hu' : (total + (s.tasks ++ new).length - (i + 1)) % 2 ^ 16 = todo.length + (s.tasks ++ new).length := by
          rw [List.length_append]; omega
        dsimp only
        rw [hu']
        have hlast : used + (walk b 1 u.1 u.2).length - 1 = todo.length + (s.tasks ++ new).length := by
          rw [List.length_append]; omega
        rw [hlast]
        obtain ⟨new', e', k1, k2⟩ := ih us (i + 1) _ ⟨s.r, s.tasks ++ new⟩ h rfl
          (by rw [List.length_append]; omega) (by omega)
        dsimp only at k2 e'
        rw [e']
        refine ⟨new ++ new', ?_, ?_, ?_⟩
        · rw [Nat.add_comm 1, List.drop_succ_cons, List.append_assoc]
        · rw [Nat.add_comm 1, List.take_succ_cons, List.flatMap_cons]
          exact List.rel_append g1 k1
        · rw [Nat.add_comm 1, List.drop_succ_cons, k2, List.append_assoc]
      · rw [if_neg (by omega), if_neg hgt, if_neg hgt]
        refine ⟨[], ?_, .nil, ?_⟩
        · simp
        · simp; omega

/-- What a task does. -/
theorem taskP_run {as : List α} {c : Cfg} {b e d ℓ : Nat} {lv : List (Tr 0) → Option Bool} (hc : LeafOKb nav leaf as c b e lv)
    (h64 : c.top ≤ 64) (htop : c.top = ℓ + d + b) {T : Task} {v : Nat × List (Tr d)} (h : TaskP nav leaf as b d ℓ T v) :
    ANDb (as.map nav) c (d + e) ℓ T.roots T.part [] = resOf (val lv d v.2) (enum (d + b) (allHas b d v.2) v.1) := by
  obtain ⟨h1, h2, h3⟩ := h
  rw [h2, ANDb_reps nav leaf hc h64 d ℓ v.2 _ _ [] h1 htop h3, List.nil_append]

/-- How many tasks are replaced by their halves. -/
def planSplit (b : Nat) {d k : Nat} (ts : List (Tr (d + 1 + k))) : Nat :=
  replaced (2 ^ k) (walk b k 0 ts).length ((walk b k 0 ts).map fun u => (walk b 1 u.1 u.2).length)

/-- No thread reads an indeterminate value. -/
def PlanQuiet (lv : List (Tr 0) → Option Bool) (b : Nat) {d k : Nat} (ts : List (Tr (d + 1 + k))) : Prop :=
  (∀ v ∈ ((walk b k 0 ts).take (planSplit b ts)).flatMap (fun u => walk b 1 u.1 u.2), val lv d v.2 ≠ none) ∧
  ∀ v ∈ (walk b k 0 ts).drop (planSplit b ts), val lv (d + 1) v.2 ≠ none

theorem forall2_idx {A B : Type} {r : A → B → Prop} {l : List A} {m : List B} (h : List.Forall₂ r l m) {i : Nat} (hi : i < l.length) :
    ∃ x, l[i]? = some x ∧ ∃ y ∈ m, m[i]? = some y ∧ r x y := by
  induction h generalizing i with
  | nil => simp at hi
  | @cons a b l m hab _ ih =>
    cases i with
    | zero => exact ⟨a, rfl, b, by simp, rfl, hab⟩
    | succ i =>
      obtain ⟨x, h1, y, h2, h3, h4⟩ := ih (i := i) (by simpa using hi)
      exact ⟨x, by simpa using h1, y, by simp [h2], by simpa using h3, h4⟩

theorem strictBody_par {as : List α} {c : Cfg} {b e d height : Nat} {env : Env} {ts : List (Tr (d + 1 + Nat.log2 env.hw))}
    {lv : List (Tr 0) → Option Bool} (hc : LeafOKb nav leaf as c b e lv)
    (hts : List.Forall₂ (fun a t => Rep (nav a) (leaf a) (d + 1 + Nat.log2 env.hw) 0 t 0) as ts) (hlen : as.length ≤ 16)
    (hstop : c.stop = d + 1 + Nat.log2 env.hw + e)
    (htop : c.top = d + 1 + Nat.log2 env.hw + b) (h64 : c.top < 64) (hw : env.hw ≠ 0) (hw' : env.hw < 2 ^ 16)
    (hh : Nat.log2 env.hw ≤ (height + 2 ^ 64 - 2) % 2 ^ 64) :
    (PlanQuiet lv b ts → ∃ R, strictBody (as.map nav) c height true env = .ok R) ∧
    (¬ PlanQuiet lv b ts → strictBody (as.map nav) c height true env = .error .uninit) := by
  have hthr : 2 ^ Nat.log2 env.hw ≤ env.hw := Nat.log2_self_le hw
  rw [strictBody, if_neg hw]
  simp only [hh, and_self, if_true]
  generalize Nat.log2 env.hw = cut at *
  obtain ⟨tasks, e1, h1⟩ := partialAND_plain nav leaf (as := as) (c := c) (b := b) h64 cut (d + 1) 0
    ts _ (List.replicate 16 true) 0 ⟨[], []⟩ (Reps.root nav leaf 16 hlen hts) (by omega) (dvd_zero _)
  rw [Nat.zero_add] at h1
  rw [e1, R_bind_ok]
  simp only [List.nil_append]
  have hle := walk_length_le b cut 0 ts
  have hl := h1.length_eq
  by_cases h0 : tasks.length = 0
  · have hnil : walk b cut 0 ts = [] := List.length_eq_zero_iff.1 (hl.symm.trans h0)
    rw [if_pos h0]
    refine ⟨fun _ => ⟨_, rfl⟩, fun hq => (hq ?_).elim⟩
    simp [PlanQuiet, hnil]
  rw [if_neg h0]
  have hmod : tasks.length % 2 ^ 16 = tasks.length := Nat.mod_eq_of_lt (by omega)
  rw [hmod, List.take_length]
  obtain ⟨new, e2, k1, k2⟩ := fillThreads_plain nav leaf (n := 2 ^ cut) (total := tasks.length) h64 (by omega) (by omega) tasks _ 0
    tasks.length ⟨[], []⟩ h1 (by simp) (by omega) (by simp)
  rw [e2, R_bind_ok, PlanQuiet, planSplit]
  simp only [List.nil_append] at k2 ⊢
  rw [hl] at k1 k2 ⊢
  generalize hus : walk b cut 0 ts = us at *
  generalize hm : replaced (2 ^ cut) us.length (us.map fun u => (walk b 1 u.1 u.2).length) = m at *
  rw [k2]
  have hok2 := List.forall₂_drop m h1
  generalize hrest : tasks.drop m = rest at *
  generalize hN : (us.take m).flatMap (fun u => walk b 1 u.1 u.2) = vN at *
  generalize hR : us.drop m = vR at *
  by_cases hz : (new ++ rest).length = 0
  · rw [if_pos hz]
    rw [List.length_eq_zero_iff, List.append_eq_nil_iff] at hz
    obtain ⟨rfl, rfl⟩ := hz
    cases k1
    cases hok2
    exact ⟨fun _ => ⟨_, rfl⟩, fun hq => (hq (by simp)).elim⟩
  rw [if_neg hz]
  generalize hbd : (fun t => (do
    let task ← vGet (new ++ rest) t
    let level ← vGet (List.replicate new.length (cut + 1) ++ List.replicate rest.length cut) t
    let (_, out) ← ANDb (as.map nav) c (c.stop - level) level task.roots task.part []
    pure (out.map fun x => (t, x)) : R (List (Nat × Nat)))) = body
  have hbody1 : ∀ t v, vN[t]? = some v → body t = match val lv d v.2 with
      | some _ => .ok ((enum (d + b) (allHas b d v.2) v.1).map fun x => (t, x))
      | none => .error .uninit := by
    intro t v hv
    have htn : t < new.length := by
      rw [k1.length_eq]
      exact (List.getElem?_eq_some_iff.1 hv).1
    obtain ⟨task, hget, v', _, hv', hok⟩ := forall2_idx k1 htn
    rw [hv] at hv'
    cases hv'
    have e3 : vGet (new ++ rest) t = .ok task := by rw [vGet, List.getElem?_append_left htn, hget]
    have e4 : vGet (List.replicate new.length (cut + 1) ++ List.replicate rest.length cut) t = .ok (cut + 1) := by
      rw [vGet, List.getElem?_append_left (by simpa using htn), List.getElem?_replicate, if_pos htn]
    rw [← hbd]
    simp only [e3, e4, R_bind_ok]
    rw [show c.stop - (cut + 1) = d + e by omega, taskP_run nav leaf hc (by omega) (by omega) hok]
    cases val lv d v.2 <;> rfl
  have hbody2 : ∀ t v, vR[t]? = some v → body (new.length + t) = match val lv (d + 1) v.2 with
      | some _ => .ok ((enum (d + 1 + b) (allHas b (d + 1) v.2) v.1).map fun x => (new.length + t, x))
      | none => .error .uninit := by
    intro t v hv
    have htn : t < rest.length := by
      rw [hok2.length_eq]
      exact (List.getElem?_eq_some_iff.1 hv).1
    obtain ⟨task, hget, v', _, hv', hok⟩ := forall2_idx hok2 htn
    rw [hv] at hv'
    cases hv'
    have e3 : vGet (new ++ rest) (new.length + t) = .ok task := by
      rw [vGet, List.getElem?_append_right (by omega), Nat.add_sub_cancel_left, hget]
    have e4 : vGet (List.replicate new.length (cut + 1) ++ List.replicate rest.length cut) (new.length + t) = .ok cut := by
      rw [vGet, List.getElem?_append_right (by simp), List.getElem?_replicate, if_pos (by simpa using htn)]
    rw [← hbd]
    simp only [e3, e4, R_bind_ok]
    rw [show c.stop - cut = d + 1 + e by omega, taskP_run nav leaf hc (by omega) (by omega) hok]
    cases val lv (d + 1) v.2 <;> rfl
  have hidx : ∀ t < new.length + rest.length, (∃ v ∈ vN, vN[t]? = some v) ∨
      ∃ s, t = new.length + s ∧ ∃ v ∈ vR, vR[s]? = some v := by
    intro t ht
    by_cases htn : t < new.length
    · obtain ⟨_, _, v, h2, h3, _⟩ := forall2_idx k1 htn
      exact .inl ⟨v, h2, h3⟩
    · obtain ⟨_, _, v, h2, h3, _⟩ := forall2_idx hok2 (i := t - new.length) (by omega)
      exact .inr ⟨t - new.length, by omega, v, h2, h3⟩
  have hused : 0 < new.length + rest.length := by rw [List.length_append] at hz; omega
  constructor
  · rintro ⟨q1, q2⟩
    have hout : ∀ t < new.length + rest.length, ∃ out : List Nat, body t = .ok (out.map fun x => (t, x)) := by
      intro t ht
      rcases hidx t ht with ⟨v, hv, hv'⟩ | ⟨s, rfl, v, hv, hv'⟩
      · rw [hbody1 t v hv']
        cases hval : val lv d v.2 with
        | none => exact (q1 v hv hval).elim
        | some _ => exact ⟨_, rfl⟩
      · rw [hbody2 s v hv']
        cases hval : val lv (d + 1) v.2 with
        | none => exact (q2 v hv hval).elim
        | some _ => exact ⟨_, rfl⟩
    obtain ⟨outs, hlo, ho⟩ : ∃ outs : List (List Nat), outs.length = new.length + rest.length ∧
        ∀ t (h : t < outs.length), body t = .ok (outs[t].map fun x => (t, x)) := by
      choose! f hf using hout
      refine ⟨(List.range (new.length + rest.length)).map f, by simp, fun t ht => ?_⟩
      rw [List.length_map, List.length_range] at ht
      simp [hf t ht]
    rw [← hlo] at hused ⊢
    have hnil : outs ≠ [] := List.length_pos_iff.1 hused
    rw [parallelFor_push hnil ho, R_bind_ok, gather_ok _ _ _ hnil]
    exact ⟨_, rfl⟩
  · intro hq
    rw [parallelFor_fails (e := .uninit) hused]
    · rfl
    · intro t ht
      rcases hidx t ht with ⟨v, hv, hv'⟩ | ⟨s, rfl, v, hv, hv'⟩
      · rw [hbody1 t v hv']
        cases val lv d v.2 with
        | none => exact .inr rfl
        | some _ => exact .inl ⟨_, rfl⟩
      · rw [hbody2 s v hv']
        cases val lv (d + 1) v.2 with
        | none => exact .inr rfl
        | some _ => exact .inl ⟨_, rfl⟩
    · by_contra hno
      push Not at hno
      refine hq ⟨fun v hv hval => ?_, fun v hv hval => ?_⟩
      · obtain ⟨t, ht, hv'⟩ := List.mem_iff_getElem.1 hv
        refine hno t (by rw [k1.length_eq]; omega) ?_
        rw [hbody1 t v (by rw [List.getElem?_eq_getElem ht, hv']), hval]
      · obtain ⟨t, ht, hv'⟩ := List.mem_iff_getElem.1 hv
        refine hno (new.length + t) (by rw [hok2.length_eq]; omega) ?_
        rw [hbody2 t v (by rw [List.getElem?_eq_getElem ht, hv']), hval]

end

/-! ## In terms of the sets -/

theorem walk_snd (b : Nat) : (k : Nat) → {d : Nat} → (p : Nat) → (ts : List (Tr (d + k))) → (walk b k p ts).map Prod.snd = sub k ts
  | 0, _, _, _ => rfl
  | k + 1, d, p, ts => by
    rw [walk, sub, List.map_append]
    congr 1
    · split
      · exact walk_snd b k _ _
      · rfl
    · split
      · exact walk_snd b k _ _
      · rfl

/-- The trees below block `q` see the blocks in it. -/
theorem blk_dn {b : Nat} : (k d : Nat) → (ts : List (Tr (d + k))) → (q j i : Nat) → q < 2 ^ k → j ≤ d + b → i < 2 ^ (d + b - j) →
    (Blk b (d + k) ts j (q * 2 ^ (d + b - j) + i) ↔ ∃ u, dn k ts q = some u ∧ Blk b d u j i)
  | 0, d, ts, q, j, i, hq, hj, hi => by
    obtain rfl : q = 0 := by simpa using hq
    rw [Nat.zero_mul, Nat.zero_add]
    simp [dn]
  | k + 1, d, ts, q, j, i, hq, hj, hi => by
    have hp : 2 ^ (k + 1) = 2 ^ k + 2 ^ k := by rw [Nat.pow_succ]; omega
    have hpow : 2 ^ (d + k + b - j) = 2 ^ k * 2 ^ (d + b - j) := by
      rw [← Nat.pow_add, show k + (d + b - j) = d + k + b - j by omega]
    by_cases hlt : q < 2 ^ k
    · have hlt' : q * 2 ^ (d + b - j) + i < 2 ^ (d + k + b - j) := by
        rw [hpow]
        calc q * 2 ^ (d + b - j) + i < (q + 1) * 2 ^ (d + b - j) := by rw [Nat.add_mul]; omega
          _ ≤ _ := Nat.mul_le_mul_right _ hlt
      refine (blk_lo (d := d + k) ts (by omega) hlt').trans ?_
      rw [dn_lo hlt, blk_dn k d _ q j i hlt hj hi]
      cases allL (d := d + k) ts <;> simp
    · obtain ⟨q, rfl⟩ : ∃ q', q = 2 ^ k + q' := ⟨q - 2 ^ k, by omega⟩
      have e : (2 ^ k + q) * 2 ^ (d + b - j) + i = q * 2 ^ (d + b - j) + i + 2 ^ (d + k + b - j) := by rw [hpow]; ring
      rw [e]
      refine (blk_hi (d := d + k) ts (by omega)).trans ?_
      rw [dn_hi, blk_dn k d _ q j i (by omega) hj hi]
      cases allR (d := d + k) ts <;> simp

theorem dn_ne {b : Nat} : (k d : Nat) → (ts : List (Tr (d + k))) → (q : Nat) → (∀ t ∈ ts, NE b (d + k) t) → (u : List (Tr d)) →
    dn k ts q = some u → ∀ t ∈ u, NE b d t
  | 0, d, ts, q, hn, u, h => by cases h; exact hn
  | k + 1, d, ts, q, hn, u, h => by
    rw [dn] at h
    split at h
    · split at h
      · exact dn_ne k d _ _ (ne_lefts (d := d + k) hn) u h
      · cases h
    · split at h
      · exact dn_ne k d _ _ (ne_rights (d := d + k) hn) u h
      · cases h

/-- The condition on a block and everything in it. -/
def LeftFirstIn (b n q : Nat) (sets : List (List Nat)) : Prop :=
  ∀ j, b ≤ j → j < n → ∀ k, k / 2 ^ (n - 1 - j) = q → LeftFirstAt b sets j k

theorem quiet_in {b n q : Nat} {sets : List (List Nat)} :
    QuietB b n (fun j i => AllMeet sets j (q * 2 ^ (n - j) + i)) ↔ LeftFirstIn b n q sets := by
  have key : ∀ j, j < n → ∀ i, q * 2 ^ (n - j) + 2 * i = 2 * (q * 2 ^ (n - 1 - j) + i) := by
    intro j hj i
    rw [two_pow_half (show n - j = n - 1 - j + 1 by omega)]; ring
  constructor
  · intro H j hb hj k hk
    obtain ⟨h1, h2⟩ := H j hb hj (k % 2 ^ (n - 1 - j)) (Nat.mod_lt _ (Nat.two_pow_pos _))
    have e : q * 2 ^ (n - 1 - j) + k % 2 ^ (n - 1 - j) = k := by rw [← hk, Nat.div_add_mod']
    dsimp only at h1 h2
    rw [← Nat.add_assoc, key j hj, e] at h1 h2
    refine ⟨h1, fun h3 => (h2 h3).imp id ?_⟩
    rintro ⟨w, hw, h4⟩
    refine ⟨_, ?_, h4⟩
    have e2 : q * 2 ^ (n - b) + (2 * (k % 2 ^ (n - 1 - j)) * 2 ^ (j - b) + w) = 2 * k * 2 ^ (j - b) + w := by
      rw [show n - b = (n - j) + (j - b) by omega, Nat.pow_add, ← e, ← key j hj]
      rw [show (q * 2 ^ (n - 1 - j) + k % 2 ^ (n - 1 - j)) % 2 ^ (n - 1 - j) = k % 2 ^ (n - 1 - j) by rw [e]]
      ring
    rw [e2, Nat.mul_comm _ (2 ^ (j - b)), Nat.mul_add_div (Nat.two_pow_pos _), Nat.div_eq_of_lt hw, Nat.add_zero]
  · intro H j hb hj i hi
    obtain ⟨h1, h2⟩ := H j hb hj (q * 2 ^ (n - 1 - j) + i) (block_div hi)
    dsimp only
    rw [← Nat.add_assoc, key j hj]
    refine ⟨h1, fun h3 => (h2 h3).imp id ?_⟩
    rintro ⟨w, hw, h4⟩
    refine ⟨w % 2 ^ (j - b), Nat.mod_lt _ (Nat.two_pow_pos _), ?_⟩
    have e2 : q * 2 ^ (n - b) + (2 * i * 2 ^ (j - b) + w % 2 ^ (j - b)) = w := by
      conv_rhs => rw [← Nat.div_add_mod' w (2 ^ (j - b)), hw, ← key j hj]
      rw [show n - b = (n - j) + (j - b) by omega, Nat.pow_add]
      ring
    rw [e2]
    exact h4

/-- What is in the blocks and in the halves of the blocks that are replaced. -/
theorem leftFirstPar_iff {b n cut : Nat} (hn : b < n) {sets : List (List Nat)} :
    LeftFirstPar b n cut sets ↔ (∀ q ∈ splitBlocksOf sets n cut, ∀ r ≤ 1, LeftFirstIn b (n - 1) (2 * q + r) sets) ∧
      ∀ q, q ∉ splitBlocksOf sets n cut → LeftFirstIn b n q sets := by
  constructor
  · rintro ⟨h1, h2⟩
    refine ⟨fun q _ r _ j hb hj k _ => h1 j k hb hj, fun q hq j hb hj k hk => ?_⟩
    by_cases hjn : j = n - 1
    · subst hjn
      rw [Nat.sub_self, Nat.pow_zero, Nat.div_one] at hk
      subst hk
      exact h2 k hq
    · exact h1 j k hb (by omega)
  · rintro ⟨h1, h2⟩
    refine ⟨fun j k hb hj => ?_, fun k hk => h2 k hk (n - 1) (by omega) (by omega) k (by simp)⟩
    by_cases hq : k / 2 ^ (n - 1 - j) ∈ splitBlocksOf sets n cut
    · refine h1 _ hq (k / 2 ^ (n - 1 - 1 - j) % 2) (by omega) j hb hj k ?_
      have : k / 2 ^ (n - 1 - j) = k / 2 ^ (n - 1 - 1 - j) / 2 := by
        rw [Nat.div_div_eq_div_mul, ← Nat.pow_succ, show (n - 1 - 1 - j).succ = n - 1 - j by omega]
      rw [this]
      omega
    · exact h2 _ hq j hb (by omega) k rfl

section
variable {b b' d k : Nat} {sets : List (List Nat)} {ts : List (Tr (d + 1 + k))}

theorem walk_common (hn : ∀ t ∈ ts, NE b (d + 1 + k) t)
    (h : List.Forall₂ (fun S t => Holds (d + 1 + k + b) (has b (d + 1 + k) t) S) sets ts)
    (hb : ∀ S ∈ sets, ∀ x ∈ S, x < 2 ^ (d + 1 + k + b)) :
    walk b k 0 ts = (commonBlocks sets (d + 1 + b) k).map fun q => (q * 2 ^ (d + 1 + b), tk k ts q) := by
  rw [walk_eq, filterMap_filter _ (fun q => (q * 2 ^ (d + 1 + b), tk k ts q)), commonBlocks]
  · congr 1
    refine List.filter_congr fun q hq => ?_
    have hq := List.mem_range.1 hq
    have e1 := blk_dn (b := b) k (d + 1) ts q (d + 1 + b) 0 hq (Nat.le_refl _) (by simp)
    have e2 := allMeet_blk h hb (j := d + 1 + b) (k := q) (by omega) (by rwa [show d + 1 + k + b - (d + 1 + b) = k by omega])
    simp only [Nat.sub_self, Nat.pow_zero, Nat.mul_one, Nat.add_zero q] at e1
    rw [e2, ← meetsAll_iff] at e1
    rw [Option.isSome_map, Bool.eq_iff_iff, e1, Option.isSome_iff_exists]
    exact exists_congr fun u => ⟨fun hu => ⟨hu, blk_root (dn_ne k (d + 1) ts q hn u hu)⟩, fun hu => hu.1⟩
  · intro q _ v hv
    obtain ⟨u, hu, rfl⟩ := Option.map_eq_some_iff.1 hv
    rw [tk, hu, Nat.zero_add]
    rfl

theorem planSplit_common (hn : ∀ t ∈ ts, NE b (d + 1 + k) t)
    (h : List.Forall₂ (fun S t => Holds (d + 1 + k + b) (has b (d + 1 + k) t) S) sets ts)
    (hb : ∀ S ∈ sets, ∀ x ∈ S, x < 2 ^ (d + 1 + k + b)) :
    planSplit b ts = replaced (2 ^ k) (commonBlocks sets (d + 1 + b) k).length
      ((commonBlocks sets (d + 1 + b) k).map (commonHalves sets (d + 1 + b - 1))) := by
  obtain ⟨e1, e2⟩ := sub_sets hn h hb
  rw [planSplit, walk_length, e2, show d + 1 + b - 1 = d + b by omega, ← e1, ← walk_snd b k 0 ts, List.map_map]
  congr 1
  exact List.map_congr_left fun v _ => walk_length b 1 _ _

/-- Quiet below block `q`. -/
theorem val_dn {lv : List (Tr 0) → Option Bool} (hbb : b' ≤ b) (hlv : ∀ ts, (∀ t ∈ ts, NE b 0 t) → ValOK b' b (Blk b 0 ts) (lv ts))
    {D K Q q : Nat} {ts : List (Tr (D + K))} (hn : ∀ t ∈ ts, NE b (D + K) t)
    (h : ∀ j i, j < D + K + b → i < 2 ^ (D + K + b - j) → (Blk b (D + K) ts j i ↔ AllMeet sets j (Q * 2 ^ (D + K + b - j) + i)))
    (hq : q < 2 ^ K) :
    (∀ u, dn K ts q = some u → val lv D u ≠ none) ↔ LeftFirstIn b' (D + b) (Q * 2 ^ K + q) sets := by
  have hB : ∀ j i, j < D + b → i < 2 ^ (D + b - j) →
      (AllMeet sets j ((Q * 2 ^ K + q) * 2 ^ (D + b - j) + i) ↔ ∃ u, dn K ts q = some u ∧ Blk b D u j i) := by
    intro j i hj hi
    have hpow : 2 ^ (D + K + b - j) = 2 ^ K * 2 ^ (D + b - j) := by
      rw [← Nat.pow_add, show K + (D + b - j) = D + K + b - j by omega]
    rw [← blk_dn K D ts q j i hq (by omega) hi, h j _ (by omega), hpow]
    · rw [Nat.add_mul, Nat.mul_assoc, Nat.add_assoc]
    · rw [hpow]
      calc q * 2 ^ (D + b - j) + i < (q + 1) * 2 ^ (D + b - j) := by rw [Nat.add_mul]; omega
        _ ≤ _ := Nat.mul_le_mul_right _ hq
  rw [← quiet_in]
  cases hu : dn K ts q with
  | none =>
    simp only [reduceCtorEq, false_implies, implies_true, true_iff]
    refine QuietB.of_none fun j i hj hi => ?_
    rw [hB j i hj hi, hu]
    simp
  | some u =>
    have hv := val_ok hbb hlv D u (dn_ne K D ts q hn u hu)
    have e : QuietB b' (D + b) (fun j i => AllMeet sets j ((Q * 2 ^ K + q) * 2 ^ (D + b - j) + i)) ↔ QuietB b' (D + b) (Blk b D u) :=
      QuietB.congr fun j i hj hi => by rw [hB j i hj hi, hu]; simp
    rw [e]
    constructor
    · intro H
      by_contra hq
      exact H u rfl (hv.2 hq)
    · rintro H _ ⟨⟩ h0
      obtain ⟨x, hx, _⟩ := hv.1 H
      rw [hx] at h0
      cases h0

theorem mem_walk {D K p : Nat} {ts : List (Tr (D + K))} (P : List (Tr D) → Prop) :
    (∀ v ∈ walk b K p ts, P v.2) ↔ ∀ q < 2 ^ K, ∀ u, dn K ts q = some u → P u := by
  rw [walk_eq]
  simp only [List.mem_filterMap, List.mem_range, Option.map_eq_some_iff]
  constructor
  · intro H q hq u hu
    exact H (p + q * 2 ^ (D + b), u) ⟨q, hq, u, hu, rfl⟩
  · rintro H _ ⟨q, hq, u, hu, rfl⟩
    exact H q hq u hu

theorem planQuiet_sets {lv : List (Tr 0) → Option Bool} (hbb : b' ≤ b)
    (hlv : ∀ ts, (∀ t ∈ ts, NE b 0 t) → ValOK b' b (Blk b 0 ts) (lv ts)) (hne : sets ≠ []) (hn : ∀ t ∈ ts, NE b (d + 1 + k) t)
    (h : List.Forall₂ (fun S t => Holds (d + 1 + k + b) (has b (d + 1 + k) t) S) sets ts)
    (hb : ∀ S ∈ sets, ∀ x ∈ S, x < 2 ^ (d + 1 + k + b)) :
    PlanQuiet lv b ts ↔ LeftFirstPar b' (d + 1 + b) k sets := by
  have hB : ∀ j i, j < d + 1 + k + b → i < 2 ^ (d + 1 + k + b - j) →
      (Blk b (d + 1 + k) ts j i ↔ AllMeet sets j (0 * 2 ^ (d + 1 + k + b - j) + i)) := by
    intro j i hj hi
    rw [Nat.zero_mul, Nat.zero_add]
    exact allMeet_blk h hb (by omega) hi
  have hdn : ∀ q ∈ commonBlocks sets (d + 1 + b) k, q < 2 ^ k ∧ dn k ts q = some (tk k ts q) := by
    intro q hq
    rw [commonBlocks, List.mem_filter, List.mem_range, meetsAll_iff] at hq
    obtain ⟨hq, hm⟩ := hq
    have e1 := blk_dn (b := b) k (d + 1) ts q (d + 1 + b) 0 hq (Nat.le_refl _) (by simp)
    have e2 := allMeet_blk h hb (j := d + 1 + b) (k := q) (by omega) (by rwa [show d + 1 + k + b - (d + 1 + b) = k by omega])
    simp only [Nat.sub_self, Nat.pow_zero, Nat.mul_one, Nat.add_zero q] at e1
    obtain ⟨u, hu, _⟩ := e1.1 (e2.2 hm)
    refine ⟨hq, ?_⟩
    rw [tk, hu]
    rfl
  rw [leftFirstPar_iff (by omega), PlanQuiet, walk_common hn h hb, planSplit_common hn h hb, splitBlocksOf]
  have hnd : (commonBlocks sets (d + 1 + b) k).Nodup := List.nodup_range.filter _
  have hnc : ∀ q, q ∉ commonBlocks sets (d + 1 + b) k → LeftFirstIn b' (d + 1 + b) q sets := by
    intro q hq j hb1 hj i hi
    have hno : ∀ r ≤ 1, ¬ AllMeet sets j (2 * i + r) := by
      intro r hr hm
      apply hq
      have h1 : AllMeet sets (d + 1 + b) q := by
        intro S hS
        obtain ⟨x, hx, hx'⟩ := hm S hS
        refine ⟨x, hx, ?_⟩
        have : x / 2 ^ (d + 1 + b) = x / 2 ^ j / 2 / 2 ^ (d + 1 + b - 1 - j) := by
          rw [Nat.div_div_eq_div_mul, Nat.div_div_eq_div_mul, ← Nat.pow_succ', ← Nat.pow_add]
          congr 2
          omega
        rw [this, hx', ← hi]
        congr 1
        omega
      rw [commonBlocks, List.mem_filter, List.mem_range, meetsAll_iff]
      have := allMeet_lt hne hb (by omega) h1
      rw [show d + 1 + k + b - (d + 1 + b) = k by omega] at this
      exact ⟨this, h1⟩
    exact ⟨fun hm => (hno 1 (by omega) hm).elim, fun hm => (hno 0 (by omega) hm).elim⟩
  generalize replaced (2 ^ k) (commonBlocks sets (d + 1 + b) k).length
      ((commonBlocks sets (d + 1 + b) k).map (commonHalves sets (d + 1 + b - 1))) = m at *
  generalize commonBlocks sets (d + 1 + b) k = B at *
  refine and_congr ?_ ?_
  · rw [← List.map_take]
    simp only [List.mem_flatMap, List.mem_map]
    have key : ∀ q ∈ B, ((∀ v ∈ walk b 1 (q * 2 ^ (d + 1 + b)) (tk k ts q), val lv d v.2 ≠ none) ↔
        ∀ r ≤ 1, LeftFirstIn b' (d + 1 + b - 1) (2 * q + r) sets) := by
      intro q hq
      obtain ⟨hq, hu⟩ := hdn q hq
      have hB1 : ∀ j i, j < d + 1 + b → i < 2 ^ (d + 1 + b - j) →
          (Blk b (d + 1) (tk k ts q) j i ↔ AllMeet sets j (q * 2 ^ (d + 1 + b - j) + i)) := by
        intro j i hj hi
        have hpow : 2 ^ (d + 1 + k + b - j) = 2 ^ k * 2 ^ (d + 1 + b - j) := by
          rw [← Nat.pow_add, show k + (d + 1 + b - j) = d + 1 + k + b - j by omega]
        have := blk_dn k (d + 1) ts q j i hq (by omega) hi
        rw [hu, hB j _ (by omega), Nat.zero_mul, Nat.zero_add] at this
        · rw [this]
          simp
        · rw [hpow]
          calc q * 2 ^ (d + 1 + b - j) + i < (q + 1) * 2 ^ (d + 1 + b - j) := by rw [Nat.add_mul]; omega
            _ ≤ _ := Nat.mul_le_mul_right _ hq
      rw [mem_walk (D := d) (K := 1) fun u => val lv d u ≠ none, show d + 1 + b - 1 = d + b by omega]
      refine forall_congr' fun r => ?_
      rw [show r < 2 ^ 1 ↔ r ≤ 1 by omega]
      refine forall_congr' fun hr => ?_
      rw [val_dn hbb hlv (K := 1) (Q := q) (q := r) (dn_ne k (d + 1) ts q hn _ hu) hB1 (by omega), Nat.pow_one, Nat.mul_comm]
    constructor
    · intro H q hq
      exact (key q (List.mem_of_mem_take hq)).1 fun v hv => H v ⟨_, ⟨q, hq, rfl⟩, hv⟩
    · rintro H v ⟨_, ⟨q, hq, rfl⟩, hv⟩
      exact (key q (List.mem_of_mem_take hq)).2 (H q hq) v hv
  · rw [← List.map_drop]
    simp only [List.mem_map]
    have key : ∀ q ∈ B, (val lv (d + 1) (tk k ts q) ≠ none ↔ LeftFirstIn b' (d + 1 + b) q sets) := by
      intro q hq
      obtain ⟨hq, hu⟩ := hdn q hq
      have := val_dn hbb hlv (Q := 0) (q := q) hn hB hq
      rw [Nat.zero_mul, Nat.zero_add] at this
      rw [← this, hu]
      simp
    constructor
    · intro H q hq
      by_cases hqB : q ∈ B
      · refine (key q hqB).1 (H _ ⟨q, ?_, rfl⟩)
        rw [← List.take_append_drop m B, List.mem_append] at hqB
        exact hqB.resolve_left hq
      · exact hnc q hqB
    · rintro H v ⟨q, hq, rfl⟩
      refine (key q (List.mem_of_mem_drop hq)).2 (H q fun hq' => ?_)
      rw [← List.take_append_drop m B] at hnd
      exact (List.nodup_append.1 hnd).2.2 q hq' q hq rfl

end

end CBT
