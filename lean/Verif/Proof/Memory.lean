import Verif.Model.Memory
import Verif.Proof.FlatCollapse

/-!
# The heap of `Intersect` refines the tasks
-/

namespace CBT

theorem R_map_bind {A B C : Type} (x : R A) (f : A → R B) (g : B → C) :
    (x >>= f).map g = x >>= fun a => (f a).map g := by cases x <;> rfl

theorem R_bind_map {A B C : Type} (x : R A) (f : A → B) (g : B → R C) : (x.map f >>= g) = x >>= fun a => g (f a) := by
  cases x <;> rfl

theorem R_map_ok {A B : Type} (a : A) (f : A → B) : (Except.ok a : R A).map f = .ok (f a) := rfl
theorem R_map_error {A B : Type} (e : UB) (f : A → B) : (Except.error e : R A).map f = .error e := rfl

theorem R_bind_congr {A B : Type} (x : R A) {f g : A → R B} (h : ∀ a, x = .ok a → f a = g a) : (x >>= f) = (x >>= g) := by
  cases x with
  | error _ => rfl
  | ok a => exact h a rfl

theorem ite_map {A B : Type} {p : Prop} [Decidable p] (x y : R A) (f : A → B) :
    (if p then x else y).map f = if p then x.map f else y.map f := by split <;> rfl

/-- The arrays of a task. -/
def blockOf (runs : Bool) (T : Task) : Heap :=
  if runs then [some (.roots T.roots), some (.flags T.active)] else [some (.roots T.roots)]

def perTask (runs : Bool) : Nat := if runs then 2 else 1

/-- The arrays of tasks allocated one after the other. -/
def blocksOf (runs : Bool) (L : List Task) : Heap := L.flatMap (blockOf runs)

/-- Their pointers when `n` arrays were allocated before. -/
def ptrsOf (runs : Bool) : Nat → List Task → List MTask
  | _, [] => []
  | n, T :: L => ⟨T.part, n, if runs then some (n + 1) else none⟩ :: ptrsOf runs (n + perTask runs) L

theorem blockOf_length (runs : Bool) (T : Task) : (blockOf runs T).length = perTask runs := by cases runs <;> rfl

theorem blocksOf_length (runs : Bool) (L : List Task) : (blocksOf runs L).length = perTask runs * L.length := by
  induction L with
  | nil => rfl
  | cons T L ih => rw [blocksOf, List.flatMap_cons, List.length_append, blockOf_length, List.length_cons, ← blocksOf, ih]; ring

theorem blocksOf_append (runs : Bool) (L M : List Task) : blocksOf runs (L ++ M) = blocksOf runs L ++ blocksOf runs M := by
  simp [blocksOf]

theorem ptrsOf_length (runs : Bool) : (n : Nat) → (L : List Task) → (ptrsOf runs n L).length = L.length
  | _, [] => rfl
  | n, _ :: L => by rw [ptrsOf, List.length_cons, List.length_cons, ptrsOf_length runs _ L]

theorem ptrsOf_append (runs : Bool) : (n : Nat) → (L M : List Task) →
    ptrsOf runs n (L ++ M) = ptrsOf runs n L ++ ptrsOf runs (n + perTask runs * L.length) M
  | n, [], M => by simp [ptrsOf]
  | n, T :: L, M => by
    rw [List.cons_append, ptrsOf, ptrsOf_append runs _ L M, ptrsOf, List.cons_append, List.length_cons]
    congr 3
    ring

theorem ptrsOf_take (runs : Bool) (n : Nat) (L : List Task) (k : Nat) : (ptrsOf runs n L).take k = ptrsOf runs n (L.take k) := by
  induction L generalizing n k with
  | nil => simp [ptrsOf]
  | cons T L ih =>
    cases k with
    | zero => simp [ptrsOf]
    | succ k => rw [List.take_succ_cons, ptrsOf, List.take_succ_cons, ih, ptrsOf]

/-- The state with pointers: the tasks were allocated after the heap `H0`. -/
def conc (runs : Bool) (H0 : Heap) (s : PSt) : MSt := ⟨s.r, ptrsOf runs H0.length s.tasks, H0 ++ blocksOf runs s.tasks⟩

theorem partialANDm_eq (Ts : List Nav) (c : Cfg) (runs : Bool) (H0 : Heap) : (rem ℓ : Nat) → (roots : List (Option Nat)) →
    (active : List Bool) → (part : Nat) → (s : PSt) →
    partialANDm Ts c runs rem ℓ roots active part (conc runs H0 s) = (partialAND Ts c runs rem ℓ roots active part s).map (conc runs H0)
  | 0, ℓ, roots, active, part, s => by
    rw [partialANDm, partialAND, ite_map]
    split
    · rfl
    · cases runs
      · simp [conc, ptrsOf_append, ptrsOf, blocksOf, blockOf, R_map_ok, perTask]
      · simp [conc, ptrsOf_append, ptrsOf, blocksOf, blockOf, R_map_ok, perTask, Nat.mul_comm]
  | rem + 1, ℓ, roots, active, part, s => by
    rw [partialANDm, partialAND, R_map_bind]
    congr 1
    funext ⟨tmp, res, n00⟩
    simp only [ite_map, R_map_bind, R_map_ok, partialANDm_eq Ts c runs H0 rem, R_bind_map]
    rfl

theorem blocksOf_get (runs : Bool) (pre : List Task) (T : Task) (todo : List Task) (X : Heap) :
    (blocksOf runs (pre ++ T :: todo) ++ X).roots (perTask runs * pre.length) = .ok T.roots ∧
    (blocksOf runs (pre ++ T :: todo) ++ X).flags (if runs then some (perTask runs * pre.length + 1) else none) =
      .ok (if runs then T.active else []) := by
  have h : blocksOf runs (pre ++ T :: todo) ++ X = blocksOf runs pre ++ (blockOf runs T ++ (blocksOf runs todo ++ X)) := by
    simp [blocksOf]
  have hl := blocksOf_length runs pre
  constructor
  · rw [Heap.roots, h, List.getElem?_append_right (by omega), hl]
    cases runs <;> simp [blockOf]
  · cases runs with
    | false => rfl
    | true =>
      simp only [if_true, Heap.flags]
      rw [h, List.getElem?_append_right (by omega), hl]
      simp [blockOf]

/-- Without runs tasks have no flags. -/
def NoFlags (runs : Bool) (L : List Task) : Prop := runs = false → ∀ T ∈ L, T.active = []

theorem fillThreadsM_eq (Ts : List Nav) (c : Cfg) (runs : Bool) (cut n total : Nat) (post : List Task) :
    (pre todo : List Task) → (i used : Nat) → (s : PSt) → NoFlags runs todo →
    fillThreadsM Ts c runs cut n total (ptrsOf runs (perTask runs * pre.length) todo) i used (conc runs (blocksOf runs (pre ++ todo ++ post)) s) =
      (fillThreads Ts c runs cut n total todo i used s).map fun x =>
        (ptrsOf runs (perTask runs * (pre.length + todo.length - x.1.length)) x.1, x.2.1, conc runs (blocksOf runs (pre ++ todo ++ post)) x.2.2)
  | pre, [], i, used, s, _ => by
    rw [ptrsOf, fillThreadsM, fillThreads, R_map_ok]
    rfl
  | pre, T :: todo, i, used, s, hf => by
    rw [ptrsOf, fillThreadsM, fillThreads, ite_map]
    split
    · have e : pre ++ T :: todo ++ post = pre ++ T :: (todo ++ post) := by simp
      obtain ⟨h1, h2⟩ := blocksOf_get runs pre T (todo ++ post) (blocksOf runs s.tasks)
      have h3 : (if runs then T.active else []) = T.active := by
        cases runs with
        | true => rfl
        | false => exact (hf rfl T List.mem_cons_self).symm
      simp only [R_map_bind]
      rw [e]
      have h1' : (conc runs (blocksOf runs (pre ++ T :: (todo ++ post))) s).heap.roots (perTask runs * pre.length) = .ok T.roots := h1
      have h2' : (conc runs (blocksOf runs (pre ++ T :: (todo ++ post))) s).heap.flags
        (if runs then some (perTask runs * pre.length + 1) else none) = .ok T.active := h2.trans (by rw [h3])
      simp only [h1', h2', R_bind_ok, partialANDm_eq, R_bind_map]
      congr 1
      funext s'
      have ih := fillThreadsM_eq Ts c runs cut n total post (pre ++ [T]) todo (i + 1) ((total + s'.tasks.length - (i + 1)) % 2 ^ 16) s'
        (fun h T hT => hf h T (List.mem_cons_of_mem _ hT))
      simp only [List.length_append, List.length_cons, List.length_nil, List.append_assoc, List.cons_append, List.nil_append,
        Nat.zero_add] at ih
      have el : (conc runs (blocksOf runs (pre ++ T :: (todo ++ post))) s').tasks.length = s'.tasks.length := ptrsOf_length _ _ _
      rw [el, show perTask runs * pre.length + perTask runs = perTask runs * (pre.length + 1) by ring, ih]
      simp only [List.length_cons, Nat.add_assoc, Nat.add_comm 1]
    · rw [R_map_ok]
      simp [ptrsOf]

/-! ## Freeing -/

theorem free_ok {H : Heap} {p : Nat} {b : Block} (h : H[p]? = some (some b)) :
    Heap.free p H = .ok (H.set p none) ∧ (Heap.live (H.set p none)) + 1 = H.live := by
  refine ⟨by rw [Heap.free, h], ?_⟩
  obtain ⟨hp, he⟩ := List.getElem?_eq_some_iff.1 h
  have hpos : 0 < H.live := List.countP_pos_iff.2 ⟨H[p], List.getElem_mem hp, by rw [he]; rfl⟩
  rw [Heap.live] at hpos ⊢
  rw [List.countP_set hp, he, Heap.live]
  simp
  omega

theorem free_all : (ps : List Nat) → (H : Heap) → ps.Nodup → (∀ p ∈ ps, ∃ b, H[p]? = some (some b)) →
    ∃ H', ps.foldlM (fun H p => Heap.free p H) H = .ok H' ∧ Heap.live H' + ps.length = H.live
  | [], H, _, _ => ⟨H, rfl, rfl⟩
  | p :: ps, H, hn, h => by
    obtain ⟨b, hb⟩ := h p List.mem_cons_self
    obtain ⟨e, hl⟩ := free_ok hb
    obtain ⟨hp, hn⟩ := List.nodup_cons.1 hn
    obtain ⟨H', e', hl'⟩ := free_all ps (H.set p none) hn (by
      intro q hq
      obtain ⟨b, hb⟩ := h q (List.mem_cons_of_mem _ hq)
      refine ⟨b, ?_⟩
      rw [List.getElem?_set_ne (by rintro rfl; exact hp hq), hb])
    refine ⟨H', ?_, by rw [List.length_cons]; omega⟩
    rw [List.foldlM_cons, e]
    exact e'

/-- The pointers freed for a task. -/
def freed (runs : Bool) (t : MTask) : List Nat := if runs then [t.active.getD 0, t.roots] else [t.roots]

theorem freed_perm (runs : Bool) : (n : Nat) → (L : List Task) →
    ((ptrsOf runs n L).flatMap (freed runs)).Perm (List.range' n (perTask runs * L.length))
  | n, [] => by simp [ptrsOf]
  | n, T :: L => by
    rw [ptrsOf, List.flatMap_cons, List.length_cons,
      show perTask runs * (L.length + 1) = perTask runs + perTask runs * L.length by ring, ← List.range'_append_1]
    refine List.Perm.append ?_ (freed_perm runs _ L)
    cases runs with
    | false => exact List.Perm.refl _
    | true => exact List.Perm.swap _ _ _

theorem freeTask_eq {runs : Bool} {t : MTask} (ht : runs = true → t.active ≠ none) (H : Heap) :
    freeTask runs t H = (freed runs t).foldlM (fun H p => Heap.free p H) H := by
  cases runs with
  | false =>
    simp only [freeTask, freed, Bool.false_eq_true, if_false, R_bind_ok, List.foldlM_cons, List.foldlM_nil]
    cases Heap.free t.roots H <;> rfl
  | true =>
    obtain ⟨p, hp⟩ := Option.ne_none_iff_exists'.1 (ht rfl)
    simp only [freeTask, freed, if_true, hp, Option.getD_some, List.foldlM_cons, List.foldlM_nil]
    congr 1
    funext H
    cases Heap.free t.roots H <;> rfl

theorem ptrsOf_active {runs : Bool} (hr : runs = true) : (n : Nat) → (L : List Task) → ∀ t ∈ ptrsOf runs n L, t.active ≠ none
  | _, [], _, h => by simp [ptrsOf] at h
  | n, T :: L, t, h => by
    rw [ptrsOf, List.mem_cons] at h
    rcases h with rfl | h
    · simp [hr]
    · exact ptrsOf_active hr _ L t h

theorem foldlM_flatMap {A B : Type} (f : A → List B) (g : Heap → B → R Heap) : (l : List A) → (H : Heap) →
    (l.flatMap f).foldlM g H = l.foldlM (fun H a => (f a).foldlM g H) H
  | [], _ => rfl
  | a :: l, H => by
    rw [List.flatMap_cons, List.foldlM_append, List.foldlM_cons]
    congr 1
    funext H
    exact foldlM_flatMap f g l H

theorem foldlM_range (next : List MTask) (g : MTask → Heap → R Heap) : (used i : Nat) → i + used ≤ next.length → (H : Heap) →
    (List.range' i used).foldlM (fun H j => do let t ← vGet next j; g t H) H = ((next.drop i).take used).foldlM (fun H t => g t H) H
  | 0, i, _, H => by simp
  | used + 1, i, h, H => by
    have hi : i < next.length := by omega
    rw [List.range'_succ, List.foldlM_cons, List.drop_eq_getElem_cons hi, List.take_succ_cons, List.foldlM_cons]
    have : vGet next i = .ok next[i] := by rw [vGet, List.getElem?_eq_getElem hi]
    rw [this, R_bind_ok]
    congr 1
    funext H
    exact foldlM_range next g used (i + 1) (by omega) H

theorem all_live (runs : Bool) (L : List Task) : ∀ p < (blocksOf runs L).length, ∃ b, (blocksOf runs L)[p]? = some (some b) := by
  intro p hp
  have : ∀ x ∈ blocksOf runs L, ∃ b, x = some b := by
    intro x hx
    obtain ⟨T, _, hT⟩ := List.mem_flatMap.1 hx
    cases runs <;> simp [blockOf] at hT
    · exact ⟨_, hT⟩
    · rcases hT with hT | hT <;> exact ⟨_, hT⟩
  obtain ⟨b, hb⟩ := this _ (List.getElem_mem hp)
  exact ⟨b, by rw [List.getElem?_eq_getElem hp, hb]⟩

theorem live_blocks (runs : Bool) (L : List Task) : Heap.live (blocksOf runs L) = perTask runs * L.length := by
  rw [← blocksOf_length, Heap.live, List.countP_eq_length]
  intro x hx
  obtain ⟨p, hp, rfl⟩ := List.getElem_of_mem hx
  obtain ⟨b, hb⟩ := all_live runs L p hp
  rw [List.getElem?_eq_getElem hp, Option.some.injEq] at hb
  rw [hb]
  rfl

/-- Freeing the first `used` of the new tasks and the remaining ones. -/
theorem freeTasks_ok (runs : Bool) (L new rest : List Task) (used k : Nat) (hk : k + rest.length ≤ L.length)
    (hu : used ≤ new.length + rest.length) :
    ∃ H', freeTasks runs (ptrsOf runs (blocksOf runs L).length new ++ ptrsOf runs (perTask runs * k) rest) used
        (blocksOf runs L ++ blocksOf runs new) = .ok H' ∧
      Heap.live H' + perTask runs * used = perTask runs * (L.length + new.length) := by
  generalize hn : ptrsOf runs (blocksOf runs L).length new ++ ptrsOf runs (perTask runs * k) rest = next
  have hlen : next.length = new.length + rest.length := by rw [← hn, List.length_append, ptrsOf_length, ptrsOf_length]
  have hact : runs = true → ∀ t ∈ next, t.active ≠ none := by
    intro hr t ht
    rw [← hn, List.mem_append] at ht
    exact ht.elim (ptrsOf_active hr _ _ t) (ptrsOf_active hr _ _ t)
  have e : freeTasks runs next used (blocksOf runs L ++ blocksOf runs new) =
      ((next.take used).flatMap (freed runs)).foldlM (fun H p => Heap.free p H) (blocksOf runs L ++ blocksOf runs new) := by
    rw [freeTasks, List.range_eq_range', foldlM_range next (freeTask runs) used 0 (by omega), List.drop_zero, foldlM_flatMap]
    have : ∀ t ∈ next.take used, runs = true → t.active ≠ none := fun t ht hr => hact hr t (List.mem_of_mem_take ht)
    generalize next.take used = l at this
    generalize blocksOf runs L ++ blocksOf runs new = H
    induction l generalizing H with
    | nil => rfl
    | cons t l ih =>
      rw [List.foldlM_cons, List.foldlM_cons, freeTask_eq (this t List.mem_cons_self)]
      congr 1
      funext H
      exact ih (fun t ht => this t (List.mem_cons_of_mem _ ht)) H
  have hp : (next.flatMap (freed runs)).Perm
      (List.range' (blocksOf runs L).length (perTask runs * new.length) ++ List.range' (perTask runs * k) (perTask runs * rest.length)) := by
    rw [← hn, List.flatMap_append]
    exact List.Perm.append (freed_perm runs _ _) (freed_perm runs _ _)
  have hk' : perTask runs * k + perTask runs * rest.length ≤ (blocksOf runs L).length := by
    rw [blocksOf_length, ← Nat.mul_add]
    exact Nat.mul_le_mul_left _ hk
  have hnd : (next.flatMap (freed runs)).Nodup := by
    refine hp.nodup_iff.2 (List.Nodup.append List.nodup_range' List.nodup_range' ?_)
    intro x h1 h2
    rw [List.mem_range'_1] at h1 h2
    omega
  have hsub : ((next.take used).flatMap (freed runs)).Sublist (next.flatMap (freed runs)) := by
    conv_rhs => rw [← List.take_append_drop used next, List.flatMap_append]
    exact List.sublist_append_left _ _
  have hlv : ∀ p ∈ (next.take used).flatMap (freed runs), ∃ b, (blocksOf runs L ++ blocksOf runs new)[p]? = some (some b) := by
    intro p hpm
    rw [← blocksOf_append]
    apply all_live
    rw [blocksOf_append, List.length_append, blocksOf_length runs new]
    have := hp.mem_iff.1 (hsub.subset hpm)
    rw [List.mem_append, List.mem_range'_1, List.mem_range'_1] at this
    omega
  obtain ⟨H', e', hl⟩ := free_all _ (blocksOf runs L ++ blocksOf runs new) (hnd.sublist hsub) hlv
  refine ⟨H', by rw [e, e'], ?_⟩
  have hfl : ((next.take used).flatMap (freed runs)).length = perTask runs * used := by
    rw [List.length_flatMap, List.map_congr_left (g := fun _ => perTask runs) (by intro t _; cases runs <;> rfl), List.map_const',
      List.sum_replicate_nat, List.length_take, hlen, Nat.min_eq_left hu, Nat.mul_comm]
  rw [hfl, ← blocksOf_append, live_blocks, List.length_append] at hl
  exact hl

end CBT
