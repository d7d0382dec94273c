import Verif.Model.BuildCost
import Verif.Proof.DecodeCost
import Verif.Proof.Reach

/-!
# The counters of the constructors
-/

namespace CBT

/-! ## They change nothing -/

theorem scanC_fst (S : List Nat) (sh : Nat) : (m i left : Nat) → (scanC S sh m i left).map Prod.fst = scan S sh m i left
  | 0, _, _ => rfl
  | m + 1, i, left => by
    rw [scanC, scan]
    refine map_bind_same fun x => ?_
    split
    · rfl
    · exact map_bind_pair (f := fun p => p.2 + 1) (scanC_fst S sh m (i + 1) (left + 1))

theorem map_pair_same {A B C B' : Type} {x : R (A × B)} {y : R A} {f : A × B → R (C × B')} {g : A → R C} (hx : x.map Prod.fst = y)
    (h : ∀ a b, (f (a, b)).map Prod.fst = g a) : (x >>= f).map Prod.fst = (y >>= g) := by
  subst hx
  cases x with
  | error e => rfl
  | ok p => exact h p.1 p.2

theorem flatStepC_fst (S : List Nat) (h : Nat) (s : FlatSt) (l r : Nat) (q : List (Nat × Nat × Nat)) :
    (flatStepC S h s l r q).map Prod.fst = flatStep S h s l r q := by
  rw [flatStepC, flatStep]
  refine map_pair_same (scanC_fst S _ _ _ _) fun a b => ?_
  exact map_bind_same fun s => map_bind_same fun s => rfl

theorem flatLoopC_fst (S : List Nat) (h : Nat) : (f : Nat) → (s : FlatSt) → (flatLoopC S h f s).map Prod.fst = flatLoop S h f s
  | 0, _ => rfl
  | f + 1, s => by
    rw [flatLoopC, flatLoop]
    cases s.q with
    | nil => rfl
    | cons e q =>
      obtain ⟨l, r, c⟩ := e
      refine map_pair_same (flatStepC_fst S h s l r q) fun s k => ?_
      simp only
      split
      · rfl
      · exact map_bind_pair (f := fun p => k + p.2) (flatLoopC_fst S h f s)

theorem flatCtorC_fst (S : List Nat) (u : Nat) : (flatCtorC S u).map Prod.fst = flatCtor S u := by
  rw [flatCtorC, flatCtor]
  refine map_bind_same fun h => map_bind_same fun mx => ?_
  exact map_pair_same (flatLoopC_fst S h _ _) fun s k => rfl

theorem levelStepC_fst (S : List Nat) (h : Nat) (s : LevelSt) (l r : Nat) (q : List (Nat × Nat × Nat)) :
    (levelStepC S h s l r q).map Prod.fst = levelStep S h s l r q := by
  rw [levelStepC, levelStep]
  refine map_pair_same (scanC_fst S _ _ _ _) fun a b => ?_
  refine map_bind_same fun s => map_bind_same fun s => ?_
  cases levelLevelEnd s <;> rfl

theorem levelLoopC_fst (S : List Nat) (h : Nat) : (f : Nat) → (s : LevelSt) → (levelLoopC S h f s).map Prod.fst = levelLoop S h f s
  | 0, _ => rfl
  | f + 1, s => by
    rw [levelLoopC, levelLoop]
    cases s.q with
    | nil => rfl
    | cons e q =>
      obtain ⟨l, r, c⟩ := e
      refine map_pair_same (levelStepC_fst S h s l r q) fun s k => ?_
      simp only
      split
      · rfl
      · exact map_bind_pair (f := fun p => k + p.2) (levelLoopC_fst S h f s)

theorem levelCtorC_fst (S : List Nat) (u : Nat) : (levelCtorC S u).map Prod.fst = levelCtor S u := by
  rw [levelCtorC, levelCtor]
  refine map_bind_same fun h => ?_
  by_cases h63 : 63 < h
  · simp only [h63, if_true]
    rfl
  · simp only [h63, if_false]
    exact map_pair_same (levelLoopC_fst S h _ _) fun s k => rfl

theorem fastWordC_fst (lg : Nat) (S : List Nat) : (m i w : Nat) → (fastWordC lg S m i w).map Prod.fst = fastWord lg S m i w
  | 0, _, _ => rfl
  | m + 1, i, w => by
    rw [fastWordC, fastWord]
    refine map_bind_same fun x => ?_
    exact map_bind_pair (f := fun p => p.2 + 1) (fastWordC_fst lg S m (i + 1) _)

theorem fastStepC_fst (lg : Nat) (S : List Nat) (height hu : Nat) (s : FastSt) (l r : Nat) (q : List (Nat × Nat × Nat)) :
    (fastStepC lg S height hu s l r q).map Prod.fst = fastStep lg S height hu s l r q := by
  rw [fastStepC, fastStep]
  simp only
  split
  · exact map_pair_same (fastWordC_fst lg S _ _ _) fun w k => rfl
  · split
    · rfl
    · refine map_pair_same (scanC_fst S _ _ _ _) fun a b => ?_
      exact map_bind_same fun s => map_bind_same fun s => rfl

theorem fastLoopC_fst (lg : Nat) (S : List Nat) (height hu : Nat) : (f : Nat) → (s : FastSt) →
    (fastLoopC lg S height hu f s).map Prod.fst = fastLoop lg S height hu f s
  | 0, _ => rfl
  | f + 1, s => by
    rw [fastLoopC, fastLoop]
    cases s.q with
    | nil => rfl
    | cons e q =>
      obtain ⟨l, r, c⟩ := e
      refine map_pair_same (fastStepC_fst lg S height hu s l r q) fun p k => ?_
      simp only
      split
      · rfl
      · exact map_bind_pair (f := fun p => k + p.2) (fastLoopC_fst lg S height hu f p.1)

theorem fastCtorC_fst (lg : Nat) (junk : FastJunk) (S : List Nat) (u : Nat) : (fastCtorC lg junk S u).map Prod.fst = fastCtor lg junk S u := by
  rw [fastCtorC, fastCtor]
  refine map_bind_same fun hu => ?_
  by_cases hs : hu + 1 < lg
  · simp only [hs, if_true]
    rfl
  · simp only [hs, if_false]
    refine map_bind_same fun mx => ?_
    exact map_pair_same (fastLoopC_fst lg S _ _ _ _) fun s k => rfl

/-! ## The queue -/

/-- The part of the local variables that the loops share. -/
structure QueueSt where
  q : List (Nat × Nat × Nat)
  level : Nat
  curr : Nat
  count : Nat
  next : Nat

def rangeSize (e : Nat × Nat × Nat) : Nat := e.2.1 + 1 - e.1
def weight (q : List (Nat × Nat × Nat)) : Nat := (q.map rangeSize).sum

theorem weight_append (a b : List (Nat × Nat × Nat)) : weight (a ++ b) = weight a + weight b := by
  simp [weight]

theorem weight_cons (e : Nat × Nat × Nat) (b : List (Nat × Nat × Nat)) : weight (e :: b) = rangeSize e + weight b := by
  simp [weight]

/-- The reads that are left: for the ranges of the current level one per level that is left, for those of the next level one less. -/
def readsLeft (h : Nat) (s : QueueSt) : Nat :=
  (h - s.level) * weight (s.q.take (s.curr - s.count)) + (h - s.level - 1) * weight (s.q.drop (s.curr - s.count))

structure QueueInv (h : Nat) (s : QueueSt) : Prop where
  lvl : s.level < h
  cnt : s.count < s.curr
  len : s.q.length = s.curr - s.count + s.next
  rng : ∀ e ∈ s.q, e.1 ≤ e.2.1 ∧ e.2.1 + 1 < 2 ^ 64

def levelEnd (s : QueueSt) : QueueSt := if s.count = s.curr then ⟨s.q, s.level + 1, s.next, 0, 0⟩ else s

/-- One range taken from the queue, its children appended. -/
def popPush (s : QueueSt) (q cs : List (Nat × Nat × Nat)) : QueueSt :=
  if s.count + 1 = s.curr then ⟨q ++ cs, s.level + 1, s.next + cs.length, 0, 0⟩
  else ⟨q ++ cs, s.level, s.curr, s.count + 1, s.next + cs.length⟩

theorem popPush_reads {h : Nat} {s : QueueSt} {e : Nat × Nat × Nat} {q cs : List (Nat × Nat × Nat)} (hi : QueueInv h s)
    (hq : s.q = e :: q) (hw : weight cs = rangeSize e) : readsLeft h (popPush s q cs) + rangeSize e = readsLeft h s := by
  obtain ⟨h1, h2, h3, -⟩ := hi
  rw [hq, List.length_cons] at h3
  obtain ⟨m, hm⟩ : ∃ m, s.curr - s.count = m + 1 := ⟨s.curr - s.count - 1, by omega⟩
  obtain ⟨k, hk⟩ : ∃ k, h - s.level = k + 1 := ⟨h - s.level - 1, by omega⟩
  have hl : m ≤ q.length := by omega
  have e1 : readsLeft h s = (k + 1) * (rangeSize e + weight (q.take m)) + k * weight (q.drop m) := by
    rw [readsLeft, hq, hm, hk, List.take_succ_cons, List.drop_succ_cons, weight_cons]
    rfl
  rw [e1, popPush]
  split
  · rename_i hc
    have hm0 : m = 0 := by omega
    subst hm0
    have : (q ++ cs).length ≤ s.next + cs.length := by rw [List.length_append]; omega
    rw [readsLeft]
    simp only [Nat.sub_zero]
    rw [List.take_of_length_le this, List.drop_eq_nil_of_le this, show h - (s.level + 1) = k by omega, weight_append, hw]
    simp only [weight, List.map_nil, List.sum_nil, Nat.mul_zero, List.take_zero, List.drop_zero]
    ring
  · rw [readsLeft]
    simp only
    rw [show s.curr - (s.count + 1) = m by omega, hk, List.take_append_of_le_length hl, List.drop_append_of_le_length hl, weight_append,
      hw, Nat.add_sub_cancel]
    ring

theorem popPush_inv {h : Nat} {s : QueueSt} {e : Nat × Nat × Nat} {q cs : List (Nat × Nat × Nat)} (hi : QueueInv h s)
    (hq : s.q = e :: q) (hcs : ∀ e ∈ cs, e.1 ≤ e.2.1 ∧ e.2.1 + 1 < 2 ^ 64) (hne : cs ≠ [] ∨ s.count + 1 ≠ s.curr)
    (hl : (popPush s q cs).level ≠ h) : QueueInv h (popPush s q cs) := by
  obtain ⟨h1, h2, h3, h4⟩ := hi
  rw [hq] at h3 h4
  rw [List.length_cons] at h3
  have hr : ∀ e ∈ q ++ cs, e.1 ≤ e.2.1 ∧ e.2.1 + 1 < 2 ^ 64 := by
    intro x hx
    rcases List.mem_append.1 hx with hx | hx
    · exact h4 x (List.mem_cons_of_mem _ hx)
    · exact hcs x hx
  rw [popPush] at hl ⊢
  split
  · rename_i hc
    rw [if_pos hc] at hl
    simp only at hl
    have : cs ≠ [] := hne.resolve_right (by simp [hc])
    have := List.length_pos_iff.2 this
    exact ⟨by simp only; omega, by simp only; omega, by simp only [List.length_append]; omega, hr⟩
  · rename_i hc
    exact ⟨h1, by simp only; omega, by simp only [List.length_append]; omega, hr⟩

theorem scanC_post {S : List Nat} {sh : Nat} : (m i left : Nat) → Post (scanC S sh m i left) fun a =>
    a.2 ≤ m ∧ left ≤ a.1.1 ∧ (a.1.2 = none → a.1.1 = left + m) ∧ (∀ j, a.1.2 = some j → j = i + (a.1.1 - left) ∧ j < i + m)
  | 0, i, left => Post.ok ⟨Nat.le_refl _, Nat.le_refl _, by simp, by simp⟩
  | m + 1, i, left => by
    rw [scanC]
    refine (Post.any _).bind fun x _ => Post.ite (fun _ => ?_) fun _ => ?_
    · exact Post.ok ⟨by simp, Nat.le_refl _, by simp, by simp⟩
    · refine (scanC_post m (i + 1) (left + 1)).bind fun a ⟨h1, h2, h3, h4⟩ => Post.ok ⟨by simp only; omega, by simp only; omega, fun h => ?_, fun j hj => ?_⟩
      · have := h3 h; simp only; omega
      · have := h4 j hj; simp only; omega

/-- The children of a range: what the scan found. -/
def childList (l r left : Nat) (right : Option Nat) : List (Nat × Nat × Nat) :=
  (if left > 0 then some (l, l + left - 1, left) else none : Option (Nat × Nat × Nat)).toList ++
    (right.map fun i => (i, r, r - i + 1)).toList

theorem childList_ok {S : List Nat} {sh l r : Nat} (hlr : l ≤ r ∧ r + 1 < 2 ^ 64) :
    Post (scanC S sh ((r + 1) % 2 ^ 64 - l) l 0) fun a => a.2 ≤ rangeSize (l, r, 0) ∧ childList l r a.1.1 a.1.2 ≠ [] ∧
      weight (childList l r a.1.1 a.1.2) = rangeSize (l, r, 0) ∧
      ∀ e ∈ childList l r a.1.1 a.1.2, e.1 ≤ e.2.1 ∧ e.2.1 + 1 < 2 ^ 64 := by
  rw [Nat.mod_eq_of_lt (by omega)]
  refine (scanC_post _ _ _).mono fun ⟨⟨left, right⟩, k⟩ ⟨h1, _, h3, h4⟩ => ?_
  simp only [Nat.sub_zero, Nat.zero_add] at h1 h3 h4
  refine ⟨h1, ?_⟩
  cases right with
  | none =>
    have hl : left = r + 1 - l := h3 rfl
    have hl' : left > 0 := by omega
    rw [childList, if_pos hl']
    refine ⟨by simp, by simp [weight, rangeSize, hl]; omega, fun e he => ?_⟩
    simp at he
    subst he
    simp only; omega
  | some j =>
    obtain ⟨hj, hj'⟩ := h4 j rfl
    by_cases hl : 0 < left
    · rw [childList, if_pos hl]
      refine ⟨by simp, by simp [weight, rangeSize]; omega, fun e he => ?_⟩
      simp at he
      rcases he with rfl | rfl <;> simp only <;> omega
    · rw [childList, if_neg hl]
      refine ⟨by simp, by simp [weight, rangeSize]; omega, fun e he => ?_⟩
      simp at he
      subst he
      simp only; omega

/-! ## Flat -/

def FlatSt.view (s : FlatSt) : QueueSt := ⟨s.q, s.level, s.nodesCurr, s.count, s.nodesNext⟩

theorem flatChild_view {h : Nat} {s : FlatSt} {c : Option (Nat × Nat × Nat)} : Post (flatChild h s c) fun s' =>
    s'.view = ⟨s.q ++ c.toList, s.level, s.nodesCurr, s.count, s.nodesNext + c.toList.length⟩ := by
  cases c with
  | none => exact Post.ok (by simp [FlatSt.view])
  | some c =>
    rw [flatChild]
    by_cases hl : s.level + 1 = h
    · simp only [hl, if_true]
      exact (Post.any _).bind fun v _ => Post.ok (by simp [FlatSt.view])
    · simp only [hl, if_false]
      exact (Post.any _).bind fun v _ => Post.ok (by simp [FlatSt.view])

theorem flatLevelEnd_view {h : Nat} {s : FlatSt} : (flatLevelEnd h s).view = levelEnd s.view := by
  rw [flatLevelEnd, levelEnd]
  by_cases hc : s.count = s.nodesCurr
  · rw [if_pos hc, if_pos (show s.view.count = s.view.curr from hc)]
    by_cases hl : s.level + 2 = h
    · simp only [if_pos hl]; rfl
    · simp only [if_neg hl]; rfl
  · rw [if_neg hc, if_neg (show ¬ s.view.count = s.view.curr from hc)]

theorem flatStepC_view {S : List Nat} {h : Nat} {s : FlatSt} {l r c : Nat} {q : List (Nat × Nat × Nat)} (hi : QueueInv h s.view)
    (hq : s.q = (l, r, c) :: q) : Post (flatStepC S h s l r q) fun a =>
      readsLeft h a.1.view + a.2 ≤ readsLeft h s.view ∧ (a.1.level ≠ h → QueueInv h a.1.view) := by
  rw [flatStepC]
  have hlr : l ≤ r ∧ r + 1 < 2 ^ 64 := hi.rng (l, r, c) (by simp [FlatSt.view, hq])
  refine (childList_ok hlr).bind fun a ⟨h1, h2, h3, h4⟩ => ?_
  obtain ⟨⟨lf, right⟩, k⟩ := a
  refine flatChild_view.bind fun s1 e1 => flatChild_view.bind fun s2 e2 => Post.ok ?_
  simp only at h1 h2 h3 h4
  have key : (flatLevelEnd h s2).view = popPush s.view q (childList l r lf right) := by
    rw [flatLevelEnd_view, e2]
    simp only [FlatSt.view, QueueSt.mk.injEq] at e1
    obtain ⟨a1, a2, a3, a4, a5⟩ := e1
    rw [a1, a2, a3, a4, a5, List.append_assoc, Nat.add_assoc, ← List.length_append]
    rfl
  have hq' : s.view.q = (l, r, c) :: q := hq
  refine ⟨?_, fun hl => ?_⟩
  · have := popPush_reads hi hq' h3
    rw [← key] at this
    simp only
    have e : rangeSize (l, r, 0) = rangeSize (l, r, c) := rfl
    omega
  · have hl' : (popPush s.view q (childList l r lf right)).level ≠ h := by rw [← key]; exact hl
    simp only
    rw [key]
    exact popPush_inv hi hq' h4 (.inl h2) hl'

theorem flatLoopC_looks {S : List Nat} {h : Nat} : (f : Nat) → (s : FlatSt) → QueueInv h s.view →
    Post (flatLoopC S h f s) fun a => a.2 ≤ readsLeft h s.view
  | 0, _, _ => Post.error
  | f + 1, s, hi => by
    rw [flatLoopC]
    cases hq : s.q with
    | nil => exact Post.ok (Nat.zero_le _)
    | cons e q =>
      obtain ⟨l, r, c⟩ := e
      refine (flatStepC_view hi hq).bind fun ⟨s', k⟩ ⟨h1, h2⟩ => ?_
      simp only at h1 h2 ⊢
      refine Post.ite (fun _ => Post.ok (by simp only; omega)) fun hl => ?_
      refine (flatLoopC_looks f s' (h2 hl)).bind fun ⟨s'', k'⟩ h3 => Post.ok ?_
      simp only at h3 ⊢
      omega

/-! ## Level-wise -/

def LevelSt.view (s : LevelSt) : QueueSt := ⟨s.q, s.level, s.nodesCurr, s.count, s.nodesNext⟩

theorem levelChild_view {s : LevelSt} {c : Option (Nat × Nat × Nat)} : Post (levelChild s c) fun s' =>
    s'.view = ⟨s.q ++ c.toList, s.level, s.nodesCurr, s.count, s.nodesNext + c.toList.length⟩ := by
  cases c with
  | none => exact Post.ok (by simp [LevelSt.view])
  | some c => exact (Post.any _).bind fun v _ => (Post.any _).bind fun v _ => Post.ok (by simp [LevelSt.view])

theorem levelLevelEnd_view {s : LevelSt} : Post (levelLevelEnd s) fun s' => s'.view = levelEnd s.view := by
  rw [levelLevelEnd, levelEnd]
  by_cases hc : s.count = s.nodesCurr
  · rw [if_pos hc, if_pos (show s.view.count = s.view.curr from hc)]
    exact (Post.any _).bind fun v _ => Post.ok rfl
  · rw [if_neg hc, if_neg (show ¬ s.view.count = s.view.curr from hc)]
    exact Post.ok rfl

theorem levelStepC_view {S : List Nat} {h : Nat} {s : LevelSt} {l r c : Nat} {q : List (Nat × Nat × Nat)} (hi : QueueInv h s.view)
    (hq : s.q = (l, r, c) :: q) : Post (levelStepC S h s l r q) fun a =>
      readsLeft h a.1.view + a.2 ≤ readsLeft h s.view ∧ (a.1.level ≠ h → QueueInv h a.1.view) := by
  rw [levelStepC]
  have hlr : l ≤ r ∧ r + 1 < 2 ^ 64 := hi.rng (l, r, c) (by simp [LevelSt.view, hq])
  refine (childList_ok hlr).bind fun a ⟨h1, h2, h3, h4⟩ => ?_
  obtain ⟨⟨lf, right⟩, k⟩ := a
  refine levelChild_view.bind fun s1 e1 => levelChild_view.bind fun s2 e2 => levelLevelEnd_view.bind fun s3 e3 => Post.ok ?_
  simp only at h1 h2 h3 h4
  have key : s3.view = popPush s.view q (childList l r lf right) := by
    rw [e3, e2]
    simp only [LevelSt.view, QueueSt.mk.injEq] at e1
    obtain ⟨a1, a2, a3, a4, a5⟩ := e1
    rw [a1, a2, a3, a4, a5, List.append_assoc, Nat.add_assoc, ← List.length_append]
    rfl
  have hq' : s.view.q = (l, r, c) :: q := hq
  refine ⟨?_, fun hl => ?_⟩
  · have := popPush_reads hi hq' h3
    rw [← key] at this
    simp only
    have e : rangeSize (l, r, 0) = rangeSize (l, r, c) := rfl
    omega
  · have hl' : (popPush s.view q (childList l r lf right)).level ≠ h := by rw [← key]; exact hl
    simp only
    rw [key]
    exact popPush_inv hi hq' h4 (.inl h2) hl'

theorem levelLoopC_looks {S : List Nat} {h : Nat} : (f : Nat) → (s : LevelSt) → QueueInv h s.view →
    Post (levelLoopC S h f s) fun a => a.2 ≤ readsLeft h s.view
  | 0, _, _ => Post.error
  | f + 1, s, hi => by
    rw [levelLoopC]
    cases hq : s.q with
    | nil => exact Post.ok (Nat.zero_le _)
    | cons e q =>
      obtain ⟨l, r, c⟩ := e
      refine (levelStepC_view hi hq).bind fun ⟨s', k⟩ ⟨h1, h2⟩ => ?_
      simp only at h1 h2 ⊢
      refine Post.ite (fun _ => Post.ok (by simp only; omega)) fun hl => ?_
      refine (levelLoopC_looks f s' (h2 hl)).bind fun ⟨s'', k'⟩ h3 => Post.ok ?_
      simp only at h3 ⊢
      omega

/-! ## Fast -/

def FastSt.view (s : FastSt) : QueueSt := ⟨s.q, s.level, s.nodesCurr, s.count, s.nodesNext⟩

theorem fastChild_view {s : FastSt} {c : Option (Nat × Nat × Nat)} : Post (fastChild s c) fun s' =>
    s'.view = ⟨s.q ++ c.toList, s.level, s.nodesCurr, s.count, s.nodesNext + c.toList.length⟩ := by
  cases c with
  | none => exact Post.ok (by simp [FastSt.view])
  | some c => exact (Post.any _).bind fun v _ => Post.ok (by simp [FastSt.view])

theorem fastLevelEnd_view {s : FastSt} : (fastLevelEnd s).view = levelEnd s.view := by
  rw [fastLevelEnd, levelEnd]
  by_cases hc : s.count = s.nodesCurr
  · rw [if_pos hc, if_pos (show s.view.count = s.view.curr from hc)]
    rfl
  · rw [if_neg hc, if_neg (show ¬ s.view.count = s.view.curr from hc)]

theorem fastWordC_post {lg : Nat} {S : List Nat} : (m i w : Nat) → Post (fastWordC lg S m i w) fun a => a.2 = m
  | 0, _, _ => Post.ok rfl
  | m + 1, i, w => by
    rw [fastWordC]
    refine (Post.any _).bind fun x _ => (fastWordC_post m (i + 1) _).bind fun a ha => Post.ok ?_
    simp only
    omega

theorem fastStepC_view {lg : Nat} {S : List Nat} {height hu : Nat} {s : FastSt} {l r c : Nat} {q : List (Nat × Nat × Nat)}
    (hi : QueueInv height s.view) (hq : s.q = (l, r, c) :: q) : Post (fastStepC lg S height hu s l r q) fun a =>
      readsLeft height a.1.1.view + a.2 ≤ readsLeft height s.view ∧ (a.1.2 = false → QueueInv height a.1.1.view) := by
  have hlr : l ≤ r ∧ r + 1 < 2 ^ 64 := hi.rng (l, r, c) (by simp [FastSt.view, hq])
  have hq' : s.view.q = (l, r, c) :: q := hq
  have e : rangeSize (l, r, 0) = rangeSize (l, r, c) := rfl
  rw [fastStepC]
  refine Post.ite (fun hl => ?_) fun _ => Post.ite (fun _ => Post.error) fun _ => ?_
  · refine (fastWordC_post _ _ _).bind fun ⟨w, k⟩ hk => Post.ok ?_
    have hlen := hi.len
    have hcnt := hi.cnt
    simp only [FastSt.view, hq, List.length_cons] at hlen hcnt hl hk ⊢
    obtain ⟨m, hm⟩ : ∃ m, s.nodesCurr - s.count = m + 1 := ⟨s.nodesCurr - s.count - 1, by omega⟩
    rw [Nat.mod_eq_of_lt (by omega)] at hk
    refine ⟨?_, fun hb => ?_⟩
    · simp only [readsLeft, hm, List.take_succ_cons, List.drop_succ_cons, weight_cons]
      rw [show height - s.level = 1 by omega, show s.nodesCurr - (s.count + 1) = m by omega]
      simp only [rangeSize]
      omega
    · simp only [Bool.or_eq_false_iff, decide_eq_false_iff_not] at hb
      refine ⟨hi.lvl, by simp only; omega, by simp only; omega, fun x hx => hi.rng x ?_⟩
      rw [hq']
      exact List.mem_cons_of_mem _ hx
  refine (childList_ok hlr).bind fun a ⟨h1, h2, h3, h4⟩ => ?_
  obtain ⟨⟨lf, right⟩, k⟩ := a
  refine fastChild_view.bind fun s1 e1 => fastChild_view.bind fun s2 e2 => Post.ok ?_
  simp only at h1 h2 h3 h4
  have key : (fastLevelEnd s2).view = popPush s.view q (childList l r lf right) := by
    rw [fastLevelEnd_view, e2]
    simp only [FastSt.view, QueueSt.mk.injEq] at e1
    obtain ⟨a1, a2, a3, a4, a5⟩ := e1
    rw [a1, a2, a3, a4, a5, List.append_assoc, Nat.add_assoc, ← List.length_append]
    rfl
  refine ⟨?_, fun hl => ?_⟩
  · have := popPush_reads hi hq' h3
    rw [← key] at this
    simp only
    omega
  · have hl' : (popPush s.view q (childList l r lf right)).level ≠ height := by rw [← key]; exact of_decide_eq_false hl
    simp only
    rw [key]
    exact popPush_inv hi hq' h4 (.inl h2) hl'

theorem fastLoopC_looks {lg : Nat} {S : List Nat} {height hu : Nat} : (f : Nat) → (s : FastSt) → QueueInv height s.view →
    Post (fastLoopC lg S height hu f s) fun a => a.2 ≤ readsLeft height s.view
  | 0, _, _ => Post.error
  | f + 1, s, hi => by
    rw [fastLoopC]
    cases hq : s.q with
    | nil => exact Post.ok (Nat.zero_le _)
    | cons e q =>
      obtain ⟨l, r, c⟩ := e
      refine (fastStepC_view hi hq).bind fun ⟨⟨s', brk⟩, k⟩ ⟨h1, h2⟩ => ?_
      simp only at h1 h2 ⊢
      refine Post.ite (fun _ => Post.ok (by simp only; omega)) fun hl => ?_
      refine (fastLoopC_looks f s' (h2 (by simpa using hl))).bind fun ⟨s'', k'⟩ h3 => Post.ok ?_
      simp only at h3 ⊢
      omega

/-! ## The whole -/

theorem readsLeft_start {h n r : Nat} (hh : 0 < h) (hr : r + 1 < 2 ^ 64) :
    QueueInv h ⟨[(0, r, n)], 0, 1, 0, 0⟩ ∧ readsLeft h ⟨[(0, r, n)], 0, 1, 0, 0⟩ = (r + 1) * h := by
  refine ⟨⟨hh, by simp, rfl, by simpa using hr⟩, ?_⟩
  simp [readsLeft, weight, rangeSize, Nat.mul_comm]

theorem wrap32 {n : Nat} (hn : 0 < n) : (n % 2 ^ 32 + 2 ^ 32 - 1) % 2 ^ 32 + 1 ≤ n := by omega

theorem flatCtorC_looks {S : List Nat} {u : Nat} (hne : S ≠ []) :
    Post (flatCtorC S u) fun a => a.2.looks ≤ S.length * a.1.height ∧ a.2.bits + 2 = 3 * 2 ^ a.1.height := by
  rw [flatCtorC]
  refine Post.bind (Q := fun h => 0 < h) ?_ fun h hh => Post.bind (Q := fun mx => mx + 2 = 2 * 2 ^ h) ?_ fun mx hmx => ?_
  · rw [heightOf]
    exact Post.ite (fun _ => Post.error) fun _ => Post.ok (by omega)
  · rw [maxNodes]
    have := Nat.two_pow_pos h
    exact Post.ite (fun _ => Post.ok (by omega)) fun _ => Post.error
  have hw := wrap32 (List.length_pos_iff.2 hne)
  obtain ⟨h1, h2⟩ := readsLeft_start (h := h) (n := S.length % 2 ^ 32) (r := (S.length % 2 ^ 32 + 2 ^ 32 - 1) % 2 ^ 32) hh (by omega)
  refine (flatLoopC_looks _ _ h1).bind fun ⟨s, k⟩ hk => Post.ok ⟨?_, by simp only; omega⟩
  exact Nat.le_trans (Nat.le_trans hk (Nat.le_of_eq h2)) (Nat.mul_le_mul_right h hw)

theorem sum_pow (h : Nat) : ((List.range h).map fun level => 2 * 2 ^ level).sum + 2 = 2 * 2 ^ h := by
  induction h with
  | zero => rfl
  | succ h ih =>
    rw [List.range_succ, List.map_append, List.sum_append]
    simp only [List.map_cons, List.map_nil, List.sum_cons, List.sum_nil, Nat.pow_succ]
    omega

theorem levelLoop_height {S : List Nat} {h : Nat} : (f : Nat) → (s : LevelSt) →
    Post (levelLoopC S h f s) fun a => a.1.bTrie.length = s.bTrie.length
  | 0, _ => Post.error
  | f + 1, s => by
    rw [levelLoopC]
    cases hq : s.q with
    | nil => exact Post.ok rfl
    | cons e q =>
      obtain ⟨l, r, c⟩ := e
      have hc : ∀ (s : LevelSt) c, Post (levelChild s c) fun s' => s'.bTrie.length = s.bTrie.length := by
        intro s c
        cases c with
        | none => exact Post.ok rfl
        | some c => exact (Post.any _).bind fun v _ => (Post.any _).bind fun v _ => Post.ok (by simp)
      have he : ∀ s : LevelSt, Post (levelLevelEnd s) fun s' => s'.bTrie.length = s.bTrie.length := by
        intro s
        rw [levelLevelEnd]
        exact Post.ite (fun _ => (Post.any _).bind fun v _ => Post.ok (by simp)) fun _ => Post.ok rfl
      have hst : Post (levelStepC S h s l r q) fun a => a.1.bTrie.length = s.bTrie.length := by
        rw [levelStepC]
        refine (Post.any _).bind fun ⟨⟨lf, right⟩, k⟩ _ => ?_
        refine (hc _ _).bind fun s1 h1 => (hc _ _).bind fun s2 h2 => (he _).bind fun s3 h3 => Post.ok ?_
        rw [h3, h2, h1]
      refine hst.bind fun ⟨s', k⟩ h1 => Post.ite (fun _ => Post.ok h1) fun _ => ?_
      exact (levelLoop_height f s').bind fun ⟨s'', k'⟩ h2 => Post.ok (h2.trans h1)

theorem levelCtorC_looks {S : List Nat} {u : Nat} (hne : S ≠ []) (hlen : S.length < 2 ^ 64) :
    Post (levelCtorC S u) fun a => a.2.looks ≤ S.length * a.1.height ∧ a.2.bits + 2 = 2 * 2 ^ a.1.height := by
  rw [levelCtorC]
  refine Post.bind (Q := fun h => 0 < h) ?_ fun h hh => ?_
  · rw [heightOf]
    exact Post.ite (fun _ => Post.error) fun _ => Post.ok (by omega)
  have hpos := List.length_pos_iff.2 hne
  obtain ⟨h1, h2⟩ := readsLeft_start (h := h) (n := S.length) (r := (S.length + 2 ^ 64 - 1) % 2 ^ 64) hh (by omega)
  have hw : (S.length + 2 ^ 64 - 1) % 2 ^ 64 + 1 ≤ S.length := by omega
  by_cases h63 : 63 < h
  · simp only [h63, if_true]
    exact Post.error
  · simp only [h63, if_false]
    intro a ha
    obtain ⟨⟨s, k⟩, hl, ha⟩ := bind_ok ha
    injection ha with ha
    subst ha
    have hk := levelLoopC_looks _ _ h1 _ hl
    have hb := levelLoop_height _ _ _ hl
    simp only [List.length_map, List.length_range] at hb hk
    simp only [LevelTrie.height, hb, sum_pow, and_true]
    exact Nat.le_trans (Nat.le_trans hk (Nat.le_of_eq h2)) (Nat.mul_le_mul_right h hw)

theorem fastCtorC_looks {lg : Nat} {junk : FastJunk} {S : List Nat} {u : Nat} (hne : S ≠ []) :
    Post (fastCtorC lg junk S u) fun a => (0 < a.1.height → a.2.looks ≤ S.length * a.1.height) ∧ a.2.bits + 2 = 2 * 2 ^ a.1.heightU := by
  rw [fastCtorC]
  refine Post.bind (Q := fun h => 0 < h) ?_ fun hu hh => ?_
  · rw [heightOf]
    exact Post.ite (fun _ => Post.error) fun _ => Post.ok (by omega)
  have hw := wrap32 (List.length_pos_iff.2 hne)
  by_cases hs : hu + 1 < lg
  · simp only [hs, if_true]
    exact Post.error
  · simp only [hs, if_false]
    refine Post.bind (Q := fun mx => mx + 2 = 2 * 2 ^ hu) ?_ fun mx hmx => ?_
    · rw [maxNodes]
      have := Nat.two_pow_pos hu
      exact Post.ite (fun _ => Post.ok (by omega)) fun _ => Post.error
    intro a ha
    obtain ⟨⟨s, k⟩, hl, ha⟩ := bind_ok ha
    injection ha with ha
    subst ha
    refine ⟨fun h0 => ?_, hmx⟩
    obtain ⟨h1, h2⟩ := readsLeft_start (h := hu + 1 - lg) (n := S.length % 2 ^ 32) (r := (S.length % 2 ^ 32 + 2 ^ 32 - 1) % 2 ^ 32) h0 (by omega)
    have hk := fastLoopC_looks _ _ h1 _ hl
    exact Nat.le_trans (Nat.le_trans hk (Nat.le_of_eq h2)) (Nat.mul_le_mul_right _ hw)

end CBT
