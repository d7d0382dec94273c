import Verif.SpecLooks
import Verif.Proof.QueuePeak

/-!
# How many elements a constructor looks at, exactly
-/

namespace CBT

open Spec

/-- How many elements of a range are looked at for bit `k`. -/
def rangeSeen (S : List Nat) (k : Nat) (e : Nat × Nat × Nat) : Nat :=
  (List.range' e.1 (rangeSize e)).countP fun i => seenAt S k (S.getD i 0)

/-- What is left to look at in a range whose elements agree above bit `m`: for the bits `lo, …, m - 1`, and `c` times all. -/
def rangeLeft (S : List Nat) (lo c m : Nat) (e : Nat × Nat × Nat) : Nat :=
  c * rangeSize e + ((List.range' lo (m - lo)).map fun k => rangeSeen S k e).sum

/-- A block, and the elements before it are not of it. -/
def RangeTop (S : List Nat) (k : Nat) (e : Nat × Nat × Nat) : Prop :=
  RangeBlk S k e ∧ ∀ i, i < e.1 → S.getD i 0 / 2 ^ k ≠ S.getD e.1 0 / 2 ^ k

/-! ## One scan -/

theorem scanC_reads {S : List Nat} {sh : Nat} : (m i left : Nat) → Post (scanC S sh m i left) fun a =>
    left + a.2 = a.1.1 + if a.1.2 = none then 0 else 1
  | 0, i, left => Post.ok rfl
  | m + 1, i, left => by
    rw [scanC]
    refine (Post.any _).bind fun x _ => Post.ite (fun _ => ?_) fun _ => ?_
    · exact Post.ok (by simp)
    · refine (scanC_reads m (i + 1) (left + 1)).bind fun a h => Post.ok ?_
      simp only
      omega

theorem getD_mem {S : List Nat} {i : Nat} (h : i < S.length) : S.getD i 0 ∈ S := by
  rw [List.getD_eq_getElem?_getD, List.getElem?_eq_getElem h, Option.getD_some]
  exact List.getElem_mem h

theorem increasing_lt {S : List Nat} (hs : S.Pairwise (· < ·)) {i j : Nat} (hij : i < j) (hj : j < S.length) :
    S.getD i 0 < S.getD j 0 := by
  have := List.pairwise_iff_getElem.1 hs i j (by omega) hj hij
  simp only [List.getD_eq_getElem?_getD, List.getElem?_eq_getElem hj, List.getElem?_eq_getElem (show i < S.length by omega),
    Option.getD_some]
  omega

theorem seenAt_first {S : List Nat} (hs : S.Pairwise (· < ·)) {k j : Nat}
    (h : ∀ i, i < j → S.getD i 0 / 2 ^ k ≠ S.getD j 0 / 2 ^ k) : seenAt S k (S.getD j 0) = true := by
  refine decide_eq_true (.inr fun y hy hlt => ?_)
  obtain ⟨i, hi, rfl⟩ := List.getElem_of_mem hy
  have e : S[i] = S.getD i 0 := by rw [List.getD_eq_getElem?_getD, List.getElem?_eq_getElem hi, Option.getD_some]
  rw [e] at hlt ⊢
  refine h i (Nat.lt_of_not_le fun hle => ?_)
  have := increasing_le hs hle hi
  omega

theorem countP_all {α : Type} {p : α → Bool} {l : List α} (h : ∀ x ∈ l, p x = true) : l.countP p = l.length :=
  List.countP_eq_length.2 h

theorem countP_none {α : Type} {p : α → Bool} {l : List α} (h : ∀ x ∈ l, p x = false) : l.countP p = 0 :=
  List.countP_eq_zero.2 fun x hx => by simp [h x hx]

/-- A scan looks at the elements it should, and makes blocks of the next level. -/
theorem scan_seen {S : List Nat} (hs : S.Pairwise (· < ·)) (hlen : S.length < 2 ^ 64) {k l r c : Nat} (hb : RangeTop S (k + 1) (l, r, c)) :
    Post (scanC S k ((r + 1) % 2 ^ 64 - l) l 0) fun a => a.2 = rangeSeen S k (l, r, c) ∧ childList l r a.1.1 a.1.2 ≠ [] ∧
      weight (childList l r a.1.1 a.1.2) = rangeSize (l, r, c) ∧ (∀ e ∈ childList l r a.1.1 a.1.2, RangeTop S k e) ∧
      ∀ n, ((childList l r a.1.1 a.1.2).map (rangeSeen S n)).sum = rangeSeen S n (l, r, c) := by
  obtain ⟨hb, ht⟩ := hb
  have hb' := hb
  obtain ⟨h1, h2, h3⟩ := hb
  simp only at h1 h2 h3 ht
  have hlr : l ≤ r ∧ r + 1 < 2 ^ 64 := ⟨h1, by omega⟩
  have tr : ∀ {P : Nat × Option Nat → Prop}, Post (scan S k ((r + 1) % 2 ^ 64 - l) l 0) P →
      Post (scanC S k ((r + 1) % 2 ^ 64 - l) l 0) fun a => P a.1 := by
    intro P hp a ha
    refine hp a.1 ?_
    rw [← scanC_fst, ha]
    rfl
  have p1 := tr (children_blk hs hlen hb')
  have p2 := tr (scan_bits (S := S) (sh := k) ((r + 1) % 2 ^ 64 - l) l 0)
  have p3 := scanC_reads (S := S) (sh := k) ((r + 1) % 2 ^ 64 - l) l 0
  have p4 : Post (scanC S k ((r + 1) % 2 ^ 64 - l) l 0) fun a => (a.1.2 = none → a.1.1 = 0 + (r + 1 - l)) ∧
      (∀ j, a.1.2 = some j → j = l + (a.1.1 - 0) ∧ j < l + (r + 1 - l)) := by
    rw [Nat.mod_eq_of_lt hlr.2]
    exact (scanC_post _ _ _).mono fun a ⟨_, _, h3, h4⟩ => ⟨h3, h4⟩
  refine ((p1.both p2).both (p3.both p4)).mono ?_
  rintro ⟨⟨left, right⟩, reads⟩ ⟨⟨⟨n1, n2, n3⟩, b1, b2, -⟩, hr, m1, m2⟩
  simp only [Nat.sub_zero, Nat.zero_add] at n1 n2 n3 b1 b2 hr m1 m2 ⊢
  have seen0 : ∀ i, l ≤ i → i < l + left → seenAt S k (S.getD i 0) = true := fun i hi hi' => decide_eq_true (.inl (b1 i hi hi'))
  have htl : ∀ i, i < l → S.getD i 0 / 2 ^ k ≠ S.getD l 0 / 2 ^ k := by
    intro i hi e
    refine ht i hi ?_
    rw [Nat.pow_succ, ← Nat.div_div_eq_div_mul, ← Nat.div_div_eq_div_mul, e]
  cases right with
  | none =>
    have hl := m1 rfl
    have hl' : left > 0 := by omega
    have hsz : rangeSize (l, r, c) = left := by simp only [rangeSize]; omega
    rw [childList, if_pos hl'] at n1 n2 n3 ⊢
    simp only [Option.map_none, Option.toList_none, List.append_nil, Option.toList_some] at n1 n2 n3 ⊢
    refine ⟨?_, n1, n2, fun e he => ⟨n3 e he, ?_⟩, fun n => ?_⟩
    · rw [rangeSeen, countP_all, List.length_range', hsz]
      · simpa using hr
      · intro i hi
        rw [List.mem_range', hsz] at hi
        obtain ⟨d, hd, rfl⟩ := hi
        exact seen0 _ (by simp only; omega) (by simp only; omega)
    · rw [List.mem_singleton] at he
      subst he
      exact htl
    · simp only [List.map_cons, List.map_nil, List.sum_cons, List.sum_nil, Nat.add_zero, rangeSeen, rangeSize]
      rw [show l + left - 1 + 1 - l = r + 1 - l by omega]
  | some j =>
    obtain ⟨hj, hj'⟩ := m2 j rfl
    have hbit := b2 j rfl
    have htj : ∀ i, i < j → S.getD i 0 / 2 ^ k ≠ S.getD j 0 / 2 ^ k := by
      intro i hi
      by_cases hil : i < l
      · intro e
        refine ht i hil ?_
        rw [← h3 j (by omega) (by omega), Nat.pow_succ, ← Nat.div_div_eq_div_mul, ← Nat.div_div_eq_div_mul, e]
      · have := b1 i (by omega) (by omega)
        intro e
        rw [e] at this
        omega
    have hone : RangeBlk S k (j, r, r - j + 1) := n3 _ (by rw [childList]; simp)
    have hsplit : List.range' l (rangeSize (l, r, c)) = List.range' l left ++ List.range' j (rangeSize (j, r, r - j + 1)) := by
      simp only [rangeSize]
      rw [hj, List.range'_append_1]
      congr 1
      omega
    have hsplit' : List.range' j (rangeSize (j, r, r - j + 1)) = j :: List.range' (j + 1) (r - j) := by
      simp only [rangeSize]
      rw [show r + 1 - j = r - j + 1 by omega, List.range'_succ]
    have hreads : reads = left + 1 := by simpa using hr
    refine ⟨?_, n1, n2, fun e he => ⟨n3 e he, ?_⟩, fun n => ?_⟩
    · simp only [rangeSeen]
      rw [hsplit, hsplit', List.countP_append, List.countP_cons, countP_all, countP_none, seenAt_first hs htj, List.length_range', hreads]
      · simp
      · intro i hi
        rw [List.mem_range'] at hi
        obtain ⟨d, hd, rfl⟩ := hi
        have e := hone.2.2 (j + 1 + 1 * d) (by simp only; omega) (by simp only; omega)
        simp only at e
        refine decide_eq_false fun hd' => ?_
        rcases hd' with hz | hz
        · rw [e] at hz
          omega
        · exact hz _ (getD_mem (i := j) (by omega)) (increasing_lt hs (by omega) (by omega)) e.symm
      · intro i hi
        rw [List.mem_range'] at hi
        obtain ⟨d, hd, rfl⟩ := hi
        exact seen0 _ (by omega) (by omega)
    · rw [childList, List.mem_append] at he
      rcases he with he | he
      · split at he
        · simp at he
          subst he
          exact htl
        · simp at he
      · simp at he
        subst he
        exact htj
    · simp only [rangeSeen]
      rw [hsplit, List.countP_append, childList, List.map_append, List.sum_append]
      congr 1
      · split
        · simp only [Option.toList_some, List.map_cons, List.map_nil, List.sum_cons, List.sum_nil, Nat.add_zero]
          rw [rangeSeen, rangeSize]
          simp only
          rw [show l + left - 1 + 1 - l = left by omega]
        · rw [show left = 0 by omega]
          rfl

/-! ## Queues -/

theorem sum_map_add {α : Type} (f g : α → Nat) : (l : List α) → (l.map fun x => f x + g x).sum = (l.map f).sum + (l.map g).sum
  | [] => rfl
  | x :: l => by
    have := sum_map_add f g l
    simp only [List.map_cons, List.sum_cons]
    omega

theorem sum_map_mul {α : Type} (c : Nat) (f : α → Nat) : (l : List α) → (l.map fun x => c * f x).sum = c * (l.map f).sum
  | [] => rfl
  | x :: l => by
    have := sum_map_mul c f l
    simp only [List.map_cons, List.sum_cons, this, Nat.mul_add]

theorem sum_map_swap {α β : Type} (f : α → β → Nat) (ks : List β) : (l : List α) →
    (l.map fun x => (ks.map (f x)).sum).sum = (ks.map fun k => (l.map fun x => f x k).sum).sum
  | [] => by simp
  | x :: l => by
    simp only [List.map_cons, List.sum_cons]
    rw [sum_map_swap f ks l, ← sum_map_add]

/-- What a range costs: the scan, and then the children. -/
theorem rangeLeft_children {S : List Nat} {lo c k : Nat} (hk : lo ≤ k) {e : Nat × Nat × Nat} {cs : List (Nat × Nat × Nat)}
    (hw : weight cs = rangeSize e) (hc : ∀ n, (cs.map (rangeSeen S n)).sum = rangeSeen S n e) :
    rangeLeft S lo c (k + 1) e = rangeSeen S k e + (cs.map (rangeLeft S lo c k)).sum := by
  have e1 : (cs.map (rangeLeft S lo c k)).sum = c * weight cs + ((List.range' lo (k - lo)).map fun n => rangeSeen S n e).sum := by
    have e2 : rangeLeft S lo c k = fun x => c * rangeSize x + ((List.range' lo (k - lo)).map fun n => rangeSeen S n x).sum := rfl
    rw [e2, sum_map_add, sum_map_mul, sum_map_swap (fun x n => rangeSeen S n x)]
    simp only [hc]
    rfl
  rw [e1, hw, rangeLeft, show k + 1 - lo = k - lo + 1 by omega, List.range'_concat, List.map_append, List.sum_append]
  simp only [List.map_cons, List.map_nil, List.sum_cons, List.sum_nil, Nat.one_mul, show lo + (k - lo) = k by omega]
  omega

/-- The ranges of the current level are of one kind, those of the next level of another. -/
structure LevInv (P : Nat → Nat × Nat × Nat → Prop) (b : Nat) (s : QueueSt) : Prop where
  cur : ∀ e ∈ s.q.take (s.curr - s.count), P (b - s.level) e
  nxt : ∀ e ∈ s.q.drop (s.curr - s.count), P (b - s.level - 1) e

theorem popPush_lev {P : Nat → Nat × Nat × Nat → Prop} {h b : Nat} {s : QueueSt} {e : Nat × Nat × Nat} {q cs : List (Nat × Nat × Nat)}
    (hi : QueueInv h s) (hb : LevInv P b s) (hq : s.q = e :: q) (hcs : ∀ e ∈ cs, P (b - s.level - 1) e) : LevInv P b (popPush s q cs) := by
  obtain ⟨h1, h2, h3, -⟩ := hi
  obtain ⟨b1, b2⟩ := hb
  obtain ⟨m, hm⟩ : ∃ m, s.curr - s.count = m + 1 := ⟨s.curr - s.count - 1, by omega⟩
  rw [hq, List.length_cons] at h3
  rw [hq, hm] at b1 b2
  rw [List.take_succ_cons] at b1
  rw [List.drop_succ_cons] at b2
  have hl : m ≤ q.length := by omega
  rw [popPush]
  split
  · rename_i hc
    have hm0 : m = 0 := by omega
    subst hm0
    have : (q ++ cs).length ≤ s.next + cs.length := by rw [List.length_append]; omega
    refine ⟨fun x hx => ?_, fun x hx => ?_⟩
    · simp only [Nat.sub_zero] at hx ⊢
      rw [List.take_of_length_le this] at hx
      rw [show b - (s.level + 1) = b - s.level - 1 by omega]
      rcases List.mem_append.1 hx with hx | hx
      · exact b2 x (by simpa using hx)
      · exact hcs x hx
    · simp only [Nat.sub_zero] at hx
      rw [List.drop_eq_nil_of_le this] at hx
      cases hx
  · refine ⟨fun x hx => ?_, fun x hx => ?_⟩
    · simp only [show s.curr - (s.count + 1) = m by omega] at hx ⊢
      rw [List.take_append_of_le_length hl] at hx
      exact b1 x (List.mem_cons_of_mem _ hx)
    · simp only [show s.curr - (s.count + 1) = m by omega] at hx ⊢
      rw [List.drop_append_of_le_length hl] at hx
      rcases List.mem_append.1 hx with hx | hx
      · exact b2 x hx
      · exact hcs x hx

theorem curr_lev {P : Nat → Nat × Nat × Nat → Prop} {h b : Nat} {s : QueueSt} {e : Nat × Nat × Nat} {q : List (Nat × Nat × Nat)}
    (hi : QueueInv h s) (hb : LevInv P b s) (hq : s.q = e :: q) : P (b - s.level) e := by
  have := hi.cnt
  obtain ⟨m, hm⟩ : ∃ m, s.curr - s.count = m + 1 := ⟨s.curr - s.count - 1, by omega⟩
  exact hb.cur e (by rw [hq, hm]; simp)

/-- What is left to look at. -/
def looksLeft (w : Nat → Nat × Nat × Nat → Nat) (b : Nat) (s : QueueSt) : Nat :=
  ((s.q.take (s.curr - s.count)).map (w (b - s.level))).sum + ((s.q.drop (s.curr - s.count)).map (w (b - s.level - 1))).sum

theorem popPush_looks {w : Nat → Nat × Nat × Nat → Nat} {h b k : Nat} {s : QueueSt} {e : Nat × Nat × Nat} {q cs : List (Nat × Nat × Nat)}
    (hi : QueueInv h s) (hq : s.q = e :: q) (hw : w (b - s.level) e = k + (cs.map (w (b - s.level - 1))).sum) :
    looksLeft w b s = k + looksLeft w b (popPush s q cs) := by
  obtain ⟨h1, h2, h3, -⟩ := hi
  rw [hq, List.length_cons] at h3
  obtain ⟨m, hm⟩ : ∃ m, s.curr - s.count = m + 1 := ⟨s.curr - s.count - 1, by omega⟩
  have hl : m ≤ q.length := by omega
  rw [looksLeft, hq, hm, List.take_succ_cons, List.drop_succ_cons, List.map_cons, List.sum_cons, hw, popPush]
  split
  · rename_i hc
    have hm0 : m = 0 := by omega
    subst hm0
    have : (q ++ cs).length ≤ s.next + cs.length := by rw [List.length_append]; omega
    rw [looksLeft]
    simp only [Nat.sub_zero]
    rw [List.take_of_length_le this, List.drop_eq_nil_of_le this, show b - (s.level + 1) = b - s.level - 1 by omega, List.map_append,
      List.sum_append]
    simp only [List.map_nil, List.sum_nil, List.take_zero, List.drop_zero]
    omega
  · rw [looksLeft]
    simp only
    rw [show s.curr - (s.count + 1) = m by omega, List.take_append_of_le_length hl, List.drop_append_of_le_length hl, List.map_append,
      List.sum_append]
    omega

/-- After the last level nothing is left. -/
theorem looksLeft_end {S : List Nat} {h : Nat} {s : QueueSt} {e : Nat × Nat × Nat} {q cs : List (Nat × Nat × Nat)} (hi : QueueInv h s)
    (hq : s.q = e :: q) (hl : (popPush s q cs).level = h) : looksLeft (rangeLeft S 0 0) h (popPush s q cs) = 0 := by
  have hf := popPush_full hi hq hl
  rw [looksLeft, List.drop_eq_nil_of_le hf, hl, Nat.sub_self]
  have e2 : rangeLeft S 0 0 0 = fun _ => 0 := by
    funext e
    simp [rangeLeft]
  rw [e2]
  simp

theorem rangeTop_rng {S : List Nat} (hlen : S.length < 2 ^ 64) {k : Nat} {cs : List (Nat × Nat × Nat)} (h : ∀ e ∈ cs, RangeTop S k e) :
    ∀ e ∈ cs, e.1 ≤ e.2.1 ∧ e.2.1 + 1 < 2 ^ 64 := by
  intro x hx
  obtain ⟨⟨a1, a2, -⟩, -⟩ := h x hx
  exact ⟨a1, by omega⟩

/-! ## Flat -/

theorem flatLoopC_seen {S : List Nat} (hs : S.Pairwise (· < ·)) (hlen : S.length < 2 ^ 64) {h : Nat} : (f : Nat) → (s : FlatSt) →
    QueueInv h s.view → LevInv (RangeTop S) h s.view → Post (flatLoopC S h f s) fun a => a.2 = looksLeft (rangeLeft S 0 0) h s.view
  | 0, _, _, _ => Post.error
  | f + 1, s, hi, hb => by
    rw [flatLoopC]
    cases hq : s.q with
    | nil =>
      have h1 := hi.len
      have h2 := hi.cnt
      simp only [FlatSt.view, hq, List.length_nil] at h1 h2
      omega
    | cons e q =>
      obtain ⟨l, r, c⟩ := e
      have hq' : s.view.q = (l, r, c) :: q := hq
      have hbk := curr_lev hi hb hq'
      have hlv : s.level < h := hi.lvl
      have hm : h - s.view.level = h - s.level - 1 + 1 := by simp only [FlatSt.view]; omega
      rw [hm] at hbk
      have hst : Post (flatStepC S h s l r q) fun a => ∃ cs, a.1.view = popPush s.view q cs ∧ cs ≠ [] ∧
          (∀ e ∈ cs, RangeTop S (h - s.level - 1) e) ∧
          rangeLeft S 0 0 (h - s.level - 1 + 1) (l, r, c) = a.2 + (cs.map (rangeLeft S 0 0 (h - s.level - 1))).sum := by
        rw [flatStepC]
        refine (scan_seen hs hlen hbk).bind fun ⟨⟨lf, right⟩, k⟩ ⟨h1, h2, h3, h4, h5⟩ => ?_
        refine flatChild_view.bind fun s1 e1 => flatChild_view.bind fun s2 e2 => Post.ok ⟨childList l r lf right, ?_, h2, h4, ?_⟩
        · simp only
          rw [flatLevelEnd_view, e2]
          simp only [FlatSt.view, QueueSt.mk.injEq] at e1
          obtain ⟨a1, a2, a3, a4, a5⟩ := e1
          rw [a1, a2, a3, a4, a5, List.append_assoc, Nat.add_assoc, ← List.length_append]
          rfl
        · simp only at h1 ⊢
          rw [h1]
          exact rangeLeft_children (Nat.zero_le _) h3 h5
      refine hst.bind fun ⟨s', k⟩ ⟨cs, g1, g2, g3, g4⟩ => ?_
      simp only at g1 g2 g3 g4 ⊢
      have hll : looksLeft (rangeLeft S 0 0) h s.view = k + looksLeft (rangeLeft S 0 0) h s'.view := by
        rw [g1]
        refine popPush_looks hi hq' ?_
        rw [hm, Nat.add_sub_cancel]
        exact g4
      refine Post.ite (fun hl => Post.ok ?_) fun hl => ?_
      · have : looksLeft (rangeLeft S 0 0) h s'.view = 0 := by
          rw [g1]
          exact looksLeft_end hi hq' (by rw [← g1]; exact hl)
        simp only
        omega
      · have hi' : QueueInv h s'.view := by
          rw [g1]
          exact popPush_inv hi hq' (rangeTop_rng hlen g3) (.inl g2) (by rw [← g1]; exact hl)
        have hb' : LevInv (RangeTop S) h s'.view := by
          rw [g1]
          refine popPush_lev hi hb hq' ?_
          rw [hm, Nat.add_sub_cancel]
          exact g3
        refine (flatLoopC_seen hs hlen f s' hi' hb').bind fun ⟨s'', k'⟩ h3 => Post.ok ?_
        simp only at h3 ⊢
        omega

/-- At the start all is left. -/
theorem looks_start {S : List Nat} (hlen : S.length < 2 ^ 64) {h b r n : Nat} (hh : 0 < h) (hr : r + 1 = S.length)
    (hb : ∀ x ∈ S, x < 2 ^ b) : QueueInv h ⟨[(0, r, n)], 0, 1, 0, 0⟩ ∧ LevInv (RangeTop S) b ⟨[(0, r, n)], 0, 1, 0, 0⟩ ∧
      ∀ lo c, looksLeft (rangeLeft S lo c) b ⟨[(0, r, n)], 0, 1, 0, 0⟩ = c * S.length + seenTotal S lo (b - lo) := by
  have hseen : ∀ k, rangeSeen S k (0, r, n) = S.countP (seenAt S k) := by
    intro k
    rw [rangeSeen, rangeSize]
    simp only [Nat.sub_zero]
    rw [hr, ← List.range_eq_range']
    have : (List.range S.length).map (fun i => S.getD i 0) = S := by
      apply List.ext_getElem?
      intro i
      by_cases hi : i < S.length
      · simp [List.getD_eq_getElem?_getD, hi]
      · simp [hi]
    have e := List.countP_map (p := seenAt S k) (f := fun i => S.getD i 0) (l := List.range S.length)
    rw [this] at e
    exact e.symm
  obtain ⟨h1, h2, -⟩ := queue_start (S := S) (h := h) (b := b) (n := n) (r := r) hh (by omega) (by omega) hb
  refine ⟨h1, ⟨fun e he => ⟨h2.cur e he, ?_⟩, fun e he => by simp at he⟩, fun lo c => ?_⟩
  · simp at he
    subst he
    intro i hi
    simp at hi
  · simp [looksLeft, rangeLeft, hseen, seenTotal, rangeSize, hr]

theorem flatCtorC_seen {S : List Nat} {u : Nat} (hne : S ≠ []) (hs : S.Pairwise (· < ·)) (hlen : S.length < 2 ^ 32)
    (hb : ∀ x ∈ S, x < 2 ^ (Nat.log2 (u - 1) + 1)) : Post (flatCtorC S u) fun a => a.2.looks = seenTotal S 0 (Nat.log2 (u - 1) + 1) := by
  rw [flatCtorC]
  have hpos := List.length_pos_iff.2 hne
  refine Post.bind (Q := fun h => h = Nat.log2 (u - 1) + 1) ?_ fun h hh => (Post.any _).bind fun mx _ => ?_
  · rw [heightOf]
    exact Post.ite (fun _ => Post.error) fun _ => Post.ok rfl
  rw [← hh] at hb ⊢
  obtain ⟨h1, h2, h3⟩ := looks_start (S := S) (by omega) (h := h) (b := h) (n := S.length % 2 ^ 32)
    (r := (S.length % 2 ^ 32 + 2 ^ 32 - 1) % 2 ^ 32) (by omega) (by omega) hb
  refine (flatLoopC_seen hs (by omega) _ _ h1 h2).bind fun ⟨s, k⟩ hk => Post.ok ?_
  simp only at hk ⊢
  rw [hk]
  have := h3 0 0
  rw [Nat.zero_mul, Nat.zero_add, Nat.sub_zero] at this
  exact this

/-! ## Level-wise -/

theorem levelLoopC_seen {S : List Nat} (hs : S.Pairwise (· < ·)) (hlen : S.length < 2 ^ 64) {h : Nat} : (f : Nat) → (s : LevelSt) →
    QueueInv h s.view → LevInv (RangeTop S) h s.view → Post (levelLoopC S h f s) fun a => a.2 = looksLeft (rangeLeft S 0 0) h s.view
  | 0, _, _, _ => Post.error
  | f + 1, s, hi, hb => by
    rw [levelLoopC]
    cases hq : s.q with
    | nil =>
      have h1 := hi.len
      have h2 := hi.cnt
      simp only [LevelSt.view, hq, List.length_nil] at h1 h2
      omega
    | cons e q =>
      obtain ⟨l, r, c⟩ := e
      have hq' : s.view.q = (l, r, c) :: q := hq
      have hbk := curr_lev hi hb hq'
      have hlv : s.level < h := hi.lvl
      have hm : h - s.view.level = h - s.level - 1 + 1 := by simp only [LevelSt.view]; omega
      rw [hm] at hbk
      have hst : Post (levelStepC S h s l r q) fun a => ∃ cs, a.1.view = popPush s.view q cs ∧ cs ≠ [] ∧
          (∀ e ∈ cs, RangeTop S (h - s.level - 1) e) ∧
          rangeLeft S 0 0 (h - s.level - 1 + 1) (l, r, c) = a.2 + (cs.map (rangeLeft S 0 0 (h - s.level - 1))).sum := by
        rw [levelStepC]
        refine (scan_seen hs hlen hbk).bind fun ⟨⟨lf, right⟩, k⟩ ⟨h1, h2, h3, h4, h5⟩ => ?_
        refine levelChild_view.bind fun s1 e1 => levelChild_view.bind fun s2 e2 => levelLevelEnd_view.bind fun s3 e3 => Post.ok ⟨childList l r lf right, ?_, h2, h4, ?_⟩
        · simp only
          rw [e3, e2]
          simp only [LevelSt.view, QueueSt.mk.injEq] at e1
          obtain ⟨a1, a2, a3, a4, a5⟩ := e1
          rw [a1, a2, a3, a4, a5, List.append_assoc, Nat.add_assoc, ← List.length_append]
          rfl
        · simp only at h1 ⊢
          rw [h1]
          exact rangeLeft_children (Nat.zero_le _) h3 h5
      refine hst.bind fun ⟨s', k⟩ ⟨cs, g1, g2, g3, g4⟩ => ?_
      simp only at g1 g2 g3 g4 ⊢
      have hll : looksLeft (rangeLeft S 0 0) h s.view = k + looksLeft (rangeLeft S 0 0) h s'.view := by
        rw [g1]
        refine popPush_looks hi hq' ?_
        rw [hm, Nat.add_sub_cancel]
        exact g4
      refine Post.ite (fun hl => Post.ok ?_) fun hl => ?_
      · have : looksLeft (rangeLeft S 0 0) h s'.view = 0 := by
          rw [g1]
          exact looksLeft_end hi hq' (by rw [← g1]; exact hl)
        simp only
        omega
      · have hi' : QueueInv h s'.view := by
          rw [g1]
          exact popPush_inv hi hq' (rangeTop_rng hlen g3) (.inl g2) (by rw [← g1]; exact hl)
        have hb' : LevInv (RangeTop S) h s'.view := by
          rw [g1]
          refine popPush_lev hi hb hq' ?_
          rw [hm, Nat.add_sub_cancel]
          exact g3
        refine (levelLoopC_seen hs hlen f s' hi' hb').bind fun ⟨s'', k'⟩ h3 => Post.ok ?_
        simp only at h3 ⊢
        omega

theorem levelCtorC_seen {S : List Nat} {u : Nat} (hne : S ≠ []) (hs : S.Pairwise (· < ·)) (hlen : S.length < 2 ^ 64)
    (hb : ∀ x ∈ S, x < 2 ^ (Nat.log2 (u - 1) + 1)) : Post (levelCtorC S u) fun a => a.2.looks = seenTotal S 0 (Nat.log2 (u - 1) + 1) := by
  rw [levelCtorC]
  have hpos := List.length_pos_iff.2 hne
  refine Post.bind (Q := fun h => h = Nat.log2 (u - 1) + 1) ?_ fun h hh => ?_
  · rw [heightOf]
    exact Post.ite (fun _ => Post.error) fun _ => Post.ok rfl
  rw [← hh] at hb ⊢
  obtain ⟨h1, h2, h3⟩ := looks_start (S := S) hlen (h := h) (b := h) (n := S.length)
    (r := (S.length + 2 ^ 64 - 1) % 2 ^ 64) (by omega) (by omega) hb
  by_cases h63 : 63 < h
  · simp only [h63, if_true]
    exact Post.error
  · simp only [h63, if_false]
    refine (levelLoopC_seen hs hlen _ _ h1 h2).bind fun ⟨s, k⟩ hk => Post.ok ?_
    simp only at hk ⊢
    rw [hk]
    have := h3 0 0
    rw [Nat.zero_mul, Nat.zero_add, Nat.sub_zero] at this
    exact this

/-! ## Fast -/

theorem fastLoopC_seen {lg : Nat} {S : List Nat} (hs : S.Pairwise (· < ·)) (hlen : S.length < 2 ^ 64) {height hu : Nat}
    (hh : height + lg = hu + 1) : (f : Nat) → (s : FastSt) → QueueInv height s.view → LevInv (RangeTop S) hu s.view →
    (s.level + 1 = height → s.nodesNext = 0) →
    Post (fastLoopC lg S height hu f s) fun a => a.2 = looksLeft (rangeLeft S lg 1) hu s.view
  | 0, _, _, _, _ => Post.error
  | f + 1, s, hi, hb, hn => by
    rw [fastLoopC]
    have hlv : s.level < height := hi.lvl
    have hcnt : s.count < s.nodesCurr := hi.cnt
    have hln : s.q.length = s.nodesCurr - s.count + s.nodesNext := hi.len
    cases hq : s.q with
    | nil =>
      rw [hq, List.length_nil] at hln
      omega
    | cons e q =>
      obtain ⟨l, r, c⟩ := e
      have hq' : s.view.q = (l, r, c) :: q := hq
      have hbk := curr_lev hi hb hq'
      rw [hq, List.length_cons] at hln
      by_cases hl : s.level + 1 = height
      · have hn0 := hn hl
        obtain ⟨m, hm⟩ : ∃ m, s.nodesCurr - s.count = m + 1 := ⟨s.nodesCurr - s.count - 1, by omega⟩
        have hlr : l ≤ r ∧ r + 1 < 2 ^ 64 := hi.rng (l, r, c) (by rw [hq']; simp)
        have hst : Post (fastStepC lg S height hu s l r q) fun a => a.1.1.view = ⟨q, s.level, s.nodesCurr, s.count + 1, s.nodesNext⟩ ∧
            a.2 = rangeSize (l, r, c) ∧ a.1.2 = decide (s.count + 1 = s.nodesCurr) := by
          rw [fastStepC]
          refine Post.ite (fun _ => ?_) fun h => absurd hl h
          refine (fastWordC_post _ _ _).bind fun ⟨w, k⟩ hk => Post.ok ⟨rfl, ?_, ?_⟩
          · simp only [rangeSize] at hk ⊢
            rw [hk, Nat.mod_eq_of_lt hlr.2]
          · simp only
            rw [show decide (s.level = height) = false from decide_eq_false (by omega), Bool.or_false]
        refine hst.bind fun ⟨⟨s', brk⟩, k⟩ ⟨g1, g2, g3⟩ => ?_
        simp only at g1 g2 g3 ⊢
        have hone : ∀ x, rangeLeft S lg 1 (hu - s.level) x = rangeSize x := by
          intro x
          rw [show hu - s.level = lg by omega]
          simp [rangeLeft]
        have hll : looksLeft (rangeLeft S lg 1) hu s.view = k + looksLeft (rangeLeft S lg 1) hu s'.view := by
          rw [g1, looksLeft, looksLeft, hq']
          simp only [FastSt.view]
          rw [hm, show s.nodesCurr - (s.count + 1) = m by omega, List.take_succ_cons, List.drop_succ_cons, List.map_cons, List.sum_cons,
            hone, g2]
          omega
        refine Post.ite (fun hbr => Post.ok ?_) fun hbr => ?_
        · rw [g3] at hbr
          have := of_decide_eq_true hbr
          have hq0 : q = [] := List.length_eq_zero_iff.1 (by omega)
          have : looksLeft (rangeLeft S lg 1) hu s'.view = 0 := by rw [g1, hq0]; simp [looksLeft]
          simp only
          omega
        · rw [g3] at hbr
          have hc : s.count + 1 ≠ s.nodesCurr := fun h => hbr (decide_eq_true h)
          have hi' : QueueInv height s'.view := by
            rw [g1]
            refine ⟨hlv, by simp only; omega, by simp only; omega, fun x hx => hi.rng x ?_⟩
            rw [hq']
            exact List.mem_cons_of_mem _ hx
          have hb' : LevInv (RangeTop S) hu s'.view := by
            have b1 := hb.cur
            have b2 := hb.nxt
            simp only [FastSt.view, hq, hm, List.take_succ_cons, List.drop_succ_cons] at b1 b2
            rw [g1]
            refine ⟨fun x hx => ?_, fun x hx => ?_⟩
            · simp only [show s.nodesCurr - (s.count + 1) = m by omega] at hx ⊢
              exact b1 x (List.mem_cons_of_mem _ hx)
            · simp only [show s.nodesCurr - (s.count + 1) = m by omega] at hx ⊢
              exact b2 x hx
          have hn' : s'.nodesNext = 0 := (congrArg QueueSt.next g1).trans hn0
          refine (fastLoopC_seen hs hlen hh f s' hi' hb' fun _ => hn').bind fun ⟨s'', k'⟩ h3 => Post.ok ?_
          simp only at h3 ⊢
          omega
      · have hm : hu - s.view.level = hu - s.level - 1 + 1 := by simp only [FastSt.view]; omega
        rw [hm] at hbk
        have hst : Post (fastStepC lg S height hu s l r q) fun a => ∃ cs, a.1.1.view = popPush s.view q cs ∧ cs ≠ [] ∧
            (∀ e ∈ cs, RangeTop S (hu - s.level - 1) e) ∧
            rangeLeft S lg 1 (hu - s.level - 1 + 1) (l, r, c) = a.2 + (cs.map (rangeLeft S lg 1 (hu - s.level - 1))).sum ∧
            a.1.2 = decide (a.1.1.level = height) := by
          rw [fastStepC]
          refine Post.ite (fun h => absurd h hl) fun _ => Post.ite (fun _ => Post.error) fun _ => ?_
          refine (scan_seen hs hlen hbk).bind fun ⟨⟨lf, right⟩, k⟩ ⟨h1, h2, h3, h4, h5⟩ => ?_
          refine fastChild_view.bind fun s1 e1 => fastChild_view.bind fun s2 e2 => Post.ok ⟨childList l r lf right, ?_, h2, h4, ?_, rfl⟩
          · simp only
            rw [fastLevelEnd_view, e2]
            simp only [FastSt.view, QueueSt.mk.injEq] at e1
            obtain ⟨a1, a2, a3, a4, a5⟩ := e1
            rw [a1, a2, a3, a4, a5, List.append_assoc, Nat.add_assoc, ← List.length_append]
            rfl
          · simp only at h1 ⊢
            rw [h1]
            exact rangeLeft_children (by omega) h3 h5
        refine hst.bind fun ⟨⟨s', brk⟩, k⟩ ⟨cs, g1, g2, g3, g4, g5⟩ => ?_
        simp only at g1 g2 g3 g4 g5 ⊢
        have hll : looksLeft (rangeLeft S lg 1) hu s.view = k + looksLeft (rangeLeft S lg 1) hu s'.view := by
          rw [g1]
          refine popPush_looks hi hq' ?_
          rw [hm, Nat.add_sub_cancel]
          exact g4
        have kl : s'.level = (popPush s.view q cs).level := congrArg QueueSt.level g1
        have kn : s'.nodesNext = (popPush s.view q cs).next := congrArg QueueSt.next g1
        have hle : s'.level ≤ s.level + 1 ∧ (s'.level = s.level + 1 → s'.nodesNext = 0) := by
          rw [kl, kn, popPush]
          split
          · exact ⟨Nat.le_refl _, fun _ => rfl⟩
          · exact ⟨Nat.le_succ _, fun h => absurd h (by simp only [FastSt.view]; omega)⟩
        rw [g5, if_neg (by simp only [decide_eq_true_eq]; omega)]
        have hi' : QueueInv height s'.view := by
          rw [g1]
          exact popPush_inv hi hq' (rangeTop_rng hlen g3) (.inl g2) (by rw [← kl]; omega)
        have hb' : LevInv (RangeTop S) hu s'.view := by
          rw [g1]
          refine popPush_lev hi hb hq' ?_
          rw [hm, Nat.add_sub_cancel]
          exact g3
        refine (fastLoopC_seen hs hlen hh f s' hi' hb' fun h => hle.2 (by omega)).bind fun ⟨s'', k'⟩ h3 => Post.ok ?_
        simp only at h3 ⊢
        omega

theorem fastCtorC_seen {lg : Nat} {junk : FastJunk} {S : List Nat} {u : Nat} (hne : S ≠ []) (hs : S.Pairwise (· < ·))
    (hlen : S.length < 2 ^ 32) (hb : ∀ x ∈ S, x < 2 ^ (Nat.log2 (u - 1) + 1)) (hu : lg ≤ Nat.log2 (u - 1) + 1) :
    Post (fastCtorC lg junk S u) fun a => a.2.looks = S.length + seenTotal S lg (Nat.log2 (u - 1) + 1 - lg) := by
  rw [fastCtorC]
  have hpos := List.length_pos_iff.2 hne
  refine Post.bind (Q := fun h => h = Nat.log2 (u - 1) + 1) ?_ fun h hh => ?_
  · rw [heightOf]
    exact Post.ite (fun _ => Post.error) fun _ => Post.ok rfl
  rw [← hh] at hb hu ⊢
  rw [if_neg (by omega)]
  refine (Post.any _).bind fun mx _ => ?_
  obtain ⟨h1, h2, h3⟩ := looks_start (S := S) (by omega) (h := h + 1 - lg) (b := h) (n := S.length % 2 ^ 32)
    (r := (S.length % 2 ^ 32 + 2 ^ 32 - 1) % 2 ^ 32) (by omega) (by omega) hb
  refine (fastLoopC_seen hs (by omega) (by omega) _ _ h1 h2 fun _ => rfl).bind fun ⟨s, k⟩ hk => Post.ok ?_
  simp only at hk ⊢
  rw [hk]
  have := h3 lg 1
  rw [Nat.one_mul] at this
  exact this

end CBT
