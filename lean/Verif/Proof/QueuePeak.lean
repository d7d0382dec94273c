import Verif.Model.QueuePeak
import Verif.Proof.BuildCost

/-!
# Lemmas about the length of the constructors' queue
-/

namespace CBT

/-! ## The record changes nothing -/

theorem flatLoopQ_fst (S : List Nat) (h : Nat) : (f : Nat) → (s : FlatSt) → (flatLoopQ S h f s).map Prod.fst = flatLoop S h f s
  | 0, _ => rfl
  | f + 1, s => by
    rw [flatLoopQ, flatLoop]
    cases s.q with
    | nil => rfl
    | cons e q =>
      obtain ⟨l, r, c⟩ := e
      refine map_bind_same fun s' => ?_
      simp only
      split
      · rfl
      · exact map_bind_pair (f := fun p => max (q.length + 1) p.2) (flatLoopQ_fst S h f s')

theorem flatCtorQ_fst (S : List Nat) (u : Nat) : (flatCtorQ S u).map Prod.fst = flatCtor S u := by
  rw [flatCtorQ, flatCtor]
  refine map_bind_same fun h => map_bind_same fun mx => ?_
  exact map_pair_same (flatLoopQ_fst S h _ _) fun s k => rfl

theorem levelLoopQ_fst (S : List Nat) (h : Nat) : (f : Nat) → (s : LevelSt) → (levelLoopQ S h f s).map Prod.fst = levelLoop S h f s
  | 0, _ => rfl
  | f + 1, s => by
    rw [levelLoopQ, levelLoop]
    cases s.q with
    | nil => rfl
    | cons e q =>
      obtain ⟨l, r, c⟩ := e
      refine map_bind_same fun s' => ?_
      simp only
      split
      · rfl
      · exact map_bind_pair (f := fun p => max (q.length + 1) p.2) (levelLoopQ_fst S h f s')

theorem levelCtorQ_fst (S : List Nat) (u : Nat) : (levelCtorQ S u).map Prod.fst = levelCtor S u := by
  rw [levelCtorQ, levelCtor]
  refine map_bind_same fun h => ?_
  by_cases h63 : 63 < h
  · simp only [h63, if_true]
    rfl
  · simp only [h63, if_false]
    exact map_pair_same (levelLoopQ_fst S h _ _) fun s k => rfl

theorem fastLoopQ_fst (lg : Nat) (S : List Nat) (height hu : Nat) : (f : Nat) → (s : FastSt) →
    (fastLoopQ lg S height hu f s).map Prod.fst = fastLoop lg S height hu f s
  | 0, _ => rfl
  | f + 1, s => by
    rw [fastLoopQ, fastLoop]
    cases s.q with
    | nil => rfl
    | cons e q =>
      obtain ⟨l, r, c⟩ := e
      refine map_bind_same fun p => ?_
      simp only
      split
      · rfl
      · exact map_bind_pair (f := fun p => max (q.length + 1) p.2) (fastLoopQ_fst lg S height hu f p.1)

theorem fastCtorQ_fst (lg : Nat) (junk : FastJunk) (S : List Nat) (u : Nat) : (fastCtorQ lg junk S u).map Prod.fst = fastCtor lg junk S u := by
  rw [fastCtorQ, fastCtor]
  refine map_bind_same fun hu => ?_
  by_cases hs : hu + 1 < lg
  · simp only [hs, if_true]
    rfl
  · simp only [hs, if_false]
    refine map_bind_same fun mx => ?_
    exact map_pair_same (fastLoopQ_fst lg S _ _ _ _) fun s k => rfl

/-! ## Ranges are blocks -/

theorem Post.of_fst {A B : Type} {x : R (A × B)} {y : R A} {P : A → Prop} (h : x.map Prod.fst = y) (hp : Post x fun a => P a.1) :
    Post y P := by
  subst h
  cases x with
  | error e => exact Post.error
  | ok p => exact Post.ok (hp p rfl)

theorem Post.both {A : Type} {x : R A} {P Q : A → Prop} (h : Post x P) (h' : Post x Q) : Post x fun a => P a ∧ Q a :=
  fun a ha => ⟨h a ha, h' a ha⟩

/-- The elements of the range agree above bit `k`. -/
def RangeBlk (S : List Nat) (k : Nat) (e : Nat × Nat × Nat) : Prop :=
  e.1 ≤ e.2.1 ∧ e.2.1 < S.length ∧ ∀ i, e.1 ≤ i → i ≤ e.2.1 → S.getD i 0 / 2 ^ k = S.getD e.1 0 / 2 ^ k

theorem vGet_getD {S : List Nat} {i x : Nat} (h : vGet S i = .ok x) : S.getD i 0 = x := by
  rw [vGet] at h
  cases hx : S[i]? with
  | none => rw [hx] at h; cases h
  | some y => rw [hx] at h; injection h with h; simp [List.getD, hx, h]

theorem scan_bits {S : List Nat} {sh : Nat} : (m i left : Nat) → Post (scan S sh m i left) fun a =>
    (∀ x, i ≤ x → x < i + (a.1 - left) → S.getD x 0 / 2 ^ sh % 2 = 0) ∧ (∀ j, a.2 = some j → S.getD j 0 / 2 ^ sh % 2 = 1) ∧ left ≤ a.1
  | 0, i, left => Post.ok ⟨fun x h1 h2 => by simp only at h2; omega, by simp, Nat.le_refl _⟩
  | m + 1, i, left => by
    rw [scan]
    intro a ha
    obtain ⟨x, hx, ha⟩ := bind_ok ha
    have hx' := vGet_getD hx
    have hb : x >>> sh &&& 1 = x / 2 ^ sh % 2 := by rw [Nat.and_one_is_mod, Nat.shiftRight_eq_div_pow]
    rw [hb] at ha
    split at ha
    · rename_i h1
      injection ha with ha
      subst ha
      refine ⟨fun y h1 h2 => by simp only at h2; omega, fun j hj => ?_, Nat.le_refl _⟩
      injection hj with hj
      subst hj
      rw [hx']; exact h1
    · rename_i h1
      obtain ⟨h2, h3, h4⟩ := scan_bits m (i + 1) (left + 1) a ha
      refine ⟨fun y hy1 hy2 => ?_, h3, by omega⟩
      rcases Nat.eq_or_lt_of_le hy1 with rfl | hy
      · rw [hx']; omega
      · exact h2 y hy (by omega)

theorem div_half (a k : Nat) : a / 2 ^ k = 2 * (a / 2 ^ (k + 1)) + a / 2 ^ k % 2 := by
  rw [Nat.pow_succ, ← Nat.div_div_eq_div_mul]; omega

theorem increasing_le {S : List Nat} (hs : S.Pairwise (· < ·)) {i j : Nat} (hij : i ≤ j) (hj : j < S.length) :
    S.getD i 0 ≤ S.getD j 0 := by
  rcases Nat.eq_or_lt_of_le hij with rfl | hij
  · exact Nat.le_refl _
  · have := List.pairwise_iff_getElem.1 hs i j (by omega) hj hij
    simp only [List.getD_eq_getElem?_getD, List.getElem?_eq_getElem hj, List.getElem?_eq_getElem (show i < S.length by omega),
      Option.getD_some]
    omega

theorem children_blk {S : List Nat} (hs : S.Pairwise (· < ·)) (hlen : S.length < 2 ^ 64) {k l r c : Nat} (hb : RangeBlk S (k + 1) (l, r, c)) :
    Post (scan S k ((r + 1) % 2 ^ 64 - l) l 0) fun a => childList l r a.1 a.2 ≠ [] ∧ weight (childList l r a.1 a.2) = rangeSize (l, r, c) ∧
      ∀ e ∈ childList l r a.1 a.2, RangeBlk S k e := by
  obtain ⟨h1, h2, h3⟩ := hb
  simp only at h1 h2 h3
  have hlr : l ≤ r ∧ r + 1 < 2 ^ 64 := ⟨h1, by omega⟩
  have p1 : Post (scan S k ((r + 1) % 2 ^ 64 - l) l 0) fun a => childList l r a.1 a.2 ≠ [] ∧
      weight (childList l r a.1 a.2) = rangeSize (l, r, c) := Post.of_fst (scanC_fst S k _ _ _) ((childList_ok hlr).mono fun a ⟨_, h2, h3, _⟩ => ⟨h2, h3⟩)
  have p2 : Post (scan S k ((r + 1) % 2 ^ 64 - l) l 0) fun a => (a.2 = none → a.1 = 0 + (r + 1 - l)) ∧
      (∀ j, a.2 = some j → j = l + (a.1 - 0) ∧ j < l + (r + 1 - l)) := by
    refine Post.of_fst (scanC_fst S k _ _ _) ?_
    rw [Nat.mod_eq_of_lt hlr.2]
    exact (scanC_post _ _ _).mono fun a ⟨_, _, h3, h4⟩ => ⟨h3, h4⟩
  refine (p1.both (p2.both (scan_bits _ _ _))).mono ?_
  rintro ⟨left, right⟩ ⟨⟨n1, n2⟩, ⟨m1, m2⟩, b1, b2, -⟩
  simp only [Nat.sub_zero, Nat.zero_add] at n1 n2 m1 m2 b1 b2 ⊢
  refine ⟨n1, n2, fun e he => ?_⟩
  rw [childList, List.mem_append] at he
  rcases he with he | he
  · split at he
    · rename_i hpos
      simp at he
      subst he
      have hle : l + left ≤ r + 1 := by
        cases right with
        | none => have := m1 rfl; omega
        | some j => have := m2 j rfl; omega
      refine ⟨by simp only; omega, by simp only; omega, fun i hi hi' => ?_⟩
      simp only at hi hi' ⊢
      rw [div_half _ k, div_half (S.getD l 0) k, h3 i hi (by omega), b1 i hi (by omega), b1 l (by omega) (by omega)]
    · simp at he
  · cases right with
    | none => simp at he
    | some j =>
      simp at he
      subst he
      obtain ⟨hj, hj'⟩ := m2 j rfl
      refine ⟨by simp only; omega, h2, fun i hi hi' => ?_⟩
      simp only at hi hi' ⊢
      have e1 := h3 i (by omega) hi'
      have e2 := h3 j (by omega) (by omega)
      have e3 := b2 j rfl
      have e4 : S.getD j 0 / 2 ^ k ≤ S.getD i 0 / 2 ^ k := Nat.div_le_div_right (increasing_le hs hi (by omega))
      rw [div_half _ k, div_half (S.getD i 0) k, e1, e2, e3] at e4
      rw [div_half _ k, div_half (S.getD j 0) k, e1, e2, e3]
      omega

/-! ## Queues -/

/-- With `b` bits in all: the ranges of the current level are blocks of that level, the others of the next. -/
structure BlkInv (S : List Nat) (b : Nat) (s : QueueSt) : Prop where
  cur : ∀ e ∈ s.q.take (s.curr - s.count), RangeBlk S (b - s.level) e
  nxt : ∀ e ∈ s.q.drop (s.curr - s.count), RangeBlk S (b - s.level - 1) e

theorem popPush_blk {S : List Nat} {h b : Nat} {s : QueueSt} {e : Nat × Nat × Nat} {q cs : List (Nat × Nat × Nat)} (hi : QueueInv h s)
    (hb : BlkInv S b s) (hq : s.q = e :: q) (hcs : ∀ e ∈ cs, RangeBlk S (b - s.level - 1) e) : BlkInv S b (popPush s q cs) := by
  obtain ⟨h1, h2, h3, -⟩ := hi
  obtain ⟨b1, b2⟩ := hb
  obtain ⟨m, hm⟩ : ∃ m, s.curr - s.count = m + 1 := ⟨s.curr - s.count - 1, by omega⟩
  rw [hq, List.length_cons] at h3
  rw [hq, hm] at b1 b2
  rw [List.take_succ_cons] at b1
  rw [List.drop_succ_cons] at b2
  have hl : m ≤ q.length := by omega
  rw [popPush]
  split
  · rename_i hc
    have hm0 : m = 0 := by omega
    subst hm0
    have : (q ++ cs).length ≤ s.next + cs.length := by rw [List.length_append]; omega
    refine ⟨fun x hx => ?_, fun x hx => ?_⟩
    · simp only [Nat.sub_zero] at hx ⊢
      rw [List.take_of_length_le this] at hx
      rw [show b - (s.level + 1) = b - s.level - 1 by omega]
      rcases List.mem_append.1 hx with hx | hx
      · exact b2 x (by simpa using hx)
      · exact hcs x hx
    · simp only [Nat.sub_zero] at hx
      rw [List.drop_eq_nil_of_le this] at hx
      cases hx
  · refine ⟨fun x hx => ?_, fun x hx => ?_⟩
    · simp only [show s.curr - (s.count + 1) = m by omega] at hx ⊢
      rw [List.take_append_of_le_length hl] at hx
      exact b1 x (List.mem_cons_of_mem _ hx)
    · simp only [show s.curr - (s.count + 1) = m by omega] at hx ⊢
      rw [List.drop_append_of_le_length hl] at hx
      rcases List.mem_append.1 hx with hx | hx
      · exact b2 x hx
      · exact hcs x hx

theorem length_le_weight : {q : List (Nat × Nat × Nat)} → (∀ e ∈ q, e.1 ≤ e.2.1) → q.length ≤ weight q
  | [], _ => Nat.le_refl _
  | e :: q, h => by
    rw [weight_cons, List.length_cons, rangeSize]
    have h1 := h e (by simp)
    have h2 := length_le_weight fun x hx => h x (List.mem_cons_of_mem _ hx)
    omega

theorem weight_singles : {q : List (Nat × Nat × Nat)} → (∀ e ∈ q, e.1 = e.2.1) → weight q = q.length
  | [], _ => rfl
  | e :: q, h => by
    rw [weight_cons, List.length_cons, rangeSize]
    have h1 := h e (by simp)
    have h2 := weight_singles fun x hx => h x (List.mem_cons_of_mem _ hx)
    omega

theorem RangeBlk.single {S : List Nat} (hs : S.Pairwise (· < ·)) {e : Nat × Nat × Nat} (h : RangeBlk S 0 e) : e.1 = e.2.1 := by
  obtain ⟨h1, h2, h3⟩ := h
  have h4 := h3 e.2.1 h1 (Nat.le_refl _)
  simp only [Nat.pow_zero, Nat.div_one] at h4
  rcases Nat.eq_or_lt_of_le h1 with h | h
  · exact h
  · have := List.pairwise_iff_getElem.1 hs e.1 e.2.1 (by omega) h2 h
    simp only [List.getD_eq_getElem?_getD, List.getElem?_eq_getElem h2, List.getElem?_eq_getElem (show e.1 < S.length by omega),
      Option.getD_some] at h4
    omega

theorem popPush_length {s : QueueSt} {e : Nat × Nat × Nat} {q cs : List (Nat × Nat × Nat)} (hq : s.q = e :: q) (hcs : cs ≠ []) :
    s.q.length ≤ (popPush s q cs).q.length := by
  have := List.length_pos_iff.2 hcs
  rw [hq, popPush]
  split <;> simp only [List.length_append, List.length_cons] <;> omega

theorem popPush_weight {s : QueueSt} {e : Nat × Nat × Nat} {q cs : List (Nat × Nat × Nat)} (hq : s.q = e :: q)
    (hcs : weight cs = rangeSize e) : weight (popPush s q cs).q = weight s.q := by
  rw [hq, popPush]
  split <;> simp only [weight_append, weight_cons, hcs] <;> omega

theorem popPush_full {h : Nat} {s : QueueSt} {e : Nat × Nat × Nat} {q cs : List (Nat × Nat × Nat)} (hi : QueueInv h s)
    (hq : s.q = e :: q) (hl : (popPush s q cs).level = h) :
    (popPush s q cs).q.length ≤ (popPush s q cs).curr - (popPush s q cs).count := by
  obtain ⟨h1, h2, h3, -⟩ := hi
  rw [hq, List.length_cons] at h3
  rw [popPush] at hl ⊢
  split
  · simp only [List.length_append]; omega
  · rename_i hc
    rw [if_neg hc] at hl
    simp only at hl
    omega

/-- One iteration, as far as the queue goes. -/
structure Iter (S : List Nat) (h b n : Nat) (s s' : QueueSt) : Prop where
  grows : s.q.length ≤ s'.q.length
  below : s'.q.length ≤ n
  wt : weight s'.q = n
  blk : BlkInv S b s'
  inv : s'.level ≠ h → QueueInv h s'
  full : s'.level = h → s'.q.length ≤ s'.curr - s'.count

theorem iter_popPush {S : List Nat} (hlen : S.length < 2 ^ 64) {h b n : Nat} {s : QueueSt} {e : Nat × Nat × Nat} {q cs : List (Nat × Nat × Nat)} (hi : QueueInv h s)
    (hb : BlkInv S b s) (hw : weight s.q = n) (hq : s.q = e :: q) (h1 : cs ≠ []) (h2 : weight cs = rangeSize e)
    (h3 : ∀ e ∈ cs, RangeBlk S (b - s.level - 1) e) : Iter S h b n s (popPush s q cs) := by
  have hw' := popPush_weight hq h2
  have hb' := popPush_blk hi hb hq h3
  refine ⟨popPush_length hq h1, ?_, hw'.trans hw, hb', popPush_inv hi hq (fun x hx => ?_) (.inl h1), popPush_full hi hq⟩
  · rw [← hw, ← hw']
    refine length_le_weight fun x hx => ?_
    rw [← List.take_append_drop ((popPush s q cs).curr - (popPush s q cs).count) (popPush s q cs).q] at hx
    rcases List.mem_append.1 hx with hx | hx
    · exact (hb'.cur x hx).1
    · exact (hb'.nxt x hx).1
  · obtain ⟨a1, a2, -⟩ := h3 x hx
    exact ⟨a1, by omega⟩

theorem iter_last {S : List Nat} (hs : S.Pairwise (· < ·)) {h n : Nat} {s s' : QueueSt} (hi : Iter S h h n s s') (hl : s'.level = h) :
    s'.q.length = n := by
  rw [← hi.wt]
  refine (weight_singles fun e he => RangeBlk.single hs ?_).symm
  have := hi.blk.cur e (by rw [List.take_of_length_le (hi.full hl)]; exact he)
  rwa [hl, Nat.sub_self] at this

theorem curr_blk {S : List Nat} {h b : Nat} {s : QueueSt} {e : Nat × Nat × Nat} {q : List (Nat × Nat × Nat)} (hi : QueueInv h s)
    (hb : BlkInv S b s) (hq : s.q = e :: q) : RangeBlk S (b - s.level) e := by
  have := hi.cnt
  obtain ⟨m, hm⟩ : ∃ m, s.curr - s.count = m + 1 := ⟨s.curr - s.count - 1, by omega⟩
  exact hb.cur e (by rw [hq, hm]; simp)

/-! ## Flat -/

theorem flatStep_iter {S : List Nat} (hs : S.Pairwise (· < ·)) (hlen : S.length < 2 ^ 64) {h n : Nat} {s : FlatSt} {l r c : Nat}
    {q : List (Nat × Nat × Nat)} (hi : QueueInv h s.view) (hb : BlkInv S h s.view) (hw : weight s.q = n) (hq : s.q = (l, r, c) :: q) :
    Post (flatStep S h s l r q) fun s' => Iter S h h n s.view s'.view := by
  rw [flatStep]
  have hq' : s.view.q = (l, r, c) :: q := hq
  have hbk := curr_blk hi hb hq'
  have hlv : s.level < h := hi.lvl
  rw [show h - s.view.level = h - s.level - 1 + 1 by simp only [FlatSt.view]; omega] at hbk
  refine (children_blk hs (by omega) hbk).bind fun ⟨lf, right⟩ ⟨h1, h2, h3⟩ => ?_
  refine flatChild_view.bind fun s1 e1 => flatChild_view.bind fun s2 e2 => Post.ok ?_
  have key : (flatLevelEnd h s2).view = popPush s.view q (childList l r lf right) := by
    rw [flatLevelEnd_view, e2]
    simp only [FlatSt.view, QueueSt.mk.injEq] at e1
    obtain ⟨a1, a2, a3, a4, a5⟩ := e1
    rw [a1, a2, a3, a4, a5, List.append_assoc, Nat.add_assoc, ← List.length_append]
    rfl
  rw [key]
  exact iter_popPush hlen hi hb hw hq' h1 h2 h3

theorem flatLoopQ_peak {S : List Nat} (hs : S.Pairwise (· < ·)) (hlen : S.length < 2 ^ 64) {h n : Nat} : (f : Nat) → (s : FlatSt) →
    QueueInv h s.view → BlkInv S h s.view → weight s.q = n → s.q.length ≤ n → Post (flatLoopQ S h f s) fun a => a.2 = n
  | 0, _, _, _, _, _ => Post.error
  | f + 1, s, hi, hb, hw, hle => by
    rw [flatLoopQ]
    cases hq : s.q with
    | nil =>
      have h1 := hi.len
      have h2 := hi.cnt
      simp only [FlatSt.view, hq, List.length_nil] at h1 h2
      omega
    | cons e q =>
      obtain ⟨l, r, c⟩ := e
      rw [hq, List.length_cons] at hle
      refine (flatStep_iter hs hlen hi hb hw hq).bind fun s' it => Post.ite (fun hl => Post.ok ?_) fun hl => ?_
      · have := iter_last hs it hl
        simp only [FlatSt.view] at this ⊢
        omega
      · refine (flatLoopQ_peak hs hlen f s' (it.inv hl) it.blk it.wt it.below).bind fun ⟨s'', k⟩ hk => Post.ok ?_
        simp only at hk ⊢
        omega

theorem queue_start {S : List Nat} {h b n r : Nat} (hh : 0 < h) (hr : r + 1 < 2 ^ 64) (hlt : r < S.length) (hb : ∀ x ∈ S, x < 2 ^ b) :
    QueueInv h ⟨[(0, r, n)], 0, 1, 0, 0⟩ ∧ BlkInv S b ⟨[(0, r, n)], 0, 1, 0, 0⟩ ∧ weight [(0, r, n)] = r + 1 := by
  refine ⟨(readsLeft_start hh (by omega)).1, ⟨fun e he => ?_, fun e he => by simp at he⟩, by simp [weight, rangeSize]⟩
  simp at he
  subst he
  have hz : ∀ i, S.getD i 0 / 2 ^ b = 0 := by
    intro i
    refine Nat.div_eq_of_lt ?_
    rw [List.getD_eq_getElem?_getD]
    cases hi : S[i]? with
    | none => exact Nat.two_pow_pos b
    | some x => exact hb x (List.mem_of_getElem? hi)
  exact ⟨Nat.zero_le _, hlt, fun i _ _ => by simp only [Nat.sub_zero, hz]⟩

theorem flatCtorQ_peak {S : List Nat} {u : Nat} (hS : S ≠ []) (hs : S.Pairwise (· < ·)) (hlen : S.length < 2 ^ 32)
    (hb : ∀ x ∈ S, x < 2 ^ (Nat.log2 (u - 1) + 1)) : Post (flatCtorQ S u) fun a => a.2 = S.length := by
  rw [flatCtorQ]
  have hpos := List.length_pos_iff.2 hS
  refine Post.bind (Q := fun h => 0 < h ∧ ∀ x ∈ S, x < 2 ^ h) ?_ fun h ⟨hh, hb⟩ => (Post.any _).bind fun mx _ => ?_
  · rw [heightOf]
    exact Post.ite (fun _ => Post.error) fun _ => Post.ok ⟨by omega, hb⟩
  have hr : (S.length % 2 ^ 32 + 2 ^ 32 - 1) % 2 ^ 32 + 1 = S.length := by omega
  obtain ⟨h1, h2, h3⟩ := queue_start (S := S) (h := h) (b := h) (n := S.length % 2 ^ 32)
    (r := (S.length % 2 ^ 32 + 2 ^ 32 - 1) % 2 ^ 32) hh (by omega) (by omega) hb
  rw [hr] at h3
  refine (flatLoopQ_peak hs (by omega) _ _ h1 h2 h3 ?_).bind fun ⟨s, k⟩ hk => Post.ok hk
  simp only [List.length_cons, List.length_nil]
  omega

/-! ## Level-wise -/

theorem levelStep_iter {S : List Nat} (hs : S.Pairwise (· < ·)) (hlen : S.length < 2 ^ 64) {h n : Nat} {s : LevelSt} {l r c : Nat}
    {q : List (Nat × Nat × Nat)} (hi : QueueInv h s.view) (hb : BlkInv S h s.view) (hw : weight s.q = n) (hq : s.q = (l, r, c) :: q) :
    Post (levelStep S h s l r q) fun s' => Iter S h h n s.view s'.view := by
  rw [levelStep]
  have hq' : s.view.q = (l, r, c) :: q := hq
  have hbk := curr_blk hi hb hq'
  have hlv : s.level < h := hi.lvl
  rw [show h - s.view.level = h - s.level - 1 + 1 by simp only [LevelSt.view]; omega] at hbk
  refine (children_blk hs (by omega) hbk).bind fun ⟨lf, right⟩ ⟨h1, h2, h3⟩ => ?_
  refine levelChild_view.bind fun s1 e1 => levelChild_view.bind fun s2 e2 => levelLevelEnd_view.mono fun s3 e3 => ?_
  have key : s3.view = popPush s.view q (childList l r lf right) := by
    rw [e3, e2]
    simp only [LevelSt.view, QueueSt.mk.injEq] at e1
    obtain ⟨a1, a2, a3, a4, a5⟩ := e1
    rw [a1, a2, a3, a4, a5, List.append_assoc, Nat.add_assoc, ← List.length_append]
    rfl
  rw [key]
  exact iter_popPush hlen hi hb hw hq' h1 h2 h3

theorem levelLoopQ_peak {S : List Nat} (hs : S.Pairwise (· < ·)) (hlen : S.length < 2 ^ 64) {h n : Nat} : (f : Nat) → (s : LevelSt) →
    QueueInv h s.view → BlkInv S h s.view → weight s.q = n → s.q.length ≤ n → Post (levelLoopQ S h f s) fun a => a.2 = n
  | 0, _, _, _, _, _ => Post.error
  | f + 1, s, hi, hb, hw, hle => by
    rw [levelLoopQ]
    cases hq : s.q with
    | nil =>
      have h1 := hi.len
      have h2 := hi.cnt
      simp only [LevelSt.view, hq, List.length_nil] at h1 h2
      omega
    | cons e q =>
      obtain ⟨l, r, c⟩ := e
      rw [hq, List.length_cons] at hle
      refine (levelStep_iter hs hlen hi hb hw hq).bind fun s' it => Post.ite (fun hl => Post.ok ?_) fun hl => ?_
      · have := iter_last hs it hl
        simp only [LevelSt.view] at this ⊢
        omega
      · refine (levelLoopQ_peak hs hlen f s' (it.inv hl) it.blk it.wt it.below).bind fun ⟨s'', k⟩ hk => Post.ok ?_
        simp only at hk ⊢
        omega

theorem levelCtorQ_peak {S : List Nat} {u : Nat} (hS : S ≠ []) (hs : S.Pairwise (· < ·)) (hlen : S.length < 2 ^ 64)
    (hb : ∀ x ∈ S, x < 2 ^ (Nat.log2 (u - 1) + 1)) : Post (levelCtorQ S u) fun a => a.2 = S.length := by
  rw [levelCtorQ]
  have hpos := List.length_pos_iff.2 hS
  refine Post.bind (Q := fun h => 0 < h ∧ ∀ x ∈ S, x < 2 ^ h) ?_ fun h ⟨hh, hb⟩ => ?_
  · rw [heightOf]
    exact Post.ite (fun _ => Post.error) fun _ => Post.ok ⟨by omega, hb⟩
  have hr : (S.length + 2 ^ 64 - 1) % 2 ^ 64 + 1 = S.length := by omega
  obtain ⟨h1, h2, h3⟩ := queue_start (S := S) (h := h) (b := h) (n := S.length)
    (r := (S.length + 2 ^ 64 - 1) % 2 ^ 64) hh (by omega) (by omega) hb
  rw [hr] at h3
  by_cases h63 : 63 < h
  · simp only [h63, if_true]
    exact Post.error
  · simp only [h63, if_false]
    refine (levelLoopQ_peak hs hlen _ _ h1 h2 h3 ?_).bind fun ⟨s, k⟩ hk => Post.ok hk
    simp only [List.length_cons, List.length_nil]
    omega

/-! ## Fast -/

theorem fastChild_last {s : FastSt} {c : Option (Nat × Nat × Nat)} : Post (fastChild s c) fun s' => s'.lastLevel = s.lastLevel := by
  cases c with
  | none => exact Post.ok rfl
  | some c => exact (Post.any _).bind fun v _ => Post.ok rfl

theorem fastLevelEnd_last {s : FastSt} : (fastLevelEnd s).lastLevel = s.lastLevel := by
  rw [fastLevelEnd]; split <;> rfl

/-- One iteration above the last level, and at it. -/
theorem fastStep_iter {lg : Nat} {S : List Nat} (hs : S.Pairwise (· < ·)) (hlen : S.length < 2 ^ 64) {height hu n : Nat} {s : FastSt} {l r c : Nat}
    {q : List (Nat × Nat × Nat)} (hi : QueueInv height s.view) (hb : BlkInv S hu s.view) (hq : s.q = (l, r, c) :: q) :
    Post (fastStep lg S height hu s l r q) fun a =>
      (s.level + 1 = height → a.1.q = q ∧ a.1.level = s.level ∧ a.1.nodesCurr = s.nodesCurr ∧ a.1.count = s.count + 1 ∧
        a.1.nodesNext = s.nodesNext ∧ a.1.lastLevel.length = s.lastLevel.length + 1 ∧ a.2 = decide (s.count + 1 = s.nodesCurr)) ∧
      (s.level + 1 ≠ height → weight s.q = n → Iter S height hu n s.view a.1.view ∧ a.1.lastLevel = s.lastLevel ∧
        a.1.level ≤ s.level + 1 ∧ a.2 = false ∧ (a.1.level = s.level + 1 → a.1.nodesNext = 0)) := by
  rw [fastStep]
  have hq' : s.view.q = (l, r, c) :: q := hq
  have hbk := curr_blk hi hb hq'
  have hlv : s.level < height := hi.lvl
  refine Post.ite (fun hl => ?_) fun hl => Post.ite (fun _ => Post.error) fun hlu => ?_
  · refine (Post.any _).bind fun w _ => Post.ok ⟨fun _ => ⟨rfl, rfl, rfl, rfl, rfl, by simp, ?_⟩, fun h => absurd hl h⟩
    simp only at hl ⊢
    rw [show decide (s.level = height) = false from decide_eq_false (by omega), Bool.or_false]
  simp only at hl hlu
  rw [show hu - s.view.level = hu - s.level - 1 + 1 by simp only [FastSt.view]; omega] at hbk
  refine (children_blk hs (by omega) hbk).bind fun ⟨lf, right⟩ ⟨h1, h2, h3⟩ => ?_
  refine (fastChild_view.both fastChild_last).bind fun s1 ⟨e1, f1⟩ => (fastChild_view.both fastChild_last).bind fun s2 ⟨e2, f2⟩ => Post.ok ?_
  have key : (fastLevelEnd s2).view = popPush s.view q (childList l r lf right) := by
    rw [fastLevelEnd_view, e2]
    simp only [FastSt.view, QueueSt.mk.injEq] at e1
    obtain ⟨a1, a2, a3, a4, a5⟩ := e1
    rw [a1, a2, a3, a4, a5, List.append_assoc, Nat.add_assoc, ← List.length_append]
    rfl
  have kl : (fastLevelEnd s2).level = (popPush s.view q (childList l r lf right)).level := congrArg QueueSt.level key
  have kn : (fastLevelEnd s2).nodesNext = (popPush s.view q (childList l r lf right)).next := congrArg QueueSt.next key
  have hle : (fastLevelEnd s2).level ≤ s.level + 1 := by
    rw [kl, popPush]; split <;> simp only [FastSt.view] <;> omega
  refine ⟨fun h => absurd h hl, fun _ hw => ⟨?_, ?_, hle, decide_eq_false (by omega), fun hl' => ?_⟩⟩
  · simp only
    rw [key]
    exact iter_popPush hlen hi hb hw hq' h1 h2 h3
  · simp only
    rw [fastLevelEnd_last, f2, f1]
  · rw [kn]
    rw [kl] at hl'
    rw [popPush] at hl' ⊢
    split
    · rfl
    · rename_i hc
      rw [if_neg hc] at hl'
      simp only [FastSt.view] at hl'
      omega

/-- At the last level. -/
theorem fastLoopQ_last {lg : Nat} {S : List Nat} {height hu : Nat} (hs : S.Pairwise (· < ·)) (hlen : S.length < 2 ^ 64) : (f : Nat) → (s : FastSt) →
    QueueInv height s.view → BlkInv S hu s.view → s.level + 1 = height → s.nodesNext = 0 →
    Post (fastLoopQ lg S height hu f s) fun a => a.2 = s.q.length ∧ a.1.lastLevel.length = s.lastLevel.length + s.q.length
  | 0, _, _, _, _, _ => Post.error
  | f + 1, s, hi, hb, hl, hn => by
    rw [fastLoopQ]
    have hlen' := hi.len
    have hcnt := hi.cnt
    cases hq : s.q with
    | nil =>
      simp only [FastSt.view, hq, List.length_nil] at hlen' hcnt
      omega
    | cons e q =>
      obtain ⟨l, r, c⟩ := e
      simp only [FastSt.view, hq, List.length_cons] at hlen' hcnt
      refine (fastStep_iter (n := 0) hs hlen hi hb hq).bind fun ⟨s', brk⟩ ⟨h1, _⟩ => ?_
      obtain ⟨a1, a2, a3, a4, a5, a6, a7⟩ := h1 hl
      simp only at a1 a2 a3 a4 a5 a6 a7 ⊢
      refine Post.ite (fun hbr => Post.ok ?_) fun hbr => ?_
      · rw [a7] at hbr
        have := of_decide_eq_true hbr
        simp only [a1, List.length_cons]
        omega
      · rw [a7] at hbr
        have hc : s.count + 1 ≠ s.nodesCurr := fun h => hbr (decide_eq_true h)
        obtain ⟨m, hm⟩ : ∃ m, s.nodesCurr - s.count = m + 1 := ⟨s.nodesCurr - s.count - 1, by omega⟩
        have hi' : QueueInv height s'.view := by
          refine ⟨by simp only [FastSt.view]; omega, by simp only [FastSt.view]; omega, by simp only [FastSt.view, a1]; omega, ?_⟩
          intro x hx
          simp only [FastSt.view, a1] at hx
          exact hi.rng x (by simp only [FastSt.view, hq]; exact List.mem_cons_of_mem _ hx)
        have hb' : BlkInv S hu s'.view := by
          have b1 := hb.cur
          have b2 := hb.nxt
          simp only [FastSt.view, hq, hm, List.take_succ_cons, List.drop_succ_cons] at b1 b2
          refine ⟨fun x hx => ?_, fun x hx => ?_⟩
          · simp only [FastSt.view, a1, a2, a3, a4, show s.nodesCurr - (s.count + 1) = m by omega] at hx ⊢
            exact b1 x (List.mem_cons_of_mem _ hx)
          · simp only [FastSt.view, a1, a2, a3, a4, show s.nodesCurr - (s.count + 1) = m by omega] at hx ⊢
            exact b2 x hx
        refine (fastLoopQ_last hs hlen f s' hi' hb' (by omega) (by omega)).bind fun ⟨s'', k⟩ ⟨k1, k2⟩ => Post.ok ?_
        simp only [a1] at k1 k2
        simp only [List.length_cons]
        omega

theorem fastLoopQ_peak {lg : Nat} {S : List Nat} {height hu n : Nat} (hs : S.Pairwise (· < ·)) (hlen : S.length < 2 ^ 64) : (f : Nat) →
    (s : FastSt) → QueueInv height s.view → BlkInv S hu s.view → (s.level + 1 = height → s.nodesNext = 0) → s.lastLevel = [] →
    weight s.q = n → s.q.length ≤ n →
    Post (fastLoopQ lg S height hu f s) fun a => s.q.length ≤ a.2 ∧ a.2 ≤ n ∧ a.1.lastLevel.length = a.2
  | 0, _, _, _, _, _, _, _ => Post.error
  | f + 1, s, hi, hb, hn, hll, hw, hle => by
    by_cases hl : s.level + 1 = height
    · refine (fastLoopQ_last hs hlen (f + 1) s hi hb hl (hn hl)).mono fun a ⟨h1, h2⟩ => ?_
      rw [hll, List.length_nil] at h2
      omega
    rw [fastLoopQ]
    cases hq : s.q with
    | nil =>
      have h1 := hi.len
      have h2 := hi.cnt
      simp only [FastSt.view, hq, List.length_nil] at h1 h2
      omega
    | cons e q =>
      obtain ⟨l, r, c⟩ := e
      refine (fastStep_iter (n := n) hs hlen hi hb hq).bind fun ⟨s', brk⟩ ⟨_, h2⟩ => ?_
      obtain ⟨it, a1, a2, a3, a4⟩ := h2 hl hw
      simp only at it a1 a2 a3 a4 ⊢
      subst a3
      rw [if_neg (by simp)]
      have hlv : s.level < height := hi.lvl
      have hg : q.length + 1 ≤ s'.q.length := by
        have := it.grows
        simpa only [FastSt.view, hq, List.length_cons] using this
      refine (fastLoopQ_peak hs hlen f s' (it.inv (by simp only [FastSt.view]; omega)) it.blk (fun h => a4 (by omega)) (a1.trans hll)
        it.wt it.below).bind fun ⟨s'', k⟩ ⟨k1, k2, k3⟩ => Post.ok ?_
      simp only at k1 k2 k3 ⊢
      rw [hq, List.length_cons] at hle
      simp only [List.length_cons]
      omega

theorem fastCtorQ_peak {lg : Nat} {junk : FastJunk} {S : List Nat} {u : Nat} (hS : S ≠ []) (hs : S.Pairwise (· < ·)) (hlen : S.length < 2 ^ 32)
    (hb : ∀ x ∈ S, x < 2 ^ (Nat.log2 (u - 1) + 1)) :
    Post (fastCtorQ lg junk S u) fun a => 0 < a.1.height → a.2 = a.1.lastLevel.length ∧ a.2 ≤ S.length := by
  rw [fastCtorQ]
  have hpos := List.length_pos_iff.2 hS
  refine Post.bind (Q := fun hu => ∀ x ∈ S, x < 2 ^ hu) ?_ fun hu hb => ?_
  · rw [heightOf]
    exact Post.ite (fun _ => Post.error) fun _ => Post.ok hb
  by_cases hc : hu + 1 < lg
  · simp only [hc, if_true]
    exact Post.error
  · simp only [hc, if_false]
    refine (Post.any _).bind fun mx _ => ?_
    by_cases hh : 0 < hu + 1 - lg
    · have hr : (S.length % 2 ^ 32 + 2 ^ 32 - 1) % 2 ^ 32 + 1 = S.length := by omega
      obtain ⟨h1, h2, h3⟩ := queue_start (S := S) (h := hu + 1 - lg) (b := hu) (n := S.length % 2 ^ 32)
        (r := (S.length % 2 ^ 32 + 2 ^ 32 - 1) % 2 ^ 32) hh (by omega) (by omega) hb
      rw [hr] at h3
      refine (fastLoopQ_peak hs (by omega) _ _ h1 h2 (fun _ => rfl) rfl h3 ?_).bind fun ⟨s, k⟩ ⟨_, k2, k3⟩ => Post.ok fun _ => ⟨k3.symm, k2⟩
      simp only [List.length_cons, List.length_nil]
      omega
    · exact (Post.any _).bind fun ⟨s, k⟩ _ => Post.ok fun h => absurd h hh

end CBT
