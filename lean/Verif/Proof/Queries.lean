import Verif.Proof.TrieFiles

/-!
# Answers to single queries and to logs, on files with any contents
-/

namespace CBT

theorem exists_max : (l : List Nat) → l ≠ [] → ∃ L ∈ l, ∀ x ∈ l, x ≤ L
  | [x], _ => ⟨x, by simp, by simp⟩
  | x :: y :: l, _ => by
    obtain ⟨L, h1, h2⟩ := exists_max (y :: l) (by simp)
    by_cases h : x ≤ L
    · refine ⟨L, List.mem_cons_of_mem _ h1, fun z hz => ?_⟩
      rcases List.mem_cons.1 hz with rfl | hz
      · exact h
      · exact h2 z hz
    · refine ⟨x, by simp, fun z hz => ?_⟩
      rcases List.mem_cons.1 hz with rfl | hz
      · exact Nat.le_refl _
      · have := h2 z hz; omega

/-- If the tries up to the greatest of `ids` can be loaded, so can those up to a number that is not greater, and they are the same. -/
theorem loadLoop_less {T : Type} {load : Nat → Bytes → R (T × Bytes)} : (n i : Nat) → (s : Bytes) → (ids ids' : List Nat) →
    ids' ≠ [] → ids.Pairwise (· < ·) → ids'.Pairwise (· < ·) → (∀ x ∈ ids, i ≤ x) → (∀ x ∈ ids', i ≤ x) →
    (∀ x ∈ ids', ∃ y ∈ ids, x ≤ y) → (m : List (Nat × T)) → loadLoop load n i ids s = .ok m →
    ∃ m', loadLoop load n i ids' s = .ok m' ∧ ∀ x ∈ ids', x ∈ ids → m'.lookup x = m.lookup x
  | 0, i, s, ids, ids', _, _, _, _, _, _, m, h => by
    rw [loadLoop] at h
    injection h with h; subst h
    exact ⟨[], rfl, fun _ _ _ => rfl⟩
  | n + 1, i, s, ids, [], hne, _, _, _, _, _, m, h => absurd rfl hne
  | n + 1, i, s, [], id' :: r', _, _, _, _, _, hle, m, h => by
    obtain ⟨y, hy, -⟩ := hle id' (by simp)
    simp at hy
  | n + 1, i, s, id :: r, id' :: r', hne, hp, hp', hge, hge', hle, m, h => by
    have hp0 := hp
    have hp0' := hp'
    rw [List.pairwise_cons] at hp hp'
    rw [loadLoop] at h
    obtain ⟨⟨t, s1⟩, e, h⟩ := bind_ok h
    simp only at h
    rw [loadLoop, e, R_bind_ok]
    simp only
    by_cases hi : i = id
    · subst hi
      rw [if_pos rfl] at h
      by_cases hr : r = []
      · subst hr
        rw [if_pos rfl] at h
        have hid : id' = i := by
          obtain ⟨y, hy, hxy⟩ := hle id' (by simp)
          rw [List.mem_singleton.1 hy] at hxy
          have := hge' id' (by simp)
          omega
        subst hid
        have hr' : r' = [] := by
          by_contra hc
          obtain ⟨x, hx⟩ := List.exists_mem_of_ne_nil _ hc
          obtain ⟨y, hy, hxy⟩ := hle x (List.mem_cons_of_mem _ hx)
          rw [List.mem_singleton.1 hy] at hxy
          have := hp'.1 x hx
          omega
        subst hr'
        rw [if_pos rfl, if_pos rfl]
        exact ⟨m, h, fun _ _ _ => rfl⟩
      · rw [if_neg hr] at h
        obtain ⟨m1, h1, h2⟩ := bind_ok h
        injection h2 with h2; subst h2
        have hg1 : ∀ x ∈ r, i + 1 ≤ x := hp.1
        by_cases hi' : i = id'
        · subst hi'
          rw [if_pos rfl]
          by_cases hr' : r' = []
          · subst hr'
            rw [if_pos rfl]
            refine ⟨_, rfl, fun x hx _ => ?_⟩
            rw [List.mem_singleton.1 hx]
            simp
          · rw [if_neg hr']
            obtain ⟨m2, h3, h4⟩ := loadLoop_less n (i + 1) s1 r r' hr' hp.2 hp'.2 hg1 hp'.1 (fun x hx => by
              obtain ⟨y, hy, hxy⟩ := hle x (List.mem_cons_of_mem _ hx)
              rcases List.mem_cons.1 hy with rfl | hy
              · have := hp'.1 x hx; omega
              · exact ⟨y, hy, hxy⟩) m1 h1
            rw [h3, R_bind_ok]
            refine ⟨_, rfl, fun x hx hx' => ?_⟩
            by_cases hxi : x = i
            · subst hxi; simp
            · have hxi' : (x == i) = false := by simpa using hxi
              simp only [List.lookup_cons, hxi']
              exact h4 x ((List.mem_cons.1 hx).resolve_left hxi) ((List.mem_cons.1 hx').resolve_left hxi)
        · rw [if_neg hi']
          have hg2 : ∀ x ∈ id' :: r', i + 1 ≤ x := by
            intro x hx
            have h0 := hge' id' (by simp)
            rcases List.mem_cons.1 hx with rfl | hx
            · omega
            · have := hp'.1 x hx; omega
          obtain ⟨m2, h3, h4⟩ := loadLoop_less n (i + 1) s1 r (id' :: r') hne hp.2 hp0' hg1 hg2 (fun x hx => by
            obtain ⟨y, hy, hxy⟩ := hle x hx
            rcases List.mem_cons.1 hy with rfl | hy
            · have := hg2 x hx; omega
            · exact ⟨y, hy, hxy⟩) m1 h1
          refine ⟨m2, h3, fun x hx hx' => ?_⟩
          have hxi : x ≠ i := by have := hg2 x hx; omega
          have hxi' : (x == i) = false := by simpa using hxi
          simp only [List.lookup_cons, hxi']
          exact h4 x hx ((List.mem_cons.1 hx').resolve_left hxi)
    · rw [if_neg hi] at h
      have hg1 : ∀ x ∈ id :: r, i + 1 ≤ x := by
        intro x hx
        have h0 := hge id (by simp)
        rcases List.mem_cons.1 hx with rfl | hx
        · omega
        · have := hp.1 x hx; omega
      by_cases hi' : i = id'
      · subst hi'
        rw [if_pos rfl]
        by_cases hr' : r' = []
        · subst hr'
          rw [if_pos rfl]
          refine ⟨_, rfl, fun x hx hx' => ?_⟩
          have := hg1 x hx'
          rw [List.mem_singleton.1 hx] at this
          omega
        · rw [if_neg hr']
          obtain ⟨m2, h3, h4⟩ := loadLoop_less n (i + 1) s1 (id :: r) r' hr' hp0 hp'.2 hg1 hp'.1
            (fun x hx => hle x (List.mem_cons_of_mem _ hx)) m h
          rw [h3, R_bind_ok]
          refine ⟨_, rfl, fun x hx hx' => ?_⟩
          have hxi : x ≠ i := by have := hg1 x hx'; omega
          have hxi' : (x == i) = false := by simpa using hxi
          simp only [List.lookup_cons, hxi']
          exact h4 x ((List.mem_cons.1 hx).resolve_left hxi) hx'
      · rw [if_neg hi']
        have hg2 : ∀ x ∈ id' :: r', i + 1 ≤ x := by
          intro x hx
          have h0 := hge' id' (by simp)
          rcases List.mem_cons.1 hx with rfl | hx
          · omega
          · have := hp'.1 x hx; omega
        exact loadLoop_less n (i + 1) s1 (id :: r) (id' :: r') hne hp0 hp0' hg1 hg2 hle m h

theorem lookupAll_congr {T : Type} {m m' : List (Nat × T)} : (q : List Nat) → (∀ x ∈ q, m'.lookup x = m.lookup x) →
    lookupAll m' q = lookupAll m q
  | [], _ => rfl
  | x :: q, h => by
    rw [lookupAll, lookupAll, h x (by simp), lookupAll_congr q fun y hy => h y (List.mem_cons_of_mem _ hy)]

theorem answerQuery_congr {T : Type} {m m' : List (Nat × T)} {inter : List T → R (List Nat)} {q : List Nat}
    (h : ∀ x ∈ q, m'.lookup x = m.lookup x) : answerQuery m' inter q = answerQuery m inter q := by
  rw [answerQuery, answerQuery, lookupAll_congr q h]

/-- The answers to a log are the answers to its queries. -/
theorem answerAll_iff {T : Type} {m : List (Nat × T)} {inter : Nat → List T → R (List Nat)} : (qs : List (List Nat)) → (i : Nat) →
    (as : List (Option (List Nat))) → (answerAll m inter i qs = .ok as ↔ as.length = qs.length ∧
      ∀ j (h : j < qs.length) (h' : j < as.length), answerQuery m (inter (i + j)) qs[j] = .ok as[j])
  | [], i, as => by
    rw [answerAll]
    constructor
    · intro h
      injection h with h; subst h
      exact ⟨rfl, fun j h => by simp at h⟩
    · rintro ⟨h, -⟩
      rw [List.length_eq_zero_iff.1 h]
  | q :: qs, i, as => by
    rw [answerAll]
    constructor
    · intro h
      obtain ⟨a, h1, h⟩ := bind_ok h
      obtain ⟨as', h2, h⟩ := bind_ok h
      injection h with h; subst h
      obtain ⟨e, h3⟩ := (answerAll_iff qs (i + 1) as').1 h2
      refine ⟨by simp [e], fun j hj hj' => ?_⟩
      cases j with
      | zero => exact h1
      | succ j =>
        have := h3 j (by simpa using hj) (by simpa using hj')
        rw [Nat.add_assoc, Nat.add_comm 1 j] at this
        exact this
    · rintro ⟨e, h⟩
      cases as with
      | nil => simp at e
      | cons a as =>
        have h0 := h 0 (by simp) (by simp)
        have h1 := (answerAll_iff qs (i + 1) as).2 ⟨by simpa using e, fun j hj hj' => by
          rw [Nat.add_assoc, Nat.add_comm 1 j]
          exact h (j + 1) (by simpa using hj) (by simpa using hj')⟩
        rw [Nat.add_zero] at h0
        rw [show answerQuery m (inter i) q = .ok a from h0, R_bind_ok, h1, R_bind_ok]

/-- One round of `answerLog`. -/
def answerOne (seqs : List Nav) (inter : List Nav → R (List Nat)) (q : List Nat) : R (Option (List Nat)) := do
  let ts ← getAll seqs q
  if ts.length ≤ 16 then do
    let r ← inter ts
    pure (some r)
  else pure none

theorem answerLog_cons (seqs : List Nav) (inter : Nat → List Nav → R (List Nat)) (i : Nat) (q : List Nat) (qs : List (List Nat)) :
    answerLog seqs inter i (q :: qs) = (answerOne seqs (inter i) q >>= fun a => answerLog seqs inter (i + 1) qs >>= fun as => .ok (a :: as)) := by
  rw [answerLog, answerOne]
  cases getAll seqs q with
  | error _ => rfl
  | ok ts =>
    simp only [R_bind_ok]
    by_cases h : ts.length ≤ 16
    · simp only [if_pos h]
      cases inter i ts <;> rfl
    · simp only [if_neg h]

theorem answerLog_iff {seqs : List Nav} {inter : Nat → List Nav → R (List Nat)} : (qs : List (List Nat)) → (i : Nat) →
    (as : List (Option (List Nat))) → (answerLog seqs inter i qs = .ok as ↔ as.length = qs.length ∧
      ∀ j (h : j < qs.length) (h' : j < as.length), answerOne seqs (inter (i + j)) qs[j] = .ok as[j])
  | [], i, as => by
    rw [answerLog]
    constructor
    · intro h
      injection h with h; subst h
      exact ⟨rfl, fun j h => by simp at h⟩
    · rintro ⟨h, -⟩
      rw [List.length_eq_zero_iff.1 h]
  | q :: qs, i, as => by
    rw [answerLog_cons]
    constructor
    · intro h
      obtain ⟨a, h1, h⟩ := bind_ok h
      obtain ⟨as', h2, h⟩ := bind_ok h
      injection h with h; subst h
      obtain ⟨e, h3⟩ := (answerLog_iff qs (i + 1) as').1 h2
      refine ⟨by simp [e], fun j hj hj' => ?_⟩
      cases j with
      | zero => exact h1
      | succ j =>
        have := h3 j (by simpa using hj) (by simpa using hj')
        rw [Nat.add_assoc, Nat.add_comm 1 j] at this
        exact this
    · rintro ⟨e, h⟩
      cases as with
      | nil => simp at e
      | cons a as =>
        have h0 := h 0 (by simp) (by simp)
        have h1 := (answerLog_iff qs (i + 1) as).2 ⟨by simpa using e, fun j hj hj' => by
          rw [Nat.add_assoc, Nat.add_comm 1 j]
          exact h (j + 1) (by simpa using hj) (by simpa using hj')⟩
        rw [Nat.add_zero] at h0
        rw [show answerOne seqs (inter i) q = .ok a from h0, R_bind_ok, h1, R_bind_ok]

/-- The log of one query. -/
theorem answerAll_one {T : Type} {m : List (Nat × T)} {inter : Nat → List T → R (List Nat)} {q : List Nat} {a : Option (List Nat)} :
    answerAll m inter 0 [q] = .ok [a] ↔ answerQuery m (inter 0) q = .ok a := by
  rw [answerAll_iff]
  constructor
  · rintro ⟨-, h⟩
    exact h 0 (by simp) (by simp)
  · intro h
    refine ⟨rfl, fun j hj hj' => ?_⟩
    obtain rfl : j = 0 := by simpa using hj
    exact h

theorem answerLog_one {seqs : List Nav} {inter : Nat → List Nav → R (List Nat)} {q : List Nat} {a : Option (List Nat)} :
    answerLog seqs inter 0 [q] = .ok [a] ↔ answerOne seqs (inter 0) q = .ok a := by
  rw [answerLog_iff]
  constructor
  · rintro ⟨-, h⟩
    exact h 0 (by simp) (by simp)
  · intro h
    refine ⟨rfl, fun j hj hj' => ?_⟩
    obtain rfl : j = 0 := by simpa using hj
    exact h

end CBT
