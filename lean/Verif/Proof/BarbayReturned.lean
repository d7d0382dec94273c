import Verif.SpecBarbay
import Verif.Proof.BarbayComplete

/-! # What the Barbay-Kenyon loop has reported when it returns -/

namespace CBT

open Spec

/-- What `exponentialSearch` returns on an increasing vector, in terms of the element it starts at. -/
theorem search_result {a : List Nat} (ha : a.Pairwise (· < ·)) (hn : a.length < 2 ^ 31) {inner x p pos : Nat}
    (h : exponentialSearch inner a a.length x p = .ok pos) (_ : pos < a.length) :
    ∃ hp : p < a.length, p ≤ pos ∧ (x < a[p] → pos = p + 1) ∧ (a[p] ≤ x → x ≤ a[a.length - 1] → Succ a x pos) ∧
      (a[p] ≤ x → a[a.length - 1] < x → pos = a.length - 1) := by
  have h' := h
  unfold exponentialSearch at h
  obtain ⟨y, hy, h⟩ := bind_ok h
  obtain ⟨hp, e⟩ := vGet_ok hy
  have hsp : a[p] ≤ x → x ≤ a[a.length - 1] → Succ a x pos := by
    intro h1 h2
    rcases exponentialSearch_spec ha hn hp h1 h2 inner with ⟨q, h3, h4⟩ | ⟨h3, _⟩
    · rw [h'] at h3; injection h3 with h3; subst h3; exact h4
    · rw [h'] at h3; simp at h3
  refine ⟨hp, ?_, ?_, hsp, ?_⟩
  · by_contra hlt
    have h1 := inc_lt ha (i := pos) (j := p) hp (by omega)
    split at h
    · injection h with h; omega
    · split at h
      · injection h with h
        rw [Nat.mod_eq_of_lt (by omega)] at h
        omega
      · rename_i h2 h3
        rw [show (a.length + (2 ^ 64 - 1)) % 2 ^ 64 = a.length - 1 by omega, vGet_of_lt (show a.length - 1 < a.length by omega),
          R_bind_ok] at h
        split at h
        · injection h with h; omega
        · have := (hsp (by omega) (by omega)).ge
          omega
  · intro hx
    rw [if_neg (by omega), if_pos (by omega)] at h
    injection h with h
    rw [Nat.mod_eq_of_lt (by omega)] at h
    exact h.symm
  · intro h1 h2
    have h3 : a[p] ≠ x := by
      have := inc_le ha (i := p) (j := a.length - 1) (by omega) (by omega)
      omega
    rw [if_neg (by omega), if_neg (by omega), show (a.length + (2 ^ 64 - 1)) % 2 ^ 64 = a.length - 1 by omega,
      vGet_of_lt (show a.length - 1 < a.length by omega), R_bind_ok, if_pos h2] at h
    injection h with h
    exact h.symm

/-- The element of set `j` at its position is at most `e`. -/
def AtMost (sets : List (List Nat)) (positions : List Nat) (e j : Nat) : Prop :=
  ∃ s p v, sets[j]? = some s ∧ positions[j]? = some p ∧ s[p]? = some v ∧ v ≤ e

/-- The part of the invariant about completeness: common elements below `e` are reported or in `B`, which are passed over; and the
positions of the sets in `J` are not beyond `e`, unless nothing is left to report. -/
structure BKState.Ret (sets : List (List Nat)) (k : Nat) (B : List Nat) (J : Nat → Prop) (A : List Nat) (st : BKState) : Prop where
  back : ∀ x ∈ B, ∃ j s p, j < k ∧ sets[j]? = some s ∧ s[0]? = some x ∧ st.positions[j]? = some p ∧ 1 ≤ p
  disj : ∀ x ∈ A, x ∉ B
  main : (∀ x, Common sets k x → x ∈ A ∨ x ∈ B) ∨
    (∀ j, J j → AtMost sets st.positions st.e j) ∧ ∀ x, Common sets k x → x < st.e → x ∈ A ∨ x ∈ B

theorem AtMost.set {sets : List (List Nat)} {positions : List Nat} {e e' i q v j : Nat} {s : List Nat} (hs : sets[i]? = some s)
    (hi : i < positions.length) (hq : s[q]? = some v) (hv : v ≤ e') (he : e ≤ e') (h : j ≠ i → AtMost sets positions e j) :
    AtMost sets (positions.set i q) e' j := by
  by_cases c : j = i
  · subst c
    exact ⟨s, q, v, hs, by rw [List.getElem?_set_self hi], hq, hv⟩
  · obtain ⟨s1, p1, v1, b1, b2, b3, b4⟩ := h c
    exact ⟨s1, p1, v1, b1, by rw [List.getElem?_set_ne (Ne.symm c)]; exact b2, b3, by omega⟩

theorem back_set {sets : List (List Nat)} {k : Nat} {B positions : List Nat} {i p q : Nat} (hp : positions[i]? = some p) (hpq : p ≤ q)
    (h : ∀ x ∈ B, ∃ j s p, j < k ∧ sets[j]? = some s ∧ s[0]? = some x ∧ positions[j]? = some p ∧ 1 ≤ p) :
    ∀ x ∈ B, ∃ j s p, j < k ∧ sets[j]? = some s ∧ s[0]? = some x ∧ (positions.set i q)[j]? = some p ∧ 1 ≤ p := by
  intro x hx
  obtain ⟨j, s, p', h1, h2, h3, h4, h5⟩ := h x hx
  by_cases c : j = i
  · subst c
    rw [hp] at h4; injection h4 with h4
    exact ⟨j, s, q, h1, h2, h3, by rw [List.getElem?_set_self (lt_of_getElem?_some hp)], by omega⟩
  · exact ⟨j, s, p', h1, h2, h3, by rw [List.getElem?_set_ne (Ne.symm c)]; exact h4, h5⟩

/-- A round, when the position of the set visited is not beyond `e`. -/
theorem BKOut.ret {sets : List (List Nat)} {k : Nat} {out0 A : List Nat} {st : BKState} {s : List Nat} {inner p pos y : Nat}
    {r : List Nat × Option BKState} {B : List Nat} {J : Nat → Prop} (hst : st.Ok sets k out0 A) (hI : st.Inc sets k A)
    (hR : st.Ret sets k B J A) (hJ : J st.i)
    (hinc : ∀ s ∈ sets, s.Pairwise (· < ·)) (hlen : ∀ s ∈ sets, s.length < 2 ^ 31) (hs : sets[st.i]? = some s)
    (hp : st.positions[st.i]? = some p) (hpos : exponentialSearch inner s s.length st.e p = .ok pos) (hy : s[pos]? = some y)
    (h : BKOut sets k st s p pos y r) :
    ∃ A', r.1 = out0 ++ A' ∧ A'.Pairwise (· < ·) ∧ (∀ x ∈ A', Common sets k x) ∧
      (r.2 = none → ∀ x, x ∈ A' ↔ Common sets k x ∧ x ∉ B) ∧
      ∀ st', r.2 = some st' → st'.Ok sets k out0 A' ∧ st'.Inc sets k A' ∧ st'.Ret sets k B J A' := by
  have hmem := List.mem_of_getElem? hs
  have ha := hinc s hmem
  have hik := hst.i_lt
  have hi := lt_of_getElem?_some hp
  obtain ⟨hposlt, hyv⟩ := List.getElem?_eq_some_iff.mp hy
  obtain ⟨hplt, hle, f1, f2, f3⟩ := search_result ha (hlen s hmem) hpos hposlt
  obtain ⟨A', a1, a2, a3, a4, a5⟩ := h.inc hst hI hinc hlen hs hp hpos hy
  have fin : ∀ C : List Nat, out0 ++ C = out0 ++ A' → C = A' := fun C h => List.append_cancel_left h
  -- the element reported is not one that was passed over
  have rep : y = st.e → st.occr + 1 = k → st.e ∉ B := by
    intro hye ho hB
    obtain ⟨j, s1, p1, h1, h2, h3, h4, h5⟩ := hR.back _ hB
    by_cases c : j = st.i
    · subst c
      rw [hs] at h2; injection h2 with h2; subst h2
      rw [hp] at h4; injection h4 with h4
      have := pos_unique ha h3 (by rw [hy, hye] : s[pos]? = some st.e)
      omega
    · obtain ⟨m, hm, rfl⟩ := before_all hik h1 c
      obtain ⟨s2, p2, q1, q2, q3⟩ := hst.seen m (by omega)
      rw [h2] at q1; injection q1 with q1; subst q1
      rw [h4] at q2; injection q2 with q2
      have := pos_unique (hinc _ (List.mem_of_getElem? h2)) h3 q3
      omega
  have disj' : y = st.e → st.occr + 1 = k → ∀ x ∈ A ++ [st.e], x ∉ B := by
    intro hye ho x hx
    rcases List.mem_append.mp hx with hx | hx
    · exact hR.disj x hx
    · rw [List.mem_singleton] at hx; subst hx; exact rep hye ho
  have below : ∀ x, Common sets k x → ∃ (j : Nat) (hj : j < s.length), s[j] = x := fun x hx => by
    obtain ⟨j, hj, ej⟩ := List.getElem_of_mem (hx.get hik hs)
    exact ⟨j, hj, ej⟩
  cases h with
  | found hye hk =>
    have e := fin A (by rw [← hst.out]; exact a2)
    subst e
    refine ⟨A, a2, a4, a3, fun h => by simp at h, fun st' e => ?_⟩
    obtain ⟨b1, b2⟩ := a5 _ e
    injection e with e; subst e
    refine ⟨b1, b2, back_set hp hle hR.back, hR.disj, hR.main.imp id fun ⟨h1, h2⟩ => ⟨fun j hj => ?_, h2⟩⟩
    exact AtMost.set hs hi hy (by simp only; omega) (Nat.le_refl _) fun _ => h1 j hj
  | reportEnd hye hk hl =>
    have e := fin (A ++ [st.e]) (by rw [← List.append_assoc, ← hst.out]; exact a2)
    subst e
    refine ⟨_, a2, a4, a3, fun _ x => ⟨fun hx => ⟨a3 x hx, disj' hye hk x hx⟩, fun ⟨hx, hB⟩ => ?_⟩, fun st' e => by simp at e⟩
    rcases hR.main with hm | ⟨_, hm⟩
    · exact List.mem_append_left _ ((hm x hx).resolve_right hB)
    · obtain ⟨j, hj, ej⟩ := below x hx
      have := inc_le ha (i := j) (j := pos) hposlt (by omega)
      rcases Nat.lt_or_eq_of_le (show x ≤ st.e by omega) with h | h
      · exact List.mem_append_left _ ((hm x hx h).resolve_right hB)
      · exact List.mem_append_right _ (by rw [h]; exact List.mem_singleton_self _)
  | report e' hye hk he' =>
    have e := fin (A ++ [st.e]) (by rw [← List.append_assoc, ← hst.out]; exact a2)
    subst e
    refine ⟨_, a2, a4, a3, fun h => by simp at h, fun st' e => ?_⟩
    obtain ⟨b1, b2⟩ := a5 _ e
    injection e with e; subst e
    obtain ⟨hl, he''⟩ := List.getElem?_eq_some_iff.mp he'
    have hlt := inc_lt ha (i := pos) (j := pos + 1) hl (by omega)
    have hb : ∀ x ∈ B, ∃ j s p, j < k ∧ sets[j]? = some s ∧ s[0]? = some x ∧
        ((st.positions.set st.i pos).set st.i (pos + 1))[j]? = some p ∧ 1 ≤ p := by
      rw [List.set_set]; exact back_set hp (by omega) hR.back
    refine ⟨b1, b2, hb, disj' hye hk, ?_⟩
    rcases hR.main with hm | ⟨h1, hm⟩
    · exact Or.inl fun x hx => (hm x hx).imp (List.mem_append_left _) id
    · refine Or.inr ⟨fun j hj => ?_, fun x hx hxe => ?_⟩
      · simp only [List.set_set]
        exact AtMost.set hs hi he' (Nat.le_refl _) (by omega) fun _ => h1 j hj
      · simp only at hxe
        rcases Nat.lt_trichotomy x st.e with h | h | h
        · exact (hm x hx h).imp (List.mem_append_left _) id
        · exact Or.inl (List.mem_append_right _ (by rw [h]; exact List.mem_singleton_self _))
        · exfalso
          obtain ⟨j, hj, ej⟩ := below x hx
          by_cases c : j ≤ pos
          · have := inc_le ha (i := j) (j := pos) hposlt c; omega
          · have := inc_le ha (i := pos + 1) (j := j) hj (by omega); omega
  | missEnd hye hl =>
    have e := fin A (by rw [← hst.out]; exact a2)
    subst e
    refine ⟨A, a2, a4, a3, fun _ x => ⟨fun hx => ⟨a3 x hx, hR.disj x hx⟩, fun ⟨hx, hB⟩ => ?_⟩, fun st' e => by simp at e⟩
    rcases hR.main with hm | ⟨h1, hm⟩
    · exact (hm x hx).resolve_right hB
    · obtain ⟨s1, p1, v1, q1, q2, q3, q4⟩ := h1 st.i hJ
      rw [hs] at q1; injection q1 with q1; subst q1
      rw [hp] at q2; injection q2 with q2; subst q2
      obtain ⟨_, q3⟩ := List.getElem?_eq_some_iff.mp q3
      obtain ⟨j, hj, ej⟩ := below x hx
      have h2 := inc_le ha (i := j) (j := p) hplt (by omega)
      have : pos = p := by omega
      subst this
      exact (hm x hx (by omega)).resolve_right hB
  | miss hye hl =>
    have e := fin A (by rw [← hst.out]; exact a2)
    subst e
    refine ⟨A, a2, a4, a3, fun h => by simp at h, fun st' e => ?_⟩
    obtain ⟨b1, b2⟩ := a5 _ e
    injection e with e; subst e
    refine ⟨b1, b2, back_set hp hle hR.back, hR.disj, ?_⟩
    rcases hR.main with hm | ⟨h1, hm⟩
    · exact Or.inl hm
    · obtain ⟨s1, p1, v1, q1, q2, q3, q4⟩ := h1 st.i hJ
      rw [hs] at q1; injection q1 with q1; subst q1
      rw [hp] at q2; injection q2 with q2; subst q2
      obtain ⟨_, q3⟩ := List.getElem?_eq_some_iff.mp q3
      by_cases hlast : st.e ≤ s[s.length - 1]
      · have hsucc := f2 (by omega) hlast
        have hge := hsucc.ge
        refine Or.inr ⟨fun j hj => AtMost.set hs hi hy (Nat.le_refl _) (by simp only; omega) fun _ => h1 j hj, fun x hx hxe => ?_⟩
        simp only at hxe
        by_cases h : x < st.e
        · exact hm x hx h
        · exfalso
          obtain ⟨j, hj, ej⟩ := below x hx
          by_cases c : j < pos
          · have := hsucc.first j c; omega
          · have := inc_le ha (i := pos) (j := j) hj (by omega); omega
      · refine Or.inl fun x hx => hm x hx ?_
        obtain ⟨j, hj, ej⟩ := below x hx
        have := inc_le ha (i := j) (j := s.length - 1) (by omega) (by omega)
        omega

/-- The current element is an element of a set. -/
theorem BKState.Ok.e_lt {sets : List (List Nat)} {k : Nat} {out0 A : List Nat} {st : BKState} (h : st.Ok sets k out0 A) {N : Nat}
    (hN : ∀ s ∈ sets, ∀ x ∈ s, x < N) : st.e < N := by
  obtain ⟨s, h1, h2⟩ := (h.seen 0 h.occr_pos).mem
  exact hN s (List.mem_of_getElem? h1) _ h2

theorem bkLoop_ret {inner : Nat} {sets : List (List Nat)} {k : Nat} {out0 B : List Nat}
    (hinc : ∀ s ∈ sets, s.Pairwise (· < ·)) (hlen : ∀ s ∈ sets, s.length < 2 ^ 31) (hN : ∀ s ∈ sets, ∀ x ∈ s, x < 2 ^ 64 - 1) :
    ∀ (fuel : Nat) (st : BKState) (A r : List Nat), st.Ok sets k out0 A → st.Inc sets k A → st.Ret sets k B (· < k) A →
      bkLoop inner sets k fuel st = .ok r →
      ∃ A', r = out0 ++ A' ∧ A'.Pairwise (· < ·) ∧ ∀ x, x ∈ A' ↔ Common sets k x ∧ x ∉ B := by
  intro fuel
  induction fuel with
  | zero =>
    intro st A r hst hI hR h
    rw [bkLoop] at h
    obtain ⟨_, _, h⟩ := bind_ok h
    rw [if_pos (Nat.ne_of_lt (hst.e_lt hN))] at h
    simp at h
  | succ fuel ih =>
    intro st A r hst hI hR h
    rw [bkLoop] at h
    obtain ⟨_, _, h⟩ := bind_ok h
    rw [if_pos (Nat.ne_of_lt (hst.e_lt hN))] at h
    obtain ⟨⟨o, n⟩, h1, h⟩ := bind_ok h
    obtain ⟨s, p, pos, y, e1, e2, e3, e4, e5⟩ :=
      bkStep_cases hst.occr_lt (fun s hs => Nat.lt_trans (hlen s hs) (by decide)) h1
    obtain ⟨A', a1, a2, a3, a4, a5⟩ := e5.ret hst hI hR hst.i_lt hinc hlen e1 e2 e3 e4
    cases n with
    | none =>
      simp only at h
      injection h with h; subst h
      exact ⟨A', a1, a2, a4 rfl⟩
    | some st' => obtain ⟨b1, b2, b3⟩ := a5 st' rfl; exact ih st' A' r b1 b2 b3 h

theorem landing_last {e : Nat} {s : List Nat} (h : ∀ y ∈ s, y < e) : landing e s = (s.getLast?).getD 0 := by
  have : s.find? (fun y => decide (e ≤ y)) = none := List.find?_eq_none.mpr fun y hy => by
    have := h y hy; simp; omega
  rw [landing, this]
  rfl

theorem landing_succ {e pos : Nat} {s : List Nat} (h : Succ s e pos) : landing e s = s[pos]'h.lt := by
  have : s.find? (fun y => decide (e ≤ y)) = some (s[pos]'h.lt) := by
    rw [List.find?_eq_some_iff_getElem]
    refine ⟨by simp; exact h.ge, pos, h.lt, rfl, fun j hj => ?_⟩
    have := h.first j hj
    simp; omega
  rw [landing, this]
  rfl

/-- What the search from the start of a vector returns, when that starts no higher than the element looked for. -/
theorem search_landing {a : List Nat} (ha : a.Pairwise (· < ·)) (hn : a.length < 2 ^ 31) {inner x pos y : Nat}
    (h : exponentialSearch inner a a.length x 0 = .ok pos) (hy : a[pos]? = some y) (h0 : ∀ v, a[0]? = some v → v ≤ x) :
    landing x a = y := by
  obtain ⟨hpos, hyv⟩ := List.getElem?_eq_some_iff.mp hy
  obtain ⟨hp, _, _, f2, f3⟩ := search_result ha hn h hpos
  have hle := h0 _ (List.getElem?_eq_getElem hp)
  by_cases c : x ≤ a[a.length - 1]
  · rw [landing_succ (f2 hle c), hyv]
  · have e := f3 hle (by omega)
    rw [landing_last, List.getLast?_eq_getElem?, ← e, hy]
    · rfl
    · intro z hz
      obtain ⟨j, hj, ej⟩ := List.getElem_of_mem hz
      have := inc_le ha (i := j) (j := a.length - 1) (by omega) (by omega)
      omega

/-- A common element that is passed over lies above the current element. -/
theorem passedOver_gt {x : Nat} : ∀ (rest : List (List Nat)) (e : Nat), (∀ s ∈ rest, s.Pairwise (· < ·)) → (∀ s ∈ rest, x ∈ s) →
    x ∈ passedOver e rest → e < x := by
  intro rest
  induction rest with
  | nil => intro e _ _ h; simp [passedOver] at h
  | cons s rest ih =>
    intro e hinc hx h
    cases s with
    | nil => simp [passedOver] at h
    | cons a s =>
      have hxs := hx _ List.mem_cons_self
      have ha := hinc _ List.mem_cons_self
      have ih' := fun e => ih e (fun s hs => hinc s (List.mem_cons_of_mem _ hs)) fun s hs => hx s (List.mem_cons_of_mem _ hs)
      rw [passedOver] at h
      split at h
      · rename_i hlt
        rcases List.mem_cons.mp h with rfl | h
        · exact hlt
        · rcases List.mem_cons.mp hxs with rfl | hxs
          · exact hlt
          · have := List.rel_of_pairwise_cons ha hxs
            omega
      · have h1 := ih' _ h
        by_cases c : ∃ y ∈ a :: s, e ≤ y
        · obtain ⟨y, hy, hy'⟩ := c
          have : ∃ z, (a :: s).find? (fun y => decide (e ≤ y)) = some z := by
            rw [← Option.isSome_iff_exists, List.find?_isSome]
            exact ⟨y, hy, by simp; exact hy'⟩
          obtain ⟨z, hz⟩ := this
          have hz' := List.find?_some hz
          simp only [decide_eq_true_eq] at hz'
          rw [landing, hz] at h1
          simp only [Option.orElse_some, Option.getD_some] at h1
          omega
        · have c' : ∀ y ∈ a :: s, y < e := fun y hy => by
            by_contra h'; exact c ⟨y, hy, by omega⟩
          rw [landing_last c', List.getLast?_eq_getElem?, List.getElem?_eq_getElem (by simp), Option.getD_some] at h1
          obtain ⟨j, hj, ej⟩ := List.getElem_of_mem hxs
          have := inc_le ha (i := j) (j := (a :: s).length - 1) (by simp) (by simp at hj ⊢; omega)
          omega

theorem passedOver_head {x : Nat} : ∀ (rest : List (List Nat)) (e : Nat), x ∈ passedOver e rest → ∃ s ∈ rest, s.head? = some x := by
  intro rest
  induction rest with
  | nil => intro e h; simp [passedOver] at h
  | cons s rest ih =>
    intro e h
    have ih' : ∀ e, x ∈ passedOver e rest → ∃ s' ∈ s :: rest, s'.head? = some x := fun e h => by
      obtain ⟨s', h1, h2⟩ := ih e h
      exact ⟨s', List.mem_cons_of_mem _ h1, h2⟩
    cases s with
    | nil => simp [passedOver] at h
    | cons a s =>
      rw [passedOver] at h
      split at h
      · rcases List.mem_cons.mp h with rfl | h
        · exact ⟨_, List.mem_cons_self, rfl⟩
        · exact ih' _ h
      · exact ih' _ h

/-- The state while the sets are visited for the first time, the next being `i`. -/
structure BKState.First (k i : Nat) (st : BKState) : Prop where
  pos : 1 ≤ i
  le : i ≤ k
  at_ : st.i = i % k
  occr : st.occr ≤ i
  zero : ∀ j, i ≤ j → j < k → st.positions[j]? = some 0

theorem bkLoop_first {inner : Nat} {sets : List (List Nat)} {out0 : List Nat}
    (hinc : ∀ s ∈ sets, s.Pairwise (· < ·)) (hlen : ∀ s ∈ sets, s.length < 2 ^ 31) (hN : ∀ s ∈ sets, ∀ x ∈ s, x < 2 ^ 64 - 1) :
    ∀ (rest : List (List Nat)) (fuel i : Nat) (st : BKState) (B A r : List Nat), sets.drop i = rest →
      st.Ok sets sets.length out0 A → st.Inc sets sets.length A → st.Ret sets sets.length B (· < i) A →
      st.First sets.length i → bkLoop inner sets sets.length fuel st = .ok r →
      ∃ A', r = out0 ++ A' ∧ A'.Pairwise (· < ·) ∧
        ∀ x, x ∈ A' ↔ Common sets sets.length x ∧ x ∉ B ∧ x ∉ passedOver st.e rest := by
  intro rest
  induction rest with
  | nil =>
    intro fuel i st B A r hd hst hI hR hF h
    have hi : i = sets.length := by
      have h1 := congrArg List.length hd
      have := hF.le
      simp at h1; omega
    subst hi
    obtain ⟨A', h1, h2, h3⟩ := bkLoop_ret hinc hlen hN fuel st A r hst hI hR h
    exact ⟨A', h1, h2, fun x => by rw [h3]; simp [passedOver]⟩
  | cons s rest ih =>
    intro fuel i st B A r hd hst hI hR hF h
    have hik : i < sets.length := by
      have := congrArg List.length hd
      simp at this; omega
    have hsi : sets[i]? = some s := by
      have := congrArg (fun l => l[0]?) hd
      simpa using this
    have hd' : sets.drop (i + 1) = rest := by
      have := congrArg List.tail hd
      simpa using this
    have hmem := List.mem_of_getElem? hsi
    have ha := hinc s hmem
    have hat : st.i = i := by rw [hF.at_, Nat.mod_eq_of_lt hik]
    have hrest : ∀ s ∈ rest, s ∈ sets := fun s hs => List.mem_of_mem_drop (hd' ▸ hs)
    cases fuel with
    | zero =>
      rw [bkLoop] at h
      obtain ⟨_, _, h⟩ := bind_ok h
      rw [if_pos (Nat.ne_of_lt (hst.e_lt hN))] at h
      simp at h
    | succ fuel =>
      rw [bkLoop] at h
      obtain ⟨_, _, h⟩ := bind_ok h
      rw [if_pos (Nat.ne_of_lt (hst.e_lt hN))] at h
      obtain ⟨⟨o, n⟩, h1, h⟩ := bind_ok h
      obtain ⟨s1, p, pos, y, e1, e2, e3, e4, e5⟩ :=
        bkStep_cases hst.occr_lt (fun s hs => Nat.lt_trans (hlen s hs) (by decide)) h1
      rw [hat, hsi] at e1; injection e1 with e1; subst e1
      rw [hat, hF.zero i (Nat.le_refl _) hik] at e2; injection e2 with e2; subst e2
      obtain ⟨hposlt, hyv⟩ := List.getElem?_eq_some_iff.mp e4
      obtain ⟨h0, _, f1, _, _⟩ := search_result ha (hlen s hmem) e3 hposlt
      have hs' : sets[st.i]? = some s := by rw [hat]; exact hsi
      have hp' : st.positions[st.i]? = some 0 := by rw [hat]; exact hF.zero i (Nat.le_refl _) hik
      have hzero : ∀ q j, i + 1 ≤ j → j < sets.length → (st.positions.set st.i q)[j]? = some 0 := fun q j hj hj' => by
        rw [List.getElem?_set_ne (by omega)]; exact hF.zero j (by omega) hj'
      have hFi := hF.occr
      have hnext : (st.i + 1) % sets.length = (i + 1) % sets.length := by rw [hat]
      cases s with
      | nil => simp at h0
      | cons a s =>
        rw [List.getElem_cons_zero] at f1
        by_cases hae : st.e < a
        · -- the first element is passed over
          have hpos : pos = 1 := f1 hae
          subst hpos
          have hlt := inc_lt ha (i := 0) (j := 1) hposlt (by omega)
          rw [List.getElem_cons_zero] at hlt
          have hhd : s.headD 0 = y := by
            cases s with
            | nil => simp at hposlt
            | cons b s => simpa using hyv
          obtain ⟨A', a1, a2, a3, a4, a5⟩ := e5.inc hst hI hinc hlen hs' hp' e3 e4
          cases e5 with
          | found hye _ => omega
          | reportEnd hye _ _ => omega
          | report _ hye _ _ => omega
          | missEnd hye hl => omega
          | miss hye hl =>
            have e := List.append_cancel_left (show out0 ++ A = out0 ++ A' by rw [← hst.out]; exact a2)
            subst e
            obtain ⟨b1, b2⟩ := a5 _ rfl
            simp only at h
            have hi := lt_of_getElem?_some hp'
            have := ih fuel (i + 1) _ (a :: B) A r hd' b1 b2 ⟨?_, ?_, ?_⟩ ⟨by omega, by omega, hnext, by simp, hzero 1⟩ h
            · obtain ⟨A', c1, c2, c3⟩ := this
              refine ⟨A', c1, c2, fun x => ?_⟩
              rw [c3, passedOver, if_pos hae, hhd]
              simp only [List.mem_cons, not_or]
              tauto
            · intro x hx
              rcases List.mem_cons.mp hx with rfl | hx
              · exact ⟨i, _, 1, hik, hsi, rfl, by rw [hat] at hi ⊢; simp only; rw [List.getElem?_set_self hi], Nat.le_refl _⟩
              · exact back_set hp' (by omega) hR.back x hx
            · intro x hx hx'
              rcases List.mem_cons.mp hx' with rfl | hx'
              · have := hI.lt _ hx; omega
              · exact hR.disj x hx hx'
            · rcases hR.main with hm | ⟨h1, hm⟩
              · exact Or.inl fun x hx => (hm x hx).imp id (List.mem_cons_of_mem _)
              · refine Or.inr ⟨fun j hj => AtMost.set hs' hi e4 (Nat.le_refl _) (show st.e ≤ y by omega)
                  fun hne => h1 j (by omega), fun x hx hxe => ?_⟩
                simp only at hxe
                by_cases c : x < st.e
                · exact (hm x hx c).imp id (List.mem_cons_of_mem _)
                · obtain ⟨j, hj, ej⟩ := List.getElem_of_mem (hx.get hik hsi)
                  by_cases c0 : j = 0
                  · subst c0
                    rw [List.getElem_cons_zero] at ej
                    exact Or.inr (by rw [ej]; exact List.mem_cons_self)
                  · exfalso
                    have := inc_le ha (i := 1) (j := j) hj (by omega)
                    omega
        · have hland := search_landing ha (hlen _ hmem) e3 e4 (fun v hv => by simp at hv; omega)
          have hR' : st.Ret sets sets.length B (· < i + 1) A := by
            refine ⟨hR.back, hR.disj, hR.main.imp id fun ⟨h1, h2⟩ => ⟨fun j hj => ?_, h2⟩⟩
            by_cases c : j = i
            · subst c; exact ⟨_, 0, a, hsi, hF.zero j (Nat.le_refl _) hik, rfl, by omega⟩
            · exact h1 j (by omega)
          obtain ⟨A', a1, a2, a3, a4, a5⟩ := e5.ret hst hI hR' (by rw [hat]; omega) hinc hlen hs' hp' e3 e4
          rw [passedOver, if_neg hae, hland]
          cases n with
          | none =>
            simp only at h
            injection h with h; subst h
            have hlast : pos + 1 = (a :: s).length := by
              cases e5 with
              | reportEnd _ _ hl => exact hl
              | missEnd _ hl => omega
            refine ⟨A', a1, a2, fun x => ?_⟩
            rw [a4 rfl]
            refine ⟨fun ⟨c1, c2⟩ => ⟨c1, c2, fun c3 => ?_⟩, fun ⟨c1, c2, _⟩ => ⟨c1, c2⟩⟩
            have := passedOver_gt rest y (fun s hs => hinc s (hrest s hs)) (fun s hs => common_iff.mp c1 s (hrest s hs)) c3
            obtain ⟨j, hj, ej⟩ := List.getElem_of_mem (c1.get hik hsi)
            have := inc_le ha (i := j) (j := pos) hposlt (by omega)
            omega
          | some st' =>
            obtain ⟨b1, b2, b3⟩ := a5 st' rfl
            simp only at h
            cases e5 with
            | found hye _ =>
              have := ih fuel (i + 1) _ B A' r hd' b1 b2 b3 ⟨by omega, by omega, hnext, by simp only; omega, hzero pos⟩ h
              rw [hye]
              exact this
            | report e' hye hk he' =>
              have hr : rest = [] := by
                rw [← hd']; apply List.drop_eq_nil_of_le; omega
              have := ih fuel (i + 1) _ B A' r hd' b1 b2 b3 ⟨by omega, by omega, hnext, by simp, fun j hj hj' => by omega⟩ h
              simpa only [hr, passedOver] using this
            | miss hye hl =>
              exact ih fuel (i + 1) _ B A' r hd' b1 b2 b3 ⟨by omega, by omega, hnext, by simp, hzero pos⟩ h

/-! ## The loop ends -/

/-- How many elements are left, over all vectors. -/
def bkLeft : List (List Nat) → List Nat → Nat
  | s :: ss, p :: ps => s.length - p + bkLeft ss ps
  | _, _ => 0

theorem bkLeft_set : ∀ {sets : List (List Nat)} {positions : List Nat} {i p q : Nat} {s : List Nat}, sets[i]? = some s →
    positions[i]? = some p → bkLeft sets (positions.set i q) + (s.length - p) = bkLeft sets positions + (s.length - q) := by
  intro sets
  induction sets with
  | nil => intro positions i p q s h; simp at h
  | cons s0 ss ih =>
    intro positions i p q s hs hp
    cases positions with
    | nil => simp at hp
    | cons p0 ps =>
      cases i with
      | zero =>
        simp only [List.getElem?_cons_zero, Option.some.injEq] at hs hp
        subst hs hp
        simp only [List.set_cons_zero, bkLeft]
        omega
      | succ i =>
        simp only [List.getElem?_cons_succ] at hs hp
        have := ih (q := q) hs hp
        simp only [List.set_cons_succ, bkLeft]
        omega

/-- All positions are inside their vectors. -/
def BKIn (sets : List (List Nat)) (k : Nat) (positions : List Nat) : Prop :=
  ∀ j, j < k → ∃ (s : List Nat) (p : Nat), sets[j]? = some s ∧ positions[j]? = some p ∧ p < s.length

theorem BKIn.set {sets : List (List Nat)} {k : Nat} {positions : List Nat} (h : BKIn sets k positions) {i q : Nat} {s : List Nat}
    (hs : sets[i]? = some s) (hi : i < positions.length) (hq : q < s.length) : BKIn sets k (positions.set i q) := by
  intro j hj
  by_cases c : j = i
  · subst c; exact ⟨s, q, hs, by rw [List.getElem?_set_self hi], hq⟩
  · obtain ⟨s1, p1, h1, h2, h3⟩ := h j hj
    exact ⟨s1, p1, h1, by rw [List.getElem?_set_ne (Ne.symm c)]; exact h2, h3⟩

/-- With enough fuel the loop returns or reads past the end of a vector. -/
theorem bkLoop_ends {inner : Nat} {sets : List (List Nat)} {k : Nat} {out0 : List Nat}
    (hinc : ∀ s ∈ sets, s.Pairwise (· < ·)) (hlen : ∀ s ∈ sets, s.length < 2 ^ 31) (hinner : ∀ s ∈ sets, s.length ≤ inner) :
    ∀ (fuel : Nat) (st : BKState) (A : List Nat), st.Ok sets k out0 A → BKIn sets k st.positions →
      bkLeft sets st.positions * k + (k - st.occr) ≤ fuel →
      bkLoop inner sets k fuel st = .error .oob ∨ ∃ r, bkLoop inner sets k fuel st = .ok r := by
  intro fuel
  induction fuel with
  | zero => intro st A hst _ hf; have := hst.occr_lt; omega
  | succ fuel ih =>
    intro st A hst hin hf
    have hik := hst.i_lt
    have hocc := hst.occr_lt
    obtain ⟨s, p, hs, hp, hplt⟩ := hin st.i hik
    have hi := lt_of_getElem?_some hp
    have hmem := List.mem_of_getElem? hs
    have ha := hinc s hmem
    have hL := hlen s hmem
    rw [bkLoop, vGet, hs]
    simp only [R_bind_ok]
    split
    swap
    · exact Or.inr ⟨_, rfl⟩
    have hsearch : (∃ pos, exponentialSearch inner s s.length st.e p = .ok pos ∧ pos < s.length) ∨
        exponentialSearch inner s s.length st.e p = .ok s.length := by
      by_cases c : st.e < s[p]
      · have : exponentialSearch inner s s.length st.e p = .ok (p + 1) := by
          rw [exponentialSearch, vGet_of_lt hplt, R_bind_ok, if_neg (by omega), if_pos c, Nat.mod_eq_of_lt (by omega)]
        by_cases c' : p + 1 = s.length
        · exact Or.inr (by rw [this, c'])
        · exact Or.inl ⟨_, this, by omega⟩
      · by_cases c' : st.e ≤ s[s.length - 1]
        · rcases exponentialSearch_spec ha hL (x := st.e) hplt (by omega) c' inner with ⟨pos, hpos, hsucc⟩ | ⟨_, h⟩
          · exact Or.inl ⟨pos, hpos, hsucc.lt⟩
          · have := hinner s hmem; omega
        · refine Or.inl ⟨s.length - 1, ?_, by omega⟩
          have := inc_le ha (i := p) (j := s.length - 1) (by omega) (by omega)
          rw [exponentialSearch, vGet_of_lt hplt, R_bind_ok, if_neg (by omega), if_neg (by omega),
            show (s.length + (2 ^ 64 - 1)) % 2 ^ 64 = s.length - 1 by omega,
            vGet_of_lt (show s.length - 1 < s.length by omega), R_bind_ok, if_pos (by omega)]
    rcases hsearch with ⟨pos, hpos, hposlt⟩ | hpos
    swap
    · left
      have : bkStep inner sets k st = .error .oob := by
        simp only [bkStep, vGet, hs, hp, R_bind_ok, hpos, List.getElem?_eq_none (Nat.le_refl s.length)]
        rfl
      rw [this]
      rfl
    obtain ⟨rr, hr⟩ := bkStep_total hs hp hpos hposlt hL hocc
    obtain ⟨s', p', pos', y, e1, e2, e3, e4, e5⟩ :=
      bkStep_cases hocc (fun s hs => Nat.lt_trans (hlen s hs) (by decide)) hr
    rw [hs] at e1; injection e1 with e1; subst e1
    rw [hp] at e2; injection e2 with e2; subst e2
    rw [hpos] at e3; injection e3 with e3; subst e3
    obtain ⟨A', a1, a2, a3, a4⟩ := e5.ok hst hs hp e4
    obtain ⟨_, hle, f1, f2, f3⟩ := search_result ha hL hpos hposlt
    obtain ⟨_, hyv⟩ := List.getElem?_eq_some_iff.mp e4
    rw [hr, R_bind_ok]
    have dec : ∀ q, p < q → q < s.length → (bkLeft sets (st.positions.set st.i q) + 1) * k ≤ bkLeft sets st.positions * k := by
      intro q h1 h2
      have := bkLeft_set (q := q) hs hp
      exact Nat.mul_le_mul_right _ (by omega)
    cases e5 with
    | found hye hk =>
      refine ih _ _ (a4 _ rfl) (hin.set hs hi hposlt) ?_
      have := bkLeft_set (q := pos) hs hp
      have : bkLeft sets (st.positions.set st.i pos) * k ≤ bkLeft sets st.positions * k := Nat.mul_le_mul_right _ (by omega)
      simp only
      omega
    | reportEnd hye hk hl => exact Or.inr ⟨_, rfl⟩
    | report e' hye hk he' =>
      have hq := lt_of_getElem?_some he'
      refine ih _ _ (a4 _ rfl) ?_ ?_
      · simp only [List.set_set]; exact hin.set hs hi hq
      · have := dec (pos + 1) (by omega) hq
        rw [Nat.succ_mul] at this
        simp only [List.set_set]
        omega
    | missEnd hye hl => exact Or.inr ⟨_, rfl⟩
    | miss hye hl =>
      refine ih _ _ (a4 _ rfl) (hin.set hs hi hposlt) ?_
      have hne : p < pos := by
        rcases Nat.lt_or_eq_of_le hle with h | h
        · exact h
        · exfalso
          subst h
          by_cases c : st.e < s[p]
          · have := f1 c; omega
          · by_cases c' : st.e ≤ s[s.length - 1]
            · have := (f2 (by omega) c').ge; omega
            · have := f3 (by omega) (by omega); omega
      have := dec pos hne hposlt
      rw [Nat.succ_mul] at this
      simp only
      omega

end CBT
