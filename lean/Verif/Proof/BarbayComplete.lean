import Verif.Proof.BarbaySound

/-! # Order and completeness of the Barbay-Kenyon loop -/

namespace CBT

/-- What `exponentialSearch` returns on an increasing vector, wherever it starts. -/
theorem search_facts {a : List Nat} (ha : a.Pairwise (· < ·)) (hn : a.length < 2 ^ 31) {inner x p pos : Nat}
    (h : exponentialSearch inner a a.length x p = .ok pos) (hpos : pos < a.length) :
    (p + 1 = a.length → pos = p) ∧ (a[pos] ≠ x → x < a[pos] ∨ pos + 1 = a.length) := by
  have h' := h
  unfold exponentialSearch at h
  obtain ⟨y, hy, h⟩ := bind_ok h
  obtain ⟨hp, e⟩ := vGet_ok hy
  split at h
  · injection h with h; subst h
    exact ⟨fun _ => rfl, fun hne => absurd (by omega) hne⟩
  · split at h
    · rename_i hlt
      injection h with h
      rw [Nat.mod_eq_of_lt (by omega)] at h
      subst h
      refine ⟨fun h => by omega, fun _ => Or.inl ?_⟩
      have := inc_lt ha (i := p) (j := p + 1) hpos (by omega)
      omega
    · rename_i hne hlt
      rw [show (a.length + (2 ^ 64 - 1)) % 2 ^ 64 = a.length - 1 by omega,
        vGet_of_lt (show a.length - 1 < a.length by omega), R_bind_ok] at h
      split at h
      · injection h with h; subst h
        exact ⟨fun h => by omega, fun _ => Or.inr (by omega)⟩
      · rename_i hl
        rcases exponentialSearch_spec ha hn (x := x) hp (by omega) (by omega) inner with ⟨q, h1, h2⟩ | ⟨h1, _⟩
        · rw [h'] at h1
          injection h1 with h1; subst h1
          have := h2.ge
          refine ⟨fun hp1 => ?_, fun h => Or.inl (by omega)⟩
          have e : a.length - 1 = p := by omega
          have hl' : ¬ a[p] < x := by
            have e2 : a[a.length - 1]'(by omega) = a[p] := by simp only [e]
            omega
          omega
        · rw [h'] at h1; simp at h1

/-- The part of the invariant about order. -/
structure BKState.Inc (sets : List (List Nat)) (k : Nat) (A : List Nat) (st : BKState) : Prop where
  inc : A.Pairwise (· < ·)
  lt : ∀ r ∈ A, r < st.e
  done : ∀ r ∈ A, ∀ j, j < k → ∀ s : List Nat, sets[j]? = some s → s[s.length - 1]? = some r →
    st.positions[j]? = some (s.length - 1)

theorem pos_unique {a : List Nat} (ha : a.Pairwise (· < ·)) {i j x : Nat} (hi : a[i]? = some x) (hj : a[j]? = some x) :
    i = j := by
  obtain ⟨hi, e⟩ := List.getElem?_eq_some_iff.mp hi
  obtain ⟨hj, e'⟩ := List.getElem?_eq_some_iff.mp hj
  rcases Nat.lt_trichotomy i j with h | h | h
  · have := inc_lt ha hj h; omega
  · exact h
  · have := inc_lt ha hi h; omega

theorem pairwise_append_singleton {A : List Nat} {e : Nat} (h : A.Pairwise (· < ·)) (h' : ∀ r ∈ A, r < e) :
    (A ++ [e]).Pairwise (· < ·) := by
  rw [List.pairwise_append]
  exact ⟨h, List.pairwise_singleton _ _, fun a ha b hb => by rw [List.mem_singleton] at hb; subst hb; exact h' a ha⟩

/-- A round keeps the order, and what has been reported stays reported. -/
theorem BKOut.inc {sets : List (List Nat)} {k : Nat} {out0 A : List Nat} {st : BKState} {s : List Nat} {inner p pos y : Nat}
    {r : List Nat × Option BKState} (hst : st.Ok sets k out0 A) (hI : st.Inc sets k A)
    (hinc : ∀ s ∈ sets, s.Pairwise (· < ·)) (hlen : ∀ s ∈ sets, s.length < 2 ^ 31) (hs : sets[st.i]? = some s)
    (hp : st.positions[st.i]? = some p) (hpos : exponentialSearch inner s s.length st.e p = .ok pos) (hy : s[pos]? = some y)
    (h : BKOut sets k st s p pos y r) :
    ∃ A', A <+: A' ∧ r.1 = out0 ++ A' ∧ (∀ x ∈ A', Common sets k x) ∧ A'.Pairwise (· < ·) ∧
      ∀ st', r.2 = some st' → st'.Ok sets k out0 A' ∧ st'.Inc sets k A' := by
  have hmem := List.mem_of_getElem? hs
  have ha := hinc s hmem
  have hi := lt_of_getElem?_some hp
  obtain ⟨hposlt, hyv⟩ := List.getElem?_eq_some_iff.mp hy
  obtain ⟨f1, f2⟩ := search_facts ha (hlen s hmem) hpos hposlt
  obtain ⟨A', a1, a2, a3, a4⟩ := h.ok hst hs hp hy
  -- positions after the visited set got position `q`
  have keep : ∀ q, (p + 1 = s.length → q = p) → ∀ r ∈ A, ∀ j, j < k → ∀ s' : List Nat, sets[j]? = some s' →
      s'[s'.length - 1]? = some r → (st.positions.set st.i q)[j]? = some (s'.length - 1) := by
    intro q hq r hr j hj s' hs' hl
    have := hI.done r hr j hj s' hs' hl
    by_cases e : j = st.i
    · subst e
      rw [hs] at hs'; injection hs' with hs'; subst hs'
      rw [hp] at this; injection this with this
      rw [List.getElem?_set_self hi, hq (by omega), this]
    · rw [List.getElem?_set_ne (Ne.symm e)]; exact this
  have outEq : ∀ B : List Nat, out0 ++ B = out0 ++ A' → B = A' := fun B h => List.append_cancel_left h
  cases h with
  | found hye hk =>
    have e := outEq A (by rw [← hst.out]; exact a2)
    subst e
    refine ⟨A, a1, a2, a3, hI.inc, fun st' e => ⟨a4 st' e, ?_⟩⟩
    injection e with e; subst e
    exact ⟨hI.inc, hI.lt, keep pos f1⟩
  | reportEnd hye hk hl =>
    have e := outEq (A ++ [st.e]) (by rw [← List.append_assoc, ← hst.out]; exact a2)
    subst e
    exact ⟨_, a1, a2, a3, pairwise_append_singleton hI.inc hI.lt, fun st' e => by simp at e⟩
  | report e' hye hk he' =>
    have e := outEq (A ++ [st.e]) (by rw [← List.append_assoc, ← hst.out]; exact a2)
    subst e
    refine ⟨_, a1, a2, a3, pairwise_append_singleton hI.inc hI.lt, fun st' e => ⟨a4 st' e, ?_⟩⟩
    injection e with e; subst e
    obtain ⟨hl, he''⟩ := List.getElem?_eq_some_iff.mp he'
    have hlt := inc_lt ha (i := pos) (j := pos + 1) hl (by omega)
    refine ⟨pairwise_append_singleton hI.inc hI.lt, fun r hr => ?_, fun r hr j hj s' hs' hl' => ?_⟩
    · rcases List.mem_append.mp hr with hr | hr
      · have := hI.lt r hr; simp only; omega
      · rw [List.mem_singleton] at hr; simp only; omega
    · simp only [List.set_set]
      rcases List.mem_append.mp hr with hr | hr
      · refine keep (pos + 1) (fun h => ?_) r hr j hj s' hs' hl'
        have := f1 h; omega
      · rw [List.mem_singleton] at hr
        subst hr
        by_cases e : j = st.i
        · subst e
          rw [hs] at hs'; injection hs' with hs'; subst hs'
          have := pos_unique ha hl' (by rw [hy, hye] : s[pos]? = some st.e)
          omega
        · rw [List.getElem?_set_ne (Ne.symm e)]
          obtain ⟨m, hm, rfl⟩ := before_all hst.i_lt hj e
          obtain ⟨s2, p2, q1, q2, q3⟩ := hst.seen m (by omega)
          rw [q1] at hs'; injection hs' with hs'; subst hs'
          rw [q2, pos_unique (hinc _ (List.mem_of_getElem? q1)) q3 hl']
  | missEnd hye hl =>
    have e := outEq A (by rw [← hst.out]; exact a2)
    subst e
    exact ⟨A, a1, a2, a3, hI.inc, fun st' e => by simp at e⟩
  | miss hye hl =>
    have e := outEq A (by rw [← hst.out]; exact a2)
    subst e
    refine ⟨A, a1, a2, a3, hI.inc, fun st' e => ⟨a4 st' e, ?_⟩⟩
    injection e with e; subst e
    refine ⟨hI.inc, fun r hr => ?_, keep pos f1⟩
    simp only
    rcases f2 (by rw [hyv]; exact hye) with h | h
    · have := hI.lt r hr; omega
    · obtain ⟨s2, q1, q2⟩ := a3 r hr st.i hst.i_lt
      rw [hs] at q1; injection q1 with q1; subst q1
      obtain ⟨j, hj, ej⟩ := List.getElem_of_mem q2
      have hle := inc_le ha (i := j) (j := pos) hposlt (by omega)
      rcases Nat.lt_or_eq_of_le hle with hlt | heq
      · omega
      · exfalso
        have hd := hI.done r hr st.i hst.i_lt s hs (by
          rw [show s.length - 1 = pos by omega, List.getElem?_eq_getElem hposlt, ← ej, heq])
        rw [hp] at hd; injection hd with hd
        omega

theorem bkLoop_inc {inner : Nat} {sets : List (List Nat)} {k : Nat} {out0 : List Nat}
    (hinc : ∀ s ∈ sets, s.Pairwise (· < ·)) (hlen : ∀ s ∈ sets, s.length < 2 ^ 31) :
    ∀ (fuel : Nat) (st : BKState) (A r : List Nat), st.Ok sets k out0 A → st.Inc sets k A →
      bkLoop inner sets k fuel st = .ok r →
      ∃ A', r = out0 ++ A' ∧ (∀ x ∈ A', Common sets k x) ∧ A'.Pairwise (· < ·) := by
  intro fuel
  induction fuel with
  | zero =>
    intro st A r hst hI h
    rw [bkLoop] at h
    obtain ⟨_, _, h⟩ := bind_ok h
    split at h
    · simp at h
    · injection h with h; subst h; exact ⟨A, hst.out, hst.common, hI.inc⟩
  | succ fuel ih =>
    intro st A r hst hI h
    rw [bkLoop] at h
    obtain ⟨_, _, h⟩ := bind_ok h
    split at h
    · obtain ⟨⟨o, n⟩, h1, h⟩ := bind_ok h
      obtain ⟨s, p, pos, y, e1, e2, e3, e4, e5⟩ :=
        bkStep_cases hst.occr_lt (fun s hs => Nat.lt_trans (hlen s hs) (by decide)) h1
      obtain ⟨A', _, a2, a3, a4, a5⟩ := e5.inc hst hI hinc hlen e1 e2 e3 e4
      cases n with
      | none =>
        simp only at h
        injection h with h; subst h
        exact ⟨A', a2, a3, a4⟩
      | some st' => exact ih st' A' r (a5 st' rfl).1 (a5 st' rfl).2 h
    · injection h with h; subst h; exact ⟨A, hst.out, hst.common, hI.inc⟩

/-! ## Completeness -/

/-- The inputs on which the algorithm is complete: increasing vectors with the same last element `M`. -/
structure SameLast (sets : List (List Nat)) (M : Nat) : Prop where
  inc : ∀ s ∈ sets, s.Pairwise (· < ·)
  len : ∀ s ∈ sets, s.length < 2 ^ 31
  last : ∀ s ∈ sets, s[s.length - 1]? = some M

/-- The part of the invariant about completeness. -/
structure BKState.Full (sets : List (List Nat)) (k M : Nat) (A : List Nat) (st : BKState) : Prop where
  le : st.e ≤ M
  pos : ∀ j, j < k → ∃ s p v, sets[j]? = some s ∧ st.positions[j]? = some p ∧ s[p]? = some v ∧ v ≤ st.e
  all : ∀ x, Common sets k x → x < st.e → x ∈ A

theorem bkStep_total {inner : Nat} {sets : List (List Nat)} {k : Nat} {st : BKState} {s : List Nat} {p pos : Nat}
    (hs : sets[st.i]? = some s) (hp : st.positions[st.i]? = some p)
    (hpos : exponentialSearch inner s s.length st.e p = .ok pos) (hlt : pos < s.length) (hL : s.length < 2 ^ 31)
    (hocc : st.occr < k) : ∃ r, bkStep inner sets k st = .ok r := by
  have hi := lt_of_getElem?_some hp
  have hm : (s.length + (2 ^ 64 - 1)) % 2 ^ 64 = s.length - 1 := by omega
  rw [bkStep, vGet, hs]
  simp only [R_bind_ok]
  rw [vGet, hp]
  simp only [R_bind_ok]
  rw [hpos, R_bind_ok, vGet_of_lt hlt, R_bind_ok, hm]
  by_cases hye : s[pos] = st.e
  · simp only [hye, if_true, true_and, ne_eq, not_true, or_false]
    by_cases hk : st.occr + 1 = k
    · simp only [hk, if_true]
      rw [vGet_of_lt (by simpa using hi), R_bind_ok, List.getElem_set_self]
      by_cases he : pos = s.length - 1
      · rw [if_pos he]; exact ⟨_, rfl⟩
      · rw [if_neg he, Nat.mod_eq_of_lt (show pos + 1 < 2 ^ 64 by omega), vGet_of_lt (show pos + 1 < s.length by omega)]
        exact ⟨_, rfl⟩
    · simp only [hk, if_false]
      exact ⟨_, rfl⟩
  · have hk : st.occr ≠ k := by omega
    simp only [hye, if_false, false_and, ne_eq, not_false_eq_true, or_true, if_true, hk]
    rw [vGet, hp]
    simp only [R_bind_ok]
    by_cases he : p = s.length - 1
    · rw [if_pos he]; exact ⟨_, rfl⟩
    · rw [if_neg he]; exact ⟨_, rfl⟩

theorem Common.get {sets : List (List Nat)} {k x j : Nat} {s : List Nat} (h : Common sets k x) (hj : j < k)
    (hs : sets[j]? = some s) : x ∈ s := by
  obtain ⟨s', h1, h2⟩ := h j hj
  rw [hs] at h1; injection h1 with h1; subst h1; exact h2

theorem bkLoop_full {inner : Nat} {sets : List (List Nat)} {k M : Nat} {out0 : List Nat} (hS : SameLast sets M)
    (hM : M < 2 ^ 64 - 1) (hinner : ∀ s ∈ sets, s.length ≤ inner) :
    ∀ (fuel : Nat) (st : BKState) (A : List Nat), st.Ok sets k out0 A → st.Inc sets k A → st.Full sets k M A →
      (M - st.e) * k + (k - st.occr) ≤ fuel →
      ∃ A', bkLoop inner sets k fuel st = .ok (out0 ++ A') ∧ (∀ x, x ∈ A' ↔ Common sets k x) ∧ A'.Pairwise (· < ·) := by
  intro fuel
  induction fuel with
  | zero => intro st A hst _ _ hf; have := hst.occr_lt; omega
  | succ fuel ih =>
    intro st A hst hI hF hf
    have hik := hst.i_lt
    have hocc := hst.occr_lt
    obtain ⟨s, p, v, hs, hp, hv, hve⟩ := hF.pos st.i hik
    have hmem := List.mem_of_getElem? hs
    have ha := hS.inc s hmem
    have hL := hS.len s hmem
    obtain ⟨hlastlt, hlast⟩ := List.getElem?_eq_some_iff.mp (hS.last s hmem)
    obtain ⟨hplt, hpv⟩ := List.getElem?_eq_some_iff.mp hv
    have hle := hF.le
    rw [bkLoop, vGet, hs]
    simp only [R_bind_ok]
    rw [if_pos (by omega)]
    rcases exponentialSearch_spec ha hL (x := st.e) hplt (by omega) (by omega) inner with ⟨pos, hpos, hsucc⟩ | ⟨_, h⟩
    swap
    · have := hinner s hmem; omega
    obtain ⟨rr, hr⟩ := bkStep_total hs hp hpos hsucc.lt hL hocc
    obtain ⟨s', p', pos', y, e1, e2, e3, e4, e5⟩ :=
      bkStep_cases hocc (fun s hs => Nat.lt_trans (hS.len s hs) (by decide)) hr
    rw [hs] at e1; injection e1 with e1; subst e1
    rw [hp] at e2; injection e2 with e2; subst e2
    rw [hpos] at e3; injection e3 with e3; subst e3
    obtain ⟨A', a1, a2, a3, a4, a5⟩ := e5.inc hst hI hS.inc hS.len hs hp hpos e4
    obtain ⟨hposlt, hyv⟩ := List.getElem?_eq_some_iff.mp e4
    have hge := hsucc.ge
    have hyM : y ≤ M := by
      have := inc_le ha (i := pos) (j := s.length - 1) hlastlt (by omega)
      omega
    -- positions stay at or before a larger `e`
    have posKeep : ∀ q e' (v' : Nat), s[q]? = some v' → v' ≤ e' → st.e ≤ e' → ∀ j, j < k →
        ∃ s1 p1 v1, sets[j]? = some s1 ∧ (st.positions.set st.i q)[j]? = some p1 ∧ s1[p1]? = some v1 ∧ v1 ≤ e' := by
      intro q e' v' h1 h2 h3 j hj
      by_cases e : j = st.i
      · subst e
        exact ⟨s, q, v', hs, by rw [List.getElem?_set_self (lt_of_getElem?_some hp)], h1, h2⟩
      · obtain ⟨s1, p1, v1, b1, b2, b3, b4⟩ := hF.pos j hj
        exact ⟨s1, p1, v1, b1, by rw [List.getElem?_set_ne (Ne.symm e)]; exact b2, b3, by omega⟩
    have fin : ∀ B : List Nat, out0 ++ B = out0 ++ A' → B = A' := fun B h => List.append_cancel_left h
    rw [hr, R_bind_ok]
    cases e5 with
    | found hye hk =>
      have e := fin A (by rw [← hst.out]; exact a2)
      subst e
      obtain ⟨b1, b2⟩ := a5 _ rfl
      refine ih _ A b1 b2 ⟨hle, posKeep pos st.e y e4 (by omega) (Nat.le_refl _), hF.all⟩ ?_
      simp only; omega
    | reportEnd hye hk hl =>
      have e := fin (A ++ [st.e]) (by rw [← List.append_assoc, ← hst.out]; exact a2)
      subst e
      refine ⟨A ++ [st.e], by simp only [hst.out, List.append_assoc], fun x => ⟨fun hx => a3 x hx, fun hx => ?_⟩, a4⟩
      have hx1 := hx.get hik hs
      obtain ⟨j, hj, ej⟩ := List.getElem_of_mem hx1
      have := inc_le ha (i := j) (j := pos) hposlt (by omega)
      rcases Nat.lt_or_eq_of_le (show x ≤ st.e by omega) with h | h
      · exact List.mem_append_left _ (hF.all x hx h)
      · exact List.mem_append_right _ (by rw [h]; exact List.mem_singleton_self _)
    | report e' hye hk he' =>
      have e := fin (A ++ [st.e]) (by rw [← List.append_assoc, ← hst.out]; exact a2)
      subst e
      obtain ⟨b1, b2⟩ := a5 _ rfl
      obtain ⟨hl, he''⟩ := List.getElem?_eq_some_iff.mp he'
      have hlt := inc_lt ha (i := pos) (j := pos + 1) hl (by omega)
      have hM' := inc_le ha (i := pos + 1) (j := s.length - 1) hlastlt (by omega)
      refine ih _ _ b1 b2 ⟨?_, ?_, fun x hx hxe => ?_⟩ ?_
      · simp only; omega
      · simp only [List.set_set]
        exact posKeep (pos + 1) e' e' he' (Nat.le_refl _) (by omega)
      · simp only at hxe
        rcases Nat.lt_trichotomy x st.e with h | h | h
        · exact List.mem_append_left _ (hF.all x hx h)
        · exact List.mem_append_right _ (by rw [h]; exact List.mem_singleton_self _)
        · exfalso
          obtain ⟨j, hj, ej⟩ := List.getElem_of_mem (hx.get hik hs)
          by_cases c : j ≤ pos
          · have := inc_le ha (i := j) (j := pos) hposlt c; omega
          · have := inc_le ha (i := pos + 1) (j := j) hj (by omega); omega
      · simp only
        have : (M - e') * k + k ≤ (M - st.e) * k := by
          rw [← Nat.succ_mul]; exact Nat.mul_le_mul_right _ (by omega)
        omega
    | missEnd hye hl =>
      exfalso
      have e : s.length - 1 = p := by omega
      have e2 : s[s.length - 1] = s[p] := by simp only [e]
      have hge' : ¬ pos < p := fun h => by have := inc_lt ha (i := pos) (j := p) hplt h; omega
      have : pos = p := by omega
      subst this
      omega
    | miss hye hl =>
      have e := fin A (by rw [← hst.out]; exact a2)
      subst e
      obtain ⟨b1, b2⟩ := a5 _ rfl
      refine ih _ A b1 b2 ⟨hyM, posKeep pos y y e4 (Nat.le_refl _) (by omega), fun x hx hxe => ?_⟩ ?_
      · simp only at hxe
        by_cases h : x < st.e
        · exact hF.all x hx h
        · exfalso
          obtain ⟨j, hj, ej⟩ := List.getElem_of_mem (hx.get hik hs)
          by_cases c : j < pos
          · have := hsucc.first j c; omega
          · have := inc_le ha (i := pos) (j := j) hj (by omega); omega
      · simp only
        have : (M - y) * k + k ≤ (M - st.e) * k := by
          rw [← Nat.succ_mul]; exact Nat.mul_le_mul_right _ (by omega)
        omega

/-- The loop starts with the invariants. -/
theorem bk_start {sets : List (List Nat)} {k e : Nat} {s : List Nat} {out0 : List Nat} (hk : 2 ≤ k) (hs : sets[0]? = some s)
    (he : s[0]? = some e) :
    (BKState.mk (List.replicate k 0) e 1 1 out0).Ok sets k out0 [] ∧
    (BKState.mk (List.replicate k 0) e 1 1 out0).Inc sets k [] := by
  refine ⟨⟨by simp only; omega, by simp, by simp only; omega, fun m hm => ?_, by simp, by simp⟩, List.Pairwise.nil, by simp, by simp⟩
  simp only at hm ⊢
  obtain rfl : m = 0 := by omega
  refine ⟨s, 0, ?_, ?_, he⟩
  · rw [before, show 1 + k - 1 - 0 = k by omega, Nat.mod_self]; exact hs
  · rw [before, show 1 + k - 1 - 0 = k by omega, Nat.mod_self, List.getElem?_replicate]; rw [if_pos (by omega)]

theorem common_iff {sets : List (List Nat)} {x : Nat} : Common sets sets.length x ↔ ∀ s ∈ sets, x ∈ s := by
  constructor
  · intro h s hs
    obtain ⟨j, hj, rfl⟩ := List.getElem_of_mem hs
    exact h.get hj (List.getElem?_eq_getElem hj)
  · intro h j hj
    exact ⟨sets[j], List.getElem?_eq_getElem hj, h _ (List.getElem_mem hj)⟩

end CBT
