import Verif.Proof.BarbayReturned

/-! # The Barbay-Kenyon loop follows the abstract search -/

namespace CBT

open Spec

theorem dropWhile_succ {a : List Nat} {x pos : Nat} (h : Succ a x pos) : (n p : Nat) → p + n = pos →
    (a.drop p).dropWhile (fun y => decide (y < x)) = a.drop pos
  | 0, p, e => by
    obtain rfl : p = pos := by omega
    rw [List.drop_eq_getElem_cons h.lt, List.dropWhile_cons_of_neg]
    have := h.ge
    simpa using this
  | n + 1, p, e => by
    have hp := h.lt
    rw [List.drop_eq_getElem_cons (show p < a.length by omega), List.dropWhile_cons_of_pos (by simpa using h.first p (by omega))]
    exact dropWhile_succ h n (p + 1) (by omega)

/-- What `exponentialSearch` does on an increasing vector. -/
theorem search_seek {a : List Nat} (ha : a.Pairwise (· < ·)) (hn : a.length < 2 ^ 31) {inner x p : Nat} (hi : a.length ≤ inner)
    (hp : p < a.length) : ∃ pos, exponentialSearch inner a a.length x p = .ok pos ∧ pos ≤ a.length ∧ seek x (a.drop p) = a.drop pos := by
  have hd := List.drop_eq_getElem_cons hp
  by_cases c : x < a[p]
  · refine ⟨p + 1, ?_, by omega, ?_⟩
    · rw [exponentialSearch, vGet_of_lt hp, R_bind_ok, if_neg (by omega), if_pos c, Nat.mod_eq_of_lt (by omega)]
    · rw [hd, seek, if_pos c]
  · by_cases c' : x ≤ a[a.length - 1]
    · rcases exponentialSearch_spec ha hn (x := x) hp (by omega) c' inner with ⟨pos, hpos, hsucc⟩ | ⟨_, h⟩
      · have hle : p ≤ pos := by
          by_contra hlt
          have := inc_lt ha (i := pos) (j := p) hp (by omega)
          have := hsucc.ge
          omega
        have e := dropWhile_succ hsucc (pos - p) p (by omega)
        refine ⟨pos, hpos, Nat.le_of_lt hsucc.lt, ?_⟩
        rw [hd] at e ⊢
        rw [seek, if_neg c, e, if_neg]
        intro h
        have h1 := congrArg List.length h
        rw [List.length_drop, List.length_nil] at h1
        have := hsucc.lt
        omega
      · omega
    · refine ⟨a.length - 1, ?_, by omega, ?_⟩
      · have := inc_le ha (i := p) (j := a.length - 1) (by omega) (by omega)
        rw [exponentialSearch, vGet_of_lt hp, R_bind_ok, if_neg (by omega), if_neg (by omega),
          show (a.length + (2 ^ 64 - 1)) % 2 ^ 64 = a.length - 1 by omega,
          vGet_of_lt (show a.length - 1 < a.length by omega), R_bind_ok, if_pos (by omega)]
      · have e : (a.drop p).dropWhile (fun y => decide (y < x)) = [] := by
          rw [List.dropWhile_eq_nil_iff]
          intro y hy
          obtain ⟨j, hj, rfl⟩ := List.getElem_of_mem (List.mem_of_mem_drop hy)
          have := inc_le ha (i := j) (j := a.length - 1) (by omega) (by omega)
          simp only [decide_eq_true_eq]
          omega
        rw [hd] at e ⊢
        rw [seek, if_neg c, if_pos e, ← hd, List.drop_drop, List.length_drop]
        congr 1
        omega

/-- The rests of the vectors, the next one first. -/
def bkQueue (sets : List (List Nat)) (positions : List Nat) (k i : Nat) : List (List Nat) :=
  (List.range k).map fun j => (sets.getD ((i + j) % k) []).drop (positions.getD ((i + j) % k) 0)

theorem bkQueue_step {sets : List (List Nat)} {positions : List Nat} {k i p : Nat} {s : List Nat} (hi : i < k) (hs : sets[i]? = some s)
    (hp : positions[i]? = some p) :
    ∃ rest, rest.length + 1 = k ∧ bkQueue sets positions k i = s.drop p :: rest ∧
      ∀ q, bkQueue sets (positions.set i q) k ((i + 1) % k) = rest ++ [s.drop q] := by
  obtain ⟨k, rfl⟩ : ∃ k', k = k' + 1 := ⟨k - 1, by omega⟩
  refine ⟨(List.range k).map fun j => (sets.getD ((i + (j + 1)) % (k + 1)) []).drop (positions.getD ((i + (j + 1)) % (k + 1)) 0), by simp, ?_, ?_⟩
  · rw [bkQueue, List.range_succ_eq_map, List.map_cons, List.map_map, Nat.add_zero i, Nat.mod_eq_of_lt hi]
    simp only [List.getD_eq_getElem?_getD, hs, hp, Option.getD_some]
    rfl
  · intro q
    rw [bkQueue, List.range_succ, List.map_append, List.map_singleton]
    have hm : ∀ j, ((i + 1) % (k + 1) + j) % (k + 1) = (i + (j + 1)) % (k + 1) := by
      intro j
      rw [Nat.mod_add_mod]
      congr 1
      omega
    simp only [hm]
    congr 1
    · refine List.map_congr_left fun j hj => ?_
      have hj := List.mem_range.1 hj
      have hne : i ≠ (i + (j + 1)) % (k + 1) := by
        intro h
        by_cases c : i + (j + 1) < k + 1
        · rw [Nat.mod_eq_of_lt c] at h; omega
        · rw [Nat.mod_eq_sub_mod (by omega), Nat.mod_eq_of_lt (by omega)] at h; omega
      rw [List.getD_eq_getElem?_getD (l := positions.set i q), List.getElem?_set_ne hne, ← List.getD_eq_getElem?_getD]
    · rw [show (i + (k + 1)) % (k + 1) = i by rw [Nat.add_mod_right, Nat.mod_eq_of_lt hi]]
      simp only [List.getD_eq_getElem?_getD, hs, List.getElem?_set_self (lt_of_getElem?_some hp), Option.getD_some]

/-- What the function does if the abstract search has this outcome. -/
def bkOutcome (out : List Nat) : Option (List Nat) → R (List Nat)
  | none => .error .oob
  | some A => .ok (out ++ A)

theorem bkLoop_walk {inner : Nat} {sets : List (List Nat)} {k : Nat} {out0 : List Nat}
    (hinc : ∀ s ∈ sets, s.Pairwise (· < ·)) (hlen : ∀ s ∈ sets, s.length < 2 ^ 31) (hN : ∀ s ∈ sets, ∀ x ∈ s, x < 2 ^ 64 - 1)
    (hinner : ∀ s ∈ sets, s.length ≤ inner) :
    ∀ (fuel : Nat) (st : BKState) (A : List Nat), st.Ok sets k out0 A → BKIn sets k st.positions →
      bkLeft sets st.positions * k + (k - st.occr) ≤ fuel →
      ∃ o, Walk (bkQueue sets st.positions k st.i) st.e st.occr o ∧ bkLoop inner sets k fuel st = bkOutcome st.out o := by
  intro fuel
  induction fuel with
  | zero => intro st A hst _ hf; have := hst.occr_lt; omega
  | succ fuel ih =>
    intro st A hst hin hf
    have hik := hst.i_lt
    have hocc := hst.occr_lt
    obtain ⟨s, p, hs, hp, hplt⟩ := hin st.i hik
    have hi := lt_of_getElem?_some hp
    have hmem := List.mem_of_getElem? hs
    have ha := hinc s hmem
    have hL := hlen s hmem
    have heN : st.e ≠ 2 ^ 64 - 1 := by
      obtain ⟨s', p', h1, -, h2⟩ := hst.seen 0 (by have := hst.occr_pos; omega)
      have := hN s' (List.mem_of_getElem? h1) _ (List.mem_of_getElem? h2)
      omega
    rw [bkLoop, vGet, hs]
    simp only [R_bind_ok]
    rw [if_pos heN]
    obtain ⟨rest, hrl, hq, hq'⟩ := bkQueue_step hik hs hp
    rw [hq]
    obtain ⟨pos, hpos, hposle, hseek⟩ := search_seek ha hL (x := st.e) (hinner s hmem) hplt
    by_cases hposlt : pos < s.length
    swap
    · have hpe : pos = s.length := by omega
      subst hpe
      refine ⟨none, .leaves (by rw [hseek, List.drop_length]), ?_⟩
      have : bkStep inner sets k st = .error .oob := by
        simp only [bkStep, vGet, hs, hp, R_bind_ok, hpos, List.getElem?_eq_none (Nat.le_refl s.length)]
        rfl
      rw [this]
      rfl
    obtain ⟨rr, hr⟩ := bkStep_total hs hp hpos hposlt hL hocc
    obtain ⟨s', p', pos', y, e1, e2, e3, e4, e5⟩ :=
      bkStep_cases hocc (fun s hs => Nat.lt_trans (hlen s hs) (by decide)) hr
    rw [hs] at e1; injection e1 with e1; subst e1
    rw [hp] at e2; injection e2 with e2; subst e2
    rw [hpos] at e3; injection e3 with e3; subst e3
    obtain ⟨A', a1, a2, a3, a4⟩ := e5.ok hst hs hp e4
    obtain ⟨_, hle, f1, f2, f3⟩ := search_result ha hL hpos hposlt
    obtain ⟨_, hyv⟩ := List.getElem?_eq_some_iff.mp e4
    have hdp : s.drop pos = y :: s.drop (pos + 1) := by rw [List.drop_eq_getElem_cons hposlt, hyv]
    rw [hdp] at hseek
    rw [hr, R_bind_ok]
    have dec : ∀ q, p < q → q < s.length → (bkLeft sets (st.positions.set st.i q) + 1) * k ≤ bkLeft sets st.positions * k := by
      intro q h1 h2
      have := bkLeft_set (q := q) hs hp
      exact Nat.mul_le_mul_right _ (by omega)
    cases e5 with
    | found hye hk =>
      obtain ⟨o, w, e⟩ := ih _ _ (a4 _ rfl) (hin.set hs hi hposlt) (by
        have := bkLeft_set (q := pos) hs hp
        have : bkLeft sets (st.positions.set st.i pos) * k ≤ bkLeft sets st.positions * k := Nat.mul_le_mul_right _ (by omega)
        simp only
        omega)
      simp only [hq', hdp] at w
      subst hye
      exact ⟨o, .found hseek (by omega) w, e⟩
    | reportEnd hye hk hl =>
      subst hye
      refine ⟨some [st.e], .reportLast (by rw [hseek, hl, List.drop_length]) (by omega), rfl⟩
    | report e' hye hk he' =>
      have hq := lt_of_getElem?_some he'
      obtain ⟨o, w, e⟩ := ih _ _ (a4 _ rfl) (by simp only [List.set_set]; exact hin.set hs hi hq) (by
        have := dec (pos + 1) (by omega) hq
        rw [Nat.succ_mul] at this
        simp only [List.set_set]
        omega)
      obtain ⟨h3, e3⟩ := List.getElem?_eq_some_iff.mp he'
      have hdq : s.drop (pos + 1) = e' :: s.drop (pos + 2) := by rw [List.drop_eq_getElem_cons h3, e3]
      simp only [List.set_set, hq', hdq] at w
      subst hye
      rw [hdq] at hseek
      refine ⟨_, .report hseek (by omega) w, ?_⟩
      simp only
      rw [e]
      cases o with
      | none => rfl
      | some B => simp [bkOutcome]
    | missEnd hye hl =>
      have : s.drop p = [s[p]] := by
        rw [List.drop_eq_getElem_cons hplt, hl, List.drop_length]
      rw [this] at hseek ⊢
      exact ⟨some [], .missLast hseek hye, by simp [bkOutcome]⟩
    | miss hye hl =>
      have hne : p < pos := by
        rcases Nat.lt_or_eq_of_le hle with h | h
        · exact h
        · exfalso
          subst h
          by_cases c : st.e < s[p]
          · have := f1 c; omega
          · by_cases c' : st.e ≤ s[s.length - 1]
            · have := (f2 (by omega) c').ge; omega
            · have := f3 (by omega) (by omega); omega
      obtain ⟨o, w, e⟩ := ih _ _ (a4 _ rfl) (hin.set hs hi hposlt) (by
        have := dec pos hne hposlt
        rw [Nat.succ_mul] at this
        simp only
        omega)
      simp only [hq', hdp] at w
      have : s.drop p = s[p] :: s[p + 1] :: s.drop (p + 2) := by
        rw [List.drop_eq_getElem_cons hplt, List.drop_eq_getElem_cons (show p + 1 < s.length by omega)]
      rw [this] at hseek ⊢
      exact ⟨o, .miss hseek hye w, e⟩

theorem walk_det {vs : List (List Nat)} {e occr : Nat} {o o' : Option (List Nat)} (h : Walk vs e occr o) (h' : Walk vs e occr o') : o = o' := by
  induction h generalizing o' with
  | leaves h => cases h' <;> simp_all
  | found h h1 _ ih =>
    cases h' <;> simp_all
    exact ih ‹_›
  | reportLast h h1 => cases h' <;> simp_all
  | report h h1 _ ih =>
    cases h' <;> simp_all
    congr 1
    exact ih (by assumption)
  | missLast h h1 => cases h' <;> simp_all
  | miss h h1 _ ih =>
    cases h' <;> simp_all
    exact ih ‹_›

theorem bkQueue_start (s : List Nat) (rest : List (List Nat)) :
    bkQueue (s :: rest) (List.replicate (rest.length + 1) 0) (rest.length + 1) (1 % (rest.length + 1)) = rest ++ [s] := by
  obtain ⟨rest', h1, h2, h3⟩ := bkQueue_step (sets := s :: rest) (positions := List.replicate (rest.length + 1) 0) (k := rest.length + 1) (i := 0)
    (p := 0) (s := s) (by omega) (by simp) (by simp)
  have h4 : bkQueue (s :: rest) (List.replicate (rest.length + 1) 0) (rest.length + 1) 0 = s :: rest := by
    refine List.ext_getElem (by simp [bkQueue]) fun j h h' => ?_
    rw [List.length_cons] at h'
    simp only [bkQueue, List.getElem_map, List.getElem_range, Nat.zero_add, Nat.mod_eq_of_lt h', List.getD_eq_getElem?_getD,
      List.getElem?_replicate, if_pos h', Option.getD_some, List.drop_zero]
    rw [List.getElem?_eq_getElem (by simpa using h'), Option.getD_some]
  have h5 := h3 0
  rw [h2] at h4
  injection h4 with h4 h6
  rw [h6] at h5
  rw [Nat.zero_add] at h5
  have h7 : (List.replicate (rest.length + 1) 0).set 0 0 = List.replicate (rest.length + 1) 0 := by simp [List.replicate_succ]
  rw [h7] at h5
  simpa using h5

/-! ## When the search stays inside the vectors -/

theorem seek_spec {e M : Nat} {v : List Nat} (hv : v.Pairwise (· < ·)) (hh : ∀ a, v.head? = some a → a ≤ e) (hM : M ∈ v) (he : e ≤ M) :
    ∃ y t, seek e v = y :: t ∧ e ≤ y ∧ y ≤ M ∧ M ∈ y :: t ∧ (y :: t) <:+ v := by
  cases v with
  | nil => simp at hM
  | cons a s =>
    have ha := hh a rfl
    have key : ∀ l : List Nat, l.Pairwise (· < ·) → M ∈ l → ∃ y t, l.dropWhile (fun y => decide (y < e)) = y :: t ∧ e ≤ y ∧ y ≤ M ∧
        M ∈ y :: t ∧ (y :: t) <:+ l := by
      intro l hl hm
      induction l with
      | nil => simp at hm
      | cons b l ih =>
        rw [List.pairwise_cons] at hl
        by_cases hb : b < e
        · rw [List.dropWhile_cons_of_pos (by simpa using hb)]
          obtain ⟨y, t, h1, h2, h3, h4, h5⟩ := ih hl.2 ((List.mem_cons.1 hm).resolve_left (by omega))
          exact ⟨y, t, h1, h2, h3, h4, h5.trans (List.suffix_cons _ _)⟩
        · rw [List.dropWhile_cons_of_neg (by simpa using hb)]
          refine ⟨b, l, rfl, by omega, ?_, hm, List.suffix_refl _⟩
          rcases List.mem_cons.1 hm with h | h
          · omega
          · have := hl.1 M h; omega
    obtain ⟨y, t, h1, h2, h3, h4, h5⟩ := key (a :: s) hv hM
    refine ⟨y, t, ?_, h2, h3, h4, h5⟩
    rw [seek, if_neg (by omega), h1, if_neg (by simp)]

theorem dropWhile_ge {e y : Nat} {t : List Nat} : (l : List Nat) → l.dropWhile (fun y => decide (y < e)) = y :: t → e ≤ y
  | [], h => by simp at h
  | b :: l, h => by
    by_cases hb : b < e
    · rw [List.dropWhile_cons_of_pos (by simpa using hb)] at h
      exact dropWhile_ge l h
    · rw [List.dropWhile_cons_of_neg (by simpa using hb)] at h
      injection h with h
      omega

theorem seek_single {e M : Nat} (h : M < e) : seek e [M] = [M] := by
  rw [seek, if_neg (by omega), if_pos (by rw [List.dropWhile_cons_of_pos (by simpa using h), List.dropWhile_nil])]
  rfl

/-- Above the first element the search does not leave the vector, and goes on unless that is the only one. -/
theorem seek_above {e a : Nat} {s : List Nat} (hv : (a :: s).Pairwise (· < ·)) (he : a < e) :
    ∃ y t, seek e (a :: s) = y :: t ∧ a ≤ y ∧ (s ≠ [] → a < y) := by
  rw [seek, if_neg (by omega)]
  split
  · next h =>
    have hl : s.length < (a :: s).length := by simp
    rw [List.drop_eq_getElem_cons hl]
    refine ⟨_, _, rfl, ?_, fun hs => ?_⟩
    · exact inc_le hv (i := 0) (j := s.length) hl (by omega)
    · exact inc_lt hv (i := 0) (j := s.length) hl (List.length_pos_iff.2 hs)
  · next h =>
    obtain ⟨y, t, h1⟩ := List.exists_cons_of_ne_nil h
    have h2 := dropWhile_ge _ h1
    exact ⟨y, t, h1, by omega, fun _ => by omega⟩

/-- Until the element `M` of all vectors that ends one of them is reported. -/
structure WalkUp (M : Nat) (vs : List (List Nat)) (e occr : Nat) : Prop where
  inc : ∀ v ∈ vs, v.Pairwise (· < ·)
  head : ∀ v ∈ vs, ∀ a, v.head? = some a → a ≤ e
  mem : ∀ v ∈ vs, M ∈ v
  le : e ≤ M
  last : ∃ v ∈ vs, v.getLast? = some M
  seen : ∀ v ∈ vs.drop (vs.length - occr), v.head? = some e

/-- From then on. -/
def WalkEnd (M : Nat) (vs : List (List Nat)) (e occr : Nat) : Prop :=
  ∃ vs1 vs2, vs = vs1 ++ [M] :: vs2 ∧ (∀ v ∈ vs1, v.Pairwise (· < ·) ∧ v.head? = some M) ∧ M < e ∧ occr ≤ vs2.length

theorem walk_returns {M : Nat} {vs : List (List Nat)} {e occr : Nat} {o : Option (List Nat)} (h : Walk vs e occr o)
    (hP : WalkUp M vs e occr ∨ WalkEnd M vs e occr) : o ≠ none := by
  induction h with
  | @leaves s vs e occr h =>
    exfalso
    rcases hP with hP | ⟨vs1, vs2, h1, h2, h3, h4⟩
    · obtain ⟨y, t, h', _⟩ := seek_spec (hP.inc s (by simp)) (hP.head s (by simp)) (hP.mem s (by simp)) hP.le
      rw [h] at h'; simp at h'
    · cases vs1 with
      | nil =>
        injection h1 with h1; subst h1
        obtain ⟨y, t, h', _⟩ := seek_above (a := M) (s := []) (by simp) h3
        rw [h] at h'; simp at h'
      | cons v vs1 =>
        injection h1 with h1; subst h1
        obtain ⟨g1, g2⟩ := h2 s (by simp)
        cases s with
        | nil => simp at g2
        | cons a s =>
          simp at g2; subst g2
          obtain ⟨y, t, h', _⟩ := seek_above g1 h3
          rw [h] at h'; simp at h'
  | @found s vs e occr t r h h1 _ ih =>
    refine ih ?_
    rcases hP with hP | ⟨vs1, vs2, g1, g2, g3, g4⟩
    · left
      obtain ⟨y, t', h', h2, h3, h4, h5⟩ := seek_spec (hP.inc s (by simp)) (hP.head s (by simp)) (hP.mem s (by simp)) hP.le
      rw [h] at h'
      injection h' with h' h''
      subst h' h''
      refine ⟨fun v hv => ?_, fun v hv a ha => ?_, fun v hv => ?_, hP.le, ?_, fun v hv => ?_⟩
      · rcases List.mem_append.1 hv with hv | hv
        · exact hP.inc v (by simp [hv])
        · rw [List.mem_singleton.1 hv]; exact (hP.inc s (by simp)).sublist h5.sublist
      · rcases List.mem_append.1 hv with hv | hv
        · exact hP.head v (by simp [hv]) a ha
        · rw [List.mem_singleton.1 hv] at ha; simp at ha; omega
      · rcases List.mem_append.1 hv with hv | hv
        · exact hP.mem v (by simp [hv])
        · rw [List.mem_singleton.1 hv]; exact h4
      · obtain ⟨v, hv, hl⟩ := hP.last
        rcases List.mem_cons.1 hv with rfl | hv
        · exact ⟨e :: t, by simp, by obtain ⟨p, rfl⟩ := h5; simpa using hl⟩
        · exact ⟨v, by simp [hv], hl⟩
      · rw [List.length_append, List.length_singleton, List.drop_append_of_le_length (by omega)] at hv
        rcases List.mem_append.1 hv with hv | hv
        · refine hP.seen v ?_
          rw [List.length_cons, show vs.length + 1 - occr = (vs.length - occr) + 1 by omega, List.drop_succ_cons]
          rwa [show vs.length + 1 - (occr + 1) = vs.length - occr by omega] at hv
        · rw [List.mem_singleton.1 hv]; rfl
    · right
      cases vs1 with
      | nil =>
        exfalso
        injection g1 with g1; subst g1
        rw [seek_single g3] at h
        injection h with h
        omega
      | cons v vs1 =>
        injection g1 with g1 g1'; subst g1 g1'
        exact ⟨vs1, vs2 ++ [e :: t], by simp, fun v hv => g2 v (by simp [hv]), g3, by simp; omega⟩
  | reportLast h h1 => simp
  | @report s vs e occr e' t r h h1 _ ih =>
    suffices r ≠ none by cases r <;> simp_all
    refine ih ?_
    rcases hP with hP | ⟨vs1, vs2, g1, g2, g3, g4⟩
    · obtain ⟨y, t', h', h2, h3, h4, h5⟩ := seek_spec (hP.inc s (by simp)) (hP.head s (by simp)) (hP.mem s (by simp)) hP.le
      rw [h] at h'
      injection h' with h' h''
      subst h' h''
      have hinc := (hP.inc s (by simp)).sublist h5.sublist
      have hee : e < e' := by rw [List.pairwise_cons] at hinc; exact hinc.1 e' (by simp)
      have hseen : ∀ v ∈ vs, v.head? = some e := fun v hv => hP.seen v (by
        rw [h1, List.length_cons, show vs.length + 1 - vs.length = 1 by omega]
        simpa using hv)
      by_cases c : e = M
      · right
        obtain ⟨v, hv, hl⟩ := hP.last
        rcases List.mem_cons.1 hv with rfl | hv
        · exfalso
          obtain ⟨p, rfl⟩ := h5
          have hm : M ∈ e' :: t := by
            have : (e' :: t).getLast? = some M := by simpa using hl
            exact List.mem_of_getLast? this
          rw [List.pairwise_cons] at hinc
          have := hinc.1 M hm
          omega
        · obtain ⟨vs1, vs2, rfl⟩ := List.append_of_mem hv
          have hvM : v = [M] := by
            have g1 := hseen v (by simp)
            have g2 := hP.inc v (by simp)
            cases v with
            | nil => simp at g1
            | cons a l =>
              simp at g1
              cases l with
              | nil => rw [g1, c]
              | cons b l =>
                exfalso
                have : M ∈ b :: l := List.mem_of_getLast? (by simpa using hl)
                rw [List.pairwise_cons] at g2
                have := g2.1 M this
                omega
          subst hvM
          refine ⟨vs1, vs2 ++ [e' :: t], by simp, fun v hv => ⟨hP.inc v (by simp [hv]), ?_⟩, by omega, by simp⟩
          rw [hseen v (by simp [hv]), c]
      · left
        have hMt : M ∈ e' :: t := (List.mem_cons.1 h4).resolve_left (by omega)
        have hinc' := hinc.tail
        have he'M : e' ≤ M := by
          rcases List.mem_cons.1 hMt with h | h
          · omega
          · rw [List.tail_cons, List.pairwise_cons] at hinc'
            have := hinc'.1 M h
            omega
        refine ⟨fun v hv => ?_, fun v hv a ha => ?_, fun v hv => ?_, he'M, ?_, fun v hv => ?_⟩
        · rcases List.mem_append.1 hv with hv | hv
          · exact hP.inc v (by simp [hv])
          · rw [List.mem_singleton.1 hv]; exact hinc'
        · rcases List.mem_append.1 hv with hv | hv
          · have := hP.head v (by simp [hv]) a ha; omega
          · rw [List.mem_singleton.1 hv] at ha; simp at ha; omega
        · rcases List.mem_append.1 hv with hv | hv
          · exact hP.mem v (by simp [hv])
          · rw [List.mem_singleton.1 hv]; exact hMt
        · obtain ⟨v, hv, hl⟩ := hP.last
          rcases List.mem_cons.1 hv with rfl | hv
          · exact ⟨e' :: t, by simp, by obtain ⟨p, rfl⟩ := h5; simpa using hl⟩
          · exact ⟨v, by simp [hv], hl⟩
        · rw [List.length_append, List.length_singleton, Nat.add_sub_cancel, List.drop_left] at hv
          rw [List.mem_singleton.1 hv]; rfl
    · exfalso
      cases vs1 with
      | nil =>
        injection g1 with g1 g1'; subst g1 g1'
        rw [seek_single g3] at h
        simp at h
      | cons v vs1 =>
        injection g1 with g1 g1'; subst g1 g1'
        simp at h1
        omega
  | missLast h h1 => simp
  | @miss a b s vs e occr y t r h h1 _ ih =>
    refine ih ?_
    rcases hP with hP | ⟨vs1, vs2, g1, g2, g3, g4⟩
    · left
      obtain ⟨y', t', h', h2, h3, h4, h5⟩ := seek_spec (hP.inc (a :: b :: s) (by simp)) (hP.head (a :: b :: s) (by simp)) (hP.mem (a :: b :: s) (by simp)) hP.le
      rw [h] at h'
      injection h' with h' h''
      subst h' h''
      refine ⟨fun v hv => ?_, fun v hv a ha => ?_, fun v hv => ?_, h3, ?_, fun v hv => ?_⟩
      · rcases List.mem_append.1 hv with hv | hv
        · exact hP.inc v (by simp [hv])
        · rw [List.mem_singleton.1 hv]; exact (hP.inc (a :: b :: s) (by simp)).sublist h5.sublist
      · rcases List.mem_append.1 hv with hv | hv
        · have := hP.head v (by simp [hv]) a ha; omega
        · rw [List.mem_singleton.1 hv] at ha; simp at ha; omega
      · rcases List.mem_append.1 hv with hv | hv
        · exact hP.mem v (by simp [hv])
        · rw [List.mem_singleton.1 hv]; exact h4
      · obtain ⟨v, hv, hl⟩ := hP.last
        rcases List.mem_cons.1 hv with rfl | hv
        · refine ⟨y :: t, by simp, ?_⟩
          obtain ⟨p, hp⟩ := h5
          rw [← hp] at hl
          simpa using hl
        · exact ⟨v, by simp [hv], hl⟩
      · rw [List.length_append, List.length_singleton, Nat.add_sub_cancel, List.drop_left] at hv
        rw [List.mem_singleton.1 hv]; rfl
    · right
      cases vs1 with
      | nil => simp at g1
      | cons v vs1 =>
        injection g1 with g1 g1'; subst g1 g1'
        obtain ⟨g5, g6⟩ := g2 (a :: b :: s) (by simp)
        simp at g6
        subst g6
        obtain ⟨y', t', h', h2, h3⟩ := seek_above g5 g3
        rw [h] at h'
        injection h' with h' h''
        subst h' h''
        exact ⟨vs1, vs2 ++ [y :: t], by simp, fun v hv => g2 v (by simp [hv]), h3 (by simp), by simp⟩

end CBT
