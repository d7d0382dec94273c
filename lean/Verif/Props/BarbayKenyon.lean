import Verif.Proof.BarbayWalk
import Verif.Spec

/-!
# C24: the Barbay-Kenyon intersection
-/

namespace CBT

/-- C24 (partial), soundness. Whatever the vectors, sorted or not, if `barbayKenyon` returns at all then the previous contents
of the output stay in place and everything appended is an element of all sets. -/
theorem C24_sound_partial {sets : List (List Nat)} (hk : 2 ≤ sets.length) (hlen : ∀ s ∈ sets, s.length < 2 ^ 64)
    {inner fuel : Nat} {out0 r : List Nat} (h : barbayKenyon inner fuel sets sets.length out0 = .ok r) :
    ∃ A, r = out0 ++ A ∧ ∀ x ∈ A, ∀ s ∈ sets, x ∈ s := by
  unfold barbayKenyon at h
  obtain ⟨s, hs, h⟩ := bind_ok h
  obtain ⟨e, he, h⟩ := bind_ok h
  obtain ⟨A, h1, h2⟩ := bkLoop_sound hlen fuel _ [] r (bk_start hk (vGet_some hs) (vGet_some he)).1 h
  exact ⟨A, h1, fun x hx => common_iff.mp (h2 x hx)⟩

example : barbayKenyon 9 9 [[1, 2, 9], [2, 3, 9]] [[1, 2, 9], [2, 3, 9]].length [4] = .ok [4, 9] := by decide +kernel

/-- C24 (partial), order. On strictly increasing vectors nothing is appended twice or out of order. -/
theorem C24_increasing_partial {sets : List (List Nat)} (hk : 2 ≤ sets.length) (hinc : ∀ s ∈ sets, s.Pairwise (· < ·))
    (hlen : ∀ s ∈ sets, s.length < 2 ^ 31) {inner fuel : Nat} {out0 r : List Nat}
    (h : barbayKenyon inner fuel sets sets.length out0 = .ok r) :
    ∃ A, r = out0 ++ A ∧ A.Pairwise (· < ·) ∧ ∀ x ∈ A, ∀ s ∈ sets, x ∈ s := by
  unfold barbayKenyon at h
  obtain ⟨s, hs, h⟩ := bind_ok h
  obtain ⟨e, he, h⟩ := bind_ok h
  obtain ⟨o1, o2⟩ := bk_start (out0 := out0) hk (vGet_some hs) (vGet_some he)
  obtain ⟨A, h1, h2, h3⟩ := bkLoop_inc hinc hlen fuel _ [] r o1 o2 h
  exact ⟨A, h1, h3, fun x hx => common_iff.mp (h2 x hx)⟩

example : (∀ s ∈ [[1, 5, 7], [1, 2, 3]], s.Pairwise (· < ·)) ∧ barbayKenyon 9 9 [[1, 5, 7], [1, 2, 3]] 2 [] = .ok [1] := by
  decide +kernel

/-- C24 (partial), completeness. On two or more strictly increasing vectors that end in the same element, the first of which
starts no lower than the others, `barbayKenyon` returns and appends exactly the common elements. Missing: vectors with
different last elements or a first vector that starts lower; see the negations below. -/
theorem C24_complete_partial {sets : List (List Nat)} (hk : 2 ≤ sets.length) (hinc : ∀ s ∈ sets, s.Pairwise (· < ·))
    (hlen : ∀ s ∈ sets, s.length < 2 ^ 31) {M a : Nat} (hM : M < 2 ^ 64 - 1) (hlast : ∀ s ∈ sets, s.getLast? = some M)
    {s0 : List Nat} (hs0 : sets.head? = some s0) (ha : s0.head? = some a) (hfirst : ∀ s ∈ sets, ∀ b, s.head? = some b → b ≤ a)
    (out0 : List Nat) :
    ∃ A N, (∀ inner fuel, N ≤ inner → N ≤ fuel → barbayKenyon inner fuel sets sets.length out0 = .ok (out0 ++ A)) ∧
      Spec.IsIntersection sets A := by
  have hS : SameLast sets M := ⟨hinc, hlen, fun s hs => by rw [← List.getLast?_eq_getElem?]; exact hlast s hs⟩
  rw [List.head?_eq_getElem?] at hs0 ha
  obtain ⟨o1, o2⟩ := bk_start (out0 := out0) hk hs0 ha
  have hle : a ≤ M := by
    have h1 := hS.last s0 (List.mem_of_getElem? hs0)
    obtain ⟨h2, e2⟩ := List.getElem?_eq_some_iff.mp h1
    obtain ⟨h3, e3⟩ := List.getElem?_eq_some_iff.mp ha
    have := inc_le (hinc s0 (List.mem_of_getElem? hs0)) (i := 0) h2 (by omega)
    omega
  have hF : (BKState.mk (List.replicate sets.length 0) a 1 1 out0).Full sets sets.length M [] := by
    refine ⟨hle, fun j hj => ?_, fun x hx hxa => ?_⟩
    · have hm := List.getElem_mem hj
      obtain ⟨h2, _⟩ := List.getElem?_eq_some_iff.mp (hS.last _ hm)
      have h0 : 0 < sets[j].length := by omega
      refine ⟨sets[j], 0, sets[j][0], List.getElem?_eq_getElem hj, ?_, List.getElem?_eq_getElem h0, ?_⟩
      · simp only [List.getElem?_replicate]; rw [if_pos hj]
      · exact hfirst _ hm _ (by rw [List.head?_eq_getElem?, List.getElem?_eq_getElem h0])
    · exfalso
      simp only at hxa
      have hx' := hx.get (show 0 < sets.length by omega) hs0
      obtain ⟨j, hj, ej⟩ := List.getElem_of_mem hx'
      obtain ⟨h3, e3⟩ := List.getElem?_eq_some_iff.mp ha
      have := inc_le (hinc s0 (List.mem_of_getElem? hs0)) (i := 0) hj (by omega)
      omega
  have key : ∀ inner fuel, 2 ^ 31 ≤ inner → (M + 1) * sets.length ≤ fuel → ∃ A,
      barbayKenyon inner fuel sets sets.length out0 = .ok (out0 ++ A) ∧ (∀ x, x ∈ A ↔ Common sets sets.length x) ∧
        A.Pairwise (· < ·) := by
    intro inner fuel h1 h2
    have hb : (M - a) * sets.length + (sets.length - 1) ≤ fuel := by
      have : (M - a) * sets.length ≤ M * sets.length := Nat.mul_le_mul_right _ (by omega)
      have : (M + 1) * sets.length = M * sets.length + sets.length := Nat.succ_mul _ _
      omega
    obtain ⟨A, q1, q2, q3⟩ := bkLoop_full (inner := inner) hS hM (fun s hs => by have := hlen s hs; omega) fuel _ [] o1 o2 hF hb
    refine ⟨A, ?_, q2, q3⟩
    simp only [barbayKenyon, vGet, hs0, ha, R_bind_ok]
    exact q1
  obtain ⟨A, q1, q2, q3⟩ := key _ _ (Nat.le_refl _) (Nat.le_refl _)
  refine ⟨A, max (2 ^ 31) ((M + 1) * sets.length), fun inner fuel h1 h2 => ?_, q3, fun x => by rw [q2, common_iff]⟩
  obtain ⟨A', q1', q2', q3'⟩ := key inner fuel (by omega) (by omega)
  rw [q1']
  congr 2
  refine List.Perm.eq_of_pairwise (le := (· < ·)) (fun a b _ _ h h' => by omega) q3' q3 ?_
  exact (List.perm_ext_iff_of_nodup (q3'.imp fun h => Nat.ne_of_lt h) (q3.imp fun h => Nat.ne_of_lt h)).mpr
    fun x => by rw [q2', q2]

example : (∀ s ∈ [[2, 3, 6, 9], [0, 2, 3, 5, 6, 7, 9], [1, 2, 6, 9]], s.getLast? = some 9 ∧ s.head?.getD 3 ≤ 2) ∧
    barbayKenyon 9 40 [[2, 3, 6, 9], [0, 2, 3, 5, 6, 7, 9], [1, 2, 6, 9]] 3 [5] = .ok [5, 2, 6, 9] := by decide +kernel

/-- C24 (partial), exactly what is returned. On two or more strictly increasing vectors, whatever they start and end with: if
`barbayKenyon` returns, it has appended, in order, the common elements except those passed over in the first round. -/
theorem C24_returned_exact_partial {sets : List (List Nat)} (hk : 2 ≤ sets.length) (hinc : ∀ s ∈ sets, s.Pairwise (· < ·))
    (hlen : ∀ s ∈ sets, s.length < 2 ^ 31) (hN : ∀ s ∈ sets, ∀ x ∈ s, x < 2 ^ 64 - 1) {s0 : List Nat} {a : Nat}
    (hs0 : sets.head? = some s0) (ha : s0.head? = some a) {inner fuel : Nat} {out0 r : List Nat}
    (h : barbayKenyon inner fuel sets sets.length out0 = .ok r) :
    ∃ A, r = out0 ++ A ∧ A.Pairwise (· < ·) ∧ ∀ x, x ∈ A ↔ (∀ s ∈ sets, x ∈ s) ∧ x ∉ Spec.passedOver a sets.tail := by
  rw [List.head?_eq_getElem?] at hs0 ha
  obtain ⟨o1, o2⟩ := bk_start (out0 := out0) hk hs0 ha
  simp only [barbayKenyon, vGet, hs0, ha, R_bind_ok] at h
  have hR : (BKState.mk (List.replicate sets.length 0) a 1 1 out0).Ret sets sets.length [] (· < 1) [] := by
    refine ⟨fun x hx => by simp at hx, fun x hx => by simp at hx, Or.inr ⟨fun j hj => ?_, fun x hx hxa => ?_⟩⟩
    · obtain rfl : j = 0 := by omega
      exact ⟨s0, 0, a, hs0, by simp only [List.getElem?_replicate]; rw [if_pos (by omega)], ha, Nat.le_refl _⟩
    · exfalso
      simp only at hxa
      obtain ⟨j, hj, ej⟩ := List.getElem_of_mem (hx.get (show 0 < sets.length by omega) hs0)
      obtain ⟨h3, e3⟩ := List.getElem?_eq_some_iff.mp ha
      have := inc_le (hinc s0 (List.mem_of_getElem? hs0)) (i := 0) hj (by omega)
      omega
  have hF : (BKState.mk (List.replicate sets.length 0) a 1 1 out0).First sets.length 1 :=
    ⟨Nat.le_refl _, by omega, by rw [Nat.mod_eq_of_lt (by omega)], Nat.le_refl _, fun j _ hj => by
      simp only [List.getElem?_replicate]; rw [if_pos hj]⟩
  obtain ⟨A, h1, h2, h3⟩ := bkLoop_first hinc hlen hN _ fuel 1 _ [] [] r rfl o1 o2 hR hF h
  refine ⟨A, h1, h2, fun x => ?_⟩
  rw [h3, common_iff, List.drop_one]
  simp

example : (∀ s ∈ [[1, 3, 5, 9], [4, 5, 6, 7], [3, 4, 5]], s.Pairwise (· < ·)) ∧
    barbayKenyon 9 40 [[1, 3, 5, 9], [4, 5, 6, 7], [3, 4, 5]] 3 [8] = .ok [8, 5] ∧
    Spec.passedOver 1 [[4, 5, 6, 7], [3, 4, 5]] = [4] ∧ barbayKenyon 9 40 [[1, 4, 9], [4, 9, 10]] 2 [] = .ok [9] ∧
    Spec.passedOver 1 [[4, 9, 10]] = [4] := by decide +kernel

/-- C24 (partial), completeness on return. If moreover no vector starts above the first one's first element, what is appended
is exactly the intersection, whatever the vectors end with. Missing: that the function returns; see the next theorem. -/
theorem C24_returned_complete_partial {sets : List (List Nat)} (hk : 2 ≤ sets.length) (hinc : ∀ s ∈ sets, s.Pairwise (· < ·))
    (hlen : ∀ s ∈ sets, s.length < 2 ^ 31) (hN : ∀ s ∈ sets, ∀ x ∈ s, x < 2 ^ 64 - 1) {s0 : List Nat} {a : Nat}
    (hs0 : sets.head? = some s0) (ha : s0.head? = some a) (hfirst : ∀ s ∈ sets, ∀ b, s.head? = some b → b ≤ a)
    {inner fuel : Nat} {out0 r : List Nat} (h : barbayKenyon inner fuel sets sets.length out0 = .ok r) :
    ∃ A, r = out0 ++ A ∧ Spec.IsIntersection sets A := by
  obtain ⟨A, h1, h2, h3⟩ := C24_returned_exact_partial hk hinc hlen hN hs0 ha h
  refine ⟨A, h1, h2, fun x => ?_⟩
  rw [h3]
  refine ⟨fun h => h.1, fun h => ⟨h, fun hx => ?_⟩⟩
  have hm : ∀ s ∈ sets.tail, s ∈ sets := fun s hs => List.mem_of_mem_tail hs
  have h4 := passedOver_gt _ a (fun s hs => hinc s (hm s hs)) (fun s hs => h s (hm s hs)) hx
  obtain ⟨s, h5, h6⟩ := passedOver_head _ a hx
  have := hfirst s (hm s h5) x h6
  omega

example : (∀ s ∈ [[2, 3, 6, 9], [0, 2, 3, 5, 6, 7], [1, 2, 6, 11]], s.Pairwise (· < ·) ∧ s.head?.getD 3 ≤ 2) ∧
    barbayKenyon 9 40 [[2, 3, 6, 9], [0, 2, 3, 5, 6, 7], [1, 2, 6, 11]] 3 [5] = .ok [5, 2, 6] := by decide +kernel

/-- C24 (partial), termination. On two or more non-empty strictly increasing vectors the loops end: the function returns, or reads
past the end of a vector. -/
theorem C24_ends_partial {sets : List (List Nat)} (hk : 2 ≤ sets.length) (hne : ∀ s ∈ sets, s ≠ [])
    (hinc : ∀ s ∈ sets, s.Pairwise (· < ·)) (hlen : ∀ s ∈ sets, s.length < 2 ^ 31) (out0 : List Nat) :
    ∃ N, ∀ inner fuel, N ≤ inner → N ≤ fuel → barbayKenyon inner fuel sets sets.length out0 = .error .oob ∨
      ∃ r, barbayKenyon inner fuel sets sets.length out0 = .ok r := by
  refine ⟨2 ^ 31 + (bkLeft sets (List.replicate sets.length 0) * sets.length + sets.length), fun inner fuel h1 h2 => ?_⟩
  have h0 : 0 < sets.length := by omega
  have hs0 : sets[0]? = some sets[0] := List.getElem?_eq_getElem h0
  have hl0 : 0 < sets[0].length := List.length_pos_iff.mpr (hne _ (List.getElem_mem h0))
  have ha : sets[0][0]? = some sets[0][0] := List.getElem?_eq_getElem hl0
  obtain ⟨o1, _⟩ := bk_start (out0 := out0) hk hs0 ha
  have hin : BKIn sets sets.length (List.replicate sets.length 0) := fun j hj =>
    ⟨sets[j], 0, List.getElem?_eq_getElem hj, by simp only [List.getElem?_replicate]; rw [if_pos hj],
      List.length_pos_iff.mpr (hne _ (List.getElem_mem hj))⟩
  have := bkLoop_ends hinc hlen (inner := inner) (fun s hs => by have := hlen s hs; omega) fuel _ [] o1 hin (by simp only; omega)
  simp only [barbayKenyon, vGet, hs0, ha, R_bind_ok]
  exact this

example : (∀ s ∈ [[1, 9], [1, 3, 5]], s ≠ [] ∧ s.Pairwise (· < ·)) ∧ barbayKenyon 9 40 [[1, 9], [1, 3, 5]] 2 [] = .error .oob ∧
    barbayKenyon 9 40 [[1, 9], [1, 3]] 2 [] = .ok [1] := by decide +kernel

/-- C24 (partial), exactly. On two or more non-empty strictly increasing vectors the function does what `Spec.Walk` says, which goes
through the rests of the vectors and has nothing left of the positions and of the exponential and binary search: it returns with what is
reported there, or reads past the end of a vector if and where a vector is left there. -/
theorem C24_exact_partial {a : Nat} {s : List Nat} {rest : List (List Nat)} (hk : rest ≠ []) (hne : ∀ v ∈ rest, v ≠ [])
    (hinc : ∀ v ∈ (a :: s) :: rest, v.Pairwise (· < ·)) (hlen : ∀ v ∈ (a :: s) :: rest, v.length < 2 ^ 31)
    (hN : ∀ v ∈ (a :: s) :: rest, ∀ x ∈ v, x < 2 ^ 64 - 1) (out0 : List Nat) :
    ∃ o, Spec.Walk (rest ++ [a :: s]) a 1 o ∧ (∀ o', Spec.Walk (rest ++ [a :: s]) a 1 o' → o' = o) ∧
      ∃ N, ∀ inner fuel, N ≤ inner → N ≤ fuel → barbayKenyon inner fuel ((a :: s) :: rest) (rest.length + 1) out0 =
        match o with
        | none => .error .oob
        | some A => .ok (out0 ++ A) := by
  have hk' : 2 ≤ rest.length + 1 := by have := List.length_pos_iff.2 hk; omega
  obtain ⟨o1, _⟩ := bk_start (sets := (a :: s) :: rest) (k := rest.length + 1) (e := a) (s := a :: s) (out0 := out0) hk' rfl rfl
  have hin : BKIn ((a :: s) :: rest) (rest.length + 1) (List.replicate (rest.length + 1) 0) := fun j hj =>
    ⟨((a :: s) :: rest)[j], 0, List.getElem?_eq_getElem (by simpa using hj), by
      simp only [List.getElem?_replicate]; rw [if_pos hj], List.length_pos_iff.mpr (by
      rcases List.mem_cons.1 (List.getElem_mem (l := (a :: s) :: rest) (n := j) (by simpa using hj)) with h | h
      · rw [h]; simp
      · exact hne _ h)⟩
  have key := fun inner fuel (h1 : 2 ^ 31 ≤ inner) h2 => bkLoop_walk hinc hlen hN (inner := inner)
    (fun v hv => by have := hlen v hv; omega) fuel _ [] o1 hin h2
  have hq := bkQueue_start (a :: s) rest
  rw [Nat.mod_eq_of_lt (by omega)] at hq
  simp only [hq] at key
  obtain ⟨o, w, -⟩ := key _ _ (Nat.le_refl _) (Nat.le_refl _)
  refine ⟨o, w, fun o' w' => walk_det w' w, 2 ^ 31 + (bkLeft ((a :: s) :: rest) (List.replicate (rest.length + 1) 0) * (rest.length + 1) +
    (rest.length + 1 - 1)), fun inner fuel h1 h2 => ?_⟩
  obtain ⟨o', w', e⟩ := key inner fuel (by omega) (by omega)
  obtain rfl := walk_det w' w
  simp only [barbayKenyon, vGet, List.getElem?_cons_zero, R_bind_ok]
  rw [e]
  rfl

/-- The vectors `1 9` and `1 3 5` of `C24_oob_tail_negation`: 1 is reported; 3 is looked for in the first vector and 9 is found; 9 is looked
for in the second and 5 is found; 5 is looked for in the first, which is at 9 already. -/
example : Spec.Walk [[1, 3, 5], [1, 9]] 1 1 none ∧ barbayKenyon 9 40 [[1, 9], [1, 3, 5]] 2 [] = .error .oob :=
  ⟨.report (r := none) rfl rfl (.miss rfl (by decide) (.miss rfl (by decide) (.leaves rfl))), by decide +kernel⟩

/-- C24 (partial), completeness again. If the vector that ends first, with `M`, ends in an element of all vectors, and no vector starts above
the first, `barbayKenyon` returns and appends exactly the common elements. -/
theorem C24_common_last_partial {a : Nat} {s : List Nat} {rest : List (List Nat)} (hk : rest ≠ [])
    (hinc : ∀ v ∈ (a :: s) :: rest, v.Pairwise (· < ·)) (hlen : ∀ v ∈ (a :: s) :: rest, v.length < 2 ^ 31)
    (hN : ∀ v ∈ (a :: s) :: rest, ∀ x ∈ v, x < 2 ^ 64 - 1) {M : Nat} (hM : ∀ v ∈ (a :: s) :: rest, M ∈ v)
    (hlast : ∃ v ∈ (a :: s) :: rest, v.getLast? = some M) (hfirst : ∀ v ∈ rest, ∀ b, v.head? = some b → b ≤ a) (out0 : List Nat) :
    ∃ A N, (∀ inner fuel, N ≤ inner → N ≤ fuel → barbayKenyon inner fuel ((a :: s) :: rest) (rest.length + 1) out0 = .ok (out0 ++ A)) ∧
      Spec.IsIntersection ((a :: s) :: rest) A := by
  have hne : ∀ v ∈ rest, v ≠ [] := fun v hv h => by
    have := hM v (by simp [hv])
    rw [h] at this
    simp at this
  obtain ⟨o, w, -, N, h⟩ := C24_exact_partial hk hne hinc hlen hN out0
  have hmem : ∀ v, v ∈ rest ++ [a :: s] ↔ v ∈ (a :: s) :: rest := fun v => by
    rw [List.mem_append, List.mem_singleton, List.mem_cons, or_comm]
  have hU : WalkUp M (rest ++ [a :: s]) a 1 := by
    refine ⟨fun v hv => hinc v ((hmem v).1 hv), fun v hv b hb => ?_, fun v hv => hM v ((hmem v).1 hv), ?_, ?_, fun v hv => ?_⟩
    · rcases List.mem_append.1 hv with hv | hv
      · exact hfirst v hv b hb
      · rw [List.mem_singleton.1 hv] at hb; simp at hb; omega
    · rcases List.mem_cons.1 (hM (a :: s) (by simp)) with h | h
      · omega
      · exact Nat.le_of_lt ((List.pairwise_cons.1 (hinc (a :: s) (by simp))).1 M h)
    · obtain ⟨v, hv, hl⟩ := hlast
      exact ⟨v, (hmem v).2 hv, hl⟩
    · rw [List.length_append, List.length_singleton, Nat.add_sub_cancel, List.drop_left] at hv
      rw [List.mem_singleton.1 hv]; rfl
  cases o with
  | none => exact absurd rfl (walk_returns w (.inl hU))
  | some A =>
    refine ⟨A, N, h, ?_⟩
    have hk' : 2 ≤ ((a :: s) :: rest).length := by have := List.length_pos_iff.2 hk; rw [List.length_cons]; omega
    obtain ⟨A', h1, h2⟩ := C24_returned_complete_partial hk' hinc hlen hN rfl rfl (fun v hv b hb => by
      rcases List.mem_cons.1 hv with rfl | hv
      · simp at hb; omega
      · exact hfirst v hv b hb) (h N N (Nat.le_refl _) (Nat.le_refl _))
    rw [List.append_cancel_left h1]
    exact h2

example : (∀ v ∈ [[2, 3, 6, 9], [0, 2, 3, 5, 6], [1, 2, 6, 9, 11]], 6 ∈ v ∧ v.head?.getD 3 ≤ 2) ∧
    barbayKenyon 9 40 [[2, 3, 6, 9], [0, 2, 3, 5, 6], [1, 2, 6, 9, 11]] 3 [5] = .ok [5, 2, 6] := by decide +kernel

/-- C24 is false even of vectors that start with the same element: when the second one ends, with two elements to go, below the
last element of the first, the function goes back to the end of the second, then reads past the end of the first. -/
theorem C24_oob_tail_negation {a b c d : Nat} (hab : a < b) (hbc : b < c) (hcd : c < d) (hd : d < 2 ^ 64 - 1) (inner fuel : Nat)
    (out : List Nat) : barbayKenyon (inner + 2) (fuel + 5) [[a, d], [a, b, c]] 2 out = .error .oob := by
  have n1 : ¬ d = b := by omega
  have n4 : ¬ b = d := by omega
  have s1 : bkStep (inner + 2) [[a, d], [a, b, c]] 2 ⟨[0, 0], a, 1, 1, out⟩ = .ok (out ++ [a], some ⟨[0, 1], b, 0, 1, out ++ [a]⟩) := by
    simp [bkStep, vGet, R_bind_ok, exponentialSearch]
  have s2 : bkStep (inner + 2) [[a, d], [a, b, c]] 2 ⟨[0, 1], b, 0, 1, out ++ [a]⟩ =
      .ok (out ++ [a], some ⟨[1, 1], d, 1, 1, out ++ [a]⟩) := by
    have e : exponentialSearch (inner + 2) [a, d] 2 b 0 = .ok 1 := by
      rcases exponentialSearch_spec (a := [a, d]) (by simp; omega) (by simp) (x := b) (init := 0) (by simp) (by simp; omega)
        (by simp; omega) (inner + 2) with ⟨pos, h1, h2⟩ | ⟨_, h⟩
      · have h3 := h2.lt
        have h4 := h2.ge
        rcases pos with _ | _ | pos
        · simp at h4; omega
        · exact h1
        · simp at h3; omega
      · simp at h
    simp [bkStep, vGet, R_bind_ok, e, n1]
  have s3 : bkStep (inner + 2) [[a, d], [a, b, c]] 2 ⟨[1, 1], d, 1, 1, out ++ [a]⟩ =
      .ok (out ++ [a], some ⟨[1, 2], c, 0, 1, out ++ [a]⟩) := by
    simp [bkStep, vGet, R_bind_ok, exponentialSearch, n4, hcd, hcd.ne]
  have s4 : bkStep (inner + 2) [[a, d], [a, b, c]] 2 ⟨[1, 2], c, 0, 1, out ++ [a]⟩ = .error .oob := by
    simp [bkStep, vGet, R_bind_ok, exponentialSearch, hcd, hcd.ne']
  have h0 : ∀ j, j < 2 → ∃ s, vGet [[a, d], [a, b, c]] j = .ok s := fun j hj => ⟨_, vGet_of_lt (by simpa using hj)⟩
  obtain ⟨t0, h0'⟩ := h0 0 (by omega)
  obtain ⟨t1, h1'⟩ := h0 1 (by omega)
  simp only [barbayKenyon, vGet_of_lt (show 0 < [[a, d], [a, b, c]].length by simp), List.getElem_cons_zero, R_bind_ok,
    vGet_of_lt (show 0 < [a, d].length by simp), List.replicate]
  rw [bkLoop, h1', R_bind_ok, if_pos (by simp only; omega), s1, R_bind_ok]
  simp only
  rw [bkLoop, h0', R_bind_ok, if_pos (by simp only; omega), s2, R_bind_ok]
  simp only
  rw [bkLoop, h1', R_bind_ok, if_pos (by simp only; omega), s3, R_bind_ok]
  simp only
  rw [bkLoop, h0', R_bind_ok, if_pos (by simp only; omega), s4]
  rfl

example : (1 : Nat) < 3 ∧ barbayKenyon 2 5 [[1, 9], [1, 3, 5]] 2 [] = .error .oob := by decide +kernel

/-- C24 is false: the function returns, and a common element is missing, because the search skips the element it starts at when
that is larger than the one looked for. -/
theorem C24_missing_negation : ¬ ∀ (sets : List (List Nat)) (inner fuel : Nat) (r : List Nat), 2 ≤ sets.length →
    (∀ s ∈ sets, s ≠ [] ∧ s.Pairwise (· < ·)) → barbayKenyon inner fuel sets sets.length [] = .ok r →
    Spec.IsIntersection sets r := by
  intro h
  have := (h [[1, 2, 9], [2, 3, 9]] 9 9 [9] (by decide) (by decide) (by decide +kernel)).mem 2
  exact absurd (this.mpr (by decide)) (by decide)

/-- C24 is false: whenever the second vector is a single element larger than the first element of the first vector, the
function never returns a result; it reads past the end of the second vector. -/
theorem C24_oob_negation (a b : Nat) (as : List Nat) (rest : List (List Nat)) (hab : a < b) (hb : b < 2 ^ 64)
    (inner fuel : Nat) (out : List Nat) :
    barbayKenyon inner (fuel + 1) ((a :: as) :: [b] :: rest) (rest.length + 2) out = .error .oob := by
  simp only [barbayKenyon, vGet, List.getElem?_cons_zero, R_bind_ok]
  rw [bkLoop, vGet]
  simp only [List.getElem?_cons_succ, List.getElem?_cons_zero, R_bind_ok]
  rw [if_pos (by omega), bkStep]
  simp only [vGet, List.getElem?_cons_succ, List.getElem?_cons_zero, R_bind_ok, List.replicate_succ, exponentialSearch]
  rw [if_neg (by omega), if_pos hab]
  rfl

example : (1 : Nat) < 2 ∧ barbayKenyon 9 9 [[1], [2]] 2 [] = .error .oob := by decide +kernel

end CBT
