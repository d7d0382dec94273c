import Verif.Props.TruncatedStats

/-!
# C83: collections cut short, in pom
-/

namespace CBT

open Spec

theorem pom_take (m : Nat) (coder : List Nat → Nat) (fuel : Nat) {one u : Nat} (h1 : one < 2 ^ 32) (hu : u < 2 ^ 32)
    (lists : List (List Nat)) (k : Nat) :
    pom m coder fuel ((collectionBytes one u lists).take (8 + k)) =
      statsLoop false m (pomStep coder) fuel ⟨(lists.flatMap listBytes).take k, false, false⟩ none none ⟨0, 0, 0, 0⟩ := by
  rw [pom, pomOn, take_collection (by omega), read4_ok (readLE_leBytes 4 _ _ (by omega))]
  dsimp only
  rw [read4_ok (readLE_leBytes 4 _ _ (by omega)), Nat.add_sub_cancel_left]

theorem prefixOf_any {x y : Nat} (hx : x < 2 ^ 64) (hy : y < 2 ^ 64) : ∃ p, prefixOf x y 64 = .ok p ∧ (x = 0 → p = 0) := by
  have h := C37_prefixOf x y hx hy
  rcases Nat.lt_trichotomy x y with hlt | rfl | hlt
  · obtain ⟨d, h1, h2, h3⟩ := highest_differing hlt
    exact ⟨_, h.2 d (by rw [h1, h2]; simp) fun j hj => (h3 j hj).symm, fun h0 => by rw [h0, Nat.zero_mod]⟩
  · exact ⟨x, h.1 rfl, id⟩
  · obtain ⟨d, h1, h2, h3⟩ := highest_differing hlt
    exact ⟨_, h.2 d (by rw [h1, h2]; simp) h3, fun h0 => by rw [h0, Nat.zero_mod]⟩

theorem pomList_cons (prev : Option Nat) (x : Nat) (xs : List Nat) : pomList prev (x :: xs) =
    ((match prev with | none => (.ok x : R Nat) | some y => prefixOf x y 64) >>= fun xp => gammaBits xp >>= fun b =>
      pomList (some x) xs >>= fun r => .ok (xp :: r.1, b + r.2)) := by
  cases prev <;> rfl

/-- `pom` on any list either has its sizes or converts minus infinity, and does that if 0 is in the list. -/
theorem pomList_any : (l : List Nat) → (∀ x ∈ l, x < 2 ^ 64) → (prev : Option Nat) → (∀ y ∈ prev, y < 2 ^ 64) →
    ((∃ r, pomList prev l = .ok r) ∧ 0 ∉ l) ∨ pomList prev l = .error .conv
  | [], _, _, _ => .inl ⟨⟨_, rfl⟩, by simp⟩
  | x :: l, hx, prev, hp => by
    have hx0 := hx x (by simp)
    obtain ⟨p, e, h0⟩ : ∃ p, (match prev with | none => (.ok x : R Nat) | some y => prefixOf x y 64) = .ok p ∧ (x = 0 → p = 0) := by
      cases prev with
      | none => exact ⟨x, rfl, id⟩
      | some y => exact prefixOf_any hx0 (hp y rfl)
    rw [pomList_cons, e, R_bind_ok]
    by_cases hp0 : p = 0
    · right; rw [gammaBits, if_pos hp0]; rfl
    · rw [gammaBits, if_neg hp0, R_bind_ok]
      rcases pomList_any l (fun z hz => hx z (List.mem_cons_of_mem _ hz)) (some x) (by rintro y ⟨⟩; exact hx0) with ⟨⟨r, hr⟩, hn⟩ | hr
      · left
        rw [hr, R_bind_ok]
        refine ⟨⟨_, rfl⟩, fun hm => ?_⟩
        rcases List.mem_cons.1 hm with h | h
        · exact hp0 (h0 h.symm)
        · exact hn h
      · right; rw [hr]; rfl

theorem pomFold_any {coder : List Nat → Nat} : (ls : List (List Nat)) → (∀ l ∈ ls, ∀ x ∈ l, x < 2 ^ 64) → (a : PomCounts) →
    ((∃ r, ls.foldlM (pomStep coder) a = .ok r) ∧ ∀ l ∈ ls, 0 ∉ l) ∨ ls.foldlM (pomStep coder) a = .error .conv
  | [], _, a => .inl ⟨⟨a, rfl⟩, by simp⟩
  | l :: ls, h, a => by
    rw [List.foldlM_cons, pomStep]
    rcases pomList_any l (h l (by simp)) none (by simp) with ⟨⟨⟨sp, b⟩, hr⟩, hn⟩ | hr
    · rw [hr, R_bind_ok]
      dsimp only
      rw [R_bind_ok]
      rcases pomFold_any ls (fun k hk => h k (List.mem_cons_of_mem _ hk)) _ with ⟨h1, h2⟩ | h1
      · exact .inl ⟨h1, by simpa [hn] using h2⟩
      · exact .inr h1
    · right; rw [hr]; rfl

theorem pomFold_counts {coder : List Nat → Nat} : (ls : List (List Nat)) → (e s b z : Nat) → (c : PomCounts) →
    ls.foldlM (pomStep coder) ⟨e % 2 ^ 64, s % 2 ^ 64, b, z⟩ = .ok c →
    c.nElements = (e + (ls.map List.length).sum) % 2 ^ 64 ∧ c.nSets = (s + ls.length) % 2 ^ 64
  | [], e, s, b, z, c, h => by
    cases Except.ok.inj h
    exact ⟨rfl, rfl⟩
  | l :: ls, e, s, b, z, c, h => by
    rw [List.foldlM_cons, pomStep] at h
    obtain ⟨a, ha, h⟩ := bind_ok h
    obtain ⟨⟨sp, bits⟩, -, ha⟩ := bind_ok ha
    cases Except.ok.inj ha
    have e1 : (e % 2 ^ 64 + l.length) % 2 ^ 64 = (e + l.length) % 2 ^ 64 := by omega
    have e2 : (s % 2 ^ 64 + 1) % 2 ^ 64 = (s + 1) % 2 ^ 64 := by omega
    dsimp only at h
    rw [e1, e2] at h
    obtain ⟨h1, h2⟩ := pomFold_counts ls _ _ _ _ c h
    rw [h1, h2, List.map_cons, List.sum_cons, List.length_cons, Nat.add_assoc, Nat.add_assoc, Nat.add_comm 1]
    exact ⟨rfl, rfl⟩

theorem pomList_copies {v : Nat} (hv : v ≠ 0) (n : Nat) : (xs : List Nat) → (prev : Option Nat) → xs.getLast?.or prev = some v →
    (sp : List Nat) → (b : Nat) → pomList prev xs = .ok (sp, b) →
    pomList prev (xs ++ List.replicate n v) = .ok (sp ++ List.replicate n v, b + n * (2 * Nat.log2 v + 1))
  | [], prev, hl, sp, b, h => by
    rw [List.getLast?_nil, Option.none_or] at hl
    obtain ⟨rfl, rfl⟩ := Prod.mk.inj (Except.ok.inj h)
    rw [hl, List.nil_append, Nat.zero_add]
    exact pomList_same v hv n
  | x :: xs, prev, hl, sp, b, h => by
    rw [List.cons_append]
    rw [pomList_cons] at h ⊢
    obtain ⟨p, e1, h⟩ := bind_ok h
    obtain ⟨q, e2, h⟩ := bind_ok h
    obtain ⟨⟨sp', b'⟩, e3, h⟩ := bind_ok h
    obtain ⟨rfl, rfl⟩ := Prod.mk.inj (Except.ok.inj h)
    rw [e1, R_bind_ok, e2, R_bind_ok, pomList_copies hv n xs (some x) (by
      rw [← hl]
      cases xs <;> simp [List.getLast?_cons]) sp' b' e3, R_bind_ok]
    dsimp only
    rw [List.cons_append, Nat.add_assoc]

theorem gamma_size {v : Nat} (hv0 : v ≠ 0) : 2 * Nat.log2 v + 1 = 2 * v.size - 1 := by
  have : v.size = Nat.log2 v + 1 := by
    apply Nat.le_antisymm
    · rw [Nat.size_le]; exact Nat.lt_log2_self
    · exact Nat.lt_size.mpr (Nat.log2_self_le hv0)
  omega

/-- What `pom` prints after sets without 0 and a list that starts with such a set and goes on with `n` copies of its last element. -/
theorem pomFold_copies {coder : List Nat → Nat} {ls : List (List Nat)} {xs : List Nat} {v n : Nat}
    (h : ∀ l ∈ ls, l.Pairwise (· < ·) ∧ (∀ x ∈ l, x < 2 ^ 64) ∧ 0 ∉ l)
    (hxs : xs.Pairwise (· < ·) ∧ (∀ x ∈ xs, x < 2 ^ 64) ∧ 0 ∉ xs) (hv : xs.getLast? = some v) :
    (ls ++ [xs ++ List.replicate n v]).foldlM (pomStep coder) ⟨0, 0, 0, 0⟩ =
      .ok { nElements := ((ls.map List.length).sum + (xs.length + n)) % 2 ^ 64
            nSets := (ls.length + 1) % 2 ^ 64
            sizeInBits := ((ls.map suffixCost).sum + (suffixCost xs + n * (2 * v.size - 1))) % 2 ^ 64
            size := ((ls.map fun k => coder (sortIds (suffixes k))).sum + coder (sortIds (suffixes xs ++ List.replicate n v))) % 2 ^ 64 } := by
  have hv0 : v ≠ 0 := fun h0 => hxs.2.2 (h0 ▸ List.mem_of_getLast? hv)
  have e3 := pomStep_fold coder ls h 0 0 0 0
  simp only [Nat.zero_add, Nat.zero_mod] at e3
  rw [List.foldlM_append, e3, R_bind_ok, List.foldlM_cons, pomStep,
    pomList_copies hv0 n xs none (by rw [hv]; rfl) _ _ (pomList_none hxs.1 hxs.2.1 hxs.2.2), R_bind_ok]
  dsimp only
  rw [R_bind_ok, List.foldlM_nil, gamma_size hv0, List.length_append, List.length_replicate]
  show Except.ok _ = Except.ok _
  congr 2 <;> omega

/-- C83 is false of `pom`: if the collection ends after `j` bytes of the elements of a kept list and `pom` prints numbers, then it has counted
this list with all its elements. Left out is only the case of `C83_pom_first`. -/
theorem C83_pom_negation {one u m : Nat} {ls rest : List (List Nat)} {l : List Nat} (h1 : one < 2 ^ 32) (hu : u < 2 ^ 32)
    (hl : ∀ k ∈ ls ++ [l], k.length < 2 ^ 30) (hx : ∀ k ∈ longer m ls, ∀ x ∈ k, x < 2 ^ 32) (hx' : ∀ x ∈ l, x < 2 ^ 32)
    (hm : m < l.length) {j : Nat} (hj : j < 4 * l.length) (hv : 4 ≤ j ∨ longer m ls ≠ []) (coder : List Nat → Nat) (fuel : Nat)
    (c : PomCounts)
    (h : pom m coder fuel ((collectionBytes one u (ls ++ l :: rest)).take (8 + ((ls.flatMap listBytes).length + 4 + j))) = .ok c) :
    c.nElements = (((longer m ls).map List.length).sum + l.length) % 2 ^ 64 ∧ c.nSets = ((longer m ls).length + 1) % 2 ^ 64 := by
  rw [pom_take _ _ _ h1 hu, take_done (by omega)] at h
  have h2 := statsLoop_mono _ _ _ _ _ h (2 + ls.length)
  rw [← Nat.add_assoc, statsLoop_torn hl hx hx' (by simp) hm hj hv] at h2
  obtain ⟨e1, e2⟩ := pomFold_counts _ 0 0 _ _ c h2
  simp only [Nat.zero_add, List.map_append, List.sum_append, List.length_append, List.map_cons, List.map_nil, List.sum_cons, List.sum_nil,
    List.length_cons, List.length_nil, Nat.add_zero] at e1 e2
  refine ⟨?_, e2⟩
  rw [e1, tornList, List.length_append, List.length_take, List.length_replicate]
  congr 2; omega

/-- C83, `pom` on such a collection of sets without 0: `v` is the number that it makes up, from bytes of two elements. If it is above the
complete elements, the list that it counts consists of these and of copies of `v`. -/
theorem C83_pom_torn {one u m : Nat} {ls rest : List (List Nat)} {l : List Nat} (h1 : one < 2 ^ 32) (hu : u < 2 ^ 32)
    (hl : ∀ k ∈ ls ++ [l], k.length < 2 ^ 30) (hx : ∀ k ∈ longer m ls, k.Pairwise (· < ·) ∧ (∀ x ∈ k, x < 2 ^ 32) ∧ 0 ∉ k)
    (hx' : ∀ x ∈ l, x < 2 ^ 32) (hm : m < l.length) {j : Nat} (hj : j < 4 * l.length) (hv : 4 ≤ j ∨ longer m ls ≠ [])
    {v : Nat} (hv' : v = tornValue j ((longer m ls).flatten.getLastD 0) l)
    (hp : (l.take (j / 4) ++ [v]).Pairwise (· < ·) ∧ (∀ x ∈ l.take (j / 4) ++ [v], x < 2 ^ 32) ∧ 0 ∉ l.take (j / 4) ++ [v])
    (coder : List Nat → Nat) (fuel : Nat) (hf : ls.length + 2 ≤ fuel) :
    ∃ sorted : List Nat → List Nat, (∀ k, (sorted k).Pairwise (· ≤ ·) ∧ (sorted k).Perm k) ∧
      pom m coder fuel ((collectionBytes one u (ls ++ l :: rest)).take (8 + ((ls.flatMap listBytes).length + 4 + j))) =
        .ok { nElements := (((longer m ls).map List.length).sum + l.length) % 2 ^ 64
              nSets := ((longer m ls).length + 1) % 2 ^ 64
              sizeInBits := (((longer m ls).map suffixCost).sum +
                (suffixCost (l.take (j / 4) ++ [v]) + (l.length - j / 4 - 1) * (2 * v.size - 1))) % 2 ^ 64
              size := (((longer m ls).map fun k => coder (sorted (suffixes k))).sum +
                coder (sorted (suffixes (l.take (j / 4) ++ [v]) ++ List.replicate (l.length - j / 4 - 1) v))) % 2 ^ 64 } := by
  refine ⟨sortIds, fun k => ⟨(sortIds_spec k).1, sortIds_perm k⟩, ?_⟩
  have e := statsLoop_torn (step := pomStep coder) (stop := false) hl (fun k hk => (hx k hk).2.1) hx' (by simp) hm hj hv
    (fuel - (ls.length + 2)) ⟨0, 0, 0, 0⟩
  have et : tornList j ((longer m ls).flatten.getLastD 0) l = l.take (j / 4) ++ [v] ++ List.replicate (l.length - j / 4 - 1) v := by
    rw [tornList, ← hv', List.append_assoc]
    congr 1
    rw [show l.length - j / 4 = (l.length - j / 4 - 1) + 1 by omega, List.replicate_succ]
    rfl
  have big : ∀ k : List Nat, (∀ x ∈ k, x < 2 ^ 32) → ∀ x ∈ k, x < 2 ^ 64 := fun k h x hk => by have := h x hk; omega
  rw [show fuel - (ls.length + 2) + 2 + ls.length = fuel by omega, et,
    pomFold_copies (fun k hk => ⟨(hx k hk).1, big k (hx k hk).2.1, (hx k hk).2.2⟩) ⟨hp.1, big _ hp.2.1, hp.2.2⟩ (v := v) (by simp)] at e
  rw [pom_take _ _ _ h1 hu, take_done (by omega), e, List.length_append, List.length_take]
  congr 4
  simp only [List.length_cons, List.length_nil]
  omega

/-- Of 300 there remains 44, which is put in place of 301 too. -/
example : tornValue 5 9 [7, 300, 301] = 44 ∧ ([7, 300, 301].take (5 / 4) ++ [44]).Pairwise (· < ·) ∧
    pom 1 List.sum 5 ((collectionBytes 1 512 ([[1, 9]] ++ [7, 300, 301] :: [[2, 3]])).take (8 + (([[1, 9]].flatMap listBytes).length + 4 + 5))) =
      .ok ⟨2 + 3, 2, (1 + 7) + (5 + 11 + 11), (1 + 9) + (7 + 44 + 44)⟩ := by decide +kernel

/-- C83 is false of `pom`: if the number that it makes up is 0, or 0 is in a list that it keeps, it converts minus infinity to an integer. -/
theorem C83_pom_zero {one u m : Nat} {ls rest : List (List Nat)} {l : List Nat} (h1 : one < 2 ^ 32) (hu : u < 2 ^ 32)
    (hl : ∀ k ∈ ls ++ [l], k.length < 2 ^ 30) (hx : ∀ k ∈ longer m ls, ∀ x ∈ k, x < 2 ^ 32) (hx' : ∀ x ∈ l, x < 2 ^ 32)
    (hm : m < l.length) {j : Nat} (hj : j < 4 * l.length) (hv : 4 ≤ j ∨ longer m ls ≠ [])
    (h0 : (∃ k ∈ longer m ls, 0 ∈ k) ∨ 0 ∈ l.take (j / 4) ∨ tornValue j ((longer m ls).flatten.getLastD 0) l = 0)
    (coder : List Nat → Nat) (fuel : Nat) (hf : ls.length + 2 ≤ fuel) :
    pom m coder fuel ((collectionBytes one u (ls ++ l :: rest)).take (8 + ((ls.flatMap listBytes).length + 4 + j))) = .error .conv := by
  have e := statsLoop_torn (step := pomStep coder) (stop := false) hl hx hx' (by simp) hm hj hv (fuel - (ls.length + 2)) ⟨0, 0, 0, 0⟩
  rw [show fuel - (ls.length + 2) + 2 + ls.length = fuel by omega] at e
  rw [pom_take _ _ _ h1 hu, take_done (by omega), e]
  have hlast : (longer m ls).flatten.getLastD 0 < 2 ^ 32 := by
    rw [List.getLastD_eq_getLast?]
    cases hg : (longer m ls).flatten.getLast? with
    | none => simp
    | some w =>
      obtain ⟨k, hk, hw⟩ := List.mem_flatten.1 (List.mem_of_getLast? hg)
      exact hx k hk w hw
  have hbefore : (l.take (j / 4)).getLastD ((longer m ls).flatten.getLastD 0) < 2 ^ 32 := by
    rw [List.getLastD_eq_getLast?]
    cases hg : (l.take (j / 4)).getLast? with
    | none => exact hlast
    | some w => exact hx' w (List.mem_of_mem_take (List.mem_of_getLast? hg))
  have hnext : l.getD (j / 4) 0 < 2 ^ 32 := by
    rw [List.getD_eq_getElem _ _ (by omega)]
    exact hx' _ (List.getElem_mem _)
  have htv : tornValue j ((longer m ls).flatten.getLastD 0) l < 2 ^ 64 := by
    rw [tornValue, torn]
    have := Nat.div_mul_le_self ((l.take (j / 4)).getLastD ((longer m ls).flatten.getLastD 0)) (256 ^ (j % 4))
    have := Nat.mod_le (l.getD (j / 4) 0) (256 ^ (j % 4))
    omega
  rcases pomFold_any (coder := coder) (longer m ls ++ [tornList j ((longer m ls).flatten.getLastD 0) l]) (by
    intro k hk x hxk
    rcases List.mem_append.1 hk with hk | hk
    · have := hx k hk x hxk; omega
    · rw [List.mem_singleton.1 hk] at hxk
      rcases List.mem_append.1 hxk with hxk | hxk
      · have := hx' x (List.mem_of_mem_take hxk); omega
      · rw [List.eq_of_mem_replicate hxk]; exact htv) ⟨0, 0, 0, 0⟩ with ⟨-, hn⟩ | hc
  · exfalso
    rcases h0 with ⟨k, hk, hk0⟩ | h0 | h0
    · exact hn k (List.mem_append_left _ hk) hk0
    · exact hn _ (List.mem_append_right _ (List.mem_singleton.2 rfl)) (List.mem_append_left _ h0)
    · refine hn _ (List.mem_append_right _ (List.mem_singleton.2 rfl)) (List.mem_append_right _ ?_)
      rw [h0]
      exact List.mem_replicate.2 ⟨by omega, rfl⟩
  · exact hc

/-- The first byte of 256 is 0. -/
example : tornValue 5 9 [7, 256, 301] = 0 ∧
    pom 1 List.sum 5 ((collectionBytes 1 512 ([[1, 9]] ++ [7, 256, 301] :: [[2, 3]])).take (8 + (([[1, 9]].flatMap listBytes).length + 4 + 5))) =
      .error .conv := by decide +kernel

/-- C83, `pom`: if the collection ends before the end of the first element that is to be kept, a variable is used that has no value. -/
theorem C83_pom_first {one u m : Nat} {ls rest : List (List Nat)} {l : List Nat} (h1 : one < 2 ^ 32) (hu : u < 2 ^ 32)
    (hl : ∀ k ∈ ls ++ [l], k.length < 2 ^ 30) (hm : m < l.length) {j : Nat} (hj : j < 4)
    (hv : longer m ls = []) (coder : List Nat → Nat) (fuel : Nat) (hf : ls.length + 1 ≤ fuel) :
    pom m coder fuel ((collectionBytes one u (ls ++ l :: rest)).take (8 + ((ls.flatMap listBytes).length + 4 + j))) = .error .uninit := by
  have e := statsLoop_first (step := pomStep coder) (stop := false) hl (by simp) hm hj hv (fuel - (ls.length + 1)) ⟨0, 0, 0, 0⟩
  rw [show fuel - (ls.length + 1) + 1 + ls.length = fuel by omega] at e
  rw [pom_take _ _ _ h1 hu, take_done (by omega), e]

example : longer 1 [[9]] = [] ∧
    pom 1 List.sum 5 ((collectionBytes 1 512 ([[9]] ++ [7, 300, 301] :: [[2, 3]])).take (8 + (([[9]].flatMap listBytes).length + 4 + 3))) =
      .error .uninit := by decide +kernel

/-- C83 is false of `pom`: if the collection ends among the elements of a list that is too short to be kept, it does not end with a result. -/
theorem C83_pom_hangs {one u m : Nat} {ls rest : List (List Nat)} {l : List Nat} (h1 : one < 2 ^ 32) (hu : u < 2 ^ 32)
    (hl : ∀ k ∈ ls ++ [l], k.length < 2 ^ 30) (hx : ∀ k ∈ longer m ls, ∀ x ∈ k, x < 2 ^ 32) (hm : l.length ≤ m) {j : Nat}
    (hj : j < 4 * l.length) (coder : List Nat → Nat) (fuel : Nat) (c : PomCounts) :
    pom m coder fuel ((collectionBytes one u (ls ++ l :: rest)).take (8 + ((ls.flatMap listBytes).length + 4 + j))) ≠ .ok c := by
  rw [pom_take _ _ _ h1 hu, take_done (by omega)]
  exact statsLoop_skipped hl hx hm hj _ _ _

example : pom 1 List.sum 1000 ((collectionBytes 1 512 ([[1, 9]] ++ [7] :: [[2, 3]])).take (8 + (([[1, 9]].flatMap listBytes).length + 4 + 2))) =
    .error .fuel := by decide +kernel

/-- C83 is false of `pom`: as `C83_coders_length`, for a collection that ends after `r` bytes of the length of a list. If the length made up is
enough, `pom` counts a list of this length too, of copies of the last number read. -/
theorem C83_pom_length {one u m : Nat} {ls rest : List (List Nat)} {l : List Nat} (h1 : one < 2 ^ 32) (hu : u < 2 ^ 32)
    (hl : ∀ k ∈ ls, k.length < 2 ^ 30) (hx : ∀ k ∈ longer m ls, k.Pairwise (· < ·) ∧ (∀ x ∈ k, x < 2 ^ 32) ∧ 0 ∉ k) {r : Nat} (hr : r < 4)
    (coder : List Nat → Nat) :
    (ls = [] → ∀ fuel, 1 ≤ fuel →
      pom m coder fuel ((collectionBytes one u (ls ++ l :: rest)).take (8 + ((ls.flatMap listBytes).length + r))) = .error .uninit) ∧
    (ls ≠ [] → m < torn r (ls.getLastD []).length l.length → longer m ls = [] → ∀ fuel, ls.length + 2 ≤ fuel →
      pom m coder fuel ((collectionBytes one u (ls ++ l :: rest)).take (8 + ((ls.flatMap listBytes).length + r))) = .error .uninit) ∧
    (∀ n, n = torn r (ls.getLastD []).length l.length → m < n → ∀ v, (longer m ls).flatten.getLast? = some v →
      ∃ sorted : List Nat → List Nat, (∀ k, (sorted k).Pairwise (· ≤ ·) ∧ (sorted k).Perm k) ∧ ∀ fuel, ls.length + 2 ≤ fuel →
        pom m coder fuel ((collectionBytes one u (ls ++ l :: rest)).take (8 + ((ls.flatMap listBytes).length + r))) =
          .ok { nElements := (((longer m ls).map List.length).sum + n) % 2 ^ 64
                nSets := ((longer m ls).length + 1) % 2 ^ 64
                sizeInBits := (((longer m ls).map suffixCost).sum + n * (2 * v.size - 1)) % 2 ^ 64
                size := (((longer m ls).map fun k => coder (sorted (suffixes k))).sum + coder (List.replicate n v)) % 2 ^ 64 }) ∧
    (ls ≠ [] → torn r (ls.getLastD []).length l.length ≤ m → ∀ fuel c,
      pom m coder fuel ((collectionBytes one u (ls ++ l :: rest)).take (8 + ((ls.flatMap listBytes).length + r))) ≠ .ok c) := by
  obtain ⟨p1, p2, p3, -, p5⟩ := statsLoop_length (step := pomStep coder) (stop := false) (n := l.length) hl (fun k hk => (hx k hk).2.1)
    (by simp) hr ⟨0, 0, 0, 0⟩
  simp only [pom_take _ _ _ h1 hu, take_length hr]
  refine ⟨fun h fuel hf => ?_, fun h hm h0 fuel hf => ?_, fun n hn hm v hv => ?_, fun h hm => p5 h hm rfl⟩
  · obtain ⟨f, rfl⟩ : ∃ f, fuel = f + 1 := ⟨fuel - 1, by omega⟩
    exact p1 h f
  · have e := p2 h hm h0 (fuel - (ls.length + 2))
    rwa [show fuel - (ls.length + 2) + 2 + ls.length = fuel by omega] at e
  · refine ⟨sortIds, fun k => ⟨(sortIds_spec k).1, sortIds_perm k⟩, fun fuel hf => ?_⟩
    have hk : longer m ls ≠ [] := by rintro h; rw [h] at hv; cases hv
    have hls : ls ≠ [] := by rintro rfl; exact hk rfl
    obtain ⟨k, hkm, hvk⟩ := List.mem_flatten.1 (List.mem_of_getLast? hv)
    have hv0 : v ≠ 0 := fun h => (hx k hkm).2.2 (h ▸ hvk)
    have hvb := (hx k hkm).2.1 v hvk
    have e := p3 hls (hn ▸ hm) hk (fuel - (ls.length + 2))
    rw [show fuel - (ls.length + 2) + 2 + ls.length = fuel by omega, ← hn, List.getLastD_eq_getLast? (l := (longer m ls).flatten), hv,
      Option.getD_some] at e
    have e3 := pomStep_fold coder (longer m ls)
      (fun k h => ⟨(hx k h).1, fun x hxk => by have := (hx k h).2.1 x hxk; omega, (hx k h).2.2⟩) 0 0 0 0
    simp only [Nat.zero_add, Nat.zero_mod] at e3
    have es : sortIds (List.replicate n v) = List.replicate n v :=
      List.eq_replicate_iff.mpr ⟨by rw [(sortIds_perm _).length_eq, List.length_replicate],
        fun b hb => List.eq_of_mem_replicate ((sortIds_perm _).mem_iff.mp hb)⟩
    rw [e, List.foldlM_append, e3, R_bind_ok, List.foldlM_cons, pomStep, pomList_replicate v hv0, R_bind_ok]
    dsimp only
    rw [R_bind_ok, List.foldlM_nil, es, gamma_size hv0, List.length_replicate]
    show Except.ok _ = Except.ok _
    congr 2 <;> omega

/-- Of the length 300 one byte can be read, 44. -/
example : torn 1 [1, 9].length (List.replicate 300 0).length = 44 ∧
    pom 1 List.length 5 ((collectionBytes 1 512 ([[7, 8, 9], [1, 9]] ++ List.replicate 300 0 :: [])).take (8 + (([[7, 8, 9], [1, 9]].flatMap listBytes).length + 1))) =
      .ok ⟨3 + 2 + 44, 3, (5 + 7 + 1) + (1 + 7) + 44 * 7, 3 + 2 + 44⟩ ∧
    pom 1 List.length 1000 ((collectionBytes 1 512 ([[7, 8, 9], [1, 9]] ++ List.replicate 256 0 :: [])).take (8 + (([[7, 8, 9], [1, 9]].flatMap listBytes).length + 1))) =
      .error .fuel := by decide +kernel

/-- C83, `pom`: if the collection ends within its first two numbers, it counts nothing, without a complaint. -/
theorem C83_pom_header {one u m : Nat} {lists : List (List Nat)} (h1 : one < 2 ^ 32) {k : Nat} (hk : k < 8)
    (coder : List Nat → Nat) (fuel : Nat) (hf : 1 ≤ fuel) :
    pom m coder fuel ((collectionBytes one u lists).take k) = .ok ⟨0, 0, 0, 0⟩ := by
  obtain ⟨f, rfl⟩ : ∃ f, fuel = f + 1 := ⟨fuel - 1, by omega⟩
  by_cases h4 : k < 4
  · have hfew : readLE 4 ((collectionBytes one u lists).take k) = .error .eof := readLE_few 4 _ (by rw [List.length_take]; omega)
    have e : (InStream.mk ((collectionBytes one u lists).take k) false false).read4 none = (none, ⟨[], true, true⟩) := by
      simp only [InStream.read4, hfew, Bool.or_self, Bool.false_eq_true, if_false, Option.map_none]
    rw [pom, pomOn, e]
    rfl
  · have e0 : (collectionBytes one u lists).take k = leBytes 4 one ++ (leBytes 4 u ++ lists.flatMap listBytes).take (k - 4) := by
      rw [collectionBytes, List.take_append, length_leBytes, List.take_of_length_le (by rw [length_leBytes]; omega)]
    have hfew : readLE 4 ((leBytes 4 u ++ lists.flatMap listBytes).take (k - 4)) = .error .eof :=
      readLE_few 4 _ (by rw [List.length_take]; omega)
    have e : (InStream.mk ((leBytes 4 u ++ lists.flatMap listBytes).take (k - 4)) false false).read4 none = (none, ⟨[], true, true⟩) := by
      simp only [InStream.read4, hfew, Bool.or_self, Bool.false_eq_true, if_false, Option.map_none]
    rw [pom, pomOn, e0, read4_ok (readLE_leBytes 4 _ _ (by omega))]
    dsimp only
    rw [e]
    rfl

example : pom 0 List.sum 1 ((collectionBytes 1 16 [[1, 2], [3]]).take 6) = .ok ⟨0, 0, 0, 0⟩ := by decide +kernel

end CBT
