import Verif.Proof.TwiceSets
import Verif.Props.Runs
import Verif.Props.Space

/-!
# C27: which sets survive a second run encoding
-/

namespace CBT

open Spec

/-- C27, flat tries: if reads past the end of a vector fail, the set survives a second run encoding exactly if no aligned block of four
numbers is full, that is, if neither run encoding does anything. -/
theorem C27_flat_runs_twice_iff {S : List Nat} {u : Nat} (hS : ValidSet S u) (hlen : S.length < 2 ^ 32) (hu : 3 ≤ u) (hu' : u ≤ 2 ^ 62)
    (out : List Nat) :
    (flatCtor S u >>= fun t => t.encodeRuns 0 >>= fun t' => t'.encodeRuns 0 >>= fun t'' => t''.decode 0 out) = .ok (out ++ S) ↔
      ∀ x ∈ S, ∃ y, y / 4 = x / 4 ∧ y ∉ S := by
  constructor
  · intro h
    obtain ⟨h1, h2⟩ := log2_bounds hu hu'
    obtain ⟨T, hc, hne, hT⟩ := flat_built hS hlen hu hu'
    have hb : ∀ x ∈ S, x < 2 ^ (Nat.log2 (u - 1) + 1) := fun x hx => lt_height (hS.below x hx)
    rw [hc, R_bind_ok] at h
    obtain ⟨t', he, h⟩ := bind_ok h
    obtain ⟨t'', he', hd⟩ := bind_ok h
    by_contra hcon
    push Not at hcon
    obtain ⟨x, hx, hf⟩ := hcon
    by_cases hl : leaves _ [prune 1 _ T] = []
    · obtain ⟨t1, e1, hh, -, -, -, hbad⟩ := flatOf_encode_cases (pad := 0) (hw := 0) (runs := false) hne
      rw [he] at e1
      obtain rfl : t' = t1 := by simpa using e1
      have hpos : 0 < t'.lastLevel.length := by
        rcases flat_encodeRuns_ok (pad := 0) rfl (flatOf_rep (hw := 0) (runs := false) hne.nz) hne with ⟨hl', _⟩ | ⟨_, b, z, k, _, _, e2⟩
        · exact (hl' hl).elim
        · rw [he] at e2
          obtain rfl := Except.ok.inj e2
          simp
      rw [FlatTrie.encodeRuns, if_neg (by omega)] at he'
      obtain ⟨r, hw, -⟩ := bind_ok he'
      obtain ⟨o, ho⟩ := flat_write_decodes (by omega) (t'.height - 1) 0 _ 0 r (by omega) hw out 0
      refine hbad hl hpos out o ?_
      have hfl : t'.runsEncoded = true ∧ t'.emptyTrie = false := by
        obtain ⟨t1, e1, -, h3, h4, -, -⟩ := flatOf_encode_cases (pad := 0) (hw := 0) (runs := false) hne
        rw [he] at e1
        obtain rfl : t' = t1 := by simpa using e1
        exact ⟨h3, h4⟩
      rw [FlatTrie.decode, hfl.1, hfl.2]
      simp only [if_true, Bool.false_eq_true, if_false]
      rw [show t'.height - 1 + 1 = t'.height by omega] at ho
      exact ho
    · have e1 := flatOf_encode (pad := 0) (hw := 0) (runs := false) hne hl
      rw [he] at e1
      obtain rfl := Except.ok.inj e1
      have e2 := flat_twice (t := flatOf _ (prune 1 _ T) (Nat.log2 (u - 1) + 1) true) (pad := 0) rfl (flatOf_rep hne.prune_nz) (thin_prune _ T) hl
      rw [he'] at e2
      obtain rfl := Except.ok.inj e2
      rw [FlatTrie.decode] at hd
      simp only [flatOf, if_true, Bool.false_eq_true, if_false] at hd
      obtain ⟨E, B, hE, hB, hBm⟩ := flat_pairs (m := (leaves _ [prune 1 _ T]).length) rfl (Solid.flatten (solid_nodeLevelsS _ _))
        (solid_leafBits (leaves_nz _ _ (by simpa using hne.prune_nz))) (length_leafBits _) hd
      obtain rfl : S = E := List.append_cancel_left hE
      have h3 := (ctree_plain hne hT hb).size.2
      have h4 := (ctree_runs hne hT hb).size.2
      have h5 := storedAt_full h1 hx (hb x hx) hf
      have h6 := storedAt_covered (t := Nat.log2 (u - 1) + 1) (b := 1) hB
      omega
  · intro h
    obtain ⟨t, t', t'', h1, h2, h3, h4⟩ := C27_flat_runs_twice_partial hS hlen hu hu' h 0 out
    simp [h1, h2, h3, h4]

/-- C27, level-wise tries. -/
theorem C27_level_runs_twice_iff {S : List Nat} {u : Nat} (hS : ValidSet S u) (hlen : S.length < 2 ^ 64) (hu : 3 ≤ u) (hu' : u ≤ 2 ^ 63)
    (il : Bool) (out : List Nat) :
    (levelCtor S u >>= fun t => t.encodeRuns il 0 >>= fun t' => t'.encodeRuns il 0 >>= fun t'' => t''.decode il 0 out) = .ok (out ++ S) ↔
      ∀ x ∈ S, ∃ y, y / 4 = x / 4 ∧ y ∉ S := by
  constructor
  · intro h
    obtain ⟨h1, h2⟩ := level_bounds hu hu'
    obtain ⟨T, hc, hne, hT⟩ := level_built hS hlen (by omega) (by omega)
    have hb : ∀ x ∈ S, x < 2 ^ (Nat.log2 (u - 1) + 1) := fun x hx => lt_height (hS.below x hx)
    obtain ⟨k, _, hst, he⟩ := levelOf_encode (pad := 0) (il := il) (hw := 0) (runs := false) (by omega) hne
    rw [hc, R_bind_ok, he, R_bind_ok] at h
    obtain ⟨k', hk, hk1, hk2, he'⟩ := level_twice (pad := 0) (il := il) (levelOf_height (hw := k + 1) (runs := true))
      (levelOf_rep (by omega) hne.prune_nz) (thin_prune _ T)
    rw [he', R_bind_ok] at h
    by_contra hcon
    push Not at hcon
    obtain ⟨x, hx, hf⟩ := hcon
    rw [LevelTrie.decode] at h
    simp only [levelOf, if_true, Bool.false_eq_true, if_false] at h
    have h3 := (ctree_plain hne hT hb).size.2
    have h4 := (ctree_runs hne hT hb).size.2
    have h7 := (storedAt_le true S (Nat.log2 (u - 1) + 1) 1).2
    have hp : 2 ^ (Nat.log2 (u - 1) + 1 - 1) ≤ 2 ^ 62 := Nat.pow_le_pow_right (by omega) (by omega)
    have hsol := solid_leafBits (leaves_nz _ [prune 1 _ T] (by simpa using hne.prune_nz))
    obtain ⟨t'', ht⟩ : ∃ t'', t'' = levelSolid _ (prune 1 _ T) (k' + 1) := ⟨_, rfl⟩
    have hbt : t''.bTrie = nodeLevelsS _ [prune 1 _ T] ++ [(leaves _ [prune 1 _ T]).flatMap leafBits] := by rw [ht, levelSolid]
    have hh : t''.height = Nat.log2 (u - 1) + 1 := by
      simp [hbt, LevelTrie.height, length_nodeLevelsS]
    have hso : ∀ v ∈ t''.bTrie, Solid v := by
      intro v hv
      rw [hbt] at hv
      rcases List.mem_append.1 hv with hv | hv
      · exact solid_nodeLevelsS _ _ v hv
      · rw [List.mem_singleton.1 hv]; exact hsol
    have hsm : ∀ v ∈ t''.bTrie, v.length < 2 ^ 64 := by
      intro v hv
      rw [hbt] at hv
      rcases List.mem_append.1 hv with hv | hv
      · have := length_nodeLevelsS_le _ _ v hv
        simp only [List.length_singleton] at this
        rw [Nat.add_sub_cancel] at hp
        omega
      · rw [List.mem_singleton.1 hv, length_leafBits]
        omega
    change runsRecDecode ((levelSolid _ (prune 1 _ T) (k' + 1)).nav il 0) (k' + 1) out 0 0 0 = .ok (out ++ S) at h
    rw [← ht] at h
    by_cases hl : leaves _ [prune 1 _ T] = []
    · have hk' := hk2 hl h1
      obtain ⟨E, hE, hE2⟩ := decode_even (level_counted (il := il) hh hso hsm) hh (k' + 1) 0 out 0 0 _ (by omega) (dvd_zero _) h
      obtain rfl : S = E := List.append_cancel_left hE
      have := hE2 (4 * (x / 4) + 1) (hf _ (by omega))
      omega
    · obtain rfl := hk1 hl
      obtain ⟨E, B, hE, hB, hBm⟩ := level_pairs (il := il) (m := (leaves _ [prune 1 _ T]).length) hh hso hsm
        (by
          intro v hv
          rw [hbt, List.getElem?_append_right (by rw [length_nodeLevelsS]), length_nodeLevelsS] at hv
          simp at hv
          rw [← hv, length_leafBits]) h
      obtain rfl : S = E := List.append_cancel_left hE
      have h5 := storedAt_full h1 hx (hb x hx) hf
      have h6 := storedAt_covered (t := Nat.log2 (u - 1) + 1) (b := 1) hB
      omega
  · intro h
    obtain ⟨t, t', t'', h1, h2, h3, h4⟩ := C27_level_runs_twice_partial hS hlen hu hu' h il 0 out
    simp [h1, h2, h3, h4]

/-- C27, fast tries: exactly if no aligned block of two words is full. -/
theorem C27_fast_runs_twice_iff {lg : Nat} (hlg : 3 ≤ lg ∧ lg ≤ 6) {S : List Nat} {u : Nat} (hS : ValidSet S u) (hlen : S.length < 2 ^ 32)
    (hu : 2 ^ lg < u) (hu' : u ≤ 2 ^ 62) (junk : FastJunk) (hj : junk.emptyTrie = false) (out : List Nat) :
    (fastCtor lg junk S u >>= fun t => t.encodeRuns lg 0 >>= fun t' => t'.encodeRuns lg 0 >>= fun t'' => t''.decode lg 0 out) =
        .ok (out ++ S) ↔
      ∀ x ∈ S, ∃ y, y / 2 ^ (lg + 1) = x / 2 ^ (lg + 1) ∧ y ∉ S := by
  constructor
  · intro h
    have hlt : 2 ^ (lg - 1) < u := (Nat.pow_le_pow_right (by omega) (by omega)).trans_lt hu
    obtain ⟨h0, h1, h2⟩ := fast_depth hlg hlt hu'
    have hlog : lg ≤ Nat.log2 (u - 1) := (Nat.le_log2 (by omega)).2 (by omega)
    obtain ⟨T, hc, hne, hT⟩ := fast_built hlg hS hlen hlt hu' junk
    have hb : ∀ x ∈ S, x < 2 ^ (Nat.log2 (u - 1) + 1 - lg + lg) := fun x hx => h1 ▸ lt_height (hS.below x hx)
    obtain ⟨k, he⟩ := fastOf_encode (pad := 0) (hw := junk.heightWithRuns) (runs := false) (empty := junk.emptyTrie) hne
    obtain ⟨k', he'⟩ := fast_twice (lg := lg) (pad := 0) (t := fastOf lg _ (prune lg _ T) k true junk.emptyTrie) rfl
      (fastOf_rep hne.prune_nz) (thin_prune _ T)
    rw [hc, R_bind_ok, he, R_bind_ok, he', R_bind_ok] at h
    by_contra hcon
    push Not at hcon
    obtain ⟨x, hx, hf⟩ := hcon
    rw [FastTrie.decode] at h
    simp only [fastOf, hj, if_true, Bool.false_eq_true, if_false, Nat.add_eq_zero_iff, one_ne_zero, and_false, Nat.add_sub_cancel] at h
    obtain ⟨E, B, hE, hB, hBm⟩ := fast_words (m := (leaves _ [prune lg _ T]).length) hlg.2 rfl rfl (Solid.flatten (solid_nodeLevelsS _ _))
      (fun w hw => (leaves_nz _ [prune lg _ T] (by simpa using hne.prune_nz) w hw).2) rfl h
    obtain rfl : S = E := List.append_cancel_left hE
    have h3 := (ctree_plain hne hT hb).size.2
    have h4 := (ctree_runs hne hT hb).size.2
    have h5 := storedAt_full (by omega) hx (hb x hx) hf
    have h6 := storedAt_covered (t := Nat.log2 (u - 1) + 1 - lg + lg) (b := lg) hB
    omega
  · intro h
    obtain ⟨t, t', t'', h1, h2, h3, h4⟩ := C27_fast_runs_twice_partial hlg hS hlen hu hu' h junk hj 0 out
    simp [h1, h2, h3, h4]

/-- A set with a full block of four, one without, and two full words next to each other. -/
example : ValidSet [0, 1, 2, 3, 5] 8 ∧ (∀ y, y / 4 = 0 / 4 → y ∈ [0, 1, 2, 3, 5]) ∧
    (flatCtor [0, 1, 2, 3, 5] 8 >>= fun t => t.encodeRuns 0 >>= fun t' => t'.encodeRuns 0 >>= fun t'' => t''.decode 0 []) ≠
      .ok [0, 1, 2, 3, 5] ∧
    (levelCtor [0, 1, 2, 3, 5] 8 >>= fun t => t.encodeRuns true 0 >>= fun t' => t'.encodeRuns true 0 >>= fun t'' => t''.decode true 0 []) ≠
      .ok [0, 1, 2, 3, 5] ∧
    (fastCtor 3 ⟨9, 9, 9, false, false⟩ (List.range 16 ++ [18]) 32 >>= fun t => t.encodeRuns 3 0 >>= fun t' => t'.encodeRuns 3 0 >>=
      fun t'' => t''.decode 3 0 []) ≠ .ok (List.range 16 ++ [18]) :=
  ⟨by decide +kernel, fun y hy => by
    have : y = 0 ∨ y = 1 ∨ y = 2 ∨ y = 3 := by omega
    rcases this with rfl | rfl | rfl | rfl <;> decide, by decide +kernel, by decide +kernel, by decide +kernel⟩

/-- With zeros readable after the end of the vectors some sets with a full block survive. -/
example : (flatCtor [0, 1, 4, 5, 6, 7] 8 >>= fun t => t.encodeRuns 64 >>= fun t' => t'.encodeRuns 64 >>= fun t'' => t''.decode 64 []) =
      .ok [0, 1, 4, 5, 6, 7] ∧
    (flatCtor [0, 1, 4, 5, 6, 7] 8 >>= fun t => t.encodeRuns 0 >>= fun t' => t'.encodeRuns 0 >>= fun t'' => t''.decode 0 []) =
      .error .oob := by decide +kernel

end CBT
