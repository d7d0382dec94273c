import Verif.Proof.Session

/-!
# C75: a program that uses tries in any order gets the answers of sets
-/

namespace CBT

open Spec

/-- C75. A program builds, run-encodes, decodes, saves and loads, and intersects tries of the four classes in any order, any number of
times. If it obeys the rules, no step is undefined and it prints what it would print with sets instead of tries; in particular what it did to
a trie before never matters. Whatever the formats of `sdsl`, the numbers of hardware threads and the interleavings. -/
theorem C75_history (F : Bool → ObjFormats) (pad : Nat) (ops : List Op) (h : Obeys [] ops) : exec F pad [] ops = .ok (answers [] ops) := by
  suffices H : ∀ (ks : List Known) (os : List (Obj F)), List.Forall₂ (KnownObj pad) ks os → Obeys ks ops →
      exec F pad os ops = .ok (answers (ks.map Known.set) ops) from H [] [] .nil h
  clear h
  induction ops with
  | nil => intro ks os _ _; rfl
  | cons op ops ih =>
    intro ks os hko h
    cases op with
    | build k S u =>
      obtain ⟨hS, hlen, hu, hu', h3, h⟩ := h
      obtain ⟨o, ho, hk⟩ := KnownObj.ofBuild (F := F) (pad := pad) hS hlen hu hu' h3
      rw [exec, ho, R_bind_ok, ih _ _ (forall2_concat hko hk) h, List.map_append]
      rfl
    | encode i =>
      obtain ⟨k, hi, hc, hp, h⟩ := h
      obtain ⟨o, hio, hk⟩ := forall2_getElem? hko hi
      obtain ⟨o', ho, hk'⟩ := hk.encode hc hp
      rw [exec, vGet_getElem? hio, R_bind_ok, ho, R_bind_ok, ih _ _ (forall2_set hko i hk') h, map_set_same hi (by rfl)]
      rfl
    | decode i out =>
      obtain ⟨hi, h⟩ := h
      obtain ⟨o, hio, hk⟩ := forall2_getElem? hko (List.getElem?_eq_getElem hi)
      rw [exec, vGet_getElem? hio, R_bind_ok, hk.decode, R_bind_ok, ih _ _ hko h, R_bind_ok, answers,
        map_getD_one (List.getElem?_eq_getElem hi)]
    | reload i =>
      obtain ⟨k, hi, hk', h⟩ := h
      obtain ⟨o, hio, hk⟩ := forall2_getElem? hko hi
      rw [exec, vGet_getElem? hio, R_bind_ok, hk.reload hk', R_bind_ok, ih _ _ (forall2_concat hko hk) h, List.map_append, answers,
        map_getD_one hi]
      rfl
    | intersect is runs parallel env =>
      obtain ⟨ks', hh, hs, hm, h⟩ := h
      obtain ⟨os', ho, hk⟩ := select_forall2 hko hs
      rw [exec, ho, R_bind_ok, mayIntersect_ok hk hm, R_bind_ok, ih _ _ hko h, R_bind_ok, answers, map_getD_of hs]

namespace Ex

def objFormats : Bool → ObjFormats := fun _ => ⟨bvIO, bvIO, rankIO⟩

/-- Three tries, the first run-encoded, saved, loaded; the second encoded after an intersection. -/
def program : List Op :=
  [.build (.flat true) sF 16, .build (.level true) sL 16, .encode 0, .reload 0, .intersect [2, 1] true true ⟨3, [1, 0, 2], [1, 0]⟩, .encode 1,
    .decode 1 [7], .intersect [0, 1, 2] true false ⟨8, [], []⟩, .decode 2 []]

theorem program_obeys : Obeys [] program := by
  have hv : ValidSet sF 16 ∧ ValidSet sL 16 := by decide +kernel
  have hl : Nat.log2 15 = 3 := by decide
  have hl3 : Nat.log2 3 = 1 := by decide
  refine ⟨hv.1, by decide, by decide, by decide, by simp, hv.2, by decide, by decide, by decide, by simp, _, rfl, rfl,
    fun _ _ => ⟨5, by decide, 4, by decide, by decide⟩, _, rfl, by simp, [_, _], 4, .cons rfl (.cons rfl .nil), ?_, _, rfl, rfl, by simp, by decide,
    [_, _, _], 4, .cons rfl (.cons rfl (.cons rfl .nil)), ?_, by decide, trivial⟩
  · refine ⟨by simp, by decide, by simp [hl], .inl rfl, by decide, fun _ => ⟨by decide, by decide, ?_⟩⟩
    simp only [List.mem_cons, List.not_mem_nil, or_false, forall_eq_or_imp, forall_eq, forall_true_left, Bool.false_eq_true, false_implies,
      and_true]
    intro x hx
    rw [hl3]
    rcases Nat.lt_or_ge x 8 with h | h
    · exact ⟨4, by omega, by decide⟩
    · exact ⟨9, by omega, by decide⟩
  · exact ⟨by simp, by decide, by simp [hl], .inl rfl, by decide, by simp⟩

end Ex

example : Obeys [] Ex.program ∧ answers [] Ex.program = [[1, 2, 3, 5, 14], [7, 1, 2, 3, 5, 6, 14], [1, 2, 3, 5, 14], Ex.sF] ∧
    exec Ex.objFormats 0 [] Ex.program = .ok (answers [] Ex.program) := ⟨Ex.program_obeys, by decide +kernel, by decide +kernel⟩

/-- C75, fast tries, whatever the members are that the constructors do not write. -/
theorem C75_fast_history (B : BvIO) (K : RankIO) {lg : Nat} (hlg : 3 ≤ lg ∧ lg ≤ 6) (pad : Nat) (ops : List FastOp) (h : FastObeys lg [] ops) :
    fastExec B K lg pad [] ops = .ok (fastAnswers [] ops) := by
  suffices H : ∀ (ks : List FastKnown) (os : List (FastObj K)), List.Forall₂ (FastKnownObj lg pad) ks os → FastObeys lg ks ops →
      fastExec B K lg pad os ops = .ok (fastAnswers (ks.map FastKnown.set) ops) from H [] [] .nil h
  clear h
  induction ops with
  | nil => intro ks os _ _; rfl
  | cons op ops ih =>
    intro ks os hko h
    cases op with
    | build junk S u =>
      obtain ⟨hS, hlen, hu, hu', hj, h⟩ := h
      obtain ⟨t, ht, hk⟩ := FastKnownObj.ofBuild (pad := pad) (K := K) hlg junk hS hlen hu hu' hj
      rw [fastExec, ht, R_bind_ok, ih _ _ (forall2_concat hko hk) h, List.map_append]
      rfl
    | encode i =>
      obtain ⟨k, hi, hc, h⟩ := h
      obtain ⟨o, hio, hk⟩ := forall2_getElem? hko hi
      obtain ⟨o', ho, hk'⟩ := hk.encode hlg hc
      rw [fastExec, vGet_getElem? hio, R_bind_ok, ho, R_bind_ok, ih _ _ (forall2_set hko i hk') h, map_set_same hi (by rfl)]
      rfl
    | decode i out =>
      obtain ⟨⟨k, hi, hk'⟩, h⟩ := h
      obtain ⟨o, hio, hk⟩ := forall2_getElem? hko hi
      rw [fastExec, vGet_getElem? hio, R_bind_ok, hk.decode hlg hk', R_bind_ok, ih _ _ hko h, R_bind_ok, fastAnswers, map_getD_one hi]
    | reload junk i =>
      obtain ⟨k, hi, h⟩ := h
      obtain ⟨o, hio, hk⟩ := forall2_getElem? hko hi
      rw [fastExec, vGet_getElem? hio, R_bind_ok, hk.reload B hlg junk, R_bind_ok]
      simp only
      rw [ih _ _ (forall2_concat hko hk) h, List.map_append, fastAnswers, map_getD_one hi]
      rfl
    | intersect is runs parallel env =>
      obtain ⟨ks', hh, hs, hm, h⟩ := h
      obtain ⟨os', ho, hk⟩ := select_forall2 hko hs
      rw [fastExec, ho, R_bind_ok, mayIntersectFast_ok hlg hk hm, R_bind_ok, ih _ _ hko h, R_bind_ok, fastAnswers, map_getD_of hs]

namespace Ex

/-- `junk` without runs: the second trie is encoded but never decoded, since its `empty_trie` is true. -/
def fastProgram : List FastOp :=
  [.build ⟨9, 9, 9, true, false⟩ sW 32, .build junk sV 32, .encode 0, .encode 1, .reload junk 0, .intersect [2, 1] true true ⟨1, [1, 0], []⟩,
    .decode 2 [7], .intersect [1] true false ⟨8, [], []⟩]

theorem fastProgram_obeys : FastObeys 3 [] fastProgram := by
  have hv : ValidSet sW 32 ∧ ValidSet sV 32 := by decide +kernel
  have hl : Nat.log2 31 = 4 := by decide
  have hl1 : Nat.log2 1 = 0 := by decide
  refine ⟨hv.1, by decide, by decide, by decide, by decide, hv.2, by decide, by decide, by decide, by decide, _, rfl, rfl, _, rfl, rfl, _, rfl,
    [_, _], 5, .cons rfl (.cons rfl .nil), ?_, ⟨_, rfl, by simp⟩, [_], 5, .cons rfl .nil, ?_, trivial⟩
  · refine ⟨by simp, by decide, by simp [hl], .inl rfl, by decide, fun _ => ⟨by decide, by decide, ?_⟩⟩
    intro k hk _ x hx
    rw [hl1]
    refine ⟨16, by omega, ?_⟩
    simp only [List.mem_cons, List.not_mem_nil, or_false] at hk
    rcases hk with rfl | rfl <;> simp [sW, sV]
  · exact ⟨by simp, by decide, by simp [hl], .inl rfl, by decide, by simp⟩

end Ex

example : FastObeys 3 [] Ex.fastProgram ∧ fastAnswers [] Ex.fastProgram = [[4, 17, 31], 7 :: Ex.sW, Ex.sV] ∧
    fastExec Ex.bvIO Ex.rankIO 3 0 [] Ex.fastProgram = .ok (fastAnswers [] Ex.fastProgram) :=
  ⟨Ex.fastProgram_obeys, by decide +kernel, by decide +kernel⟩

end CBT
