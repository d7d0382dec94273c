import Verif.Model.EncodeCost
import Verif.Proof.DecodeCost
import Verif.Proof.RunsWrite

/-!
# The counters of `encodeRuns`
-/

namespace CBT

open Spec

/-! ## They change nothing -/

theorem map_bind_two {A B C : Type} {E : Type} {x : R (A × E)} {y : R A} {f : A × E → R (C × B)} {g : A → R C} (hx : x.map Prod.fst = y)
    (h : ∀ a b, (f (a, b)).map Prod.fst = g a) : (x >>= f).map Prod.fst = (y >>= g) := by
  subst hx
  cases x with
  | error e => rfl
  | ok p => exact h p.1 p.2

theorem writeCompressC_fst (n : Nav) : (rem : Nat) → (s : RunSt) → (level id : Nat) →
    (writeCompressC n rem s level id).map Prod.fst = writeCompress n rem s level id
  | 0, s, level, id => by
    rw [writeCompressC, writeCompress]
    refine map_bind_same fun node => ?_
    by_cases h1 : node = 2 ∨ node = 3 <;> by_cases h2 : node = 1 ∨ node = 3 <;>
      simp only [h1, h2, if_true, if_false, pure_bind]
    · exact map_bind_same fun s => map_bind_same fun s => map_bind_same fun s => map_bind_same fun s => rfl
    · exact map_bind_same fun s => map_bind_same fun s => map_bind_same fun s => rfl
    · exact map_bind_same fun s => map_bind_same fun s => map_bind_same fun s => rfl
    · exact map_bind_same fun s => map_bind_same fun s => rfl
  | rem + 1, s, level, id => by
    rw [writeCompressC, writeCompress]
    refine map_bind_same fun node => ?_
    split
    · refine map_bind_same fun l => map_bind_two (writeCompressC_fst n rem s _ _) fun ⟨s, fl⟩ k => ?_
      refine map_bind_two (writeCompressC_fst n rem s _ _) fun ⟨s, fr⟩ k' => ?_
      cases hf : fl && fr with
      | true =>
        simp only [hf, if_true]
        refine map_bind_same fun s => ?_
        by_cases h0 : rem = 0
        · simp only [h0, if_true, pure_bind]
          exact map_bind_same fun s => map_bind_same fun s => rfl
        · simp only [h0, if_false, pure_bind]
          exact map_bind_same fun s => rfl
      | false =>
        simp only [hf, Bool.false_eq_true, if_false, pure_bind]
        exact map_bind_same fun s => map_bind_same fun s => map_bind_same fun s => rfl
    split
    · exact map_bind_same fun l => map_bind_same fun s => map_bind_two (writeCompressC_fst n rem s _ _) fun ⟨s, f⟩ k =>
        map_bind_same fun s => map_bind_same fun s => rfl
    split
    · exact map_bind_same fun s => map_bind_same fun l => map_bind_same fun s =>
        map_bind_two (writeCompressC_fst n rem s _ _) fun ⟨s, f⟩ k => map_bind_same fun s => rfl
    · rfl

theorem fastWriteCompressC_fst (lg : Nat) (n : FNav) : (rem : Nat) → (s : RunSt) → (nl : List Nat) → (level id : Nat) →
    (fastWriteCompressC lg n rem s nl level id).map Prod.fst = fastWriteCompress lg n rem s nl level id
  | 0, s, nl, level, id => by
    rw [fastWriteCompressC, fastWriteCompress]
    exact map_bind_same fun w => map_bind_same fun s => rfl
  | rem + 1, s, nl, level, id => by
    rw [fastWriteCompressC, fastWriteCompress]
    refine map_bind_same fun node => ?_
    split
    · refine map_bind_same fun l => map_bind_two (fastWriteCompressC_fst lg n rem s nl _ _) fun ⟨s, nl, fl⟩ k => ?_
      refine map_bind_two (fastWriteCompressC_fst lg n rem s nl _ _) fun ⟨s, nl, fr⟩ k' => ?_
      cases hf : fl && fr with
      | true =>
        simp only [hf, if_true]
        by_cases h0 : rem = 0
        · by_cases h1 : nl.length < 2
          · simp only [h0, h1, if_true]
            rfl
          · simp only [h0, h1, if_true, if_false, pure_bind]
            exact map_bind_same fun s => map_bind_same fun s => rfl
        · simp only [h0, if_false, pure_bind]
          exact map_bind_same fun s => map_bind_same fun s => rfl
      | false =>
        simp only [hf, Bool.false_eq_true, if_false, pure_bind]
        exact map_bind_same fun s => map_bind_same fun s => map_bind_same fun s => rfl
    split
    · exact map_bind_same fun l => map_bind_same fun s => map_bind_two (fastWriteCompressC_fst lg n rem s nl _ _) fun ⟨s, nl, f⟩ k =>
        map_bind_same fun s => map_bind_same fun s => rfl
    split
    · exact map_bind_same fun s => map_bind_same fun l => map_bind_same fun s =>
        map_bind_two (fastWriteCompressC_fst lg n rem s nl _ _) fun ⟨s, nl, f⟩ k => map_bind_same fun s => rfl
    · rfl

theorem FlatTrie.encodeRunsC_fst (t : FlatTrie) (pad : Nat) : (t.encodeRunsC pad).map Prod.fst = t.encodeRuns pad := by
  rw [encodeRunsC, encodeRuns]
  split
  · rfl
  · exact map_bind_two (writeCompressC_fst _ _ _ _ _) fun ⟨s, f⟩ k => map_bind_same fun p => map_bind_same fun ⟨b, l⟩ => rfl

theorem LevelTrie.encodeRunsC_fst (t : LevelTrie) (il : Bool) (pad : Nat) : (t.encodeRunsC il pad).map Prod.fst = t.encodeRuns il pad := by
  rw [encodeRunsC, encodeRuns]
  split
  · rfl
  · exact map_bind_two (writeCompressC_fst _ _ _ _ _) fun ⟨s, f⟩ k => map_bind_same fun p => rfl

theorem FastTrie.encodeRunsC_fst (lg : Nat) (t : FastTrie) (pad : Nat) : (t.encodeRunsC lg pad).map Prod.fst = t.encodeRuns lg pad := by
  rw [encodeRunsC, encodeRuns]
  split
  · rfl
  · exact map_bind_two (fastWriteCompressC_fst _ _ _ _ _ _ _) fun ⟨s, nl, f⟩ k => map_bind_same fun p => rfl

end CBT
