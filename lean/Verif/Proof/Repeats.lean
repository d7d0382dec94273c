import Verif.Model.Repeats
import Verif.Proof.ToolsTries

/-!
# Facts about repeated calls
-/

namespace CBT

theorem repeated_same {α : Type} {f : Nat → R α} {x : R α} (h : ∀ r, f r = x) : (n : Nat) → repeated f n = x
  | 0 => h 0
  | n + 1 => by
    rw [repeated, repeated_same h n, h]
    cases x <;> rfl

theorem getAll_lengths {seqs : List Nav} : {q : List Nat} → {ts : List Nav} → getAll seqs q = .ok ts → ts.length = q.length
  | [], ts, h => by rw [getAll] at h; cases h; rfl
  | j :: q, ts, h => by
    rw [getAll] at h
    obtain ⟨t, -, h⟩ := bind_ok h
    obtain ⟨ts, h2, h⟩ := bind_ok h
    cases h
    rw [List.length_cons, List.length_cons, getAll_lengths h2]

theorem repeatedLive_same {f : Nat → R (List Nat × Heap)} {k : Nat} (h : ∀ r, ∃ R H, f r = .ok (R, H) ∧ H.live = k) :
    (n : Nat) → repeatedLive f n = .ok ((n + 1) * k)
  | 0 => by
    obtain ⟨R, H, h1, h2⟩ := h 0
    rw [repeatedLive, h1, R_bind_ok]
    simp only [h2, Nat.zero_add, Nat.one_mul]
  | n + 1 => by
    obtain ⟨R, H, h1, h2⟩ := h (n + 1)
    rw [repeatedLive, repeatedLive_same h n, R_bind_ok, h1, R_bind_ok]
    simp only [h2, Nat.add_mul (n + 1) 1 k, Nat.one_mul]

end CBT
