import Verif.Model.ToolsTries

/-!
What C93 asks of the formats of sdsl: more bits do not take fewer bytes. True of `bit_vector`, of `bit_vector_il` and of the rank supports, whose
sizes depend on the number of bits only and grow with it. Not part of the contracts elsewhere.
-/

namespace CBT.Spec

/-- A longer vector does not take fewer bytes. -/
def Grows (B : BvIO) : Prop := ∀ v w : BV, v.length ≤ w.length → (B.write v).length ≤ (B.write w).length

/-- Nor does the rank support of a longer vector. -/
def RankGrows (K : RankIO) : Prop := ∀ v w : BV, v.length ≤ w.length → (K.write (K.of v)).length ≤ (K.write (K.of w)).length

/-- All of the formats. -/
structure AllGrow (F : Formats) : Prop where
  bv : Grows F.bv
  il : ∀ b, Grows (F.il b)
  v : RankGrows F.v
  v5 : RankGrows F.v5
  rankIl : ∀ b, RankGrows (F.rankIl b)

end CBT.Spec
