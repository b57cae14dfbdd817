import Verif.Spec.EmbedSpec
import Verif.Spec.EncodingSpec
import Verif.Spec.PipelineSpec

/-! Specification vocabulary for pictures that were tampered with after marking. -/
namespace Sia

/-- The record of `a` features can still be read from `received`: it occupies the first code blocks of the picture, and in each of
these at most two cells (squares of `2^levels x 2^levels` pixels) have a pixel that differs from the marked picture by more than `t`.
All other pixels, in particular those of the code blocks the record does not reach, may be anything. -/
def RecordReadable (n levels a : Nat) (t : ℝ) (marked received : Mat UInt8) : Prop :=
  ∀ i, i * dataBytes (domainBytes n levels) < recordBytes a + 4 → ∀ damaged : Finset Nat,
    (∀ k ∈ damaged, k < 8 * blockBytes (domainBytes n levels) ∧
      CellDamaged n levels t marked received (i * (8 * blockBytes (domainBytes n levels)) + k)) → damaged.card ≤ 2

end Sia
