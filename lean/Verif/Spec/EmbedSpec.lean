import Verif.Model.Embedding
import Verif.Spec.MatSpec
import Verif.Spec.LawfulFloat
import Verif.Spec.EncodingSpec

/-! Specification vocabulary for embedding and extraction (C22–C27). -/
namespace Sia
open LawfulFloat

/-- Bytes that the low-low domain of a square image of side `n` can hold at `levels` levels. -/
def domainBytes (n levels : Nat) : Nat := (n / 2 ^ levels) * (n / 2 ^ levels) / 8

/-- Length of the encoded form of a payload of `len` bytes (two headers of two bytes each, rate-1/2 code blocks at supported
capacities, nothing otherwise). -/
def encodedLength (cap len : Nat) : Nat :=
  if SupportedCapacity cap then (len + 4 + dataBytes cap - 1) / dataBytes cap * blockBytes cap else len + 4

/-- Relative slack of the embedding theorems: `0` for exact arithmetic, `2^-38 * L * (81/8)^L` for binary64. -/
noncomputable def embedSlack (F : Type) [FloatOps F] [LawfulFloat F] (L : Nat) : ℝ := u F * (2 ^ 15 * L * (81 / 8) ^ L)

/-- Geometry: a square image of side `n`, divisible by `2^levels`, whose domain holds at least 9 bytes. -/
structure EmbedGeometry (n levels : Nat) (image : Mat UInt8) : Prop where
  square : image.IsSquare n
  levels_pos : 1 ≤ levels
  levels_le : levels ≤ 30
  divisible : 2 ^ levels ∣ n
  capacity : 9 ≤ domainBytes n levels

/-- Signal conditions: the depth `d` dominates a later pixel noise of at most `t` and the rounding of pixels
(`d > 2^(levels+1) * (2t+1)` for exact arithmetic, where the slack is 0), and no pixel is close to 0 or 255. -/
structure SignalOK {F : Type} [FloatOps F] [LawfulFloat F] (n levels : Nat) (image : Mat UInt8) (depth : F) (t : ℝ) : Prop where
  depth_fin : fin depth
  depth_pos : 0 < val depth
  noise_nonneg : 0 ≤ t
  depth_large : 2 ^ levels * (t + 1 / 2) < (1 / 4 - embedSlack F levels) * val depth
  unsaturated : ∀ i < n, ∀ j < n,
    (3 / 4 + embedSlack F levels) * val depth / 2 ^ levels ≤ ((image.get i j).toNat : ℝ) ∧
    ((image.get i j).toNat : ℝ) ≤ 255 - (3 / 4 + embedSlack F levels) * val depth / 2 ^ levels

/-- Two images of side `n` differ by at most `t` in every pixel. -/
def WithinNoise (n : Nat) (t : ℝ) (a b : Mat UInt8) : Prop :=
  b.IsSquare n ∧ ∀ i < n, ∀ j < n, |((b.get i j).toNat : ℝ) - ((a.get i j).toNat : ℝ)| ≤ t

/-- Cell `o` of the domain is damaged: some pixel of its `2^levels x 2^levels` block was changed by more than `t`. -/
def CellDamaged (n levels : Nat) (t : ℝ) (a b : Mat UInt8) (o : Nat) : Prop :=
  ∃ i < n, ∃ j < n, i / 2 ^ levels = o / (n / 2 ^ levels) ∧ j / 2 ^ levels = o % (n / 2 ^ levels) ∧
    t < |((b.get i j).toNat : ℝ) - ((a.get i j).toNat : ℝ)|

end Sia
