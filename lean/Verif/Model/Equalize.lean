import Verif.Model.Watermarking

/-! Model of `imageproc::contrast::equalize_histogram` (a dependency, called at
`lib/sia/rust/watermarking/src/process.rs:31` and `:83`), in exact arithmetic and as version 0.23 computes it, in `f32`. The source of the
dependency is not in /repo. Its documentation describes: every sample `v` is replaced by `floor(255 * (number of samples <= v) / (number of
samples))`. The pipeline theorems do not use it except where they say so: they hold for every `Deps.equalize`. -/
namespace Sia

/-- Number of samples of at most `v` (`cumulative_histogram`). watermarking/src/process.rs:31, 83. -/
def cumulative (raw : List UInt8) (v : UInt8) : Nat := raw.countP (fun w => decide (w ≤ v))

/-- `equalize_histogram` on the samples, in exact arithmetic (the library divides in `f32`).
watermarking/src/process.rs:31, 83. -/
def equalizeExact (raw : List UInt8) : List UInt8 :=
  raw.map fun v => UInt8.ofNat (255 * cumulative raw v / raw.length)

/-- Exponent of the unit in the last place of binary32 at magnitude `|x|` (subnormals: `-149`). watermarking/src/process.rs:31, 83. -/
def ulpExp32 (x : ℚ) : ℤ := max (Int.log 2 |x| - 23) (-149)

/-- IEEE 754 binary32 round-to-nearest-even, without overflow (all numbers here are below `2^33`). watermarking/src/process.rs:31, 83. -/
def rne32 (x : ℚ) : ℚ :=
  if x = 0 then 0 else (rneInt (x / (2 : ℚ) ^ ulpExp32 x) : ℚ) * (2 : ℚ) ^ ulpExp32 x

/-- New grey level of a sample with `n` of `total` samples at most as bright, in `f32`:
`f32::min(255f32, 255f32 * (n as f32 / total as f32)) as u8` (imageproc 0.23). watermarking/src/process.rs:31, 83. -/
def equalizeLevel (n total : Nat) : UInt8 :=
  UInt8.ofNat ⌊min 255 (rne32 (255 * rne32 (rne32 n / rne32 total)))⌋.toNat

/-- `equalize_histogram` on the samples as imageproc 0.23 computes it. Simplification: the counters of the histogram are `u32`, here they
have no bound (the same for fewer than `2^32` samples). watermarking/src/process.rs:31, 83. -/
def equalizeSingle (raw : List UInt8) : List UInt8 := raw.map fun v => equalizeLevel (cumulative raw v) raw.length

end Sia
