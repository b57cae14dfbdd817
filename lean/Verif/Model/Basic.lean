/-
Shared vocabulary of the model: panics, bytes, bits, chunks, matrices.
Rust library behaviour that the code relies on is modelled here (std slices, `bitvec`, `ndarray`).
-/

namespace Sia

/-- Why a Rust call panicked (or otherwise aborted). One constructor per kind of site in /repo;
the sites are cited where the constructor is used. lib/sia/rust/**/*.rs. -/
inductive Panic where
  | tooLongPerturbation   -- watermarking/src/watermark.rs:23-25
  | tooLongSignature      -- watermarking/src/watermark.rs:28-30
  | tooLongText           -- watermarking/src/watermark.rs:33-35
  | tooShortWatermark     -- watermarking/src/watermark.rs:55-57
  | invalidUtf8           -- watermarking/src/watermark.rs:79 (`from_utf8(..).unwrap()`)
  | sliceOutOfRange       -- any `&v[a..b]` / `&s[a..b]` with bad bounds
  | indexOutOfRange       -- any `v[i]` with `i >= v.len()`
  | tooLongData           -- embedding/src/io/data.rs:17-19
  | tooShortData          -- embedding/src/io/data.rs:32-34
  | chunkLength           -- `chunk.try_into().unwrap()`, utils/src/bytes.rs:14 and 33
  | capacityBelowMinimum  -- embedding/src/lib.rs:16-18 (get_domain_capacity)
  | dataExceedsCapacity   -- embedding/src/io/steganography.rs:40-46
  | unwrapNone            -- `.unwrap()` on `None`
  | cellOutOfBounds       -- embedding/src/io/steganography.rs:143-145
  | ldpcBlockLength       -- assertion inside `labrador_ldpc` decode_bf: input length = n/8
  | dwtLength             -- assertion inside `dwt::transform`: length divisible by 2^level
  | arithOverflow         -- integer overflow (debug build)
  | shapeMismatch         -- `Array2::from_shape_vec(..).unwrap()` / `from_raw(..).unwrap()`
  | keyError              -- `.unwrap()` on a key or signature parse error
  | stackOverflow         -- unbounded recursion
  | fileError             -- `.unwrap()` on an IO / codec error (cli)
  | badArguments          -- command line that does not parse
  | exitOne               -- not a panic: `std::process::exit(1)`, cli/src/main.rs:25
  | divisionByZero        -- integer division or remainder by zero (every build), e.g. haar/mod.rs:24
  | capacityOverflow      -- `Vec` of more than `isize::MAX` bytes (`collect`), zernike/src/lib.rs:20
  | assertionFailed       -- `assert!` in the test helpers, utils/src/lib.rs
  | stdoutClosed          -- `println!` when standard output cannot be written (Rust std), e.g. process.rs:39
  deriving DecidableEq, Repr

/-- Result of a Rust call: a value or a panic. Every function of lib/sia/rust/**/*.rs. -/
abbrev Res (α : Type) := Except Panic α

/-- `slice::chunks(n)` for `n > 0`: consecutive pieces of length `n`, the last one possibly shorter.
(`chunks(0)` panics in Rust; every call in /repo has a positive constant.)
encoding/src/lib.rs:72, 116; three-bit-quantization/src/lib.rs:109, 114; utils/src/bytes.rs:13, 32. -/
def chunks {α : Type} (n : Nat) (l : List α) : List (List α) :=
  if _h : n = 0 ∨ l = [] then [] else l.take n :: chunks n (l.drop n)
termination_by l.length
decreasing_by
  have h1 : n ≠ 0 := fun e => _h (Or.inl e)
  have h2 : l ≠ [] := fun e => _h (Or.inr e)
  have h3 : 0 < l.length := List.length_pos_iff.mpr h2
  simp only [List.length_drop]
  omega

/-- The bits of a byte, least significant first: `u8::view_bits::<Lsb0>()` (bitvec).
three-bit-quantization/src/lib.rs:24, 95. -/
def byteBits (b : UInt8) : List Bool := (List.range 8).map fun i => b.toNat.testBit i

/-- The bit string of a byte vector: `BitVec::<u8, Lsb0>::from_vec` (bitvec).
encoding/src/lib.rs:77; embedding/src/io/steganography.rs:49. -/
def bytesBits (bs : List UInt8) : List Bool := bs.flatMap byteBits

/-- Number with the given bits, least significant first.
three-bit-quantization/src/lib.rs:88-92; embedding/src/io/steganography.rs:122-127. -/
def bitsNat : List Bool → Nat
  | [] => 0
  | b :: bs => b.toNat + 2 * bitsNat bs

/-- The byte with the given (at most 8) bits, least significant first, missing bits zero.
embedding/src/io/steganography.rs:122-127. -/
def bitsByte (bs : List Bool) : UInt8 := UInt8.ofNat (bitsNat bs)

/-- Storage of a `BitVec<u8, Lsb0>`: `as_raw_slice` / `into_vec` (bitvec); the unused bits of the last
byte are zero. three-bit-quantization/src/lib.rs:10-13; encoding/src/lib.rs:79. -/
def packBits (bs : List Bool) : List UInt8 := (chunks 8 bs).map bitsByte

/-- Checked slice `&v[a..b]`.
watermarking/src/watermark.rs:75-79; embedding/src/io/data.rs:36-47; encoding/src/lib.rs:104-144. -/
def slice {α : Type} (l : List α) (a b : Nat) : Res (List α) :=
  if a ≤ b ∧ b ≤ l.length then .ok ((l.drop a).take (b - a)) else .error .sliceOutOfRange

/-- `ndarray::Array2<α>`: dimensions (Axis 0, Axis 1) and entries. Entries outside the dimensions have
no meaning; all accesses of the model are guarded by the dimensions.
embedding/src/lib.rs:22-82; haar/mod.rs; watermarking/src/process.rs:28, 33. -/
structure Mat (α : Type) where
  rows : Nat
  cols : Nat
  get : Nat → Nat → α

/-- `mapv`. embedding/src/lib.rs:31, 54. -/
def Mat.map {α β : Type} (f : α → β) (m : Mat α) : Mat β := ⟨m.rows, m.cols, fun i j => f (m.get i j)⟩

/-- Assignment to one element. embedding/src/io/steganography.rs:58-79. -/
def Mat.set {α : Type} (m : Mat α) (r c : Nat) (v : α) : Mat α :=
  { m with get := fun i j => if i = r ∧ j = c then v else m.get i j }

end Sia
