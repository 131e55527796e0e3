import Mathlib.Data.Rat.Defs
import Mathlib.Algebra.Order.Ring.Rat

/-!
# Reading wave files (k2/torch/csrc/wave_reader.cu)

A stream is the list of its bytes and a position.  A read that finds too few bytes and a seek to a negative position set
the fail bit; as the code checks the stream afterwards and does not clear it, these are failures.  A seek behind the end
succeeds for files and fails for strings; the next read fails in both cases.  Samples are exact rational numbers: they are
16 bit integers divided by 32768.  The sample rate is an integer; the code converts it to float.
-/

namespace Verif.Wave

/-- `is.read` of `n` bytes at position `pos`. -/
def readBytes (f : List UInt8) (pos n : Nat) : Option (List UInt8) :=
  if pos + n ≤ f.length then some ((f.drop pos).take n) else none

/-- The number with the given bytes, the lowest first. -/
def leNat : List UInt8 → Nat
  | [] => 0
  | b :: l => b.toNat + 256 * leNat l

/-- The signed number with `n` bytes at offset `off`. -/
def field (h : List UInt8) (off n : Nat) : Int :=
  let x := leNat ((h.drop off).take n)
  if x < 256 ^ n / 2 then x else (x : Int) - 256 ^ n

/-- What reading a file comes to. -/
inductive Out where
  /-- The samples and the sample rate. -/
  | samples (data : List ℚ) (rate : Int)
  /-- An exception. -/
  | error
  /-- Undefined behaviour: an overflow, or a write outside the memory. -/
  | undefined
deriving DecidableEq

/-- The result of `Validate`. -/
inductive Check where
  | ok
  | bad
  | overflow
deriving DecidableEq

/-- `WaveHeader::Validate`, lines 33-52, with the layout of lines 68-80; `h` are the 44 bytes. -/
def validate (h : List UInt8) : Check :=
  if field h 0 4 ≠ 0x46464952 then .bad
  else if field h 8 4 ≠ 0x45564157 then .bad
  else if field h 12 4 ≠ 0x20746d66 then .bad
  else if field h 16 4 ≠ 16 then .bad
  else if field h 20 2 ≠ 1 then .bad
  else if field h 22 2 ≠ 1 then .bad
  else
    let m := field h 24 4 * field h 22 2 * field h 34 2
    if m < -2147483648 ∨ 2147483647 < m then .overflow
    else if field h 28 4 ≠ m.tdiv 8 then .bad
    else if field h 32 2 ≠ (field h 22 2 * field h 34 2).tdiv 8 then .bad
    else if field h 34 2 ≠ 16 then .bad
    else .ok

/-- `WaveHeader::SeekToDataChunk`, lines 58-66.  The outer `none` means that the loop has not ended after `fuel` rounds,
the inner one that the stream has failed; otherwise the position and `subchunk2_size` are returned. -/
def seekData (f : List UInt8) : Nat → Nat → Int → Int → Option (Option (Nat × Int))
  | 0, _, _, _ => none
  | fuel + 1, pos, id, size =>
    if id = 0x61746164 then some (some (pos, size))
    else if (pos : Int) + size < 0 then some none
    else
      match readBytes f ((pos : Int) + size).toNat 8 with
      | none => some none
      | some b => seekData f fuel (((pos : Int) + size).toNat + 8) (field b 0 4) (field b 4 4)

/-- The samples in the bytes of the data chunk. -/
def decode : List UInt8 → List ℚ
  | a :: b :: l => ((field [a, b] 0 2 : Int) : ℚ) / 32768 :: decode l
  | _ => []

/-- Lines 100-107: the memory has room for `size / 2` samples, and `size` bytes are read into it.
`torch::empty` throws for a negative number; `is.read` of -1 bytes is taken as a failure. -/
def readData (f : List UInt8) (pos : Nat) (size rate : Int) : Out :=
  if size < 0 then .error
  else
    match readBytes f pos size.toNat with
    | none => .error
    | some b => if size.toNat ≤ 2 * (size.toNat / 2) then .samples (decode b) rate else .undefined

/-- `ReadWaveImpl`, lines 88-110. -/
def readWave (fuel : Nat) (f : List UInt8) : Option Out :=
  match readBytes f 0 44 with
  | none => some .error
  | some h =>
    match validate h with
    | .bad => some .error
    | .overflow => some .undefined
    | .ok =>
      match seekData f fuel 44 (field h 36 4) (field h 40 4) with
      | none => none
      | some none => some .error
      | some (some r) => some (readData f r.1 r.2 (field h 24 4))

/-- `ReadWave` with an expected sample rate, lines 123-128. -/
def readWaveRate (fuel : Nat) (f : List UInt8) (expected : Int) : Option Out :=
  match readWave fuel f with
  | some (.samples d r) => if r = expected then some (.samples d r) else some .error
  | o => o

end Verif.Wave
