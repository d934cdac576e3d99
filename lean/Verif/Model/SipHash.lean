import Verif.Model.Basic
/-!
# `std::hash::DefaultHasher` as used by `hash` (`src/funcs.rs:37-42`)

The hasher of the standard library is SipHash-1-3 with zero keys (`std::hash::DefaultHasher::new`). The byte stream is
the seed (`u64::hash`, 8 bytes little-endian) followed by the UTF-8 bytes of the text and `0xFF` (`str::hash`). The model
reproduces the three vectors of the repository's tests, see `Verif.Props.Funcs`.
-/

namespace Verif

/-- Internal state of SipHash. -/
structure SipState where
  v0 : UInt64
  v1 : UInt64
  v2 : UInt64
  v3 : UInt64

/-- Rotation to the left by `k` bits, `0 < k < 64`. -/
def rotl (x : UInt64) (k : UInt64) : UInt64 := (x <<< k) ||| (x >>> (64 - k))

/-- One SipRound. -/
def sipRound (s : SipState) : SipState :=
  let v0 := s.v0 + s.v1
  let v1 := rotl s.v1 13 ^^^ v0
  let v0 := rotl v0 32
  let v2 := s.v2 + s.v3
  let v3 := rotl s.v3 16 ^^^ v2
  let v0 := v0 + v3
  let v3 := rotl v3 21 ^^^ v0
  let v2 := v2 + v1
  let v1 := rotl v1 17 ^^^ v2
  let v2 := rotl v2 32
  ⟨v0, v1, v2, v3⟩

/-- Absorb one 64-bit word (one round). -/
def sipWord (s : SipState) (m : UInt64) : SipState :=
  let s := sipRound { s with v3 := s.v3 ^^^ m }
  { s with v0 := s.v0 ^^^ m }

/-- A word from at most eight bytes, little-endian. -/
def leWord : List UInt8 → UInt64
  | [] => 0
  | b :: bs => b.toUInt64 ||| (leWord bs <<< 8)

/-- Absorb all full words; the rest (fewer than eight bytes) is returned. The fuel is the number of bytes. -/
def sipFeed : Nat → SipState → List UInt8 → SipState × List UInt8
  | 0, s, bs => (s, bs)
  | n + 1, s, bs =>
    if bs.length < 8 then (s, bs) else sipFeed n (sipWord s (leWord (bs.take 8))) (bs.drop 8)

/-- SipHash-1-3 with zero keys. -/
def sipHash13 (bs : List UInt8) : UInt64 :=
  let init : SipState := ⟨0x736f6d6570736575, 0x646f72616e646f6d, 0x6c7967656e657261, 0x7465646279746573⟩
  let (s, rest) := sipFeed bs.length init bs
  let last := leWord rest ||| (UInt64.ofNat (bs.length % 256) <<< 56)
  let s := sipWord s last
  let s := { s with v2 := s.v2 ^^^ 0xff }
  let s := sipRound (sipRound (sipRound s))
  s.v0 ^^^ s.v1 ^^^ s.v2 ^^^ s.v3

/-- The eight bytes of a `u64`, little-endian. -/
def leBytes (n : Nat) : Nat → List UInt8
  | 0 => []
  | k + 1 => UInt8.ofNat (n % 256) :: leBytes (n / 256) k

/-- UTF-8 encoding of a string. -/
def utf8 (s : Str) : List UInt8 := s.flatMap String.utf8EncodeChar

/-- `hasher.finish()` for the given seed and text. -/
def hash64 (seed : Nat) (s : Str) : Nat := (sipHash13 (leBytes seed 8 ++ utf8 s ++ [0xff])).toNat

end Verif
