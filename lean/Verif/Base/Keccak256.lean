import Verif.Base.Bytes
/-!
# Keccak-256

An executable Keccak-256 (the padding of the original submission, as used by Ethereum). No theorem about the minter depends
on it: the hash function is a parameter everywhere else. It is used to check constants of the code that are hashes.

The 1600-bit state is one number; lane `i = x + 5 y` occupies the bits from `64 i`. The helper `strictly` makes the kernel
evaluate a number before going on.
-/

namespace EvmMinter
namespace Keccak256

def strictly {α : Type} (n : Nat) (k : Nat → α) : α := Nat.rec (k 0) (fun m _ => k (m + 1)) n

def rows : Nat := 1 + 2 ^ 320 + 2 ^ 640 + 2 ^ 960 + 2 ^ 1280
def ones (n : Nat) : Nat := 2 ^ n - 1
def lowBits : Nat := 1 + 2 ^ 64 + 2 ^ 128 + 2 ^ 192 + 2 ^ 256

/-- Round constants. -/
def rc : List Nat := [
  0x0000000000000001, 0x0000000000008082, 0x800000000000808a, 0x8000000080008000, 0x000000000000808b,
  0x0000000080000001, 0x8000000080008081, 0x8000000000008009, 0x000000000000008a, 0x0000000000000088,
  0x0000000080008009, 0x000000008000000a, 0x000000008000808b, 0x800000000000008b, 0x8000000000008089,
  0x8000000000008003, 0x8000000000008002, 0x8000000000000080, 0x000000000000800a, 0x800000008000000a,
  0x8000000080008081, 0x8000000000008080, 0x0000000080000001, 0x8000000080008008]

/-- Rotation of lane `x + 5 y` (row by row), followed by its new position. -/
def rhoPi : List (Nat × Nat × Nat) := [
  (0, 0, 0), (1, 1, 10), (2, 62, 20), (3, 28, 5), (4, 27, 15),
  (5, 36, 16), (6, 44, 1), (7, 6, 11), (8, 55, 21), (9, 20, 6),
  (10, 3, 7), (11, 10, 17), (12, 43, 2), (13, 25, 12), (14, 39, 22),
  (15, 41, 23), (16, 45, 8), (17, 15, 18), (18, 21, 3), (19, 8, 13),
  (20, 18, 14), (21, 2, 24), (22, 61, 9), (23, 56, 19), (24, 14, 4)]

def rotl (x n : Nat) : Nat := ((x <<< n) &&& ones 64) ||| (x >>> (64 - n))

def theta (s : Nat) : Nat :=
  strictly ((s ^^^ (s >>> 320) ^^^ (s >>> 640) ^^^ (s >>> 960) ^^^ (s >>> 1280)) &&& ones 320) fun c =>
  -- lane x - 1
  strictly (((c <<< 64) &&& ones 320) ||| (c >>> 256)) fun l =>
  -- lane x + 1, rotated by one
  strictly ((c >>> 64) ||| ((c &&& ones 64) <<< 256)) fun r =>
  strictly ((((r <<< 1) &&& ones 320) &&& (ones 320 ^^^ lowBits)) ||| ((r >>> 63) &&& lowBits)) fun r1 =>
  s ^^^ ((l ^^^ r1) * rows)

def rhoPiStep (s : Nat) : List (Nat × Nat × Nat) → Nat → Nat
  | [], acc => acc
  | (i, r, j) :: t, acc =>
    strictly (acc ||| (rotl ((s >>> (64 * i)) &&& ones 64) r <<< (64 * j))) fun acc => rhoPiStep s t acc

def chi (b : Nat) : Nat :=
  strictly (((b >>> 64) &&& (ones 256 * rows)) ||| ((b <<< 256) &&& ((ones 64 <<< 256) * rows))) fun b1 =>
  strictly (((b1 >>> 64) &&& (ones 256 * rows)) ||| ((b1 <<< 256) &&& ((ones 64 <<< 256) * rows))) fun b2 =>
  b ^^^ ((ones 1600 ^^^ b1) &&& b2)

def rounds : List Nat → Nat → Nat
  | [], s => s
  | c :: t, s =>
    strictly (theta s) fun s =>
    strictly (rhoPiStep s rhoPi 0) fun s =>
    strictly (chi s ^^^ c) fun s => rounds t s

/-- Little-endian value. -/
def leNat : Bytes → Nat
  | [] => 0
  | b :: t => b.toNat + 256 * leNat t

/-- The message with its padding: `10*1`. -/
def pad (m : Bytes) : Bytes :=
  let q := 136 - m.length % 136
  if q = 1 then m ++ [0x81] else m ++ [1] ++ List.replicate (q - 2) 0 ++ [0x80]

def absorb : Nat → Bytes → Nat → Nat
  | 0, _, s => s
  | n + 1, m, s => strictly (s ^^^ leNat (m.take 136)) fun s => strictly (rounds rc s) fun s => absorb n (m.drop 136) s

def squeeze : Nat → Nat → Bytes
  | 0, _ => []
  | n + 1, s => UInt8.ofNat (s % 256) :: squeeze n (s / 256)

/-- Keccak-256. -/
def hash (m : Bytes) : Bytes := squeeze 32 (absorb ((pad m).length / 136) (pad m) 0)

/-- The bytes of an ASCII string. -/
def ascii (s : String) : Bytes := s.toList.map fun c => UInt8.ofNat c.toNat

/-- The digest of the empty message. -/
example : beNat (hash []) = 0xc5d2460186f7233c927e7db2dcc703c0e500b653ca82273b7bfad8045d85a470 := by decide +kernel

/-- The digest of "abc". -/
example : beNat (hash (ascii "abc")) = 0x4e03657aea45a94fc7d47ba826c8d667c0d1e6e33a64a036ec44f58fa12d6c45 := by
  decide +kernel

/-- A message of more than one block. -/
example : (hash (List.replicate 200 0xa3)).length = 32 := by decide +kernel

end Keccak256
end EvmMinter
