import Verif.Base.Keccak256
/-!
# The curve secp256k1

Executable recovery of public keys from ECDSA signatures (SEC 1, section 4.1.6) and decoding of public keys (section 2.3.4), on
numbers. No theorem about the minter depends on it: the curve is a parameter everywhere else. It is used in examples only.
-/

namespace EvmMinter
namespace Secp256k1Curve
open Keccak256 (strictly)

/-- The field. -/
def p : Nat := 0xFFFFFFFFFFFFFFFFFFFFFFFFFFFFFFFFFFFFFFFFFFFFFFFFFFFFFFFEFFFFFC2F
/-- The order of the group. -/
def n : Nat := 0xFFFFFFFFFFFFFFFFFFFFFFFFFFFFFFFEBAAEDCE6AF48A03BBFD25E8CD0364141
def gx : Nat := 0x79BE667EF9DCBBAC55A06295CE870B07029BFCDB2DCE28D959F2815B16F81798
def gy : Nat := 0x483ADA7726A3C4655DA4FBFC0E1108A8FD17B448A68554199C47D08FFB10D4B8

/-- `acc * b ^ e` modulo `m`, for `e < 2 ^ fuel`. -/
def powMod (m : Nat) : Nat → Nat → Nat → Nat → Nat
  | 0, _, _, acc => acc
  | fuel + 1, b, e, acc =>
    strictly (if e % 2 = 1 then acc * b % m else acc) fun acc =>
    strictly (b * b % m) fun b =>
    strictly (e / 2) fun e => powMod m fuel b e acc

/-- Inverse modulo a prime. -/
def inv (m a : Nat) : Nat := powMod m 256 a (m - 2) 1

def sub (a b : Nat) : Nat := (a + p - b) % p

/-- Doubling in Jacobian coordinates. -/
def dbl {α : Type} (x y z : Nat) (k : Nat → Nat → Nat → α) : α :=
  strictly (x * x % p) fun a =>
  strictly (y * y % p) fun b =>
  strictly (b * b % p) fun c =>
  strictly (2 * sub (sub ((x + b) * (x + b) % p) a) c % p) fun d =>
  strictly (3 * a % p) fun e =>
  strictly (sub (e * e % p) (2 * d % p)) fun x' =>
  strictly (sub (e * sub d x' % p) (8 * c % p)) fun y' =>
  strictly (2 * y * z % p) fun z' => k x' y' z'

/-- Addition in Jacobian coordinates; `z = 0` is the neutral element. -/
def add {α : Type} (x₁ y₁ z₁ x₂ y₂ z₂ : Nat) (k : Nat → Nat → Nat → α) : α :=
  if z₁ = 0 then k x₂ y₂ z₂
  else if z₂ = 0 then k x₁ y₁ z₁
  else
    strictly (z₁ * z₁ % p) fun a =>
    strictly (z₂ * z₂ % p) fun b =>
    strictly (x₁ * b % p) fun u₁ =>
    strictly (y₁ * z₂ * b % p) fun s₁ =>
    strictly (sub (x₂ * a % p) u₁) fun h =>
    strictly (sub (y₂ * z₁ * a % p) s₁) fun r =>
    if h = 0 then
      if r = 0 then dbl x₁ y₁ z₁ k else k 1 1 0
    else
      strictly (h * h % p) fun hh =>
      strictly (h * hh % p) fun hhh =>
      strictly (u₁ * hh % p) fun v =>
      strictly (sub (sub (r * r % p) hhh) (2 * v % p)) fun x' =>
      strictly (sub (r * sub v x' % p) (s₁ * hhh % p)) fun y' =>
      strictly (h * z₁ * z₂ % p) fun z' => k x' y' z'

/-- `e₁ P + e₂ Q` for `P = (x₁, y₁)`, `Q = (x₂, y₂)`, `P + Q = (x₃ : y₃ : z₃)`, from the highest bit. -/
def mul {α : Type} (e₁ e₂ x₁ y₁ x₂ y₂ x₃ y₃ z₃ : Nat) (k : Nat → Nat → Nat → α) : Nat → Nat → Nat → Nat → α
  | 0, x, y, z => k x y z
  | i + 1, x, y, z =>
    dbl x y z fun x y z =>
    strictly (e₁ >>> i % 2) fun b₁ =>
    strictly (e₂ >>> i % 2) fun b₂ =>
    if b₁ = 0 then
      if b₂ = 0 then mul e₁ e₂ x₁ y₁ x₂ y₂ x₃ y₃ z₃ k i x y z
      else add x y z x₂ y₂ 1 fun x y z => mul e₁ e₂ x₁ y₁ x₂ y₂ x₃ y₃ z₃ k i x y z
    else if b₂ = 0 then add x y z x₁ y₁ 1 fun x y z => mul e₁ e₂ x₁ y₁ x₂ y₂ x₃ y₃ z₃ k i x y z
    else add x y z x₃ y₃ z₃ fun x y z => mul e₁ e₂ x₁ y₁ x₂ y₂ x₃ y₃ z₃ k i x y z

/-- The y coordinate with the given parity. -/
def lift {α : Type} (x : Nat) (odd : Bool) (k : Option Nat → α) : α :=
  strictly ((x * x % p * x + 7) % p) fun c =>
  strictly (powMod p 256 c ((p + 1) / 4) 1) fun y =>
  if y * y % p = c then k (some (if (y % 2 == 1) == odd then y else p - y)) else k none

/-- The coordinates of a public key. -/
def decode (b : Bytes) : Option Bytes :=
  match b with
  | 4 :: t => if t.length = 64 then
      let x := beNat (t.take 32)
      let y := beNat (t.drop 32)
      if x < p ∧ y < p ∧ y * y % p = (x * x * x + 7) % p then some t else none
    else none
  | c :: t => if (c = 2 ∨ c = 3) ∧ t.length = 32 then
      strictly (beNat t) fun x => if x < p then lift x (c == 3) fun
        | some y => some (t ++ toBE 32 y)
        | none => none
      else none
    else none
  | [] => none

/-- The public key that has the signature of the digest. -/
def recover (digest : Nat) (sig : Bytes) (yOdd xReduced : Bool) : Option Bytes :=
  if sig.length = 64 then
    strictly (beNat (sig.take 32)) fun r =>
    strictly (beNat (sig.drop 32)) fun s =>
    if 0 < r ∧ r < n ∧ 0 < s ∧ s < n then
      strictly (if xReduced then r + n else r) fun x =>
      if x < p then
        lift x yOdd fun
          | none => none
          | some y =>
            strictly y fun y =>
            strictly (inv n r) fun ri =>
            strictly ((n - digest % n) * ri % n) fun e₁ =>
            strictly (s * ri % n) fun e₂ =>
            add gx gy 1 x y 1 fun x₃ y₃ z₃ =>
            mul e₁ e₂ gx gy x y x₃ y₃ z₃ (fun x y z =>
              if z = 0 then none
              else
                strictly (inv p z) fun zi =>
                strictly (zi * zi % p) fun zz =>
                some (toBE 32 (x * zz % p) ++ toBE 32 (y * zz % p * zi % p))) 256 1 1 0
      else none
    else none
  else none

end Secp256k1Curve
end EvmMinter
