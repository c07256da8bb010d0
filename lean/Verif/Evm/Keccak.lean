import Verif.Evm.Codec

/-!
# Keccak-256

The hash behind function selectors, event topics and type hashes: `keccak256!` and `#[generate_function_selector]`
(`precompiles/macro`, used at `balances-erc20/src/lib.rs:52-61, 159-177`, `assets-erc20/src/lib.rs:49-52, 60-79`).
Written after the Keccak reference (rate 1088 bits, padding byte 1, 24 rounds); 64 bit lanes are natural numbers.
-/

namespace Verif.Evm.Keccak

/-- `f n`, with `n` evaluated first. -/
def force {α : Type} (n : Nat) (f : Nat → α) : α :=
  Nat.rec (f 0) (fun k _ => f (Nat.succ k)) n

theorem force_eq {α : Type} (n : Nat) (f : Nat → α) : force n f = f n := by
  cases n <;> rfl

/-- `f l`, with the members of `l` evaluated first. -/
def forceL {α : Type} : List Nat → (List Nat → α) → α
  | [], f => f []
  | x :: l, f => force x fun y => forceL l fun m => f (y :: m)

theorem forceL_eq {α : Type} (l : List Nat) (f : List Nat → α) : forceL l f = f l := by
  induction l generalizing f with
  | nil => rfl
  | cons x l ih => rw [forceL, force_eq, ih]

/-- Rotation of a 64 bit lane to the left. -/
def rotl (x k : Nat) : Nat := (x <<< k) % 2 ^ 64 ||| x >>> (64 - k)

/-- A lane. -/
def lane (a : List Nat) (i : Nat) : Nat := a.getD i 0

/-- The rotation offsets, lane `x + 5 y`. -/
def offsets : List Nat :=
  [0, 1, 62, 28, 27, 36, 44, 6, 55, 20, 3, 10, 43, 25, 39, 41, 45, 15, 21, 8, 18, 2, 61, 56, 14]

/-- The round constants. -/
def constants : List Nat :=
  [0x0000000000000001, 0x0000000000008082, 0x800000000000808A, 0x8000000080008000, 0x000000000000808B, 0x0000000080000001,
   0x8000000080008081, 0x8000000000008009, 0x000000000000008A, 0x0000000000000088, 0x0000000080008009, 0x000000008000000A,
   0x000000008000808B, 0x800000000000008B, 0x8000000000008089, 0x8000000000008003, 0x8000000000008002, 0x8000000000000080,
   0x000000000000800A, 0x800000008000000A, 0x8000000080008081, 0x8000000000008080, 0x0000000080000001, 0x8000000080008008]

/-- The column parities. -/
def parity (a : List Nat) : List Nat :=
  (List.range 5).map fun x => lane a x ^^^ lane a (x + 5) ^^^ lane a (x + 10) ^^^ lane a (x + 15) ^^^ lane a (x + 20)

/-- Theta, given the parities. -/
def theta (a c : List Nat) : List Nat :=
  (List.range 25).map fun i => lane a i ^^^ lane c ((i % 5 + 4) % 5) ^^^ rotl (lane c ((i % 5 + 1) % 5)) 1

/-- Rho and pi: the lane at `(y, 2x + 3y)` is the one at `(x, y)`, rotated; so the one at `(x, y)` comes from
`(x + 3y, x)`. -/
def rhoPi (a : List Nat) : List Nat :=
  (List.range 25).map fun i =>
    let j := (i % 5 + 3 * (i / 5)) % 5 + 5 * (i % 5)
    rotl (lane a j) (offsets.getD j 0)

/-- Chi. -/
def chi (a : List Nat) : List Nat :=
  (List.range 25).map fun i =>
    lane a i ^^^ ((2 ^ 64 - 1 - lane a ((i % 5 + 1) % 5 + 5 * (i / 5))) &&& lane a ((i % 5 + 2) % 5 + 5 * (i / 5)))

/-- Iota. -/
def iota (a : List Nat) (rc : Nat) : List Nat := match a with
  | [] => []
  | x :: l => (x ^^^ rc) :: l

/-- One round. -/
def round (a : List Nat) (rc : Nat) : List Nat :=
  forceL (parity a) fun c => forceL (theta a c) fun b => forceL (rhoPi b) fun d => forceL (iota (chi d) rc) fun e => e

/-- The permutation. -/
def permute (a : List Nat) : List Nat := constants.foldl (fun a rc => forceL a fun b => round b rc) a

/-- Little-endian value of some bytes. -/
def ofLe : List Byte → Nat
  | [] => 0
  | b :: l => b.val + 256 * ofLe l

/-- The lanes of a block of 136 bytes. -/
def lanes : Nat → List Byte → List Nat
  | 0, _ => []
  | n + 1, l => ofLe (l.take 8) :: lanes n (l.drop 8)

/-- Padding to a multiple of 136 bytes: a byte 1, zeros, and the top bit of the last byte. -/
def pad (l : List Byte) : List Byte :=
  if l.length % 136 = 135 then l ++ [0x81]
  else l ++ [1] ++ List.replicate (134 - l.length % 136) 0 ++ [0x80]

/-- Absorb `n` blocks. -/
def absorb : Nat → List Byte → List Nat → List Nat
  | 0, _, a => a
  | n + 1, l, a =>
    absorb n (l.drop 136) (permute (List.zipWith (· ^^^ ·) a (lanes 17 (l.take 136) ++ List.replicate 8 0)))

/-- The little-endian bytes of a lane. -/
def laneBytes : Nat → Nat → List Nat
  | 0, _ => []
  | n + 1, v => v % 256 :: laneBytes n (v / 256)

/-- The number with the given digits, base 256. -/
def digits (l : List Nat) : Nat := l.foldl (fun a d => force (256 * a + d) id) 0

/-- `keccak_256`, as a number of 32 bytes, big-endian. -/
def keccak256 (l : List Byte) : Nat :=
  digits (((absorb ((pad l).length / 136) (pad l) (List.replicate 25 0)).take 4).flatMap (laneBytes 8))

/-- The hash of no bytes. -/
theorem keccak_empty : keccak256 [] = 0xc5d2460186f7233c927e7db2dcc703c0e500b653ca82273b7bfad8045d85a470 := by
  decide +kernel

end Verif.Evm.Keccak
