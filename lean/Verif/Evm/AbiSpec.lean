import Verif.Evm.Codec

/-!
# Specification: the Solidity contract ABI encoding

Written from the Solidity ABI specification, independently of the writer of `Codec.lean`: values of static
types are encoded in place; a dynamic value is replaced by the offset of its encoding, which follows the
heads; an array is its length followed by the encoding of the sequence of its items; a byte string is its
length followed by its bytes padded with zeros to a multiple of 32.
-/

namespace Verif.Evm.Abi

/-- A part of a sequence: whether it is static, and its encoding. -/
structure Part where
  static : Bool
  enc : List Byte

/-- Length of a head: the encoding itself when static, one word otherwise. -/
def headLen (p : Part) : Nat := if p.static then p.enc.length else 32

/-- Heads and tails of a sequence; the first tail is at offset `off`. -/
def seqFrom (off : Nat) : List Part → List Byte × List Byte
  | [] => ([], [])
  | p :: ps =>
    if p.static then (p.enc ++ (seqFrom off ps).1, (seqFrom off ps).2)
    else (beBytes 32 off ++ (seqFrom (off + p.enc.length) ps).1, p.enc ++ (seqFrom (off + p.enc.length) ps).2)

/-- `enc((X1, .., Xn)) = head(X1) .. head(Xn) tail(X1) .. tail(Xn)`. -/
def seq (ps : List Part) : List Byte :=
  let off := (ps.map headLen).sum
  (seqFrom off ps).1 ++ (seqFrom off ps).2

/-- A `k` byte integer, left padded to 32 bytes. -/
def encUint (k n : Nat) : List Byte := List.replicate (32 - k) 0 ++ beBytes k n

/-- Smallest multiple of 32 that is at least `n`. -/
def roundUp (n : Nat) : Nat := (n + 31) / 32 * 32

/-- Bytes followed by zeros up to a multiple of 32. -/
def encBytes (l : List Byte) : List Byte :=
  beBytes 32 l.length ++ l ++ List.replicate (roundUp l.length - l.length) 0

/-- A boolean is the integer 0 or 1. -/
def encBool (b : Bool) : List Byte := beBytes 32 (if b then 1 else 0)

/-- An array: length, then the sequence of its items. -/
def encVec {α : Type} (static : Bool) (f : α → List Byte) (vs : List α) : List Byte :=
  beBytes 32 vs.length ++ seq (vs.map fun v => ⟨static, f v⟩)

mutual
/-- The ABI encoding of a value. -/
def encode : (t : Ty) → t.D → List Byte
  | .uint k, n => encUint k n
  | .bool, b => encBool b
  | .bytes, l => encBytes l
  | .vec t, vs => encVec t.static (encode t) vs
  | .tup ts, v => seq (parts ts v)
/-- The parts of a tuple, or the arguments of a function. -/
def parts : (ts : Tys) → ts.D → List Part
  | .one t, v => [⟨t.static, encode t v⟩]
  | .cons t ts, v => ⟨t.static, encode t v.1⟩ :: parts ts v.2
end

/-- The calldata of a function: selector, then the sequence of the arguments. -/
def calldata (sel : Nat) (ts : Tys) (v : ts.D) : List Byte := beBytes 4 sel ++ seq (parts ts v)

end Verif.Evm.Abi
