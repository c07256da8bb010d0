import Verif.Prelude.Basic

/-!
# The Solidity ABI codec used by the EVM precompiles

`precompiles/utils/src/data.rs`: `EvmDataReader`, `EvmDataWriter` and the `EvmData` implementations for
integers, addresses, hashes, booleans, byte strings, arrays and tuples.

Modelling decisions
* A byte is `Fin 256`; a Rust slice is a list of bytes.
* `usize` is the 32 bit one of the wasm runtime.
* `u8 .. u128`, `U256`, `H256` and `Address` are all one type former `uint k` (`k` bytes, right aligned in
  a 32 byte word): their `read`/`write` are the same function of `k` (`k = 32` for `U256`/`H256`, `20` for
  `Address`).
* Every failure is `PrecompileFailure::Revert`, whose text is not modelled; slice indexing that would
  panic in Rust is `Err.panic`.
-/

namespace Verif.Evm

/-- A byte. -/
abbrev Byte := Fin 256

/-- `usize::MAX` on wasm32. -/
def usizeMax : Nat := 4294967295

/-- `to_be_bytes` of a `k` byte integer. -/
def beBytes : Nat → Nat → List Byte
  | 0, _ => []
  | k + 1, n => beBytes k (n / 256) ++ [⟨n % 256, Nat.mod_lt _ (by decide)⟩]

/-- `from_be_bytes` / `U256::from_big_endian`. -/
def ofBe (l : List Byte) : Nat := l.foldl (fun a b => a * 256 + b.val) 0

/-- `slice.get(start..end)`. -/
def getRange (l : List Byte) (s e : Nat) : Option (List Byte) :=
  if s ≤ e ∧ e ≤ l.length then some ((l.drop s).take (e - s)) else none

/-- `EvmDataReader` (`precompiles/utils/src/data.rs:83-86`). -/
structure Reader where
  input : List Byte
  cursor : Nat
deriving Repr, DecidableEq

namespace Reader

/-- `EvmDataReader::new` (`data.rs:90-92`). -/
def new (l : List Byte) : Reader := ⟨l, 0⟩

/-- `move_cursor` (`data.rs:187-198`). -/
def moveCursor (r : Reader) (len : Nat) : R ((Nat × Nat) × Reader) :=
  if r.cursor + len ≤ usizeMax then .ok ((r.cursor, r.cursor + len), { r with cursor := r.cursor + len })
  else .error .revert

/-- `read_raw_bytes` (`data.rs:143-152`); also the common part of every fixed width `EvmData::read`. -/
def rawBytes (r : Reader) (len : Nat) : R (List Byte × Reader) := do
  let (rg, r') ← r.moveCursor len
  let d ← okOr (getRange r.input rg.1 rg.2) .revert
  pure (d, r')

/-- `read_till_end` (`data.rs:173-182`).  The subtraction panics when the cursor is past the end. -/
def tillEnd (r : Reader) : R (List Byte × Reader) := do
  let len ← csub .panic r.input.length r.cursor
  r.rawBytes len

/-- `read::<U256>().map_err(..)?.try_into::<usize>().map_err(..)?`, used for offsets and lengths. -/
def usize (r : Reader) : R (Nat × Reader) := do
  let (w, r') ← r.rawBytes 32
  let n := ofBe w
  ensure (n ≤ usizeMax) .revert
  pure (n, r')

/-- `&self.input[offset..]`, which panics when the offset is past the end. -/
def sliceFrom (l : List Byte) (o : Nat) : R (List Byte) :=
  if o ≤ l.length then .ok (l.drop o) else .error .panic

/-- `read_pointer` (`data.rs:155-170`). -/
def pointer (r : Reader) : R (Reader × Reader) := do
  let (o, r') ← r.usize
  ensure (o < r.input.length) .revert
  let d ← sliceFrom r.input o
  pure (⟨d, 0⟩, r')

/-- `expect_arguments` (`data.rs:127-133`). -/
def expectArguments (r : Reader) (n : Nat) : R Unit :=
  ensure (r.cursor + n * 32 ≤ r.input.length) .revert

end Reader

/-- `read_selector` (`data.rs:95-115`), before the conversion to the enumeration of actions. -/
def readSelector (input : List Byte) : R Nat :=
  if input.length < 4 then .error .revert else .ok (ofBe (input.take 4))

/-- `new_skip_selector` (`data.rs:118-124`). -/
def newSkipSelector (input : List Byte) : R Reader :=
  if input.length < 4 then .error .revert else .ok (Reader.new (input.drop 4))

/-- `OffsetDatum` (`data.rs:214-222`). -/
structure Datum where
  pos : Nat
  data : List Byte
  shift : Nat
deriving Repr, DecidableEq

/-- `EvmDataWriter` (`data.rs:207-211`) without the selector. -/
structure Writer where
  data : List Byte
  offs : List Datum
deriving Repr, DecidableEq

/-- `output[pos..pos + 32]` overwritten by a 32 byte word (`data.rs:272-274`). -/
def overwrite (out : List Byte) (pos : Nat) (w : List Byte) : List Byte :=
  out.take pos ++ w ++ out.drop (pos + 32)

/-- `bake_offsets` (`data.rs:259-278`). -/
def bake : List Byte → List Datum → List Byte
  | out, [] => out
  | out, o :: os => bake (overwrite out o.pos (beBytes 32 (out.length - o.shift)) ++ o.data) os

namespace Writer

/-- `EvmDataWriter::new` (`data.rs:226-232`). -/
def empty : Writer := ⟨[], []⟩

/-- `build` without a selector (`data.rs:246-256`). -/
def build (w : Writer) : List Byte := bake w.data w.offs

/-- `build` with a selector (`data.rs:246-256`). -/
def buildSel (sel : Nat) (w : Writer) : List Byte := beBytes 4 sel ++ w.build

/-- `write_raw_bytes` (`data.rs:282-285`). -/
def raw (w : Writer) (l : List Byte) : Writer := { w with data := w.data ++ l }

/-- `write_pointer` (`data.rs:299-308`). -/
def pointer (w : Writer) (d : List Byte) : Writer :=
  { data := w.data ++ List.replicate 32 255
    offs := w.offs ++ [⟨w.data.length, d, 0⟩] }

/-- One iteration of the loop that writes array items (`data.rs:526-540`): the item is written by a writer
of its own, then its data is appended and its offsets are moved. -/
def item (inner it : Writer) : Writer :=
  { data := inner.data ++ it.data
    offs := inner.offs ++ it.offs.map fun o => ⟨o.pos + inner.data.length, o.data, o.shift + 32⟩ }

end Writer

mutual
/-- The types with an `EvmData` implementation.  `uint k` is any right aligned `k` byte value. -/
inductive Ty where
  | uint (k : Nat)
  | bool
  | bytes
  | vec (t : Ty)
  | tup (ts : Tys)
/-- Non-empty lists of types: the components of a tuple, or the arguments of a function. -/
inductive Tys where
  | one (t : Ty)
  | cons (t : Ty) (ts : Tys)
end

mutual
/-- The Rust values of a type. -/
def Ty.D : Ty → Type
  | .uint _ => Nat
  | .bool => Bool
  | .bytes => List Byte
  | .vec t => List t.D
  | .tup ts => ts.D
/-- The Rust values of a tuple. -/
def Tys.D : Tys → Type
  | .one t => t.D
  | .cons t ts => t.D × ts.D
end

mutual
/-- `has_static_size`. -/
def Ty.static : Ty → Bool
  | .uint _ => true
  | .bool => true
  | .bytes => false
  | .vec _ => false
  | .tup ts => ts.static
/-- `has_static_size` of a tuple (`data.rs:326-328`). -/
def Tys.static : Tys → Bool
  | .one t => t.static
  | .cons t ts => t.static && ts.static
end

/-- The loop `for _ in 0..array_size { array.push(item_reader.read()?) }` (`data.rs:516-518`). -/
def readN {α : Type} (f : Reader → R (α × Reader)) : Nat → Reader → R (List α × Reader)
  | 0, r => pure ([], r)
  | n + 1, r => do
    let (x, r1) ← f r
    let (xs, r2) ← readN f n r1
    pure (x :: xs, r2)

/-- `inner_reader.input.get(32..).ok_or(..)?` (`data.rs:508-514`). -/
def itemsFrom (l : List Byte) : R (List Byte) := if 32 ≤ l.length then .ok (l.drop 32) else .error .revert

/-- `Vec::<T>::read` (`data.rs:497-521`) for an arbitrary item reader. -/
def readVec {α : Type} (f : Reader → R (α × Reader)) (r : Reader) : R (List α × Reader) := do
  let (inner, r') ← r.pointer
  let (n, _) ← inner.usize
  let items ← itemsFrom inner.input
  let (vs, _) ← readN f n ⟨items, 0⟩
  pure (vs, r')

mutual
/-- `EvmData::read`: integers, hashes and addresses `data.rs:351-461`, `bool` `476-480`, arrays `497-521`,
`Bytes` `551-572`, tuples `330-337`. -/
def Ty.read : (t : Ty) → Reader → R (t.D × Reader)
  | .uint k, r => do
    let (w, r') ← r.rawBytes 32
    pure (ofBe (w.drop (32 - k)), r')
  | .bool, r => do
    let (w, r') ← r.rawBytes 32
    pure (w.any (fun b => b ≠ 0), r')
  | .bytes, r => do
    let (inner, r') ← r.pointer
    let (n, inner') ← inner.usize
    let (d, _) ← inner'.rawBytes n
    pure (d, r')
  | .vec t, r => readVec t.read r
  | .tup ts, r =>
    if ts.static then ts.read r
    else do
      let (inner, r') ← r.pointer
      let (v, _) ← ts.read inner
      pure (v, r')
/-- The components of a tuple, or the arguments of a function, one after the other. -/
def Tys.read : (ts : Tys) → Reader → R (ts.D × Reader)
  | .one t, r => t.read r
  | .cons t ts, r => do
    let (v, r1) ← t.read r
    let (vs, r2) ← ts.read r1
    pure ((v, vs), r2)
end

/-- The padding of `Bytes` to a multiple of 32 (`data.rs:577-588`). -/
def padded (l : List Byte) : List Byte :=
  let chunks := l.length / 32
  let size := if l.length % 32 = 0 then chunks * 32 else (chunks + 1) * 32
  l ++ List.replicate (size - l.length) 0

/-- The word written for a boolean (`data.rs:482-489`). -/
def boolWord (b : Bool) : List Byte := List.replicate 31 0 ++ [if b then 1 else 0]

mutual
/-- `EvmData::write`: integers, hashes and addresses `data.rs:362-468`, `bool` `482-489`, arrays `523-543`,
`Bytes` `574-595`, tuples `339-347`. -/
def Ty.write : (t : Ty) → Writer → t.D → Writer
  | .uint k, w, n => w.raw (List.replicate (32 - k) 0 ++ beBytes k n)
  | .bool, w, b => w.raw (boolWord b)
  | .bytes, w, l => w.pointer ((Writer.empty.raw (beBytes 32 l.length)).raw (padded l)).build
  | .vec t, w, vs =>
    w.pointer (vs.foldl (fun inner x => inner.item (t.write Writer.empty x))
      (Writer.empty.raw (beBytes 32 vs.length))).build
  | .tup ts, w, v => if ts.static then ts.write w v else w.pointer (ts.write Writer.empty v).build
/-- The components of a tuple, or the arguments of a function, one after the other. -/
def Tys.write : (ts : Tys) → Writer → ts.D → Writer
  | .one t, w, v => t.write w v
  | .cons t ts, w, v => ts.write (t.write w v.1) v.2
end

/-- An integer fits in `k` bytes. -/
def uintFits (k n : Nat) : Prop := k ≤ 32 ∧ n < 256 ^ k
/-- All items of an array fit. -/
def allFit {α : Type} (p : α → Prop) (vs : List α) : Prop := ∀ x ∈ vs, p x

mutual
/-- A value fits its type: integers are in range.  (Rust values always are.) -/
def Ty.Fits : (t : Ty) → t.D → Prop
  | .uint k, n => uintFits k n
  | .bool, _ => True
  | .bytes, _ => True
  | .vec t, vs => allFit t.Fits vs
  | .tup ts, v => ts.Fits v
/-- A tuple fits its type. -/
def Tys.Fits : (ts : Tys) → ts.D → Prop
  | .one t, v => t.Fits v
  | .cons t ts, v => t.Fits v.1 ∧ ts.Fits v.2
end

end Verif.Evm
