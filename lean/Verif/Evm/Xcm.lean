import Verif.Evm.Codec

/-!
# ABI encoding of XCM locations

`precompiles/utils/src/data/xcm.rs`: `NetworkId`, `Junction`, `Junctions` and `MultiLocation` as EVM data.
Byte arrays of fixed size are lists whose length is part of `Fits`.
-/

namespace Verif.Evm

/-- `xcm::latest::NetworkId`. -/
inductive NetworkId where
  | byGenesis (id : List Byte)
  | byFork (blockNumber : Nat) (blockHash : List Byte)
  | polkadot | kusama | westend | rococo | wococo
  | ethereum (chainId : Nat)
  | bitcoinCore | bitcoinCash
deriving DecidableEq, Repr

/-- `xcm::latest::Junction`. -/
inductive Junction where
  | parachain (id : Nat)
  | accountId32 (network : Option NetworkId) (id : List Byte)
  | accountIndex64 (network : Option NetworkId) (index : Nat)
  | accountKey20 (network : Option NetworkId) (key : List Byte)
  | palletInstance (n : Nat)
  | generalIndex (n : Nat)
  | generalKey (length : Nat) (data : List Byte)
  | onlyChild
  | plurality
  | globalConsensus (network : NetworkId)
deriving DecidableEq, Repr

/-- `xcm::latest::MultiLocation`; `interior` is the list of its junctions. -/
structure MultiLocation where
  parents : Nat
  interior : List Junction
deriving DecidableEq, Repr

/-- `network_id_to_bytes` (`precompiles/utils/src/data/xcm.rs:31-95`). -/
def networkToBytes : Option NetworkId → List Byte
  | none => [0]
  | some (.byGenesis id) => [1] ++ id
  | some .polkadot => [2, 2]
  | some .kusama => [3, 3]
  | some (.byFork n h) => [4, 1] ++ beBytes 8 n ++ h
  | some .westend => [5, 4]
  | some .rococo => [6, 5]
  | some .wococo => [7, 6]
  | some (.ethereum c) => [8, 7] ++ beBytes 8 c
  | some .bitcoinCore => [9, 8]
  | some .bitcoinCash => [10, 9]

/-- The body of `network_id_from_bytes` after the selector byte (`xcm.rs:107-142`). -/
def networkBody (sel : Nat) (r : Reader) : R (Option NetworkId) := match sel with
  | 0 => pure none
  | 1 => do
    let (id, _) ← r.tillEnd
    ensure (id.length = 32) .revert
    pure (some (.byGenesis id))
  | 2 => pure (some .polkadot)
  | 3 => pure (some .kusama)
  | 4 => do
    let (n, r1) ← r.rawBytes 8
    let (h, _) ← r1.rawBytes 32
    pure (some (.byFork (ofBe n) h))
  | 5 => pure (some .westend)
  | 6 => pure (some .rococo)
  | 7 => pure (some .wococo)
  | 8 => do
    let (c, _) ← r.rawBytes 8
    pure (some (.ethereum (ofBe c)))
  | 9 => pure (some .bitcoinCore)
  | 10 => pure (some .bitcoinCash)
  | _ => .error .revert

/-- `network_id_from_bytes` (`xcm.rs:98-143`). -/
def networkFromBytes (b : List Byte) : R (Option NetworkId) := do
  ensure (b ≠ []) .revert
  let (sel, r) ← (Reader.new b).rawBytes 1
  networkBody (ofBe sel) r

/-- The bytes of a junction (`xcm.rs:242-298`); `Plurality` is `unreachable!`. -/
def junctionToBytes : Junction → R (List Byte)
  | .parachain id => pure ([0] ++ beBytes 4 id)
  | .accountId32 n id => pure ([1] ++ id ++ networkToBytes n)
  | .accountIndex64 n i => pure ([2] ++ beBytes 8 i ++ networkToBytes n)
  | .accountKey20 n k => pure ([3] ++ k ++ networkToBytes n)
  | .palletInstance n => pure ([4] ++ beBytes 1 n)
  | .generalIndex n => pure ([5] ++ beBytes 16 n)
  | .generalKey l d => pure ([6] ++ beBytes 1 l ++ d)
  | .onlyChild => pure [7]
  | .plurality => .error .panic
  | .globalConsensus n => pure ([9] ++ networkToBytes (some n))

/-- `copy_from_slice` into a 32 byte array: panics when the lengths differ. -/
def copy32 (d : List Byte) : R (List Byte) := if d.length = 32 then .ok d else .error .panic

/-- The parsing of a junction after the selector byte (`xcm.rs:162-239`). -/
def junctionBody (sel : Nat) (r : Reader) : R Junction := match sel with
  | 0 => do
    let (d, _) ← r.rawBytes 4
    pure (.parachain (ofBe d))
  | 1 => do
    let (a, r1) ← r.rawBytes 32
    let (n, _) ← r1.tillEnd
    let net ← networkFromBytes n
    pure (.accountId32 net a)
  | 2 => do
    let (i, r1) ← r.rawBytes 8
    let (n, _) ← r1.tillEnd
    let net ← networkFromBytes n
    pure (.accountIndex64 net (ofBe i))
  | 3 => do
    let (a, r1) ← r.rawBytes 20
    let (n, _) ← r1.tillEnd
    let net ← networkFromBytes n
    pure (.accountKey20 net a)
  | 4 => do
    let (d, _) ← r.rawBytes 1
    pure (.palletInstance (ofBe d))
  | 5 => do
    let (d, _) ← r.rawBytes 16
    pure (.generalIndex (ofBe d))
  | 6 => do
    let (l, r1) ← r.rawBytes 1
    let (rest, _) ← r1.tillEnd
    let d ← copy32 rest
    pure (.generalKey (ofBe l) d)
  | 7 => pure .onlyChild
  | 8 => .error .revert
  | 9 => do
    let (n, _) ← r.tillEnd
    let net ← networkFromBytes n
    let id ← okOr net .revert
    pure (.globalConsensus id)
  | _ => .error .revert

/-- The parsing of the bytes of a junction (`xcm.rs:146-240`). -/
def junctionFromBytes (b : List Byte) : R Junction := do
  ensure (b ≠ []) .revert
  let (sel, r) ← (Reader.new b).rawBytes 1
  junctionBody (ofBe sel) r

/-- `Junction::read` (`xcm.rs:146-240`): a byte string, parsed. -/
def readJunction (r : Reader) : R (Junction × Reader) := do
  let (b, r') ← Ty.bytes.read r
  let j ← junctionFromBytes b
  pure (j, r')

/-- `Junctions::read` (`xcm.rs:306-316`): at most eight. -/
def readJunctions (r : Reader) : R (List Junction × Reader) := do
  let (js, r') ← readVec readJunction r
  ensure (js.length ≤ 8) .revert
  pure (js, r')

/-- `MultiLocation::read` (`xcm.rs:329-333`): the dynamic tuple `(u8, Junctions)`. -/
def readLocation (r : Reader) : R (MultiLocation × Reader) := do
  let (inner, r') ← r.pointer
  let (p, r1) ← (Ty.uint 1).read inner
  let (js, _) ← readJunctions r1
  pure (⟨p, js⟩, r')

/-- The type of locations on the wire: `(uint8, bytes[])`. -/
def locationTy : Ty := .tup (.cons (.uint 1) (.one (.vec .bytes)))

/-- The bytes of all junctions, in order. -/
def junctionsToBytes : List Junction → R (List (List Byte))
  | [] => pure []
  | j :: js => do
    let b ← junctionToBytes j
    let bs ← junctionsToBytes js
    pure (b :: bs)

/-- `MultiLocation::write` (`xcm.rs:335-337`, with `318-321` and `242-298`). -/
def writeLocation (w : Writer) (l : MultiLocation) : R Writer := do
  let bs ← junctionsToBytes l.interior
  pure (locationTy.write w ((l.parents : Nat), bs))

/-- A network identifier within the ranges of its Rust type. -/
def NetworkId.Fits : NetworkId → Prop
  | .byGenesis id => id.length = 32
  | .byFork n h => n < 256 ^ 8 ∧ h.length = 32
  | .ethereum c => c < 256 ^ 8
  | _ => True

/-- A junction within the ranges of its Rust type. -/
def Junction.Fits : Junction → Prop
  | .parachain id => id < 256 ^ 4
  | .accountId32 n id => (∀ x, n = some x → x.Fits) ∧ id.length = 32
  | .accountIndex64 n i => (∀ x, n = some x → x.Fits) ∧ i < 256 ^ 8
  | .accountKey20 n k => (∀ x, n = some x → x.Fits) ∧ k.length = 20
  | .palletInstance n => n < 256
  | .generalIndex n => n < 256 ^ 16
  | .generalKey l d => l < 256 ∧ d.length = 32
  | .onlyChild => True
  | .plurality => True
  | .globalConsensus n => n.Fits

/-- A location within the ranges of its Rust type. -/
def MultiLocation.Fits (l : MultiLocation) : Prop :=
  l.parents < 256 ∧ l.interior.length ≤ 8 ∧ ∀ j ∈ l.interior, j.Fits

end Verif.Evm
