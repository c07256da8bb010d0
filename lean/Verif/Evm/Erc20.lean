import Verif.Evm.Codec
import Verif.Evm.AbiSpec
import Verif.Prelude.Ledger

/-!
# Common parts of the ERC-20 precompiles

`precompiles/utils/src/lib.rs` (contexts, modifiers, logs, `try_dispatch`), the host functions for hashing and
signatures, and the native currency (`pallet_balances` of `polkadot-v0.9.38`) behind
`precompiles/balances-erc20` and the deposits of `pallet_assets`.

Modelling decisions
* Addresses are numbers below `2^160`, accounts are numbers; `AddressMapping` is an arbitrary function.
* Gas is left out here: running out of gas is one more way to fail, with rollback.  `Evm/Gas.lean` adds it.
* The call filter of the runtime is a parameter (`Rt.filter`); `Evm/Deployed.lean` gives the one of the deployed runtimes.
-/

namespace Verif.Evm

/-- The bytes of an ASCII string. -/
def ascii (s : String) : List Byte := s.toList.map fun c => ⟨c.toNat % 256, Nat.mod_lt _ (by decide)⟩

/-- Host functions: `keccak_256`, and `secp256k1_ecdsa_recover` (public key bytes). -/
structure Crypto where
  keccak : List Byte → Nat
  keccak_lt : ∀ x, keccak x < 256 ^ 32
  recover : (r s v digest : Nat) → Option (List Byte)

/-- The calls the precompiles dispatch: `pallet_balances::transfer`; `transfer`, `transfer_approved`, `approve_transfer`,
`cancel_approval`, `mint`, `burn` of `pallet_assets`. -/
inductive Disp where
  | native | transfer | transferApproved | approveTransfer | cancelApproval | mint | burn
deriving Repr, DecidableEq

/-- Runtime configuration seen by the precompiles. -/
structure Rt where
  /-- `AddressMapping::into_account_id` (`runtime/parallel/src/lib.rs:854`) -/
  acct : Nat → Nat
  /-- `ChainId` -/
  chainId : Nat
  /-- `ExistentialDeposit` -/
  ed : Nat
  /-- `DustRemoval` (`runtime/parallel/src/lib.rs:762`): the treasury account -/
  treasury : Nat
  crypto : Crypto
  /-- whether `BaseCallFilter` (`runtime/parallel/src/lib.rs:306-354`) lets a signed origin make the call -/
  filter : Disp → Bool

/-- What a precompile sees of the EVM call (`PrecompileHandle`), and the time of the block in milliseconds. -/
structure Ctx where
  caller : Nat
  address : Nat
  codeAddress : Nat
  value : Nat
  isStatic : Bool
  now : Nat
deriving Repr, DecidableEq

/-- The first topic of a log. -/
inductive Event where
  | transfer | approval | deposit | withdrawal
deriving Repr, DecidableEq

/-- A log: emitting address, event, indexed addresses, data. -/
structure Log where
  address : Nat
  event : Event
  topics : List Nat
  data : List Byte
deriving Repr, DecidableEq

/-- The result of a successful call: new state, returned bytes, logs. -/
structure Out (S : Type) where
  st : S
  ret : List Byte
  logs : List Log

/-- `FunctionModifier` (`precompiles/utils/src/lib.rs:231-239`). -/
inductive Modifier where
  | nonPayable | payable | view
deriving Repr, DecidableEq

/-- `check_function_modifier` (`precompiles/utils/src/lib.rs:422-436`). -/
def checkModifier (cx : Ctx) (m : Modifier) : R Unit := do
  ensure (¬ (cx.isStatic = true ∧ m ≠ .view)) .revert
  ensure (¬ (m ≠ .payable ∧ cx.value > 0)) .revert

/-- `EvmData::read` of an integer or address of `k` bytes, with its plain type (`data.rs:351-461`). -/
def readUint (k : Nat) (r : Reader) : R (Nat × Reader) := do
  let (w, r') ← r.rawBytes 32
  pure (ofBe (w.drop (32 - k)), r')

/-- `EvmDataWriter::new().write(n).build()` for a `U256`, `H256`. -/
def outWord (n : Nat) : List Byte := ((Ty.uint 32).write Writer.empty n).build

/-- `EvmDataWriter::new().write(true).build()`. -/
def outBool (b : Bool) : List Byte := (Ty.bool.write Writer.empty b).build

/-- `EvmDataWriter::new().write(n).build()` for a `u8`. -/
def outU8 (n : Nat) : List Byte := ((Ty.uint 1).write Writer.empty n).build

/-- `EvmDataWriter::new().write::<Bytes>(..).build()`. -/
def outBytes (b : List Byte) : List Byte := (Ty.bytes.write Writer.empty b).build

/-- Every error becomes a revert. -/
def orRevert {α : Type} (x : R α) : R α :=
  match x with
  | .ok a => .ok a
  | .error _ => .error .revert

/-- `try_dispatch` (`precompiles/utils/src/lib.rs:171-207`): `call.dispatch(origin)` of a signed origin applies the call
filter; every error of the dispatched call is a revert. -/
def dispatch {α : Type} (rt : Rt) (d : Disp) (x : R α) : R α :=
  if rt.filter d = true then orRevert x else .error .revert

/-- `u256_to_amount` (`balances-erc20/src/lib.rs:578-582`, `assets-erc20/src/lib.rs:551-555`). -/
def u256ToAmount (v : Nat) : R Nat := if v ≤ maxU128 then .ok v else .error .revert

/-- `u256_to_amount(v).unwrap_or_else(|_| Bounded::max_value())`. -/
def saturate (v : Nat) : Nat := if v ≤ maxU128 then v else maxU128

/-! ## The native currency -/

/-- Balances of the native currency: free and reserved balance, the largest lock (`misc_frozen`), whether the
account is still used by other pallets (and so may not be removed), and the total issuance. -/
structure Native where
  free : Nat → Nat
  resv : Nat → Nat
  frozen : Nat → Nat
  pinned : Nat → Bool
  iss : Nat

/-- `usable_balance`. -/
def Native.usable (n : Native) (a : Nat) : Nat := n.free a - n.frozen a

/-- Remove an account whose total balance is below the existential deposit (`post_mutation`, `DustCleaner`): the
remainder goes to the treasury, which is assumed to exist. -/
def Native.reap (n : Native) (treasury a : Nat) : Native :=
  let dust := n.free a + n.resv a
  let free1 := upd n.free a 0
  { n with free := upd free1 treasury (free1 treasury + dust), resv := upd n.resv a 0 }

/-- `pallet_balances::transfer` (`AllowDeath`) of `polkadot-v0.9.38`. -/
def Native.transfer (rt : Rt) (n : Native) (src dst amt : Nat) : R Native :=
  if amt = 0 ∨ src = dst then .ok n
  else do
    ensure (amt ≤ n.free src) .noFunds
    ensure (n.free dst + amt ≤ maxU128) .overflow
    ensure (rt.ed ≤ n.free dst + amt + n.resv dst) .tokenError
    ensure (n.frozen src ≤ n.free src - amt) .tokenError
    ensure (n.pinned src = false ∨ rt.ed ≤ n.free src - amt + n.resv src) .keepAlive
    let n1 := { n with free := upd (upd n.free src (n.free src - amt)) dst (n.free dst + amt) }
    if n.free src - amt + n.resv src < rt.ed then pure (n1.reap rt.treasury src) else pure n1

/-! ## Permits (EIP-2612) -/

/-- `PERMIT_DOMAIN` (`balances-erc20/src/eip2612.rs:27-29`, `assets-erc20/src/eip2612.rs:39-41`). -/
def permitDomain (c : Crypto) : Nat :=
  c.keccak (ascii "EIP712Domain(string name,string version,uint256 chainId,address verifyingContract)")

/-- `PERMIT_TYPEHASH` (`balances-erc20/src/eip2612.rs:22-24`, `assets-erc20/src/eip2612.rs:34-36`). -/
def permitTypehash (c : Crypto) : Nat :=
  c.keccak (ascii "Permit(address owner,address spender,uint256 value,uint256 nonce,uint256 deadline)")

/-- The arguments of the domain separator: `(bytes32, bytes32, bytes32, uint256, address)`. -/
def domainTys : Tys := .cons (.uint 32) (.cons (.uint 32) (.cons (.uint 32) (.cons (.uint 32) (.one (.uint 20)))))

/-- Five words: three `H256`, a `U256`, an `Address`. -/
def domainEnc (a b c d e : Nat) : List Byte :=
  (domainTys.write Writer.empty ((a : Nat), (b : Nat), (c : Nat), (d : Nat), (e : Nat))).build

/-- The bytes hashed to the domain separator (`balances-erc20/src/eip2612.rs:44-60`,
`assets-erc20/src/eip2612.rs:131-155`). -/
def domainBytes (rt : Rt) (name : List Byte) (address : Nat) : List Byte :=
  domainEnc (permitDomain rt.crypto) (rt.crypto.keccak name) (rt.crypto.keccak (ascii "1")) rt.chainId address

/-- `compute_domain_separator` (`balances-erc20/src/eip2612.rs:44-60`, `assets-erc20/src/eip2612.rs:131-155`). -/
def domainSeparator (rt : Rt) (name : List Byte) (address : Nat) : Nat :=
  rt.crypto.keccak (domainBytes rt name address)

/-- The arguments of a permit: `(bytes32, address, address, uint256, uint256, uint256)`. -/
def permitTys : Tys :=
  .cons (.uint 32) (.cons (.uint 20) (.cons (.uint 20) (.cons (.uint 32) (.cons (.uint 32) (.one (.uint 32))))))

/-- What an owner signs. -/
structure Permit where
  owner : Nat
  spender : Nat
  value : Nat
  nonce : Nat
  deadline : Nat
deriving Repr, DecidableEq

/-- Six words: an `H256`, two `Address`, three `U256`. -/
def permitEnc (a b c d e f : Nat) : List Byte :=
  (permitTys.write Writer.empty ((a : Nat), (b : Nat), (c : Nat), (d : Nat), (e : Nat), (f : Nat))).build

/-- The bytes hashed to the permit content (`balances-erc20/src/eip2612.rs:72-79`,
`assets-erc20/src/eip2612.rs:168-175`). -/
def contentBytes (rt : Rt) (p : Permit) : List Byte :=
  permitEnc (permitTypehash rt.crypto) p.owner p.spender p.value p.nonce p.deadline

/-- The bytes hashed to the digest (`balances-erc20/src/eip2612.rs:82-86`, `assets-erc20/src/eip2612.rs:178-182`). -/
def digestBytes (rt : Rt) (name : List Byte) (address : Nat) (p : Permit) : List Byte :=
  [25, 1] ++ beBytes 32 (domainSeparator rt name address) ++ beBytes 32 (rt.crypto.keccak (contentBytes rt p))

/-- `generate_permit` (`balances-erc20/src/eip2612.rs:62-87`, `assets-erc20/src/eip2612.rs:157-183`). -/
def generatePermit (rt : Rt) (name : List Byte) (address : Nat) (p : Permit) : Nat :=
  rt.crypto.keccak (digestBytes rt name address p)

/-- The address that made a signature: the last 20 bytes of the hash of the recovered key
(`balances-erc20/src/eip2612.rs:124-126`, `assets-erc20/src/eip2612.rs:217-219`). -/
def signerOf (c : Crypto) (r s v digest : Nat) : Option Nat :=
  (c.recover r s v digest).map fun key => c.keccak key % 2 ^ 160

end Verif.Evm
