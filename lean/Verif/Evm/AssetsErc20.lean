import Verif.Evm.Erc20

/-!
# The ERC-20 interface of assets

`precompiles/assets-erc20/src/lib.rs` and `eip2612.rs`, byte by byte, over the parts of `pallet_assets`
(`polkadot-v0.9.38`) and of `pallet_balances` (reserves) that it calls, and the routing of EVM calls to precompiles
(`runtime/common/src/precompiles.rs`).

Simplifications: assets are sufficient (an account of an asset can be created without a provider), an account of an asset
exists exactly when its balance is not zero, `supply` is at least every balance (`C138`), the number of approvals is not
counted, the deposit for one approval is the existential deposit (`runtime/parallel/src/lib.rs:126,459,752`).
-/

namespace Verif.Evm

/-- `pallet_balances::reserve`. -/
def Native.reserve (n : Native) (who amt : Nat) : R Native :=
  if amt = 0 then .ok n
  else do
    ensure (amt ≤ n.free who) .noFunds
    ensure (n.resv who + amt ≤ maxU128) .overflow
    ensure (n.frozen who ≤ n.free who - amt) .tokenError
    pure { n with free := upd n.free who (n.free who - amt), resv := upd n.resv who (n.resv who + amt) }

/-- `pallet_balances::unreserve`. -/
def Native.unreserve (n : Native) (who amt : Nat) : Native :=
  { n with
    free := upd n.free who (n.free who + min (n.resv who) amt)
    resv := upd n.resv who (n.resv who - min (n.resv who) amt) }

end Verif.Evm

namespace Verif.Evm.Ast

/-- `AssetStatus`. -/
inductive Status where
  | live | frozen | destroying
deriving Repr, DecidableEq

/-- `AssetDetails`, the accounts and the metadata of one asset. -/
structure Asset where
  status : Status
  frozen : Nat → Bool
  bal : Nat → Nat
  supply : Nat
  issuer : Nat
  admin : Nat
  minBal : Nat
  name : List Byte
  symbol : List Byte
  decimals : Nat

/-- `Approval`. -/
structure Approval where
  amount : Nat
  deposit : Nat
deriving Repr, DecidableEq

/-- Storage: native currency, assets, `Approvals` (asset, owner, delegate), `NoncesStorage` (contract address, owner)
(`assets-erc20/src/eip2612.rs:99-110`). -/
structure State where
  cur : Native
  assets : Nat → Option Asset
  approvals : Nat → Nat → Nat → Option Approval
  nonces : Nat → Nat → Nat

/-- Write one asset. -/
def State.setAsset (s : State) (id : Nat) (a : Asset) : State := { s with assets := upd s.assets id (some a) }

/-- Write one approval. -/
def State.setApproval (s : State) (id owner delegate : Nat) (v : Option Approval) : State :=
  { s with approvals := upd s.approvals id (upd2 (s.approvals id) owner delegate v) }

/-! ## `pallet_assets` -/

/-- `can_increase` without the supply. -/
def canIncrease (a : Asset) (who amt : Nat) : R Unit := do
  ensure (a.bal who + amt ≤ maxU128) .overflow
  ensure (a.bal who ≠ 0 ∨ a.minBal ≤ amt) .tokenError

/-- `prep_debit` with `keep_alive = false`: what leaves the account.  A remainder below the minimum balance leaves with
it. -/
def prepDebit (a : Asset) (who amt : Nat) (bestEffort : Bool) : R Nat := do
  ensure (a.status = .live) .tokenError
  ensure (a.bal who ≠ 0) .noFunds
  ensure (a.frozen who = false) .tokenError
  ensure (bestEffort = true ∨ amt ≤ min (a.bal who) amt) .noFunds
  pure (if a.bal who - min (a.bal who) amt < a.minBal then a.bal who else min (a.bal who) amt)

/-- `do_transfer` (`transfer_and_die` with `burn_dust = false`). -/
def Asset.transfer (a : Asset) (src dst amt : Nat) : R Asset :=
  if amt = 0 then .ok a
  else do
    let d ← prepDebit a src amt false
    canIncrease a dst d
    if src = dst then pure a
    else pure { a with bal := upd (upd a.bal src (a.bal src - d)) dst (a.bal dst + d) }

/-- `mint` (`do_mint`, `increase_balance`). -/
def Asset.mint (a : Asset) (origin who amt : Nat) : R Asset :=
  if amt = 0 then .ok a
  else do
    ensure (a.supply + amt ≤ maxU128) .overflow
    canIncrease a who amt
    ensure (a.status = .live) .tokenError
    ensure (origin = a.issuer) .badOrigin
    pure { a with bal := upd a.bal who (a.bal who + amt), supply := a.supply + amt }

/-- `burn` (`do_burn`, `decrease_balance`, best effort). -/
def Asset.burn (a : Asset) (origin who amt : Nat) : R Asset := do
  ensure (a.status ≠ .destroying) .tokenError
  if amt = 0 then pure a
  else do
    let d ← prepDebit a who amt true
    ensure (origin = a.admin) .badOrigin
    pure { a with bal := upd a.bal who (a.bal who - d), supply := a.supply - d }

/-- The stored asset, live. -/
def getLive (s : State) (id : Nat) : R Asset := do
  let a ← okOr (s.assets id) .assetDoesNotExist
  ensure (a.status = .live) .tokenError
  pure a

/-- `allowance`. -/
def allowanceOf (s : State) (id owner delegate : Nat) : Nat :=
  ((s.approvals id owner delegate).map Approval.amount).getD 0

/-- `cancel_approval`. -/
def cancelApproval (s : State) (id owner delegate : Nat) : R State := do
  let _ ← getLive s id
  let p ← okOr (s.approvals id owner delegate) .tokenError
  pure ({ s with cur := s.cur.unreserve owner p.deposit }.setApproval id owner delegate none)

/-- `approve_transfer` (`do_approve_transfer`). -/
def approveTransfer (rt : Rt) (s : State) (id owner delegate amount : Nat) : R State := do
  let _ ← getLive s id
  let p := (s.approvals id owner delegate).getD ⟨0, 0⟩
  let cur ← s.cur.reserve owner (rt.ed - p.deposit)
  pure ({ s with cur := cur }.setApproval id owner delegate
    (some ⟨min (p.amount + amount) maxU128, max p.deposit rt.ed⟩))

/-- `transfer` of `pallet_assets`. -/
def transferAsset (s : State) (id src dst amt : Nat) : R State :=
  if amt = 0 then .ok s
  else do
    let a ← okOr (s.assets id) .assetDoesNotExist
    let a' ← a.transfer src dst amt
    pure (s.setAsset id a')

/-- The rest of an approval after spending: a used up approval is removed and its deposit given back. -/
def settle (s : State) (id owner delegate : Nat) (p : Approval) (amt : Nat) : State :=
  if p.amount - amt = 0 then
    { s with cur := s.cur.unreserve owner p.deposit }.setApproval id owner delegate none
  else s.setApproval id owner delegate (some ⟨p.amount - amt, p.deposit⟩)

/-- `transfer_approved` (`do_transfer_approved`). -/
def transferApproved (s : State) (id owner delegate dst amt : Nat) : R State := do
  let _ ← getLive s id
  let p ← okOr (s.approvals id owner delegate) .tokenError
  ensure (amt ≤ p.amount) .tokenError
  let s1 ← transferAsset s id owner dst amt
  pure (settle s1 id owner delegate p amt)

/-! ## The precompile -/

/-- `Action` (`assets-erc20/src/lib.rs:62-80`). -/
inductive Action where
  | totalSupply | balanceOf | allowance | transfer | approve | transferFrom | name | symbol | decimals
  | minimumBalance | mint | burn | permit | nonces | domainSeparator
deriving Repr, DecidableEq

/-- The selectors of the functions of `Action`: the first four bytes of the hash of their signature. -/
def Action.ofSelector (n : Nat) : Option Action :=
  if n = 0x18160ddd then some .totalSupply
  else if n = 0x70a08231 then some .balanceOf
  else if n = 0xdd62ed3e then some .allowance
  else if n = 0xa9059cbb then some .transfer
  else if n = 0x095ea7b3 then some .approve
  else if n = 0x23b872dd then some .transferFrom
  else if n = 0x06fdde03 then some .name
  else if n = 0x95d89b41 then some .symbol
  else if n = 0x313ce567 then some .decimals
  else if n = 0xb9d1d49b then some .minimumBalance
  else if n = 0x40c10f19 then some .mint
  else if n = 0x9dc29fac then some .burn
  else if n = 0xd505accf then some .permit
  else if n = 0x7ecebe00 then some .nonces
  else if n = 0x3644e515 then some .domainSeparator
  else none

/-- The modifier of each function (`assets-erc20/src/lib.rs:143-152`). -/
def Action.modifier : Action → Modifier
  | .approve | .transfer | .transferFrom | .mint | .burn => .nonPayable
  | _ => .view

/-- `balance_of` (`assets-erc20/src/lib.rs:222-240`). -/
def balanceOf (rt : Rt) (s : State) (a : Asset) (input : List Byte) : R (Out State) := do
  let r ← newSkipSelector input
  r.expectArguments 1
  let (owner, _) ← readUint 20 r
  pure ⟨s, outWord (a.bal (rt.acct owner)), []⟩

/-- `allowance` (`assets-erc20/src/lib.rs:242-264`). -/
def allowance (rt : Rt) (s : State) (id : Nat) (input : List Byte) : R (Out State) := do
  let r ← newSkipSelector input
  r.expectArguments 2
  let (owner, r) ← readUint 20 r
  let (spender, _) ← readUint 20 r
  pure ⟨s, outWord (allowanceOf s id (rt.acct owner) (rt.acct spender)), []⟩

/-- The first part of `approve_inner` (`assets-erc20/src/lib.rs:308-321`): cancel an approval that is not 0. -/
def cancelOld (rt : Rt) (s : State) (id owner spender : Nat) : R State :=
  if allowanceOf s id owner spender ≠ 0 then dispatch rt .cancelApproval (cancelApproval s id owner spender) else .ok s

/-- `approve_inner` (`assets-erc20/src/lib.rs:292-331`). -/
def approveInner (rt : Rt) (s : State) (id owner spender value : Nat) : R State := do
  let s1 ← cancelOld rt s id owner spender
  dispatch rt .approveTransfer (approveTransfer rt s1 id owner spender (saturate value))

/-- `approve` (`assets-erc20/src/lib.rs:266-290`). -/
def approve (rt : Rt) (cx : Ctx) (s : State) (id : Nat) (input : List Byte) : R (Out State) := do
  let r ← newSkipSelector input
  r.expectArguments 2
  let (spender, r) ← readUint 20 r
  let (amount, _) ← readUint 32 r
  let s' ← approveInner rt s id (rt.acct cx.caller) (rt.acct spender) amount
  pure ⟨s', outBool true, [⟨cx.address, .approval, [cx.caller, spender], outWord amount⟩]⟩

/-- `transfer` (`assets-erc20/src/lib.rs:333-373`). -/
def transfer (rt : Rt) (cx : Ctx) (s : State) (id : Nat) (input : List Byte) : R (Out State) := do
  let r ← newSkipSelector input
  r.expectArguments 2
  let (dest, r) ← readUint 20 r
  let (amount, _) ← readUint 32 r
  let x ← u256ToAmount amount
  let s' ← dispatch rt .transfer (transferAsset s id (rt.acct cx.caller) (rt.acct dest) x)
  pure ⟨s', outBool true, [⟨cx.address, .transfer, [cx.caller, dest], outWord amount⟩]⟩

/-- The dispatched call of `transfer_from` (`assets-erc20/src/lib.rs:397-421`). -/
def moveFrom (rt : Rt) (s : State) (id caller owner dest x : Nat) : R State :=
  if caller ≠ owner then dispatch rt .transferApproved (transferApproved s id owner caller dest x)
  else dispatch rt .transfer (transferAsset s id owner dest x)

/-- `transfer_from` (`assets-erc20/src/lib.rs:375-432`). -/
def transferFrom (rt : Rt) (cx : Ctx) (s : State) (id : Nat) (input : List Byte) : R (Out State) := do
  let r ← newSkipSelector input
  r.expectArguments 3
  let (owner, r) ← readUint 20 r
  let (dest, r) ← readUint 20 r
  let (amount, _) ← readUint 32 r
  let x ← u256ToAmount amount
  let s' ← moveFrom rt s id (rt.acct cx.caller) (rt.acct owner) (rt.acct dest) x
  pure ⟨s', outBool true, [⟨cx.address, .transfer, [owner, dest], outWord amount⟩]⟩

/-- `mint` (`assets-erc20/src/lib.rs:497-522`). -/
def mint (rt : Rt) (cx : Ctx) (s : State) (id : Nat) (a : Asset) (input : List Byte) : R (Out State) := do
  let r ← newSkipSelector input
  r.expectArguments 2
  let (who, r) ← readUint 20 r
  let (amount, _) ← readUint 32 r
  let x ← u256ToAmount amount
  let a' ← dispatch rt .mint (a.mint (rt.acct cx.caller) (rt.acct who) x)
  pure ⟨s.setAsset id a', outBool true, []⟩

/-- `burn` (`assets-erc20/src/lib.rs:524-549`). -/
def burn (rt : Rt) (cx : Ctx) (s : State) (id : Nat) (a : Asset) (input : List Byte) : R (Out State) := do
  let r ← newSkipSelector input
  r.expectArguments 2
  let (who, r) ← readUint 20 r
  let (amount, _) ← readUint 32 r
  let x ← u256ToAmount amount
  let a' ← dispatch rt .burn (a.burn (rt.acct cx.caller) (rt.acct who) x)
  pure ⟨s.setAsset id a', outBool true, []⟩

/-- The name used in signatures (`assets-erc20/src/eip2612.rs:132-140`). -/
def permitName (a : Asset) (id : Nat) : List Byte :=
  if a.name = [] then ascii "Unnamed XC20 #" ++ ascii (toString id) else a.name

/-- `permit` after its arguments have been read (`assets-erc20/src/eip2612.rs:202-243`).  The nonce is a `U256`, whose
overflow panics. -/
def permitBody (rt : Rt) (cx : Ctx) (s : State) (id : Nat) (a : Asset) (owner spender value deadline v r sg : Nat) :
    R (Out State) := do
  ensure (deadline ≥ cx.now / 1000) .revert
  let signer ← okOr (signerOf rt.crypto r sg v (generatePermit rt (permitName a id) cx.codeAddress
    ⟨owner, spender, value, s.nonces cx.codeAddress owner, deadline⟩)) .revert
  ensure (signer ≠ 0 ∧ signer = owner) .revert
  ensure (s.nonces cx.codeAddress owner + 1 < 256 ^ 32) .panic
  let s' ← approveInner rt
    { s with nonces := upd2 s.nonces cx.codeAddress owner (s.nonces cx.codeAddress owner + 1) } id
    (rt.acct owner) (rt.acct spender) value
  pure ⟨s', [], [⟨cx.address, .approval, [owner, spender], outWord value⟩]⟩

/-- `permit` (`assets-erc20/src/eip2612.rs:187-244`). -/
def permit (rt : Rt) (cx : Ctx) (s : State) (id : Nat) (a : Asset) (input : List Byte) : R (Out State) := do
  let rd ← newSkipSelector input
  let (owner, rd) ← readUint 20 rd
  let (spender, rd) ← readUint 20 rd
  let (value, rd) ← readUint 32 rd
  let (deadline, rd) ← readUint 32 rd
  let (v, rd) ← readUint 1 rd
  let (r, rd) ← readUint 32 rd
  let (sg, _) ← readUint 32 rd
  permitBody rt cx s id a owner spender value deadline v r sg

/-- `nonces` (`assets-erc20/src/eip2612.rs:246-258`). -/
def noncesOf (cx : Ctx) (s : State) (input : List Byte) : R (Out State) := do
  let r ← newSkipSelector input
  let (owner, _) ← readUint 20 r
  pure ⟨s, outWord (s.nonces cx.codeAddress owner), []⟩

/-- The function bodies (`assets-erc20/src/lib.rs:155-185`; `total_supply` 209-220, `name` 434-449, `symbol` 451-467,
`decimals` 469-483, `minimum_balance` 485-495, `domain_separator` `eip2612.rs:260-272`). -/
def act (rt : Rt) (cx : Ctx) (s : State) (id : Nat) (a : Asset) (input : List Byte) : Action → R (Out State)
  | .totalSupply => pure ⟨s, outWord a.supply, []⟩
  | .balanceOf => balanceOf rt s a input
  | .allowance => allowance rt s id input
  | .approve => approve rt cx s id input
  | .transfer => transfer rt cx s id input
  | .transferFrom => transferFrom rt cx s id input
  | .name => pure ⟨s, outBytes a.name, []⟩
  | .symbol => pure ⟨s, outBytes a.symbol, []⟩
  | .decimals => pure ⟨s, outU8 a.decimals, []⟩
  | .minimumBalance => pure ⟨s, outWord a.minBal, []⟩
  | .mint => mint rt cx s id a input
  | .burn => burn rt cx s id a input
  | .permit => permit rt cx s id a input
  | .nonces => noncesOf cx s input
  | .domainSeparator => pure ⟨s, outWord (domainSeparator rt (permitName a id) cx.codeAddress), []⟩

/-- A call to the contract of an existing asset (`assets-erc20/src/lib.rs:137-182`). -/
def call (rt : Rt) (cx : Ctx) (s : State) (id : Nat) (a : Asset) (input : List Byte) : R (Out State) := do
  let n ← readSelector input
  let f ← okOr (Action.ofSelector n) .revert
  checkModifier cx f.modifier
  act rt cx s id a input f

/-- `address_to_asset_id` (`runtime/parallel/src/lib.rs:469-478`): an address is a number of 20 bytes. -/
def addressToAssetId (address : Nat) : Option Nat :=
  if address / 256 ^ 16 = 0xffffffff then some (address % 256 ^ 4) else none

/-- `asset_id_to_address` (`runtime/parallel/src/lib.rs:480-485`). -/
def assetIdToAddress (id : Nat) : Nat := 0xffffffff * 256 ^ 16 + id

/-- `is_precompile` of the assets (`assets-erc20/src/lib.rs:189-195`). -/
def isAsset (s : State) (address : Nat) : Bool :=
  match addressToAssetId address with
  | some id => (s.assets id).isSome
  | none => false

/-- `execute` of the assets (`assets-erc20/src/lib.rs:130-187`). -/
def execute (rt : Rt) (cx : Ctx) (input : List Byte) (s : State) : Option (R (Out State)) :=
  match addressToAssetId cx.codeAddress with
  | none => none
  | some id =>
    match s.assets id with
    | none => none
    | some a => some (call rt cx s id a input)

/-! ## Routing -/

/-- `used_addresses` (`runtime/common/src/precompiles.rs:51-55`). -/
def usedAddresses : List Nat := [1, 2, 3, 4, 5, 6, 7, 8, 9, 1024, 1025, 1026, 1027, 2050]

/-- `is_precompile` (`runtime/common/src/precompiles.rs:109-112`). -/
def isPrecompile (s : State) (address : Nat) : Bool := decide (address ∈ usedAddresses) || isAsset s address

/-- Where a call goes. -/
inductive Target where
  /-- rejected: a token contract run in the context of another address -/
  | reverted
  /-- a stateless precompile -/
  | pureFn (address : Nat)
  /-- the native token -/
  | native
  /-- the contract of an asset -/
  | asset
  /-- no precompile -/
  | none
deriving Repr, DecidableEq

/-- `execute` of the precompile set (`runtime/common/src/precompiles.rs:76-107`). -/
def route (s : State) (cx : Ctx) : Target :=
  if isPrecompile s cx.codeAddress = true ∧ cx.codeAddress > 9 ∧ cx.address ≠ cx.codeAddress then .reverted
  else if cx.codeAddress ∈ [1, 2, 3, 4, 5, 6, 7, 8, 9, 1024, 1025, 1026, 1027] then .pureFn cx.codeAddress
  else if cx.codeAddress = 2050 then .native
  else if cx.codeAddress / 256 ^ 16 = 0xffffffff then (if isAsset s cx.codeAddress = true then .asset else .none)
  else .none

end Verif.Evm.Ast
