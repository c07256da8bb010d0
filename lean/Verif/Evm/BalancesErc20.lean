import Verif.Evm.Erc20

/-!
# The ERC-20 interface of the native currency

`precompiles/balances-erc20/src/lib.rs` and `eip2612.rs`, byte by byte: `execute` takes the calldata of an EVM call.
-/

namespace Verif.Evm.Bal

/-- `Erc20Metadata` (`balances-erc20/src/lib.rs:180-193`; `runtime/parallel/src/lib.rs:128-152`). -/
structure Meta where
  name : List Byte
  symbol : List Byte
  decimals : Nat
  native : Bool

/-- Storage: the native currency, `ApprovesStorage` (`lib.rs:139-146`) and `NoncesStorage` (`lib.rs:149-157`). -/
structure State where
  cur : Native
  approves : Nat → Nat → Option Nat
  nonces : Nat → Nat

/-- `Action` (`balances-erc20/src/lib.rs:161-177`). -/
inductive Action where
  | totalSupply | balanceOf | allowance | transfer | approve | transferFrom | name | symbol | decimals
  | deposit | withdraw | permit | nonces | domainSeparator
deriving Repr, DecidableEq

/-- The selectors of the functions of `Action`: the first four bytes of the hash of their signature. -/
def Action.ofSelector (n : Nat) : Option Action :=
  if n = 0x18160ddd then some .totalSupply
  else if n = 0x70a08231 then some .balanceOf
  else if n = 0xdd62ed3e then some .allowance
  else if n = 0xa9059cbb then some .transfer
  else if n = 0x095ea7b3 then some .approve
  else if n = 0x23b872dd then some .transferFrom
  else if n = 0x06fdde03 then some .name
  else if n = 0x95d89b41 then some .symbol
  else if n = 0x313ce567 then some .decimals
  else if n = 0xd0e30db0 then some .deposit
  else if n = 0x2e1a7d4d then some .withdraw
  else if n = 0xd505accf then some .permit
  else if n = 0x7ecebe00 then some .nonces
  else if n = 0x3644e515 then some .domainSeparator
  else none

/-- `handle.read_selector().unwrap_or(Action::Deposit)` (`balances-erc20/src/lib.rs:239`). -/
def actionOf (input : List Byte) : Action :=
  match readSelector input with
  | .ok n => (Action.ofSelector n).getD .deposit
  | .error _ => .deposit

/-- `total_supply` (`balances-erc20/src/lib.rs:287-299`). -/
def totalSupply (s : State) (input : List Byte) : R (Out State) := do
  let r ← newSkipSelector input
  r.expectArguments 0
  pure ⟨s, outWord s.cur.iss, []⟩

/-- `balance_of` (`balances-erc20/src/lib.rs:301-318`). -/
def balanceOf (rt : Rt) (s : State) (input : List Byte) : R (Out State) := do
  let r ← newSkipSelector input
  r.expectArguments 1
  let (owner, _) ← readUint 20 r
  pure ⟨s, outWord (s.cur.usable (rt.acct owner)), []⟩

/-- `allowance` (`balances-erc20/src/lib.rs:320-342`). -/
def allowance (rt : Rt) (s : State) (input : List Byte) : R (Out State) := do
  let r ← newSkipSelector input
  r.expectArguments 2
  let (owner, r) ← readUint 20 r
  let (spender, _) ← readUint 20 r
  pure ⟨s, outWord ((s.approves (rt.acct owner) (rt.acct spender)).getD 0), []⟩

/-- `approve` (`balances-erc20/src/lib.rs:344-377`). -/
def approve (rt : Rt) (cx : Ctx) (s : State) (input : List Byte) : R (Out State) := do
  let r ← newSkipSelector input
  r.expectArguments 2
  let (spender, r) ← readUint 20 r
  let (amount, _) ← readUint 32 r
  pure ⟨{ s with approves := upd2 s.approves (rt.acct cx.caller) (rt.acct spender) (some (saturate amount)) },
    outBool true, [⟨cx.address, .approval, [cx.caller, spender], outWord amount⟩]⟩

/-- `transfer` (`balances-erc20/src/lib.rs:379-417`). -/
def transfer (rt : Rt) (cx : Ctx) (s : State) (input : List Byte) : R (Out State) := do
  let r ← newSkipSelector input
  r.expectArguments 2
  let (dest, r) ← readUint 20 r
  let (amount, _) ← readUint 32 r
  let a ← u256ToAmount amount
  let cur ← dispatch rt .native (s.cur.transfer rt (rt.acct cx.caller) (rt.acct dest) a)
  pure ⟨{ s with cur := cur }, outBool true, [⟨cx.address, .transfer, [cx.caller, dest], outWord amount⟩]⟩

/-- The change of the allowance in `transfer_from` (`balances-erc20/src/lib.rs:437-454`). -/
def spend (s : State) (caller owner a : Nat) : R State :=
  if caller ≠ owner then do
    let v ← okOr (s.approves owner caller) .revert
    let v' ← csub .revert v a
    pure { s with approves := upd2 s.approves owner caller (some v') }
  else .ok s

/-- `transfer_from` (`balances-erc20/src/lib.rs:419-479`). -/
def transferFrom (rt : Rt) (cx : Ctx) (s : State) (input : List Byte) : R (Out State) := do
  let r ← newSkipSelector input
  r.expectArguments 3
  let (owner, r) ← readUint 20 r
  let (dest, r) ← readUint 20 r
  let (amount, _) ← readUint 32 r
  let a ← u256ToAmount amount
  let s1 ← spend s (rt.acct cx.caller) (rt.acct owner) a
  let cur ← dispatch rt .native (s1.cur.transfer rt (rt.acct owner) (rt.acct dest) a)
  pure ⟨{ s1 with cur := cur }, outBool true, [⟨cx.address, .transfer, [owner, dest], outWord amount⟩]⟩

/-- `deposit` (`balances-erc20/src/lib.rs:506-544`). -/
def deposit (rt : Rt) (m : Meta) (cx : Ctx) (s : State) : R (Out State) := do
  ensure (m.native = true) .revert
  let a ← u256ToAmount cx.value
  ensure (a ≠ 0) .revert
  let cur ← dispatch rt .native (s.cur.transfer rt (rt.acct cx.address) (rt.acct cx.caller) a)
  pure ⟨{ s with cur := cur }, [], [⟨cx.address, .deposit, [cx.caller], outWord cx.value⟩]⟩

/-- `withdraw` (`balances-erc20/src/lib.rs:546-576`). -/
def withdraw (rt : Rt) (m : Meta) (cx : Ctx) (s : State) (input : List Byte) : R (Out State) := do
  ensure (m.native = true) .revert
  let r ← newSkipSelector input
  let (amount, _) ← readUint 32 r
  ensure (¬ amount > s.cur.usable (rt.acct cx.caller)) .revert
  pure ⟨s, [], [⟨cx.address, .withdrawal, [cx.caller], outWord amount⟩]⟩

/-- `permit` after its arguments have been read (`balances-erc20/src/eip2612.rs:103-155`).  The nonce is a `U256`, whose
overflow panics. -/
def permitBody (rt : Rt) (m : Meta) (cx : Ctx) (s : State) (owner spender value deadline v r sg : Nat) : R (Out State) := do
  ensure (deadline ≥ cx.now / 1000) .revert
  let signer ← okOr (signerOf rt.crypto r sg v
    (generatePermit rt m.name cx.address ⟨owner, spender, value, s.nonces owner, deadline⟩)) .revert
  ensure (signer ≠ 0 ∧ signer = owner) .revert
  ensure (s.nonces owner + 1 < 256 ^ 32) .panic
  pure ⟨{ s with
      nonces := upd s.nonces owner (s.nonces owner + 1)
      approves := upd2 s.approves (rt.acct owner) (rt.acct spender) (some (saturate value)) },
    [], [⟨cx.address, .approval, [owner, spender], outWord value⟩]⟩

/-- `permit` (`balances-erc20/src/eip2612.rs:91-155`). -/
def permit (rt : Rt) (m : Meta) (cx : Ctx) (s : State) (input : List Byte) : R (Out State) := do
  let rd ← newSkipSelector input
  let (owner, rd) ← readUint 20 rd
  let (spender, rd) ← readUint 20 rd
  let (value, rd) ← readUint 32 rd
  let (deadline, rd) ← readUint 32 rd
  let (v, rd) ← readUint 1 rd
  let (r, rd) ← readUint 32 rd
  let (sg, _) ← readUint 32 rd
  permitBody rt m cx s owner spender value deadline v r sg

/-- `nonces` (`balances-erc20/src/eip2612.rs:157-166`). -/
def noncesOf (s : State) (input : List Byte) : R (Out State) := do
  let r ← newSkipSelector input
  let (owner, _) ← readUint 20 r
  pure ⟨s, outWord (s.nonces owner), []⟩

/-- `execute` (`balances-erc20/src/lib.rs:238-273`).  The result of `check_function_modifier` is dropped by `.ok()`
(lines 241-249), so there is no check here. -/
def execute (rt : Rt) (m : Meta) (cx : Ctx) (input : List Byte) (s : State) : R (Out State) :=
  match actionOf input with
  | .totalSupply => totalSupply s input
  | .balanceOf => balanceOf rt s input
  | .allowance => allowance rt s input
  | .approve => approve rt cx s input
  | .transfer => transfer rt cx s input
  | .transferFrom => transferFrom rt cx s input
  | .name => pure ⟨s, outBytes m.name, []⟩
  | .symbol => pure ⟨s, outBytes m.symbol, []⟩
  | .decimals => pure ⟨s, outU8 m.decimals, []⟩
  | .deposit => deposit rt m cx s
  | .withdraw => withdraw rt m cx s input
  | .permit => permit rt m cx s input
  | .nonces => noncesOf s input
  | .domainSeparator => pure ⟨s, outWord (domainSeparator rt m.name cx.address), []⟩

end Verif.Evm.Bal
