import Verif.Xcm.Adapter
import Verif.Xcm.Trader

/-!
# Model of the entry of XCM messages into the runtime

The part that is in the repository: the tuple `Barrier` with the own `AllowKnownQueryResponses`
(`runtime/common/src/lib.rs:18-47`), the conversions of locations to accounts and to origins, and the configuration of the
executor (`runtime/parallel/src/lib.rs:1156-1349`; the other runtimes have the same).  They are composed with the asset adapter
(`Adapter.lean`) and the fee trader (`Trader.lean`).

The executor itself, the other barriers and the weigher are dependencies (polkadot and orml at `release-v0.9.38`, see
`Cargo.lock`), whose source is not in the repository.  They are modelled from their documented behaviour:

* a message is weighed; its weight is handed to the barrier, which may rewrite the limit of the `BuyExecution`;
* instructions run one after the other; the first error ends the list, keeps the effects so far (nothing is rolled back) and
  counts the weight of the rest as surplus; then the error handler or the appendix runs;
* at the end the surplus is refunded, the trader is dropped, and what is left in the holding register is trapped for the
  origin.

Simplifications: non-fungible assets in the holding register are left out (no call of the adapter accepts them); a filter of
assets is the largest amount to be taken of each; whether the holding register is full is an arbitrary predicate of its length;
what a dispatched call does is left to the other models, here only its origin is recorded; instructions that send messages
(`InitiateReserveWithdraw`, `InitiateTeleport`, `BurnAsset`) only take from the holding register; instructions that neither
touch assets nor the origin are `other`.
-/

namespace Verif.Xcm
open Verif

/-- `OriginKind`. -/
inductive Kind where
  | native | sovereign | superuser | xcm
deriving DecidableEq, Repr

/-- Origins a call can be dispatched with: `Signed`, `cumulus_pallet_xcm::Origin::{Relay, SiblingParachain}`, `Root`,
`pallet_xcm::Origin::Xcm`. -/
inductive LocalOrigin where
  | signed (who : Nat)
  | relay
  | sibling (p : Nat)
  | root
  | xcm (l : Loc)
deriving DecidableEq, Repr

/-- Fungible assets: identifiers with amounts. -/
abbrev Assets := List (AssetKey × Nat)

/-- Instructions. -/
inductive Instr where
  /-- `WithdrawAsset` -/
  | withdraw (as : Assets)
  /-- `ReserveAssetDeposited` -/
  | reserveDeposited (as : Assets)
  /-- `ReceiveTeleportedAsset` -/
  | teleported (as : Assets)
  /-- `ClaimAsset` -/
  | claim (as : Assets)
  /-- `ClearOrigin` -/
  | clearOrigin
  /-- `DescendOrigin` -/
  | descend (js : List Junction)
  /-- `BuyExecution { fees, weight_limit }`, `none` is `Unlimited` -/
  | buy (fee : AssetKey × Nat) (limit : Option Weight)
  /-- `RefundSurplus` -/
  | refundSurplus
  /-- `DepositAsset`, `DepositReserveAsset` (which then sends a message, and fails if that fails) -/
  | depositAsset (cap : AssetKey → Nat) (dst : Loc) (sent : Bool)
  /-- `TransferAsset`, `TransferReserveAsset` -/
  | transferAsset (as : Assets) (dst : Loc) (sent : Bool)
  /-- `InitiateReserveWithdraw`, `InitiateTeleport`, `BurnAsset` -/
  | leave (cap : AssetKey → Nat) (sent : Bool)
  /-- `Transact`; `actual` is the weight the call turns out to have -/
  | transact (kind : Kind) (limit actual : Weight) (call : Nat)
  /-- `QueryResponse { query_id, querier }` -/
  | queryResponse (id : Nat) (querier : Option Loc)
  /-- `SubscribeVersion` -/
  | subscribe
  /-- `UnsubscribeVersion` -/
  | unsubscribe
  /-- `SetErrorHandler` -/
  | setHandler (is : List Instr)
  /-- `SetAppendix` -/
  | setAppendix (is : List Instr)
  /-- any other instruction, which succeeds or fails -/
  | other (good : Bool)

/-- What the entry reads from the configuration and from other pallets. -/
structure Env where
  /-- `ParachainInfo::parachain_id` -/
  self : Nat
  /-- `AssetTypeId` of the registry -/
  typeId : Loc → Option Nat
  /-- `NativeCurrencyId`, lib.rs:1176 -/
  native : Nat
  /-- `GiftAccount`, lib.rs:1177 -/
  gift : Nat
  /-- `GiftConvert`, lib.rs:1180-1199 -/
  giftOf : Nat → Nat → Nat
  /-- the account of `ParentIsPreset` -/
  parentAcct : Nat
  /-- `SiblingParachainConvertsVia` -/
  siblingAcct : Nat → Nat
  /-- the account of a junction `AccountId32` of no network or the relay chain's; `none` for other junctions -/
  account32 : Nat → Option Nat
  /-- the registry's fee rates -/
  fees : Fees Loc
  /-- `TreasuryAccount` -/
  treasury : Nat
  /-- `BaseXcmWeight`, lib.rs:423 (150000000, 0) -/
  base : Weight
  /-- `MaxInstructions`, lib.rs:424 (100) -/
  maxInstrs : Nat
  /-- `OnResponse::expecting_response(origin, query_id, querier)` of `PolkadotXcm` -/
  expecting : Loc → Nat → Option Loc → Bool
  /-- whether one more asset may enter a holding register of this length (`MaxAssetsIntoHolding`, lib.rs:1343) -/
  room : Nat → Bool

/-- `LocationToAccountId`, runtime/parallel/src/lib.rs:1166-1173. -/
def locAcct (e : Env) : Loc → Option Nat
  | ⟨1, []⟩ => some e.parentAcct
  | ⟨1, [.parachain p]⟩ => some (e.siblingAcct p)
  | ⟨0, [.other n]⟩ => e.account32 n
  | _ => none

/-- The configuration of the adapter, lib.rs:1202-1216. -/
def Env.cfg (e : Env) : Cfg := ⟨e.self, e.typeId, locAcct e, e.native, e.gift, e.giftOf⟩

/-- `XcmOriginToTransactDispatchOrigin`, lib.rs:1221-1240; the kinds the members of the tuple accept are disjoint. -/
def convertOrigin (e : Env) (o : Loc) : Kind → Option LocalOrigin
  | .sovereign => (locAcct e o).map .signed
  | .native => match o with
    | ⟨1, []⟩ => some .relay
    | ⟨1, [.parachain p]⟩ => some (.sibling p)
    | ⟨0, [.other n]⟩ => (e.account32 n).map .signed
    | _ => none
  | .superuser => if o = ⟨1, []⟩ then some .root else none
  | .xcm => some (.xcm o)

/-- `AbsoluteReserveProvider` (orml): the chain part of the location. -/
def chainPart : Loc → Option Loc
  | ⟨1, .parachain p :: _⟩ => some ⟨1, [.parachain p]⟩
  | ⟨1, _⟩ => some ⟨1, []⟩
  | ⟨0, .parachain p :: _⟩ => some ⟨0, [.parachain p]⟩
  | _ => none

/-- `IsReserve = MultiNativeAsset<AbsoluteReserveProvider>`, lib.rs:1329. -/
def isReserve (k : AssetKey) (o : Loc) : Bool := match k with
  | .concrete l => decide (chainPart l = some o)
  | .abstract _ => false

/-! ## The barrier -/

/-- `Weight::all_lte`. -/
def Weight.le (a b : Weight) : Prop := a.rt ≤ b.rt ∧ a.ps ≤ b.ps
instance (a b : Weight) : Decidable (a.le b) := inferInstanceAs (Decidable (_ ∧ _))
/-- `Weight::add`. -/
def Weight.plus (a b : Weight) : Weight := ⟨a.rt + b.rt, a.ps + b.ps⟩

/-- `AllowKnownQueryResponses`, runtime/common/src/lib.rs:24-46: only the first instruction is looked at. -/
def knownResponse (e : Env) (o : Loc) : List Instr → Bool
  | .queryResponse id q :: _ => e.expecting o id q
  | _ => false

/-- `ParentOrSiblings`, lib.rs:1242-1247: any single junction is accepted. -/
def parentOrSiblings : Loc → Bool
  | ⟨1, []⟩ => true
  | ⟨1, [_]⟩ => true
  | _ => false

/-- `AllowSubscriptionsFrom<ParentOrSiblings>`. -/
def subscription (o : Loc) : List Instr → Bool
  | [.subscribe] => parentOrSiblings o
  | [.unsubscribe] => parentOrSiblings o
  | _ => false

/-- `AllowTopLevelPaidExecutionFrom`, after the first instruction: `ClearOrigin`s and a `BuyExecution` among the next `n`. -/
def paidTail (w : Weight) : Nat → List Instr → Option (List Instr)
  | n + 1, .clearOrigin :: is => (paidTail w n is).map (.clearOrigin :: ·)
  | _ + 1, .buy f (some l) :: is => if w.le l then some (.buy f (some w) :: is) else none
  | _ + 1, .buy f none :: is => some (.buy f (some w) :: is)
  | _, _ => none

/-- `AllowTopLevelPaidExecutionFrom<Everything>`: reads five instructions. -/
def paidExecution (w : Weight) : List Instr → Option (List Instr)
  | .withdraw as :: is => (paidTail w 4 is).map (.withdraw as :: ·)
  | .reserveDeposited as :: is => (paidTail w 4 is).map (.reserveDeposited as :: ·)
  | .teleported as :: is => (paidTail w 4 is).map (.teleported as :: ·)
  | .claim as :: is => (paidTail w 4 is).map (.claim as :: ·)
  | _ => none

/-- `Barrier`, runtime/parallel/src/lib.rs:1249-1254: the message to be run, with the limit of the purchase rewritten. -/
def barrier (e : Env) (o : Loc) (is : List Instr) (w credit : Weight) : Option (List Instr) :=
  if w.le credit then some is
  else if knownResponse e o is = true then some is
  else if subscription o is = true then some is
  else paidExecution w is

/-! ## The weigher -/

mutual
/-- `FixedWeightBounds::instr_weight`. -/
def Instr.weight (b : Weight) : Instr → Weight
  | .transact _ l _ _ => b.plus l
  | .setHandler is => b.plus (weights b is)
  | .setAppendix is => b.plus (weights b is)
  | _ => b
/-- The weight of a list of instructions. -/
def weights (b : Weight) : List Instr → Weight
  | [] => ⟨0, 0⟩
  | i :: is => (i.weight b).plus (weights b is)
end

mutual
/-- The number of instructions, nested ones included. -/
def Instr.count : Instr → Nat
  | .setHandler is => 1 + counts is
  | .setAppendix is => 1 + counts is
  | _ => 1
/-- The number of instructions of a list. -/
def counts : List Instr → Nat
  | [] => 0
  | i :: is => i.count + counts is
end

/-- `FixedWeightBounds::weight`: checked additions of `u64`, at most `MaxInstructions`. -/
def weigh (e : Env) (is : List Instr) : Option Weight :=
  if counts is ≤ e.maxInstrs ∧ (weights e.base is).rt ≤ maxU64 ∧ (weights e.base is).ps ≤ maxU64 then
    some (weights e.base is)
  else none

/-! ## The executor -/

/-- The state of the executor, with the ledger and the traps of the chain. -/
structure Vm where
  ledger : Ledger
  /-- trapped assets with their owners -/
  traps : List (Loc × Assets)
  origin : Option Loc
  holding : Assets
  trader : Trader Loc
  handler : List Instr
  appendix : List Instr
  /-- `total_surplus` -/
  surplus : Weight
  /-- `total_refunded` -/
  refunded : Weight
  /-- calls dispatched so far, with their origins -/
  log : List (LocalOrigin × Nat)

/-- `Assets::subsume`: amounts of the same asset are added, saturating. -/
def addAsset (a : AssetKey × Nat) : Assets → Assets
  | [] => [a]
  | x :: h => if x.1 = a.1 then (x.1, min (x.2 + a.2) maxU128) :: h else x :: addAsset a h

/-- `subsume_asset`: fails if the register is full; the asset is then lost. -/
def subsume (e : Env) (vm : Vm) (a : AssetKey × Nat) : Vm × R Unit :=
  if e.room vm.holding.length = true then ({ vm with holding := addAsset a vm.holding }, .ok ())
  else (vm, .error (.other 20))

/-- Subsume one after the other. -/
def subsumeAll (e : Env) (vm : Vm) : Assets → Vm × R Unit
  | [] => (vm, .ok ())
  | a :: as => match subsume e vm a with
    | (vm', .ok ()) => subsumeAll e vm' as
    | r => r

/-- The amount of an asset as the adapter sees it. -/
def toMulti (a : AssetKey × Nat) : MultiAsset := ⟨a.1, some a.2⟩

/-- `WithdrawAsset`: one asset after the other. -/
def withdrawAll (e : Env) (o : Loc) (vm : Vm) : Assets → Vm × R Unit
  | [] => (vm, .ok ())
  | a :: as => match withdraw e.cfg vm.ledger (toMulti a) o with
    | .error x => (vm, .error x)
    | .ok l => match subsume e { vm with ledger := l } a with
      | (vm', .ok ()) => withdrawAll e o vm' as
      | r => r

/-- `ReserveAssetDeposited`. -/
def receiveAll (e : Env) (o : Loc) (vm : Vm) : Assets → Vm × R Unit
  | [] => (vm, .ok ())
  | a :: as => if isReserve a.1 o = true then match subsume e vm a with
      | (vm', .ok ()) => receiveAll e o vm' as
      | r => r
    else (vm, .error (.other 21))

/-- `TransferAsset`. -/
def transferAll (e : Env) (o dst : Loc) (vm : Vm) : Assets → Vm × R Unit
  | [] => (vm, .ok ())
  | a :: as => match transferAsset e.cfg vm.ledger (toMulti a) o dst with
    | .error x => (vm, .error x)
    | .ok l => transferAll e o dst { vm with ledger := l } as

/-- `DepositAsset`, after the assets were taken from the holding register: what cannot be deposited is lost. -/
def depositAll (e : Env) (dst : Loc) (vm : Vm) : Assets → Vm × R Unit
  | [] => (vm, .ok ())
  | a :: as => match deposit e.cfg vm.ledger (toMulti a) dst with
    | (l, .error x) => ({ vm with ledger := l }, .error x)
    | (l, .ok ()) => depositAll e dst { vm with ledger := l } as

/-- `saturating_take`: what is taken. -/
def taken (cap : AssetKey → Nat) (h : Assets) : Assets :=
  (h.map (fun a => (a.1, min (cap a.1) a.2))).filter (fun a => decide (a.2 ≠ 0))
/-- `saturating_take`: what remains. -/
def remaining (cap : AssetKey → Nat) (h : Assets) : Assets :=
  (h.map (fun a => (a.1, a.2 - cap a.1))).filter (fun a => decide (a.2 ≠ 0))

/-- `try_take` of a single asset: what remains, if there is enough. -/
def tryTake (f : AssetKey × Nat) : Assets → Option Assets
  | [] => if f.2 = 0 then some [] else none
  | x :: h => if x.1 = f.1 then (if f.2 ≤ x.2 then some (if x.2 = f.2 then h else (x.1, x.2 - f.2) :: h) else none)
    else (tryTake f h).map (x :: ·)

/-- The asset as the trader sees it. -/
def toKey : AssetKey → Key Loc
  | .concrete l => .concrete l
  | .abstract n => .abstract n
/-- The inverse. -/
def ofKey : Key Loc → AssetKey
  | .concrete l => .concrete l
  | .abstract n => .abstract n

/-- `BuyExecution`: nothing happens if the weight is unlimited. -/
def buyExecution (e : Env) (vm : Vm) (f : AssetKey × Nat) : Option Weight → Vm × R Unit
  | none => (vm, .ok ())
  | some w => match tryTake f vm.holding with
    | none => (vm, .error (.other 22))
    | some h => match buy e.fees vm.trader w [(toKey f.1, f.2)] with
      | none => ({ vm with holding := h }, .error (.other 23))
      | some (un, tr) => subsumeAll e { vm with holding := h, trader := tr } (un.map (fun a => (ofKey a.1, a.2)))

/-- `refund_surplus`. -/
def refundSurplus (e : Env) (vm : Vm) : Vm × R Unit :=
  if vm.surplus.le vm.refunded then (vm, .ok ())
  else match refund vm.trader (vm.surplus.sub vm.refunded) with
    | .error x => (vm, .error x)
    | .ok (tr, none) => ({ vm with refunded := vm.refunded.plus (vm.surplus.sub vm.refunded), trader := tr }, .ok ())
    | .ok (tr, some (t, n)) =>
      subsume e { vm with refunded := vm.refunded.plus (vm.surplus.sub vm.refunded), trader := tr } (.concrete t, n)

/-- Same owner and same assets in any order. -/
def sameTrap (o : Loc) (as : Assets) (t : Loc × Assets) : Bool := decide (t.1 = o) && t.2.isPerm as

/-- With an origin. -/
def withOrigin (vm : Vm) (f : Loc → Vm × R Unit) : Vm × R Unit := match vm.origin with
  | none => (vm, .error .badOrigin)
  | some o => f o

/-- Fails if the message could not be sent. -/
def thenSend (good : Bool) (r : Vm × R Unit) : Vm × R Unit := match r with
  | (vm, .ok ()) => if good = true then (vm, .ok ()) else (vm, .error .sendFailure)
  | r => r

/-- `process_instruction`. -/
def step (e : Env) (vm : Vm) : Instr → Vm × R Unit
  | .withdraw as => withOrigin vm (fun o => withdrawAll e o vm as)
  | .reserveDeposited as => withOrigin vm (fun o => receiveAll e o vm as)
  | .teleported as => withOrigin vm (fun _ => if as = [] then (vm, .ok ()) else (vm, .error (.other 24)))
  | .claim as => withOrigin vm (fun o => if vm.traps.any (sameTrap o as) = true then
      subsumeAll e { vm with traps := vm.traps.eraseP (sameTrap o as) } as else (vm, .error (.other 25)))
  | .clearOrigin => ({ vm with origin := none }, .ok ())
  | .descend js => withOrigin vm (fun o => if o.interior.length + js.length ≤ 8 then
      ({ vm with origin := some ⟨o.parents, o.interior ++ js⟩ }, .ok ()) else (vm, .error (.other 26)))
  | .buy f l => buyExecution e vm f l
  | .refundSurplus => refundSurplus e vm
  | .depositAsset cap dst s => thenSend s (depositAll e dst { vm with holding := remaining cap vm.holding } (taken cap vm.holding))
  | .transferAsset as dst s => withOrigin vm (fun o => thenSend s (transferAll e o dst vm as))
  | .leave cap s => thenSend s ({ vm with holding := remaining cap vm.holding }, .ok ())
  | .transact k l a call => withOrigin vm (fun o => match convertOrigin e o k with
      | none => (vm, .error .badOrigin)
      | some lo => if a.le l then
          ({ vm with log := vm.log ++ [(lo, call)], surplus := vm.surplus.plus (l.sub a) }, .ok ())
        else (vm, .error (.other 27)))
  | .queryResponse _ _ => withOrigin vm (fun _ => (vm, .ok ()))
  | .subscribe => withOrigin vm (fun _ => (vm, .ok ()))
  | .unsubscribe => withOrigin vm (fun _ => (vm, .ok ()))
  | .setHandler is => ({ vm with surplus := vm.surplus.plus (weights e.base vm.handler), handler := is }, .ok ())
  | .setAppendix is => ({ vm with surplus := vm.surplus.plus (weights e.base vm.appendix), appendix := is }, .ok ())
  | .other true => (vm, .ok ())
  | .other false => (vm, .error (.other 28))

/-- `XcmExecutor::process`: `false` after an error; a panic (an overflow in a refund) ends everything. -/
def process (e : Env) (vm : Vm) : List Instr → R (Vm × Bool)
  | [] => .ok (vm, true)
  | i :: is => match step e vm i with
    | (vm', .ok ()) => process e vm' is
    | (_, .error .panic) => .error .panic
    | (vm', .error _) => .ok ({ vm' with surplus := vm'.surplus.plus (weights e.base is) }, false)

/-- `drop_error_handler`. -/
def dropHandler (e : Env) (vm : Vm) : Vm :=
  { vm with surplus := vm.surplus.plus (weights e.base vm.handler), handler := [] }

/-- The loop of the executor, with a bound on the number of rounds: each handler or appendix is one. -/
def drive (e : Env) : Nat → Vm → List Instr → R Vm
  | 0, vm, _ => .ok vm
  | _ + 1, vm, [] => .ok vm
  | n + 1, vm, i :: is => match process e vm (i :: is) with
    | .error x => .error x
    | .ok (vm', true) => drive e n { dropHandler e vm' with appendix := [] } vm'.appendix
    | .ok (vm', false) => if vm'.handler = [] then drive e n { vm' with appendix := [] } vm'.appendix
      else drive e n { vm' with handler := [] } vm'.handler

/-- `post_process`: errors of the last refund are ignored, but not a panic. -/
def finish (e : Env) (o : Loc) (vm : Vm) : R Vm :=
  match refundSurplus e vm with
  | (_, .error .panic) => .error .panic
  | (vm', _) => .ok { vm' with
      ledger := match revenue vm'.trader with
        | none => vm'.ledger
        | some r => takeRevenue vm'.ledger (assetIdOf e.self e.typeId) e.treasury r
      traps := if vm'.holding = [] then vm'.traps else (vm'.origin.getD o, vm'.holding) :: vm'.traps
      holding := []
      trader := Trader.new Loc }

/-- A fresh executor. -/
def Vm.start (l : Ledger) (traps : List (Loc × Assets)) (o : Loc) : Vm :=
  ⟨l, traps, some o, [], Trader.new Loc, [], [], ⟨0, 0⟩, ⟨0, 0⟩, []⟩

/-- What remains on the chain. -/
structure Sys where
  ledger : Ledger
  traps : List (Loc × Assets)
  log : List (LocalOrigin × Nat)

/-- `execute_xcm_in_credit`: a message that cannot be weighed or does not pass the barrier has no effect. -/
def inbound (e : Env) (n : Nat) (s : Sys) (o : Loc) (is : List Instr) (credit : Weight) : R Sys :=
  match weigh e is with
  | none => .ok s
  | some w => match barrier e o is w credit with
    | none => .ok s
    | some is' => match drive e n (Vm.start s.ledger s.traps o) is' with
      | .error x => .error x
      | .ok vm => match finish e o vm with
        | .error x => .error x
        | .ok vm' => .ok ⟨vm'.ledger, vm'.traps, s.log ++ vm'.log⟩

end Verif.Xcm
