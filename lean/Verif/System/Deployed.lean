import Verif.System.OriginProps
import Verif.Runtime.Accounts
import Verif.Xcm.EntryProps

/-!
# The runtimes

The configurations of the four runtimes of the repository, as `runtime/*/src/lib.rs` gives them.  All of them meet the
assumptions of the theorems about the pallets together.  Addresses that are hashes are computed by an arbitrary function
in place of `blake2_256`, of which only the absence of the collisions that matter is assumed.
-/

namespace Verif.System
open Verif Verif.Accounts

/-- The runtimes. -/
inductive Chain where
  | parallel | heiko | vanilla | kerria
deriving DecidableEq

namespace Chain

/-! ### Currencies, primitives/src/tokens.rs:18-59, 127-128 and the `tokens` each runtime uses -/

/-- `NATIVE_ASSET_ID`: `PARA` or `HKO`. -/
def native : Chain → Nat
  | parallel => 1 | kerria => 1 | heiko => 0 | vanilla => 0

/-- `StakingCurrency`, `RelayCurrency`, `LiquidationFreeAssetId`: `DOT` or `KSM`
(runtime/parallel/src/lib.rs:513, 534; heiko 508, 529; vanilla 496, 517; kerria 496, 517). -/
def relay : Chain → Nat
  | parallel => 101 | kerria => 101 | heiko => 100 | vanilla => 100

/-- `LiquidCurrency`: `SDOT` or `SKSM` (parallel 535, heiko 530, vanilla 518, kerria 518). -/
def liquid : Chain → Nat
  | parallel => 1001 | kerria => 1001 | heiko => 1000 | vanilla => 1000

/-- `CollateralCurrency`: `DOT_U` or `KSM_U` (parallel 536, heiko 531, vanilla 519, kerria 519). -/
def collateral : Chain → Nat
  | parallel => 4294957296 | kerria => 4294957296 | heiko => 4294957295 | vanilla => 4294957295

/-! ### `PalletId`s, the same in all runtimes (lines of runtime/parallel/src/lib.rs; stableswap: vanilla) -/

/-- `par/loan`, 418 -/
def idLoans : List Nat := [112, 97, 114, 47, 108, 111, 97, 110]
/-- `par/lqsk`, 530 -/
def idStaking : List Nat := [112, 97, 114, 47, 108, 113, 115, 107]
/-- `par/gift`, 1177 -/
def idGift : List Nat := [112, 97, 114, 47, 103, 105, 102, 116]
/-- `par/trsy`, 1656 -/
def idTreasury : List Nat := [112, 97, 114, 47, 116, 114, 115, 121]
/-- `par/brid`, 1736 -/
def idBridge : List Nat := [112, 97, 114, 47, 98, 114, 105, 100]
/-- `par/ammp`, 1777 -/
def idAmm : List Nat := [112, 97, 114, 47, 97, 109, 109, 112]
/-- `crwloans`, 1799 -/
def idCrowdloans : List Nat := [99, 114, 119, 108, 111, 97, 110, 115]
/-- `par/strm`, 1868 -/
def idStreaming : List Nat := [112, 97, 114, 47, 115, 116, 114, 109]
/-- `par/fees`, 1887 -/
def idXcm : List Nat := [112, 97, 114, 47, 102, 101, 101, 115]
/-- `par/farm`, 1929 -/
def idFarming : List Nat := [112, 97, 114, 47, 102, 97, 114, 109]
/-- `par/sswp`, runtime/vanilla/src/lib.rs:1386 -/
def idStable : List Nat := [112, 97, 114, 47, 115, 115, 119, 112]

/-- The 32 bytes of a pallet's account. -/
def acctBytes (id : List Nat) : List Nat := [109, 111, 100, 108] ++ id ++ List.replicate 20 0

/-- What is hashed for the account of lending rewards: `("loans/farming", [account])`,
pallets/loans/src/farming.rs:21-25. -/
def rewardInput : List Nat := [108, 111, 97, 110, 115, 47, 102, 97, 114, 109, 105, 110, 103] ++ acctBytes idLoans

/-- What is hashed for the account of incentives: `("loans/incentive", [account])`, pallets/loans/src/lib.rs:2066-2070. -/
def incentiveInput : List Nat :=
  [108, 111, 97, 110, 115, 47, 105, 110, 99, 101, 110, 116, 105, 118, 101] ++ acctBytes idLoans

/-- What is hashed for the account of an asset of the farming pallet: `("modlpy/liquidity", [account], asset)`,
pallets/farming/src/lib.rs:801-805. -/
def farmInput (asset : Nat) : List Nat :=
  [109, 111, 100, 108, 112, 121, 47, 108, 105, 113, 117, 105, 100, 105, 116, 121] ++ acctBytes idFarming ++ le32 asset

/-- The inputs that are hashed to addresses. -/
inductive Hashed : List Nat → Prop
  | reward : Hashed rewardInput
  | incentive : Hashed incentiveInput
  | farm (asset : Nat) : Hashed (farmInput asset)

/-- No two of these inputs have the same hash, and none of the hashes is an address that is not a hash: of a pallet, of
the account `[1; 32]`, of another chain. -/
structure NoClash (H : List Nat → Nat) : Prop where
  inj : ∀ x y, Hashed x → Hashed y → H x = H y → x = y
  pallet : ∀ x, Hashed x → ∀ id, H x ≠ pallet id
  one : ∀ x, Hashed x → H x ≠ one
  sibling : ∀ x, Hashed x → ∀ p, H x ≠ sibling p
  parent : ∀ x, Hashed x → H x ≠ parent

/-- `65 * DOLLARS / 100`, runtime/parallel/src/lib.rs:1189 -/
def gift : Nat := 650000000000

/-- `GiftConvert::to_asset_balance`, runtime/parallel/src/lib.rs:1181-1198 (kerria alike; heiko 1176-1194 and vanilla
alike); `dec` are the decimals in the assets' metadata. -/
def giftConv (dec : Nat → Nat) (ch : Chain) (amount asset : Nat) : Nat :=
  if dec asset = 0 then 0
  else if asset = 101 ∧ ch.native = 1 ∧ 5 * (10 ^ dec asset - 96000000) ≤ amount then gift
  else if asset = 100 ∧ ch.native = 0 ∧ 10 ^ (dec asset - 1) - 96000000 ≤ amount then gift
  else if (asset = 201 ∨ asset = 202) ∧ 300 * 10 ^ dec asset ≤ amount then gift
  else 0

/-- `EXISTENTIAL_DEPOSIT`: 10 cents (runtime/parallel/src/lib.rs:126, kerria 125) or 1 cent (heiko and vanilla 125); a cent is
10^10 (runtime/common/src/constants.rs:18-20). -/
def ed : Chain → Nat
  | parallel => 100000000000 | kerria => 100000000000 | heiko => 10000000000 | vanilla => 10000000000

/-- The lending pallet, runtime/parallel/src/lib.rs:511-527 (heiko 506-522, vanilla and kerria 494-510). -/
def loans (H : List Nat → Nat) (ch : Chain) : Loans.Cfg :=
  ⟨pallet idLoans, H rewardInput, H incentiveInput, ch.native, ch.relay⟩

/-- `DefaultLpFee` in parts per million: parallel 1778, heiko 1776 (0.30%), vanilla 1804, kerria 1774 (0.25%). -/
def lpFee : Chain → Nat
  | parallel => 3000 | heiko => 3000 | vanilla => 2500 | kerria => 2500

/-- The AMM, runtime/parallel/src/lib.rs:1776-1796 (`LockAccountId` is `OneAccount`). -/
def amm (ch : Chain) : Amm.Cfg := ⟨pallet idAmm, one, ch.lpFee, 1000, ch.native⟩

/-- The stableswap pallet, runtime/vanilla/src/lib.rs:1385-1407, 1804-1807.  The other runtimes do not have it. -/
def stable : Stable.Cfg := ⟨pallet idStable, one, pallet idTreasury, 2500, 500, 1000, 85⟩

/-- The farming pallet, runtime/parallel/src/lib.rs:1928-1946; the address of an asset's account is a hash. -/
def farming (H : List Nat → Nat) : Farming.Cfg := ⟨fun x => H (farmInput x), 100, 2628000, 50400⟩

/-- `Rate`s with 18 decimals: 38/1000 (parallel 539), 1/100 (heiko 534), 125/10000000 (vanilla and kerria 522). -/
def instantFee : Chain → Nat
  | parallel => 38000000000000000 | heiko => 10000000000000000 | vanilla => 12500000000000 | kerria => 12500000000000

/-- `DerivativeIndexList`: parallel 544, heiko 539, vanilla and kerria 527. -/
def indices : Chain → List Nat
  | parallel => [0, 1, 2, 3, 4, 5] | heiko => [0, 1, 2, 3, 4, 5, 6, 7, 8] | vanilla => [0, 1] | kerria => [0, 1]

/-- Liquid staking, runtime/parallel/src/lib.rs:529-581, heiko 524-576, vanilla 512-564, kerria 512-564. -/
def staking (H : List Nat → Nat) (ch : Chain) : Staking.Cfg where
  acct := pallet idStaking
  xcmAcct := pallet idXcm
  feeRecv := pallet idTreasury
  staking := ch.relay
  liquid := ch.liquid
  collateral := ch.collateral
  xcmFees := match ch with
    | parallel => 500000000 | kerria => 500000000 | heiko => 5000000000 | vanilla => 5000000000
  minStake := match ch with
    | parallel => 10000000000 | kerria => 10000000000 | heiko => 1100000000000 | vanilla => 100000000000
  minUnstake := match ch with
    | parallel => 5000000000 | kerria => 5000000000 | heiko => 50000000000 | vanilla => 50000000000
  indices := ch.indices
  bonding := match ch with
    | parallel => 28 | heiko => 28 | vanilla => 3 | kerria => 3
  minBond := match ch with
    | parallel => 10010000000000 | heiko => 100000000000 | vanilla => 100000000000 | kerria => 100000000000
  eraLength := match ch with
    | parallel => 14400 | heiko => 3600 | vanilla => 30 | kerria => 30
  solutionOffset := match ch with
    | parallel => 12600 | heiko => 3150 | vanilla => 18 | kerria => 18
  instantFee := ch.instantFee
  fastFee := 10000000000000000
  strategy := .maxMin
  lo := ch.loans H

/-- The streaming pallet, runtime/parallel/src/lib.rs:1867-1884, heiko 1863-1880, vanilla 1891-1908, kerria 1862-1879. -/
def streaming (ch : Chain) : Streaming.Cfg where
  acct := pallet idStreaming
  maxStreams := 128
  maxFinished := match ch with
    | parallel => 10 | heiko => 10 | vanilla => 2 | kerria => 2
  native := ch.native
  ed := ch.ed

/-- Crowdloans, runtime/parallel/src/lib.rs:1798-1865, heiko 1796-1861, vanilla 1824-1889, kerria 1794-1860.  A day has
7200 blocks, a minute 5 (runtime/common/src/constants.rs:35-42).  Heiko and vanilla give the pallet no streaming pallet. -/
def crowdloans (ch : Chain) : Crowdloans.Cfg where
  acct := pallet idCrowdloans
  xcmAcct := pallet idXcm
  loansAcct := pallet idLoans
  relay := ch.relay
  native := ch.native
  minContribution := match ch with
    | parallel => 50000000000 | kerria => 50000000000 | heiko => 100000000000 | vanilla => 100000000000
  migrateLimit := 5
  removeLimit := 1000
  leasePeriod := match ch with
    | parallel => 84 * 2 * 7200 | heiko => 42 * 2 * 7200 | vanilla => 2 * 5 | kerria => 2 * 2 * 5
  leaseOffset := match ch with
    | parallel => 64 * 2 * 7200 | heiko => 0 | vanilla => 0 | kerria => 0
  leasePerYear := match ch with
    | parallel => 4 | heiko => 8 | vanilla => 8 | kerria => 4
  streaming := ch.streaming
  streams := match ch with
    | parallel => true | heiko => false | vanilla => false | kerria => true

/-- The bridge, runtime/parallel/src/lib.rs:1734-1761, heiko 1732-1759, vanilla 1760-1787, kerria 1730-1757. -/
def bridge (dec : Nat → Nat) (ch : Chain) : Bridge.Cfg where
  acct := pallet idBridge
  rootOp := one
  gift := pallet idGift
  giftConv := giftConv dec ch
  native := ch.native
  ed := ch.ed
  chainId := match ch with
    | parallel => 1 | heiko => 0 | vanilla => 0 | kerria => 1
  lifetime := match ch with
    | parallel => 2592000 | heiko => 2592000 | vanilla => 200 | kerria => 200
  pct := 80

/-- The whole runtime. -/
def cfg (H : List Nat → Nat) (dec : Nat → Nat) (ch : Chain) : Cfg :=
  ⟨ch.amm, stable, farming H, ch.staking H, ch.crowdloans, ch.bridge dec⟩

/-- Derivative tokens of crowdloans are none of the runtime's own currencies. -/
structure Free (ch : Chain) (D : Nat → Prop) : Prop where
  native : ¬ D ch.native
  relay : ¬ D ch.relay
  liquid : ¬ D ch.liquid
  collateral : ¬ D ch.collateral

end Chain

open Chain

variable {H : List Nat → Nat} {dec : Nat → Nat} {D : Nat → Prop}

theorem NoClash.fr (h : NoClash H) (x : Nat) : H (farmInput x) ≠ H rewardInput := by
  intro e
  have := congrArg List.length (h.inj _ _ (.farm x) .reward e)
  simp [farmInput, rewardInput, acctBytes, le32, idLoans, idFarming] at this

theorem NoClash.fi (h : NoClash H) (x : Nat) : H (farmInput x) ≠ H incentiveInput := by
  intro e
  have := congrArg List.length (h.inj _ _ (.farm x) .incentive e)
  simp [farmInput, incentiveInput, acctBytes, le32, idLoans, idFarming] at this

theorem pallet_ne {a b : List Nat} (ha : Bytes a) (hb : Bytes b) (hl : a.length = b.length) (h : a ≠ b) :
    pallet a ≠ pallet b := fun e => h (C197_pallets ha hb hl e)

/-- The ids of the accounts a pallet may spend from, and of those in which it keeps what it owes. -/
def spendIds : Pallet → List (List Nat)
  | .amm => [idAmm]
  | .stable => [idStable]
  | .farming => []
  | .loans => [idLoans]
  | .streaming => [idStreaming]
  | .staking => [idStaking, idXcm]
  | .crowdloans => [idCrowdloans, idXcm]
  | .bridge => [idBridge, idGift]
def keepIds : Pallet → List (List Nat)
  | .amm => [idAmm]
  | .stable => [idStable]
  | .farming => []
  | .loans => [idLoans]
  | .streaming => [idStreaming]
  | .staking => [idStaking]
  | .crowdloans => [idCrowdloans]
  | .bridge => []

theorem spends_cases {ch : Chain} {p : Pallet} {w : Nat} (h : spends (ch.cfg H dec) p w) :
    (∃ id ∈ spendIds p, w = pallet id) ∨ (p = .farming ∧ ∃ x, w = H (farmInput x)) ∨
      (p = .loans ∧ (w = H rewardInput ∨ w = H incentiveInput)) := by
  cases p
  case amm => exact .inl ⟨_, by simp [spendIds], h⟩
  case stable => exact .inl ⟨_, by simp [spendIds], h⟩
  case farming => exact .inr (.inl ⟨rfl, h⟩)
  case loans => exact h.elim (fun e => .inl ⟨_, by simp [spendIds], e⟩) (fun e => .inr (.inr ⟨rfl, e⟩))
  case streaming => exact .inl ⟨_, by simp [spendIds], h⟩
  case staking => exact h.elim (fun e => .inl ⟨idStaking, by simp [spendIds], e⟩) (fun e => .inl ⟨idXcm, by simp [spendIds], e⟩)
  case crowdloans =>
    exact h.elim (fun e => .inl ⟨idCrowdloans, by simp [spendIds], e⟩) (fun e => .inl ⟨idXcm, by simp [spendIds], e⟩)
  case bridge => exact h.elim (fun e => .inl ⟨idBridge, by simp [spendIds], e⟩) (fun e => .inl ⟨idGift, by simp [spendIds], e⟩)

theorem keeps_cases {ch : Chain} {p : Pallet} {w : Nat} (h : keeps (ch.cfg H dec) p w) :
    (∃ id ∈ keepIds p, w = pallet id) ∨ (p = .farming ∧ ∃ x, w = H (farmInput x)) ∨ w = one := by
  cases p
  case amm => exact h.elim (fun e => .inl ⟨_, by simp [keepIds], e⟩) (fun e => .inr (.inr e))
  case stable => exact h.elim (fun e => .inl ⟨_, by simp [keepIds], e⟩) (fun e => .inr (.inr e))
  case farming => exact .inr (.inl ⟨rfl, h⟩)
  case loans => exact .inl ⟨_, by simp [keepIds], h⟩
  case streaming => exact .inl ⟨_, by simp [keepIds], h⟩
  case staking => exact .inl ⟨_, by simp [keepIds], h⟩
  case crowdloans => exact .inl ⟨_, by simp [keepIds], h⟩
  case bridge => exact h.elim

theorem ids_bytes : (∀ p, ∀ a ∈ spendIds p, Bytes a ∧ a.length = 8) ∧ ∀ p, ∀ a ∈ keepIds p, Bytes a ∧ a.length = 8 := by
  unfold Bytes
  constructor <;> (intro p; cases p <;> decide)

theorem ids_apart : ∀ p q, ∀ a ∈ spendIds p, ∀ b ∈ keepIds q, a = b → p = q := by
  intro p q
  cases p <;> cases q <;> decide

theorem gift_not_kept : ∀ q, idGift ∉ keepIds q := by
  intro q
  cases q <;> decide

theorem Chain.consts (ch : Chain) : ch.lpFee ≤ million ∧ ch.streaming.maxFinished < ch.streaming.maxStreams ∧
    ch.relay ≠ ch.liquid ∧ ch.relay ≠ ch.collateral ∧ ch.liquid ≠ ch.collateral ∧ ch.indices.Nodup ∧
    ch.native ≠ ch.relay := by
  cases ch <;> decide

/-- **C198.** The configuration of every runtime meets the assumptions of the theorems about the pallets together. -/
theorem C198_deployed (ch : Chain) (hH : NoClash H) (hD : ch.Free D) : (ch.cfg H dec).OK D := by
  have hp := fun id => (C197_apart id 0).2.2.1
  obtain ⟨k1, k2, k3, k4, k5, k6, k7⟩ := ch.consts
  refine ⟨⟨hp _, k1, ?_⟩, ⟨hp _, ?_, ?_, ?_⟩, ⟨hH.pallet _ .reward _, hH.pallet _ .incentive _⟩, ⟨k2⟩,
    ⟨?_, ?_, k3, k4, k5, k6⟩, ⟨k7, ?_, hD.relay, hD.native⟩, ?_, hD.liquid, hD.relay, hD.collateral, k3⟩
  · show 0 < 1000; decide
  · show 2500 + 500 ≤ million; decide
  · show 0 < 1000; decide
  · show 0 < 85; decide
  · exact pallet_ne (by unfold Bytes; decide) (by unfold Bytes; decide) (by decide) (by decide)
  · exact pallet_ne (by unfold Bytes; decide) (by unfold Bytes; decide) (by decide) (by decide)
  · exact pallet_ne (by unfold Bytes; decide) (by unfold Bytes; decide) (by decide) (by decide)
  · intro p q w hs hk
    rcases spends_cases hs with ⟨a, ha, e1⟩ | ⟨rfl, x, e1⟩ | ⟨rfl, e1⟩ <;>
      rcases keeps_cases hk with ⟨b, hb, e2⟩ | ⟨rfl, y, e2⟩ | e2
    · have h1 := ids_bytes.1 _ _ ha
      have h2 := ids_bytes.2 _ _ hb
      exact ids_apart p q a ha b hb (C197_pallets h1.1 h2.1 (h1.2.trans h2.2.symm) (e1.symm.trans e2))
    · exact absurd (e2.symm.trans e1) (hH.pallet _ (.farm y) _)
    · exact absurd (e1.symm.trans e2) (hp _)
    · exact absurd (e1.symm.trans e2) (hH.pallet _ (.farm x) _)
    · rfl
    · exact absurd (e1.symm.trans e2) (hH.one _ (.farm x))
    · rcases e1 with e1 | e1
      · exact absurd (e1.symm.trans e2) (hH.pallet _ .reward _)
      · exact absurd (e1.symm.trans e2) (hH.pallet _ .incentive _)
    · rcases e1 with e1 | e1
      · exact absurd (e2.symm.trans e1) (NoClash.fr hH y)
      · exact absurd (e2.symm.trans e1) (NoClash.fi hH y)
    · rcases e1 with e1 | e1
      · exact absurd (e1.symm.trans e2) (hH.one _ .reward)
      · exact absurd (e1.symm.trans e2) (hH.one _ .incentive)

/-- **C198.** The accounts in which the pallets keep what they owe are not the accounts of other chains nor the gift
account. -/
theorem C198_vaults (ch : Chain) (hH : NoClash H) {w : Nat} (hw : Vaulted (ch.cfg H dec) w) :
    (∀ p, w ≠ sibling p) ∧ w ≠ parent ∧ w ≠ pallet idGift := by
  obtain ⟨q, hq⟩ := hw
  rcases keeps_cases hq with ⟨b, hb, rfl⟩ | ⟨-, y, rfl⟩ | rfl
  · refine ⟨fun p => (C197_apart b p).1, (C197_apart b 0).2.1, fun e => ?_⟩
    have h2 := ids_bytes.2 _ _ hb
    have := C197_pallets h2.1 (b := idGift) (by unfold Bytes; decide) (h2.2.trans (by decide)) e
    exact gift_not_kept q (this ▸ hb)
  · exact ⟨hH.sibling _ (.farm y), hH.parent _ (.farm y), hH.pallet _ (.farm y) _⟩
  · exact ⟨fun p e => (C197_apart [] p).2.2.2.2.1 e.symm, fun e => (C197_apart [] 0).2.2.2.2.2 e.symm,
      fun e => (C197_apart idGift 0).2.2.1 e.symm⟩

/-- The accounts an XCM executor uses in these runtimes. -/
structure Chain.Uses (ch : Chain) (e : Xcm.Env) : Prop where
  native : e.native = ch.native
  gift : e.gift = pallet idGift
  parent : e.parentAcct = parent
  sibling : e.siblingAcct = sibling

/-- **C198.** Whatever message another parachain or the relay chain sends, and however far it is executed, nothing is
taken from an account in which a pallet keeps what it owes to users. -/
theorem C198_messages (ch : Chain) (hH : NoClash H) {e : Xcm.Env} (he : ch.Uses e) {n : Nat}
    {s s' : Xcm.Sys} {js : List Xcm.Junction} {is : List Xcm.Instr} {credit : Xcm.Weight}
    (ho : js = [] ∨ ∃ p, js = [.parachain p]) (h : Xcm.inbound e n s ⟨1, js⟩ is credit = .ok s') {w : Nat}
    (hw : Vaulted (ch.cfg H dec) w) (x : Nat) : s.ledger.bal x w ≤ s'.ledger.bal x w := by
  obtain ⟨h1, h2, h3⟩ := C198_vaults ch hH hw
  by_contra hlt
  rw [Nat.not_le] at hlt
  rcases ho with rfl | ⟨p, rfl⟩
  · rcases Xcm.C187_relay h hlt with ⟨-, e1⟩ | e1 | ⟨p, e1⟩
    · exact h3 (e1.trans he.gift)
    · exact h2 (e1.trans he.parent)
    · exact h1 p (e1.trans (congrFun he.sibling p))
  · rcases Xcm.C187_sibling h hlt with ⟨-, e1⟩ | e1
    · exact h3 (e1.trans he.gift)
    · exact h1 p (e1.trans (congrFun he.sibling p))

/-- **C198.** Nor can such a message make a call that is signed by such an account. -/
theorem C198_transact (ch : Chain) (hH : NoClash H) {e : Xcm.Env} (he : ch.Uses e) {n : Nat} {s s' : Xcm.Sys}
    {js : List Xcm.Junction} {is : List Xcm.Instr} {credit : Xcm.Weight}
    (h : Xcm.inbound e n s ⟨1, js⟩ is credit = .ok s') {w call : Nat} (hw : Vaulted (ch.cfg H dec) w)
    (hc : (.signed w, call) ∈ s'.log) : (.signed w, call) ∈ s.log := by
  obtain ⟨h1, h2, -⟩ := C198_vaults ch hH hw
  obtain ⟨new, e1, e2⟩ := Xcm.C186_origins h
  rw [e1, List.mem_append] at hc
  refine hc.resolve_right (fun hc => ?_)
  obtain ⟨o', k, ⟨js', rfl⟩, hk⟩ := e2 _ hc
  cases k with
  | sovereign =>
    have hk' : (Xcm.locAcct e ⟨1, js ++ js'⟩).map Xcm.LocalOrigin.signed = some (.signed w) := hk
    generalize js ++ js' = ks at hk'
    match ks, hk' with
    | [], hk' => exact h2 ((Xcm.LocalOrigin.signed.inj (Option.some.inj hk')).symm.trans he.parent)
    | [.parachain p], hk' =>
      exact h1 p ((Xcm.LocalOrigin.signed.inj (Option.some.inj hk')).symm.trans (congrFun he.sibling p))
  | native =>
    have hk' : Xcm.convertOrigin e ⟨1, js ++ js'⟩ .native = some (.signed w) := hk
    generalize js ++ js' = ks at hk'
    match ks, hk' with
    | [], hk' => cases hk'
    | [.parachain p], hk' => cases hk'
  | superuser =>
    simp only [Xcm.convertOrigin] at hk
    split at hk <;> cases hk
  | xcm => cases hk

/-- **C198.** Fees are at most everything, an era is longer than the offset at which the election is over, thresholds and
periods are not zero: the constants the other theorems assume to be sane are. -/
theorem C198_constants (ch : Chain) :
    let c := ch.cfg H dec
    c.stk.fastFee ≤ DIV ∧ c.stk.instantFee ≤ DIV ∧ c.stk.solutionOffset < c.stk.eraLength ∧ 0 < c.stk.bonding ∧
      c.stk.xcmFees < c.stk.minStake ∧ 0 < c.stk.minUnstake ∧ c.stk.minUnstake ≤ c.stk.minStake ∧
      c.stk.staking = c.cl.relay ∧ c.stk.xcmAcct = c.cl.xcmAcct ∧ c.lo.acct = c.cl.loansAcct ∧
      0 < c.br.pct ∧ c.br.pct ≤ 100 ∧ 0 < c.cl.leasePeriod ∧ 0 < c.cl.leasePerYear ∧ 0 < c.cl.minContribution ∧
      0 < c.cl.migrateLimit ∧ 0 < c.cl.removeLimit ∧ c.amm.native = c.cl.native ∧ c.br.native = c.cl.native ∧
      c.str.native = c.cl.native := by
  cases ch <;> refine ⟨by unfold DIV; exact of_decide_eq_true rfl, by unfold DIV; exact of_decide_eq_true rfl,
    of_decide_eq_true rfl, of_decide_eq_true rfl, of_decide_eq_true rfl, of_decide_eq_true rfl, of_decide_eq_true rfl,
    rfl, rfl, rfl, of_decide_eq_true rfl, of_decide_eq_true rfl, of_decide_eq_true rfl, of_decide_eq_true rfl,
    of_decide_eq_true rfl, of_decide_eq_true rfl, of_decide_eq_true rfl, rfl, rfl, rfl⟩

/-! ### A function without collisions exists; the theorems about the pallets together apply -/

/-- Some function with the property assumed of the hash; its values are addresses of 32 bytes. -/
def exH (l : List Nat) : Nat := 2 ^ 32 * (l.length + 256 * ofBytes (l.drop 48))

theorem exH_noClash : NoClash exH := by
  have hm : ∀ l, exH l % 2 ^ 32 = 0 := fun l => Nat.mul_mod_right _ _
  have far : ∀ (l : List Nat) (m : Nat), m % 2 ^ 32 ≠ 0 → exH l ≠ m := fun l m h e => h (e ▸ hm l)
  refine ⟨?_, fun x _ id => far _ _ ?_, fun x _ => far _ _ ?_, fun x _ p => far _ _ ?_, fun x _ => far _ _ ?_⟩
  · have hl : (rewardInput.length = 45 ∧ rewardInput.drop 48 = []) ∧
        (incentiveInput.length = 47 ∧ incentiveInput.drop 48 = []) ∧
        ∀ x, (farmInput x).length = 52 ∧ (farmInput x).drop 48 = le32 x := by
      refine ⟨by decide, by decide, fun x => ⟨rfl, rfl⟩⟩
    obtain ⟨⟨a1, a2⟩, ⟨b1, b2⟩, c⟩ := hl
    have hr : exH rewardInput = 2 ^ 32 * 45 := by unfold exH; rw [a1, a2]; rfl
    have hi : exH incentiveInput = 2 ^ 32 * 47 := by unfold exH; rw [b1, b2]; rfl
    have hf : ∀ x, exH (farmInput x) = 2 ^ 32 * (52 + 256 * ofBytes (le32 x)) := by
      intro x; unfold exH; rw [(c x).1, (c x).2]
    intro x y hx hy he
    cases hx <;> cases hy <;> simp only [hr, hi, hf] at he
    case farm.farm x y =>
      have h1 : ofBytes (le32 x) = ofBytes (le32 y) := by omega
      unfold farmInput
      rw [ofBytes_inj (le32_bytes x) (le32_bytes y) rfl h1]
    all_goals first | rfl | (exfalso; omega)
  · rw [pallet_mod]; decide
  · rw [one_mod]; decide
  · rw [sibling_mod]; decide
  · rw [parent_mod]; decide

example : Chain.parallel.Free (fun T => T = 3000 ∨ T = 3001) := ⟨by decide, by decide, by decide, by decide⟩

/-- The runtimes' configurations are sane with it. -/
def exT (T : Nat) : Prop := T = 3000 ∨ T = 3001
def exP : Cfg := Chain.parallel.cfg exH (fun _ => 10)
theorem exP_ok : exP.OK exT := C198_deployed _ exH_noClash ⟨by unfold exT; decide, by unfold exT; decide,
  by unfold exT; decide, by unfold exT; decide⟩

/-- Accounts below 1000 are ordinary users. -/
theorem exP_vaulted {w : Nat} (h : Vaulted exP w) : 1000 ≤ w := by
  obtain ⟨q, hq⟩ := h
  have hp : ∀ id, 1000 ≤ pallet id := fun id => by
    have := pallet_mod id
    have := Nat.mod_le (pallet id) (2 ^ 32)
    omega
  rcases keeps_cases hq with ⟨b, hb, rfl⟩ | ⟨-, y, rfl⟩ | rfl
  · exact hp b
  · show 1000 ≤ 2 ^ 32 * ((farmInput y).length + _)
    have : (farmInput y).length = 52 := rfl
    rw [this]
    omega
  · have := one_mod
    have := Nat.mod_le one (2 ^ 32)
    omega

/-- Two users with 10000 DOT each; a chain on which nothing has happened. -/
@[irreducible] def exPL : Ledger := Ledger.ofList [(101, 7, 100000000000000), (101, 8, 100000000000000)]
theorem exPL_wf : exPL.WF := by unfold exPL; exact Ledger.ofList_wf _

def exP0 : State :=
  { ex0 with
    ledger := exPL
    lo := Loans.State.fresh exPL Loans.exPrices 1000 10
    stk := { ex0.stk with cap := 1000000000000000 } }

theorem exP0_genesis : Genesis exP exT exP0 where
  wf := exPL_wf
  amm := fun _ => rfl
  stb := fun _ => rfl
  farm := rfl
  lo := rfl
  str := rfl
  stk :=
    { wf := exPL_wf
      iss := by decide +kernel
      reserves := rfl
      ureserves := rfl
      pool := rfl
      reqs := rfl
      fast := fun _ => rfl
      unlockings := fun _ => rfl
      ledgers := fun _ => rfl
      relay := by intro i l h; cases h
      rf := by decide
      urf := by decide
      commission := by decide
      log := rfl }
  cl := by
    refine ⟨fun _ => rfl, fun _ => rfl, fun _ => rfl, fun _ => rfl, fun _ => rfl, rfl, exPL_wf, ?_⟩
    rintro T (rfl | rfl)
    · show exPL.iss 3000 = 0; decide +kernel
    · show exPL.iss 3001 = 0; decide +kernel
  br := rfl

/-- 7 stakes 2000 DOT; a pool of DOT and SDOT is created. -/
def exPCalls : List Call :=
  [.staking (.stake 7 20000000000000), .amm (.create (1001, 101) (4000000000000, 5000000000000) 7 60),
   .streaming (.create 8 9 1000000000000 101 1010 1110 true)]

theorem exPCalls_ok : ∀ k ∈ exPCalls, ∀ s, k.OK exP exT s := by
  intro k hk s
  simp only [exPCalls, List.mem_cons, List.not_mem_nil, or_false] at hk
  have av : ∀ {w}, w < 1000 → ¬ Vaulted exP w := fun hw hv => absurd (exP_vaulted hv) (by omega)
  have hq : exP.stk.liquid = 1001 := rfl
  rcases hk with rfl | rfl | rfl <;> constructor <;>
    simp [Call.actors, Amm.Call.payers, av, Amm.Call.newLp, Issued, exT, hq]

def exP1 : State := run exP exP0 exPCalls
theorem exP1_reach : Reach exP exT exP1 := run_reach (.init exP0_genesis) exPCalls_ok

/-- What the pallets owe lies in their accounts, at their addresses. -/
example : exP1.ledger.bal 101 (pallet idStaking) = 20000000000000 - 500000000 ∧
    exP1.ledger.bal 101 (pallet idAmm) = 5000000000000 ∧ exP1.ledger.bal 101 (pallet idStreaming) = 1000000000000 := by
  decide +kernel
example := C189_solvent exP_ok exP1_reach 101

/-- An XCM executor with the addresses of the runtime; chain 7 sends tokens to the account of liquid staking (this is
allowed) and pays with its own. -/
def exX : Xcm.Env := { Xcm.exEnv with
  native := 1, gift := pallet idGift, parentAcct := parent, siblingAcct := sibling, account32 := some }
example : Chain.parallel.Uses exX := ⟨rfl, rfl, rfl, rfl⟩
@[irreducible] def exXL : Ledger := Ledger.ofList [(101, sibling 7, 100), (101, pallet idStaking, 5)]
example : okAnd (Xcm.inbound exX 5 ⟨exXL, [], []⟩ ⟨1, [.parachain 7]⟩ [.withdraw [(Xcm.dot, 70)],
      .buy (Xcm.dot, 70) none, .transact .sovereign ⟨5, 0⟩ ⟨5, 0⟩ 77,
      .depositAsset (fun _ => 1000) ⟨0, [.other (pallet idStaking)]⟩ true] ⟨0, 0⟩)
    (fun t => decide (t.ledger.bal 101 (sibling 7) = 30 ∧ 5 ≤ t.ledger.bal 101 (pallet idStaking) ∧
      t.log = [(.signed (sibling 7), 77)])) = true := by
  decide +kernel

end Verif.System
