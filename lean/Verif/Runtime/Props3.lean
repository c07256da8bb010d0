import Verif.Runtime.Props2

/-! # Call filters: which calls are open to users and to each type of proxy (C152, C155), and the calls about proxies -/

set_option linter.unusedSimpArgs false

namespace Verif.Runtime
open Verif

/-- Pallets all of whose calls are always open: governance, memberships and utilities. -/
def alwaysOpenPallets : List Pallet :=
  [.system, .timestamp, .democracy, .generalCouncil, .technicalCommittee, .treasury, .scheduler, .preimage, .parachainSystem,
   .xcmpQueue, .dmpQueue, .cumulusXcm, .session, .utility, .multisig, .proxy, .identity, .emergencyShutdown, .xcmHelper,
   .oracleMembership, .generalCouncilMembership, .technicalCommitteeMembership, .liquidStakingAgentsMembership,
   .crowdloansAutomatorsMembership, .bridgeMembership]

/-- The test networks also keep the sudo pallet and collator selection always open. -/
def alwaysOpenOn : Chain → List Pallet
  | .kerria | .vanilla => .sudoKey :: .collatorSelection :: alwaysOpenPallets
  | .parallel | .heiko => alwaysOpenPallets

/-- Single calls that are always open (all of them for root only). -/
def alwaysOpenCalls : List Kind :=
  [⟨.assets, .forceCreate⟩, ⟨.assets, .forceSetMetadata⟩, ⟨.assets, .forceAssetStatus⟩, ⟨.assets, .forceClearMetadata⟩,
   ⟨.assets, .forceCancelApproval⟩, ⟨.assets, .forceTransfer⟩, ⟨.polkadotXcm, .forceXcmVersion⟩,
   ⟨.polkadotXcm, .forceDefaultXcmVersion⟩, ⟨.polkadotXcm, .forceSubscribe⟩, ⟨.polkadotXcm, .forceUnsubscribe⟩]

/-- Pallets all of whose calls are open until they are switched off. -/
def switchablePallets : List Pallet :=
  [.balances, .currencyAdapter, .oracle, .xTokens, .ormlXcm, .vesting, .loans, .prices, .liquidStaking, .amm, .ammRoute,
   .crowdloans, .bridge, .farming, .streaming, .assetRegistry, .evm, .ethereum, .baseFee, .evmSignatureCall]

/-- Single calls that are open until they are switched off. -/
def switchableCalls : List Kind :=
  [⟨.assets, .mintAsset⟩, ⟨.assets, .transferAsset⟩, ⟨.assets, .transferKeepAlive⟩, ⟨.assets, .freeze⟩, ⟨.assets, .thaw⟩,
   ⟨.assets, .freezeAsset⟩, ⟨.assets, .thawAsset⟩, ⟨.assets, .burn⟩]

theorem whitelisted_iff (ch : Chain) (k : Kind) :
    whitelisted ch k = true ↔ k.pallet ∈ alwaysOpenOn ch ∨ k ∈ alwaysOpenCalls := by
  obtain ⟨p, f⟩ := k
  by_cases h : p = .assets ∨ p = .polkadotXcm
  · rcases h with rfl | rfl <;> cases ch <;> cases f <;> simp [whitelisted, alwaysOpenOn, alwaysOpenPallets, alwaysOpenCalls]
  · have h1 : p ≠ .assets := fun e => h (Or.inl e)
    have h2 : p ≠ .polkadotXcm := fun e => h (Or.inr e)
    cases p <;> first
      | exact absurd rfl h1
      | exact absurd rfl h2
      | (cases ch <;> simp [whitelisted, alwaysOpenOn, alwaysOpenPallets, alwaysOpenCalls])

theorem listed_iff (k : Kind) : listed k = true ↔ k.pallet ∈ switchablePallets ∨ k ∈ switchableCalls := by
  obtain ⟨p, f⟩ := k
  by_cases h : p = .assets
  · subst h
    cases f <;> simp [listed, switchablePallets, switchableCalls]
  · cases p <;> first
      | exact absurd rfl h
      | simp [listed, switchablePallets, switchableCalls]

/-- **C152.** Which calls users may make, by name: the calls that are always open, and the switchable ones of which neither the
pallet nor the call is switched off. All others (the collator selection on the main networks, `pallet_xcm`'s transfers and
executions, approvals and creation of assets, the stable swap pallet) are closed. -/
theorem C152_open (c : Cfg) (s : State) (k : Kind) : UserMay c s k ↔
    (k.pallet ∈ alwaysOpenOn c.chain ∨ k ∈ alwaysOpenCalls) ∨
    ((k.pallet ∈ switchablePallets ∨ k ∈ switchableCalls) ∧ s.disP k.pallet.index = false ∧
      s.disC k.pallet.index (c.callIdx k) = false) := by
  unfold UserMay SwitchedOff
  rw [whitelisted_iff, listed_iff]
  by_cases hw : k.pallet ∈ alwaysOpenOn c.chain ∨ k ∈ alwaysOpenCalls
  · have : whitelisted c.chain k = true := (whitelisted_iff c.chain k).2 hw
    simp [hw, this]
  · have : whitelisted c.chain k = false := by
      cases h : whitelisted c.chain k with
      | false => rfl
      | true => exact absurd ((whitelisted_iff c.chain k).1 h) hw
    simp only [this, hw, false_or, true_and, not_or, Bool.not_eq_true]

/-- With all switches on, users can stake but not start a teleport or approve a transfer of an asset; with liquid staking
switched off they cannot stake, but still vote. -/
example (c : Cfg) (s : State) (p q : Nat → Bool) (hp : p = fun _ => false) (hq : q = fun n => n == 60) :
    UserMay c { s with disP := p, disC := fun _ _ => false } ⟨.liquidStaking, .stake⟩ ∧
    ¬ UserMay c { s with disP := p, disC := fun _ _ => false } ⟨.polkadotXcm, .other 1⟩ ∧
    ¬ UserMay c { s with disP := q, disC := fun _ _ => false } ⟨.liquidStaking, .stake⟩ ∧
    UserMay c { s with disP := q, disC := fun _ _ => true } ⟨.democracy, .other 3⟩ := by
  subst hp hq
  simp only [C152_open]
  cases c.chain <;> refine ⟨?_, ?_, ?_, ?_⟩ <;>
    simp [alwaysOpenOn, alwaysOpenPallets, alwaysOpenCalls, switchablePallets, switchableCalls, Pallet.index]

/-- What each limited type of proxy may do, by name. -/
def proxyCalls (ch : Chain) : ProxyType → List Kind
  | .loans => [⟨.loans, .mint⟩, ⟨.loans, .redeem⟩, ⟨.loans, .redeemAll⟩, ⟨.loans, .borrow⟩, ⟨.loans, .repayBorrow⟩,
      ⟨.loans, .repayBorrowAll⟩, ⟨.loans, .collateralAsset⟩, ⟨.loans, .liquidateBorrow⟩,
      ⟨.loans, .claimReward⟩, ⟨.loans, .claimRewardForMarket⟩] ++ (if ch = .kerria then [] else [⟨.loans, .addReward⟩])
  | .staking => [⟨.liquidStaking, .stake⟩, ⟨.liquidStaking, .unstake⟩] ++
      (if ch = .kerria then [] else [⟨.liquidStaking, .cancelUnstake⟩])
  | .crowdloans => [⟨.crowdloans, .contribute⟩, ⟨.crowdloans, .claim⟩, ⟨.crowdloans, .claimFor⟩, ⟨.crowdloans, .withdraw⟩,
      ⟨.crowdloans, .withdrawFor⟩, ⟨.crowdloans, .redeem⟩]
  | .farming => [⟨.farming, .deposit⟩, ⟨.farming, .claim⟩, ⟨.farming, .withdraw⟩, ⟨.farming, .redeem⟩]
  | .streaming => [⟨.streaming, .create⟩, ⟨.streaming, .cancel⟩, ⟨.streaming, .withdraw⟩]
  | .amm => [⟨.amm, .addLiquidity⟩, ⟨.amm, .removeLiquidity⟩, ⟨.ammRoute, .swapForExact⟩, ⟨.ammRoute, .swapExactFor⟩]
  | _ => []

/-- The types of proxy that may make all calls of some pallets. -/
def proxyPallets : ProxyType → List Pallet
  | .governance => [.democracy, .preimage, .generalCouncil, .technicalCommittee, .treasury, .utility]
  | .evm => [.ethereum, .evm, .baseFee, .evmSignatureCall]
  | _ => []

/-- **C155.** Which calls each type of proxy covers. -/
theorem C155_types (ch : Chain) (t : ProxyType) (k : Kind) :
    t.filter ch k = true ↔ t = .any ∨ k ∈ proxyCalls ch t ∨ k.pallet ∈ proxyPallets t := by
  obtain ⟨p, f⟩ := k
  cases t with
  | any => simp [ProxyType.filter]
  | loans =>
    by_cases hp : p = .loans
    · subst hp; cases ch <;> cases f <;> simp [ProxyType.filter, proxyCalls, proxyPallets]
    · cases ch <;> simp [ProxyType.filter, proxyCalls, proxyPallets, hp]
  | staking =>
    by_cases hp : p = .liquidStaking
    · subst hp; cases ch <;> cases f <;> simp [ProxyType.filter, proxyCalls, proxyPallets]
    · cases ch <;> simp [ProxyType.filter, proxyCalls, proxyPallets, hp]
  | crowdloans =>
    by_cases hp : p = .crowdloans
    · subst hp; cases ch <;> cases f <;> simp [ProxyType.filter, proxyCalls, proxyPallets]
    · cases ch <;> simp [ProxyType.filter, proxyCalls, proxyPallets, hp]
  | farming =>
    by_cases hp : p = .farming
    · subst hp; cases ch <;> cases f <;> simp [ProxyType.filter, proxyCalls, proxyPallets]
    · cases ch <;> simp [ProxyType.filter, proxyCalls, proxyPallets, hp]
  | streaming =>
    by_cases hp : p = .streaming
    · subst hp; cases ch <;> cases f <;> simp [ProxyType.filter, proxyCalls, proxyPallets]
    · cases ch <;> simp [ProxyType.filter, proxyCalls, proxyPallets, hp]
  | governance => cases p <;> simp [ProxyType.filter, proxyCalls, proxyPallets]
  | amm =>
    by_cases hp : p = .amm
    · subst hp; cases ch <;> cases f <;> simp [ProxyType.filter, proxyCalls, proxyPallets]
    · by_cases hq : p = .ammRoute
      · subst hq; cases ch <;> cases f <;> simp [ProxyType.filter, proxyCalls, proxyPallets]
      · simp [ProxyType.filter, proxyCalls, proxyPallets, hp, hq]
  | evm => cases p <;> simp [ProxyType.filter, proxyCalls, proxyPallets]

/-- Pallets with calls that move tokens between accounts or chains, or that hand on power. -/
def sendingPallets : List Pallet :=
  [.balances, .assets, .currencyAdapter, .xTokens, .polkadotXcm, .ormlXcm, .bridge, .vesting, .proxy, .multisig, .sudoKey]

/-- **C155.** No limited type of proxy covers the plain transfers of tokens (on this chain, to other chains or over the bridge),
nor calls about proxies: the power of a limited delegate cannot be handed on. -/
theorem C155_no_transfers (ch : Chain) (t : ProxyType) (ht : t ≠ .any) (k : Kind) (hk : k.pallet ∈ sendingPallets) :
    t.filter ch k = false := by
  have h1 : ∀ x ∈ proxyCalls ch t, x.pallet ∉ sendingPallets := by cases ch <;> cases t <;> decide
  have h2 : ∀ x ∈ proxyPallets t, x ∉ sendingPallets := by cases t <;> decide
  cases h : t.filter ch k with
  | false => rfl
  | true =>
    rcases (C155_types ch t k).1 h with h3 | h3 | h3
    · exact absurd h3 ht
    · exact absurd hk (h1 k h3)
    · exact absurd hk (h2 _ h3)

/-- **C155.** Who is named as a proxy: an account names somebody else, each with one type and delay at most once, and the proxies
of all other accounts stay as they are. -/
theorem C155_add_proxy (c : Cfg) (s : State) (w delegate delay : Nat) (ty : ProxyType) (fs : List ProxyType) :
    (∃ s', bypass c s ⟨.signed w, fs⟩ (.addProxy delegate ty delay) = .ok s') ↔
      delegate ≠ w ∧ ⟨delegate, ty, delay⟩ ∉ s.proxies w := by
  unfold bypass
  simp only [bind_ok_iff, ensure_ok_iff, okOr_ok_iff, pure_ok_iff, exists_const]
  constructor
  · rintro ⟨s', who, hw, h1, h2, -⟩
    cases hw
    exact ⟨h1, h2⟩
  · rintro ⟨h1, h2⟩
    exact ⟨_, w, rfl, h1, h2, rfl⟩

/-- **C155.** -/
theorem C155_add_proxy_what {c : Cfg} {s s' : State} {w delegate delay : Nat} {ty : ProxyType} {fs : List ProxyType}
    (h : bypass c s ⟨.signed w, fs⟩ (.addProxy delegate ty delay) = .ok s') (a : Nat) (d : ProxyDef) :
    d ∈ s'.proxies a ↔ d ∈ s.proxies a ∨ (a = w ∧ d = ⟨delegate, ty, delay⟩) := by
  unfold bypass at h
  simp only [bind_ok_iff, ensure_ok_iff, okOr_ok_iff, pure_ok_iff, exists_const] at h
  obtain ⟨who, hw, -, -, rfl⟩ := h
  cases hw
  by_cases ha : a = w
  · subst ha
    simp [upd_same, or_comm]
  · simp [upd_of_ne _ _ ha, ha]

/-- **C155.** Only a named proxy can be removed, and removing it leaves all others. -/
theorem C155_remove_proxy (c : Cfg) (s : State) (w delegate delay : Nat) (ty : ProxyType) (fs : List ProxyType) :
    (∃ s', bypass c s ⟨.signed w, fs⟩ (.removeProxy delegate ty delay) = .ok s' ∧
      (∀ a, a ≠ w → s'.proxies a = s.proxies a) ∧ s'.proxies w = (s.proxies w).erase ⟨delegate, ty, delay⟩) ↔
      ⟨delegate, ty, delay⟩ ∈ s.proxies w := by
  unfold bypass
  simp only [bind_ok_iff, ensure_ok_iff, okOr_ok_iff, pure_ok_iff, exists_const]
  constructor
  · rintro ⟨s', ⟨who, hw, h1, -⟩, -⟩
    cases hw
    exact h1
  · intro h1
    exact ⟨_, ⟨w, rfl, h1, rfl⟩, fun a ha => upd_of_ne _ _ ha, upd_same _ _ _⟩

example (ch : Chain) : ProxyType.staking.filter ch ⟨.liquidStaking, .stake⟩ = true ∧
    ProxyType.staking.filter ch ⟨.liquidStaking, .other 3⟩ = false ∧
    ProxyType.streaming.filter ch ⟨.balances, .transfer⟩ = false ∧
    (ProxyType.staking.filter ch ⟨.liquidStaking, .cancelUnstake⟩ = true ↔ ch ≠ .kerria) := by
  cases ch <;> decide

/-- **C152, a finding.** No user can make a call of the stable swap pallet, on any runtime and whatever the switches: the pallet is
on neither list of the base filter, also on vanilla, the only runtime that has the pallet. -/
theorem C152_stableswap_closed (c : Cfg) (s : State) (f : Fn) (w : Nat) (fs : List ProxyType) :
    ¬ UserMay c s ⟨.stableSwap, f⟩ ∧
    ∀ (a : Nat), dispatch c s ⟨.signed w, fs⟩ (.leaf ⟨.stableSwap, f⟩ a) = .error .callFiltered := by
  have h : ¬ UserMay c s ⟨.stableSwap, f⟩ := by
    rw [C152_open]
    cases c.chain <;> simp [alwaysOpenOn, alwaysOpenPallets, alwaysOpenCalls, switchablePallets, switchableCalls]
  refine ⟨h, fun a => ?_⟩
  unfold dispatch
  refine if_neg fun ha => h ?_
  exact ((allowed_signed (o := ⟨.signed w, fs⟩) rfl).1 ha).1

end Verif.Runtime
