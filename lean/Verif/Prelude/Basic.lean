import Mathlib.Tactic.Linarith
import Mathlib.Tactic.Ring
import Mathlib.Tactic.SplitIfs

/-!
# Basic vocabulary shared by all pallet models

Errors, the result monad, checked integer arithmetic and point-wise function update.
-/

namespace Verif

/-- Every way a modelled call can fail.  `overflow/underflow/divByZero` are `ArithmeticError`s,
`panic` is a Rust panic (overflow checks are on: `Cargo.toml` `overflow-checks = true`), the rest are
pallet errors with the name they have in the source. -/
inductive Err where
  | overflow | underflow | divByZero | panic
  | badOrigin | noFunds | keepAlive | tokenError
  -- pallets/amm
  | poolDoesNotExist | insufficientLiquidity | notAnIdealPrice | poolAlreadyExists
  | insufficientAmountOut | insufficientAmountIn | insufficientSupplyOut | identicalAssets
  | lpTokenAlreadyExists | conversionToU128Failed | protocolFeeReceiverNotSet
  -- pallets/router
  | zeroBalance | emptyRoute | insufficientBalance | exceedMaxLengthRoute | duplicatedRoute
  | maximumAmountInViolated | minimumAmountOutViolated | tokenDoesNotExists | noPossibleRoute
  -- pallets/streaming
  | invalidDuration | invalidRatePerSecond | invalidStreamId | invalidAmount
  | recipientIsAlsoSender | depositLowerThanMinimum | startTimeBeforeCurrentTime
  | endTimeBeforeStartTime | notStarted
  | notTheRecipient | notTheSender | lowRemainingBalance | cannotBeCancelled
  | insufficientStreamBalance | hasFinished | excessMaxStreamsCount | invalidAssetId
  -- pallets/farming
  | poolIsNotActive | poolInStatus | notAValidDuration | poolIsInTargetCoolDownDuration
  | notAValidAmount | poolUnderLock | depositBalanceLow | codecError | excessMaxLockDuration
  | excessMaxCoolDownDuration | excessMaxUserLockItemsCount | rewardNotFinish
  -- pallets/bridge
  | chainIdAlreadyRegistered | chainIdNotRegistered | bridgeTokenAlreadyRegistered
  | bridgeTokenNotRegistered | bridgeTokenDisabled | proposalAlreadyComplete | proposalExpired
  | proposalDoesNotExist | memberAlreadyVoted | bridgeOutCapExceeded | bridgeInCapExceeded
  | bridgingAmountTooLow | originNoPermission | invalidVoteThreshold
  -- pallets/loans (names already listed above are shared)
  | insufficientDeposit | tooMuchRepay | duplicateOperation | noDeposit | insufficientCollateral
  | insufficientShortfall | liquidatorIsBorrower | depositsAreNotCollateral | collateralReserved
  | marketNotActivated | priceOracleNotReady | priceIsZero | insufficientCash | insufficientReserves
  | invalidRateModelParam | invalidFactor | invalidSupplyCap | invalidExchangeRate
  | supplyCapacityExceeded | borrowCapacityExceeded | marketAlreadyExists
  | newMarketMustHavePendingState | marketDoesNotExist | invalidPtokenId
  -- pallets/liquid-staking and pallets/xcm-helper
  | stakeTooSmall | unstakeTooSmall | capExceeded | invalidCap | nothingToClaim | notBonded | alreadyBonded
  | noMoreChunks | stakingLedgerLocked | notWithdrawn | insufficientBond | invalidProof | noUnlockings
  | invalidCommissionRate | invalidDerivativeIndex | invalidStakingLedger | insufficientXcmFees | sendFailure
  -- pallets/crowdloans
  | incorrectVaultPhase | insufficientContribution | noContributions | lastPeriodBeforeFirstPeriod
  | cTokenDoesNotExist | vaultAlreadyExists | vaultDoesNotExist | invalidCToken | vaultNotEnded
  | vrfDelayInProgress | endBlockExceeded | invalidParams | notReadyToDissolve | emptyProxyAddress
  | wrongBonusConfig
  -- pallets/asset-registry, currency-adapter, evm-signatures, emergency-shutdown
  | assetAlreadyExists | assetDoesNotExist | notANativeToken | decodeFailure | invalidSignature | badNonce
  | callFiltered
  -- precompiles
  | revert
  | other (n : Nat)
deriving DecidableEq, Repr

/-- Results of fallible runtime functions (`Result<_, DispatchError>`). -/
abbrev R := Except Err

section ExceptLemmas
variable {α β : Type}

@[simp] theorem bind_ok_iff {x : R α} {f : α → R β} {b : β} :
    (x >>= f) = .ok b ↔ ∃ a, x = .ok a ∧ f a = .ok b := by
  cases x with
  | error e => simp [bind, Except.bind]
  | ok a => simp [bind, Except.bind]

@[simp] theorem pure_ok_iff {a b : α} : (pure a : R α) = .ok b ↔ a = b := by
  simp [pure, Except.pure]

@[simp] theorem throw_ok_iff {e : Err} {b : α} : (throw e : R α) = .ok b ↔ False := by
  simp [throw, throwThe, MonadExceptOf.throw]

@[simp] theorem error_ok_iff {e : Err} {b : α} : (Except.error e : R α) = .ok b ↔ False := by
  simp

@[simp] theorem ok_bind {a : α} {f : α → R β} : ((Except.ok a : R α) >>= f) = f a := rfl

@[simp] theorem error_bind {e : Err} {f : α → R β} : ((Except.error e : R α) >>= f) = .error e := rfl
end ExceptLemmas

/-- `ensure!(cond, err)`. -/
def ensure (c : Prop) [Decidable c] (e : Err) : R Unit := if c then .ok () else .error e

@[simp] theorem ensure_ok_iff {c : Prop} [Decidable c] {e : Err} {u : Unit} :
    ensure c e = .ok u ↔ c := by
  unfold ensure; split <;> simp_all

theorem ensure_of {c : Prop} [Decidable c] {e : Err} (h : c) : ensure c e = .ok () := by
  unfold ensure; simp [h]

/-- `opt.ok_or(err)?`. -/
def okOr {α : Type} (o : Option α) (e : Err) : R α := match o with
  | some a => .ok a
  | none => .error e

@[simp] theorem okOr_ok_iff {α : Type} {o : Option α} {e : Err} {a : α} :
    okOr o e = .ok a ↔ o = some a := by
  cases o <;> simp [okOr]

@[simp] theorem okOr_some {α : Type} {e : Err} {a : α} : okOr (some a) e = .ok a := rfl

/-- `u128::MAX`. -/
def maxU128 : Nat := 340282366920938463463374607431768211455
/-- `u64::MAX`. -/
def maxU64 : Nat := 18446744073709551615
/-- `u32::MAX`. -/
def maxU32 : Nat := 4294967295

theorem maxU128_pos : 0 < maxU128 := by decide

/-- `a.checked_add(b).ok_or(e)?` on `u128`. -/
def cadd (e : Err) (a b : Nat) : R Nat := if a + b ≤ maxU128 then .ok (a + b) else .error e
/-- `a.checked_sub(b).ok_or(e)?` on unsigned integers. -/
def csub (e : Err) (a b : Nat) : R Nat := if b ≤ a then .ok (a - b) else .error e
/-- `a.checked_mul(b).ok_or(e)?` on `u128`. -/
def cmul (e : Err) (a b : Nat) : R Nat := if a * b ≤ maxU128 then .ok (a * b) else .error e
/-- `a.checked_div(b).ok_or(e)?`; also division of `BigUint`s. -/
def cdiv (e : Err) (a b : Nat) : R Nat := if b = 0 then .error e else .ok (a / b)
/-- `BigUint::to_u128().ok_or(e)?`. -/
def toU128 (e : Err) (a : Nat) : R Nat := if a ≤ maxU128 then .ok a else .error e

@[simp] theorem cadd_ok_iff {e a b c} : cadd e a b = .ok c ↔ a + b ≤ maxU128 ∧ c = a + b := by
  unfold cadd; split <;> simp_all [eq_comm]
@[simp] theorem csub_ok_iff {e a b c} : csub e a b = .ok c ↔ b ≤ a ∧ c = a - b := by
  unfold csub; split <;> simp_all [eq_comm]
@[simp] theorem cmul_ok_iff {e a b c} : cmul e a b = .ok c ↔ a * b ≤ maxU128 ∧ c = a * b := by
  unfold cmul; split <;> simp_all [eq_comm]
@[simp] theorem cdiv_ok_iff {e a b c} : cdiv e a b = .ok c ↔ b ≠ 0 ∧ c = a / b := by
  unfold cdiv; split <;> simp_all [eq_comm]
@[simp] theorem toU128_ok_iff {e a c} : toU128 e a = .ok c ↔ a ≤ maxU128 ∧ c = a := by
  unfold toU128; split <;> simp_all [eq_comm]

/-- `#[transactional]`: on error all storage changes are rolled back. -/
def commit {σ : Type} (s : σ) (r : R σ) : σ := match r with
  | .ok s' => s'
  | .error _ => s

theorem commit_cases {σ : Type} (s : σ) (r : R σ) :
    (r = .ok (commit s r)) ∨ (commit s r = s ∧ ∃ e, r = .error e) := by
  cases r <;> simp [commit]

/-! ### Function update -/

/-- Storage map insertion: `f[k] := v`. -/
def upd {κ : Type} {β : Type} [DecidableEq κ] (f : κ → β) (k : κ) (v : β) : κ → β :=
  fun x => if x = k then v else f x

section upd
variable {κ β : Type} [DecidableEq κ]
@[simp] theorem upd_same (f : κ → β) (k : κ) (v : β) : upd f k v k = v := by simp [upd]
theorem upd_of_ne (f : κ → β) {k x : κ} (v : β) (h : x ≠ k) : upd f k v x = f x := by
  simp [upd, h]
theorem upd_apply (f : κ → β) (k x : κ) (v : β) : upd f k v x = if x = k then v else f x := rfl
@[simp] theorem upd_upd (f : κ → β) (k : κ) (v w : β) : upd (upd f k v) k w = upd f k w := by
  funext x; simp only [upd]; split <;> rfl
@[simp] theorem upd_eq_self (f : κ → β) (k : κ) : upd f k (f k) = f := by
  funext x; simp only [upd]; split <;> simp_all

/-- Double-map insertion: `f[k][l] := v`. -/
def upd2 {κ' : Type} [DecidableEq κ'] (f : κ → κ' → β) (k : κ) (l : κ') (v : β) : κ → κ' → β :=
  upd f k (upd (f k) l v)
variable {κ' : Type} [DecidableEq κ']
@[simp] theorem upd2_same (f : κ → κ' → β) (k : κ) (l : κ') (v : β) : upd2 f k l v k l = v := by simp [upd2]
theorem upd2_apply (f : κ → κ' → β) (k x : κ) (l y : κ') (v : β) :
    upd2 f k l v x y = if x = k ∧ y = l then v else f x y := by
  unfold upd2 upd
  split_ifs <;> simp_all
theorem upd2_of_ne (f : κ → κ' → β) {k x : κ} {l y : κ'} (v : β) (h : x ≠ k ∨ y ≠ l) :
    upd2 f k l v x y = f x y := by
  rw [upd2_apply, if_neg]
  rintro ⟨h1, h2⟩
  exact h.elim (fun h => h h1) (fun h => h h2)
end upd

end Verif
