# A Lean 4 model of parallel-finance/parallel

## 1. Approach

Each pallet is a deterministic state machine: a storage record plus extrinsics
`State → Args → Except Err State`.  An error rolls the storage back (`#[transactional]` /
the default dispatch-layer transaction of Substrate), so the observable step is
`ok s' ↦ s'`, `error ↦ unchanged`.  The model is executable Lean (`def`s over `Nat`, functions,
lists), one definition per Rust function, with file/line citations.
Histories are inductive `Reachable` predicates: initial state, any extrinsic by any signer
that is not the pallet's own (key-less) account, and *environment steps*: every change of the ledger
and of time made by the rest of the chain which does not debit the pallet's own accounts.

Layout of `lean/Verif`:

* `Prelude/*`  – error type, checked u128 arithmetic, `Except` reasoning, function update,
  finite-sum invariants, token ledger, fixed point numbers.
* `<Pallet>/Model.lean` – the model; `<Pallet>/Lemmas*.lean` – helper lemmas;
  `<Pallet>/Props.lean` – **the property theorems only**, each with a non-vacuity example.

## 2. Modelling conventions (what is simplified everywhere)

* `AccountId`, `AssetId`, `Balance`, block numbers and times are `Nat`.  Every place where the
  Rust code uses checked arithmetic has the same check in the model, against the same width
  (`u128`, `u64`, `u32`).  Unchecked arithmetic that would overflow/underflow is a panic because the
  workspace compiles with `overflow-checks = true`; the model returns the explicit error `Err.panic`
  at this point.
* The token ledger (`pallet_assets`, `pallet_balances`, `currency-adapter`) is modelled as
  `bal : asset → account → Nat`, `issuance : asset → Nat`.  Simplified: every asset exists, is not
  frozen, `min_balance = 1`, no locks/holds; with `keep_alive = true` the sender must keep ≥ 1.
  A transfer of 0 is a successful no-op.  Dust collection does not occur with `min_balance = 1`.
* Events, weights, storage deposits, origins other than "signed / root-like" are not modelled unless a
  property is about them.
* Storage maps are total functions to `Option`; `BTreeSet`/`Vec` are lists.
* External inputs (oracle prices, other pallets behind traits) are parameters, universally quantified.

## 3. Trusted base

* Lean 4.33.0's kernel, and the axioms `propext`, `Classical.choice`, `Quot.sound` (nothing else;
  `#print axioms` for each manifest theorem shows at most these).  No `axiom`, no compiled evaluation.
* That the model definitions say what the cited Rust lines say (read by hand; the code was not run).
* Substrate `polkadot-v0.9.38` semantics of `FixedU128`, `Permill`, `multiply_by_rational`,
  storage layers and `fungibles` as described in the comments of `Prelude`.

## 4. Per-property plan

| id | modelled | proof |
|----|----------|-------|
| C01–C06 | `amm`: `get_amount_out/in`, `get_amounts_*`, `do_swap`, ledger | non-linear arithmetic on floor/ceil divisions; frame from ledger lemmas |
| C02, C10 | whole AMM state machine with all extrinsics + environment | invariant by induction over `Reachable`, sums over arbitrary finite sets of pools |
| C07–C09 | `add_liquidity`, `get_ideal_amounts`, `do_add_liquidity`, `remove_liquidity` | arithmetic on the results, from the executable definitions |
| C11 | `do_mint_protocol_fee` | FALSE as stated: negation by witness; partial theorem under `k_last ≠ 0` |
| C12 | extrinsics | equality of result states |
| C13–C14 | `router` over the AMM model | induction over the route |
| C15–C16 | `get_output_routes`, `get_all_routes`, `get_best_route` | soundness/completeness of the BFS queue against an independent definition of simple paths; termination measure |
| C17 | stableswap `do_add_liquidity`/`do_remove_liquidity` | FALSE: negation by witness |
| C18 | stableswap `do_swap`, `compute_d`, `compute_base` | from the checked subtraction in `get_amount_out`/`do_swap` |
| C19–C24 | `streaming` state machine | invariant by induction over histories with ghost totals for paid/refunded |
| C25–C29 | `farming` state machine | invariants with finite sums; scaled reward potential for solvency |
| C30 | `update_bridge_registry`, `merge_overlapping_intervals` | set semantics of the interval list |
| C31–C34 | `bridge` state machine | invariants with ghost history (votes, payouts) |
| C35 | bridge | FALSE: negation by witness, plus what does hold |
| C36–C49 | `loans` (markets, interest, ptoken, farming rewards, liquidation) | arithmetic + invariants over histories |
| C48 | loans rewards | FALSE with `transfer` of ptokens: witness; partial theorem without |

Properties added later (C50…) are described in section 6.

## 5. Findings (places where code and English property disagree)

For each: a witness theorem on a *reachable* state (name), and what is proved instead.

**AMM / router.** `do_mint_protocol_fee` lacks the `k_last != 0` guard: enabling the fee mints LP tokens without growth
(`C11_fee_without_growth`).  `get_amount_in` under-quotes, the quoted input can buy less than asked (`C05_refuted`,
`C05_partial_plus_one`: one unit more suffices), so an exact-output swap of the router can deliver less than
`amount_out` (`C14_refuted`: 999 instead of 1000).  The price accumulators are updated after the reserves, so the elapsed
interval is weighted with the post-trade price (`C77_final_price_weighs_the_past`); they use checked addition, so a pool
with an extreme price can be filled once and never trade again in a later block (`C81_refuted`).

**Stableswap.** Adding liquidity over-mints LP tokens (`C17_refuted`: doubling a pool of 1M/1M and leaving yields 333333 of
each asset).  The helper `div` counts operands beyond u128 as zero: from reserves of about 5.5e12 units on, a trade is paid
far too much (`C59_refuted`), at 1e18 practically the whole reserve (`C59_drain`).  `get_amount_in` uses the constant
product while `get_amount_out` uses the curve (`C84_quotes_disagree`).

**Streaming.** `StreamCreated` always reports `cancellable = true`; `StreamingTrait::create` skips the minimum deposit and
start-time checks (`C86_trait_create_iff`).

**Farming.** Rewards streamed while nothing is staked are lost to the pool; a changed cool-down applies to pending
withdrawals; the pool account is per asset and shared between roles.

**Bridge.** The first decided proposal of a nonce consumes it, even if it is a rejected wrong proposal (`C35_refuted`);
un- and re-registering a chain forgets its nonces (`C31_replay_after_reregistration`); the bonus for new accounts checks the
gift but transfers deposit + gift, so a low gift account blocks payouts (`C109_low_gift_account_blocks`).

**Loans.** Transferring ptokens settles rewards under the wrong id (`C48_refuted`: 500 emitted, 1000 credited); a gift to
the pool pushes the exchange rate out of its accepted range and freezes the market (`C56_refuted`); a jump utilisation of 0
is accepted and blocks the market (`C46_zero_jump_blocks`); a ptoken id can become a market (`C49_refuted`) and a forced
update keeps the old id (`C49_force_breaks`); debts in non-active markets are not counted (`C115_refuted`).

**Liquid staking.** Partial relay-chain rebonds leave liquid tokens uncovered (`C62_refuted`) and then over-inflate the
commission (`C63_refuted`); the market cap ignores pending stake (`C74_refuted`); unstaking through the matching pool books
unstake reserves that do not exist (`C75_refuted`); the MaxMin bond distribution stops too early
(`C73_bond_complete_refuted`), the average distribution tests an uncapped amount (`C73_average_below_min`).

**Prices.** A cycle of foreign-asset mappings is accepted and recurses without bound (`C92_refuted`); an emergency price
that does not fit after normalisation is silently ignored (`C90_refuted`).

**Crowdloans.** Vaults of one lease share the derivative token, so redemption can run dry (`C98_refuted`); a late answer to a
withdrawal changes the phase of a vault that has moved on (`C100_refuted`); a repeated failure answer refunds again
(`C102_refuted`).

Bonuses below one unit per second of the stream block the whole claim (`C119_small_bonus_blocks`).

**Loans, earned interest.** ptokens received by transfer are recorded as earned (`C118_transfer_counts_as_earned`).

**EVM.** `ByFork` and `Ethereum` network ids are written with an extra byte and misread (`C123_refuted`); a `GeneralKey`
junction whose data is not 32 bytes panics instead of reverting (`C124_refuted`).

**Assumptions about signers.** Key-less pallet accounts never sign (`signerOK`, `Call.signers`); without this, e.g. an AMM pool
created with the pallet account as receiver records unbacked reserves.
* **C131.** `Erc20BalancesPrecompile::execute` calls `check_function_modifier(..).ok()`: the check's result is dropped. A static
  call to the native token can change state as far as the precompile is concerned, and value sent along with `transfer` is kept
  by the contract's account. (The assets precompile does check.)
* **C127.** Spending an allowance can take from the owner more than the allowance: when the remainder of the owner's account is
  below the existential deposit, the chain sends it to the treasury. The theorem states the bound with that term.
* **C139.** `permit` of the assets precompile has the modifier `View`: it is accepted in a static call and sets an allowance.
* **C134.** `approve(spender, 0)` keeps the approval and its deposit (`pallet_assets` stores an approval of 0); the deposit comes
  back only when an approval above 0 is spent to the end (or cancelled outside the precompile).
* **C135.** `burn` is best effort: it returns `true` also when less than the amount was burnt; `mint` of 0 is accepted from anybody.
* **C140.** `transferFrom` of an asset can take more than the allowance: a remainder below the minimum balance goes to the recipient.
* **C137.** The middle twelve bytes of an asset's address are ignored, so every asset has `2^96` contract addresses; permits and
  nonces are per address (so no replay), but allow-lists of token addresses in contracts can be passed by with an alias.
* **C125.** A `transfer` to oneself succeeds for any amount up to `2^128 - 1`, also above the balance (`pallet_balances` returns
  early), and logs a `Transfer` event of that amount.
* **C142, C144.** `register_asset` accepts a type another asset already has, and `update_asset_type` to the type the asset already
  has deletes the type → id link (it inserts the new link, then removes the "previous" one). The asset can then be neither
  deposited nor withdrawn over XCM, while its type may still be accepted for fees.
* **C146.** `FirstAssetTrader::buy_weight` adds the weight to the trader twice, so `refund_weight` can give back up to twice the
  payment; weight bought in another asset is refunded in the first one. With the executor's barriers (the whole message weight
  is bought first, `XcmExecuteFilter = Nothing`) refunds stay within the first purchase, which is what the partial theorem
  assumes. `refund_weight` multiplies unchecked and can panic.
* **C147.** Fees taken in a second asset of the same message are neither refunded nor booked to the treasury.
* **C149.** The relay-asset gift can be earned repeatedly (send it on, deposit again). The parallel chain's threshold is
  `5 * (10^d - 96000000)`, because the method call binds tighter than the product: 4.952 DOT rather than 4.9904 DOT.
* **C154.** `EVMSignatureCall::call` uses `dispatch_bypass_filter`: the outermost call inside ignores `BaseCallFilter` and the
  emergency switch (calls nested below it are filtered again). Switching off pallet 113 closes this.
* **C156.** On heiko and vanilla `VerifySignature` is `false`: any 65 bytes are accepted as a signature, so anybody can act for any
  account by an unsigned transaction.
* **C157.** Nonces are forgotten when an account is removed, and the signed bytes contain neither the genesis hash nor an era: an old
  signature call can be replayed when the account is funded again.
* **C158.** `validate_unsigned` does not look at the balance: calls of signers who cannot pay the fee enter blocks, fail with all
  effects undone (nonce included) and stay valid.
* **C159.** kerria has parallel's `CallMagicNumber` (2012), vanilla has heiko's (2085).
* **C163.** `report_outcome_notify` inserts `ReportError` behind the first `Transact`, not in a `SetAppendix`. In `xcm-executor`
  (0.9.38) a dispatch error inside `Transact` is no error of the program: the answer is `ExecutionResult(None)` whether the call worked
  or not, and if the program itself stops early no answer comes at all. `notification_received` of liquid staking and crowdloans
  treats that answer as success, and their failure branches are never reached by an answer of the relay chain.
* **C164.** `append_transact` replaces `batch_all`: the two calls fail independently.
* **C165** (noted, outside the model). To our knowledge Kusama's proxy pallet has index 30 (the code says 22), and the relay chains'
  proxy calls take a `MultiAddress` and a plain `ProxyType` where the code encodes an `AccountId` and an `Option<ProxyType>`. The
  relay runtimes are not in the repository, so no theorem says that they read these bytes as meant; C163 and C164 assume it (`Reads`).
* **C166.** `force_set_lock` on an account that does not exist (total below the existential deposit of 0.1 native) registers the lock, but
  `pallet_balances` drops the account data, and with them the frozen amount. When the account is funded later, the lock is shown
  but nothing is frozen. `force_set_lock` with amount 0 is a no-op and does not shorten an existing lock.
* **C168, C169** (noted). `burn_from` may burn more than asked (dust); no caller in the repository looks at the returned amount, so for assets with a
  minimum balance above 1 the callers' books can differ from the ledger by less than the minimum balance. LP tokens are created with minimum balance 1,
  where this cannot happen. A native transfer to oneself succeeds for any amount, without a check of the balance.
* **C171.** `v4` of the crowdloans migrations sets the invested amount of vault (2040, 8, 15) to 3000 DOT whenever the version is 3 and the slot
  has expired, and leaves the version at 3. The parallel runtime runs it at every upgrade, so redemptions since the last upgrade are added back to the
  books. Its checks in test builds look only at the version and at the next trie index.
* **C172.** `v2` and `v3` write fixed trie indices and set the next one to 14 and 31. If the chain is ahead of 9 or 25, two vaults share a child
  storage: contributions of one can be refunded from the other. Nothing checks this on a chain: the test-build checks ask for 10 before `v1`, 9 before `v2`
  and 25 before `v3` (`v1` and `v2` were meant for different chains, but the code does not tell them apart).
  The row of parachain 2011 carries the amount of parachain 2032, unlike its comment.
* **C173.** Markets with a collateral factor above 90.9090% get a liquidation threshold of 100%, which `update_market` then rejects unless it is given
  a new one.
* **C174.** The list `SupportedFeePaymentAssets` is kept sorted for `binary_search`; the migration maps it without sorting again, although v3 orders
  general keys by length and v2 by bytes.
* **Migrations** (noted). `pre_migrate` and `post_migrate` run only in `try-runtime` builds, so none of their conditions protects a chain.
* **C178: eras drift.** When a block advances the era, the current relay block becomes its start, not the block at which the
  era began (`do_advance_era`). A parachain block that arrives `d` relay blocks late therefore delays every later era by `d`
  until governance or a storage proof corrects the era. The theorems state the start as it is set.
* **C181.** `transfer` of vouchers does not accrue interest and converts the free value with the recorded exchange rate: after a gift to the pallet all pledged vouchers of an indebted account can leave (`C181_refuted`).
* **C182.** It also ignores the liquidation-free class, unlike `redeem`: an ordinary debt can be left with collateral that cannot be seized (`C182_refuted`).
* **C183.** `can_withdraw` of vouchers ignores debts (`C183_refuted`).
* **C185.** The runtime's own copy of `AllowKnownQueryResponses` comments out the check that the message has one instruction:
  whoever answers an expected query (also a version notification) has the rest of its message run without payment (`C185_refuted`).
* **C188.** Together with the trader's double booking of the weight (C146, C147) such a message can be refunded more than it paid:
  unbacked units of the fee asset appear (`C188_refuted`). Paid messages cannot do this, because what they buy is their whole weight.
* **C190, C193.** Some ordinary accounts pay without their signature, and these are the only ones (`C190_nobody_else_pays`,
  `C193_charged`): governance can name the payer in `create_pool` of the AMM and of stableswap (`lptoken_receiver` provides the first
  liquidity), `dispatch_reward` of farming and `add_reserves` of lending; `fast_match_unstake` (governance or a liquid-staking agent)
  burns the liquid tokens of accounts that have asked for it; `redeem_and_lend_for` of crowdloans (governance or an automator) burns the
  derivative tokens of any account it names and lends the proceeds in its name, with no consent of that account.
- **Crowdloan bonuses are silently dropped on heiko and vanilla**: both configure `pallet_crowdloans` with
  `type Streaming = ()` (runtime/heiko/src/lib.rs, runtime/vanilla/src/lib.rs; pallets/traits/src/lib.rs:240-252 makes `create`
  return `Ok` without doing anything). `update_bonus_config` is accepted, claims succeed, and no stream is opened
  (`C119_no_streaming`).
* **C152, stable swap** (`C152_stableswap_closed`). `StableSwap` is in vanilla's `construct_runtime!` (index 96) but on neither list of
  its `BaseCallFilter`, and no other runtime has the pallet: no user and no proxy can make any of its calls (also `create_pool`); only
  root, or a call wrapped in `EVMSignatureCall::call`, which bypasses the filter (C154), gets through.
- **ERC-20 allowances of assets do not work on any runtime (C200).** The asset contracts dispatch `approve_transfer`,
  `cancel_approval` and `transfer_approved` of `pallet_assets` with a signed origin, so `BaseCallFilter` applies; none of the
  three is on the lists of any of the four runtimes. `approve`, `permit` and `transferFrom` by a spender therefore always
  revert there (the precompile's own tests use a mock runtime without a filter).
- LP price (C202): if the LP token has fewer decimals than the base vault token then `diff_mantissa` is 0 and so is the
  price; and both reserves are valued at the vault token's price, so the valuation is conservative exactly if the vault
  token is not dearer than the relay token (`pallets/prices/src/lib.rs:266-295`).
- `ProposalLifetime = 2592000` blocks is commented "About 30 days: 30*24*60*60/6", but the number is seconds; with
  12-second blocks it is 360 days (`runtime/parallel/src/lib.rs:1737-1738`).
- **C205**: the oracle takes index `count / 2` of the sorted unexpired values and needs only `MinimumCount` = 2 of them
  (Parallel, Heiko; 1 on the test networks): with exactly two unexpired values the *larger* is the price, so a single
  dishonest committee member can raise any price to any value whenever just one other operator has fed within the hour.
- **C206**: prices never expire for their users: when operators stop feeding, the last price is answered for ever;
  `pallet_prices` passes the timestamp on, but `pallet_loans` never compares it with the clock.
- **C208**: with a protocol fee above 50 % (`update_protocol_fee` accepts any `Permill`) `⌊1/fee⌋ - 1 = 0`, and the fee of
  a pool whose remembered reserves are zero (no deposit or withdrawal since the fee was switched on) is a division by
  zero: `add_liquidity` and `remove_liquidity` of that pool fail for everybody until the fee is lowered.
- **C209**: `compute_d` rounds inside its formula (`d·d/(2·base)`, then times `d`); for reserves whose ratio exceeds about
  10^5 (an asset with 12 decimals as base against one with 6 decimals has this from the start) the iteration cycles and
  gives up, and `do_mint_protocol_fee` unwraps the error: every deposit and withdrawal panics until somebody buys the base
  asset.  About a third of all pools with ratio 10^6 are affected.
- **C210**: `get_best_route` quotes amounts and routes that `swap_exact_tokens_for_tokens` refuses: amounts below
  `⌈1/LpFee⌉`, routes longer than `MaxLengthRoute`, routes through the native asset for traders who own none of it.
- **C211**: a farming pool whose stake is tiny while at least 3.4·10^26 units of reward are streamed overflows its 128-bit reward index; then deposit,
  withdraw, claim and dispatch fail for everybody for ever (`C211_refuted`, `C211_frozen_forever`).

- **C214**: `permit` of the native token contract charges a single storage read (1000 gas on Parallel) although it recovers a signature, writes two storage entries and emits a log; an `approve` is charged 5756. `permit` of an asset's contract does not pay for its log and nonce either. `withdraw` reads a balance without charging for the read.
- C216: `ProposalLifetime` is documented as "about 30 days: 30 * 24 * 60 * 60 / 6 = 2592000 blocks" in the Parallel and Heiko runtimes; the
  division was never carried out (2592000 is 30 days in seconds), and at 12 seconds per block a proposal lives 360 days.

* **C221** On vanilla the genesis gives Alice's mapped EVM account 2^128 - 1 units through `deposit_creating`, after the other
  allocations. The issuance saturates, so that it is smaller than the sum of the balances by all other allocations from the first
  block on (`C221_vanilla`). Every theorem about the shared ledger assumes the two are equal: none of them applies to vanilla's native
  currency.
* **C222** "We will pre-deploy it under all of our precompiles to ensure they can be called from within contracts"
  (`heiko.rs:143-146`): the token contracts of assets are precompiles too, and have no code.
* **C224** A proxy of type `Streaming` is listed beside the harmless types, but `create` lets it open a one-second stream
  to itself and withdraw the owner's whole balance (`C224_stolen`); it is as powerful as `Any` for every asset with a
  minimum deposit.  The other types cannot credit anybody else.  (An `AMM` proxy can still trade at a bad price:
  the statement is about who is credited, not about value.)
- C225 (bridge): the deciding vote may be on the other side. If the committee shrinks, the threshold falls, but open proposals are only re-examined at the next vote; this vote decides by the counts of *both* sides, so a vote against pays the transfer out when the approvals already meet the lowered threshold, and a vote for rejects it (using up its nonce, see C35) when the refusals do.
* **C226** Anybody can make the runtime panic through a stableswap pool: `add_liquidity` and `remove_liquidity` unwrap the
  result of a solver that gives up on lopsided reserves (see C209).  In a transaction pool a panicking transaction is
  rejected, but a panic is no error handling.  Further panics need governance or relayers: a vote about nonce 0 (`nonce - 1`)
  or `u64::MAX` panics in `update_bridge_registry`; with a zero collateral factor an instant unstaking panics in
  `saturating_reciprocal_mul_ceil`.
* **C228** `StakingLedger::unbond` computes `self.active -= value` with overflow checks on.  `do_matching` computes unbonding
  requests from the active stake noted *before* the answers to earlier requests; if an era passes before the relay chain has
  answered, two requests may exceed the stake together.  The relay chain takes the minimum and reports success; the answer
  then panics inside a mandatory inherent, so that the collators can build no further block.
* **C229, C230** Interest is accrued per market, when somebody uses it.  The account values used by `borrow`, `redeem`, the
  collateral switch, voucher transfers and `liquidate_borrow`, and shown by the queries, take the stored borrow index and
  exchange rate of every *other* market, however old they are: a borrower with an old debt in a quiet market can borrow beyond
  its collateral (`C230_refuted`), and an account shown without shortfall can be liquidated (`C229_shortfall_refuted`).
  For a market in which interest was never accrued `get_market_status` counts interest from 1970 on (its
  `last_accrued_interest_time` is 0), while `accrue_interest` starts at the first use (`C229_status_refuted`).
* **C231/C232.** A transfer of ptokens deposits no event, neither of the lending pallet nor of `pallet_assets`: deposits cannot be
  followed through events (`C232_refuted`). The AMM does not announce how many pool tokens it mints, and `Traded` announces the
  new reserves quote first, the other events base first.
* **C233.** `liquidated_transfer` calls `distribute_borrower_reward` for the liquidator instead of the borrower: a borrower who is
  liquidated loses the reward it had earned on the repaid part of its debt (`C233_refuted`: 699 before, 349 after).
* **C235.** Interest on the total is rounded down at every accrual, the index by which debts grow is not
  (it has 18 more digits). With 400 units lent and one accrual a month the total stays at 400 while the borrower owes
  402 after three months; the drift is at most one unit per accrual and year (proved), so it matters only for tokens
  with very few units.
* **C236.** The borrow reward index grows by speed × blocks per unit of the *recorded* total, but every borrower is paid
  by the *debt*; where debts exceed the total (C235), more is credited than emitted: 7246 for an emission of 7210 in the
  history of the proof. The excess is bounded by the same rounding, so it is negligible unless a market is tiny.
* **C237.** The events of liquid staking do not tell everything. `force_set_current_era` deposits none, so an observer who
  counts `NewEra` is wrong about the era afterwards; the response to a first bond stores a ledger without
  `StakingLedgerUpdated`; `UnstakeCancelled` repeats the amount its caller named, even if the pending request was smaller;
  a request for a fast unstake deposits no event; `Staked` announces what enters the pool, not what was paid. Everything else
  is told: settings, rate, requests sent, claims and matches.
* **C238.** `refund` deposits only `AllRefunded`/`PartiallyRefunded`: the contributors it pays are not named in any event of
  the pallet; a contribution to a pending vault deposits none; `force_claim_for` deposits `VaultClaimed` with the phase
  `Succeeded` even if the vault is closed. Settings, phases, requests and all announced amounts are otherwise exact.
* **C240.** `PoolAdded` does not say the new pool's cool-down and `AssetsWithdrew` not whether the amount was paid out or set cooling;
  `RewardAdded` names neither the payer nor the duration.  Two executions with the same events end with different balances
  (`C240_cooldown_untold`) and different claimable rewards (`C240_dispatch_untold`).
* **C241.** The last field of `StreamCreated` is the constant `true` (`streaming/src/lib.rs:538-540`), so an observer of events takes every
  stream for one the sender may cancel (`C241_refuted`).  A finished stream disappears from storage without an event, during a call about another stream.
* **C242.** The bridge does not announce gifts (only `pallet_assets` does) nor the expiry of a proposal (`C242_expiry_untold`); `ProposalRejected` names chain
  and nonce but not the proposal, which is the one last voted on.
* **C243.** `Traded` of an exact-out router trade announces as output the amount asked for, not the amount paid out, which can be smaller: 1000 announced, 999 received (`C243_refuted`; the pool's own event in the same block says 999). The true amount is the result of `do_swap`, which the trait function `swap` discards (`amm/src/lib.rs:1165-1172`).
* **C245, C246.** `set_foreign_asset` of the price feed deposits no event, though it decides which price an asset has (`C245_foreign_untold`). The events of the emergency switch carry only the new flag, neither pallet nor call index: whoever reads events can tell how many pallets and calls are switched off, but not which (`C246_refuted`).
* **C247.** `XcmWeightFeeUpdated` does not name the kind of request whose fee was set (`C247_refuted`).
* **C248.** `Executed(signer, Ok)` of the signature pallet does not say that the items of a signed `batch` were carried out: `batch` reports success when an item fails, and the inner `BatchInterrupted` event is the only trace (`C248_refuted`).

## 6. Properties from C50 on

| id | modelled | proof |
|----|----------|-------|
| C50–C53, C106–C110 | `bridge`: all extrinsics, votes, registry, caps, gift, `on_initialize` | invariants over histories with a ghost log; exact acceptance by inverting the executable definitions |
| C54–C57, C111–C117 | `loans` with interest, rewards, liquidation, administration | invariants over histories, exact result states, acceptance theorems; C115 FALSE (witness) |
| C58–C60, C83–C85 | `stableswap` | invariant over histories; curve bounds by non-linear arithmetic; C59 FALSE (witness) |
| C61–C76 | `liquid-staking` over the `loans` model; relay chain = arbitrary responses and storage proofs | invariants over histories with ghost totals; C62, C63, C73–C75 FALSE in part (witnesses) |
| C77–C82 | `amm` oracle, pool registry, `router` acceptance | accumulators as exact sums, monotonicity, iff-characterisations; C81 FALSE |
| C86–C89 | `streaming`, `farming` | iff-characterisations and exact result states; fairness by potential argument |
| C90–C92 | `prices` over an arbitrary world of providers | formulas, frames, well-founded chain of mappings; C90, C92 FALSE in part |
| C93–C105 | `crowdloans` over the `streaming` model; XCM helper as fee account + query counter | invariant over all histories (sums over child-trie entries), ghost log per user; C98, C100, C102 FALSE in part |
| C119–C120 | `crowdloans` claims with a bonus, settings | exact result states |
| C121–C122 | `precompiles/utils/src/data.rs`: reader, writer, all `EvmData` types as a universe of type codes | mutual induction over types; independent ABI specification in `Evm/AbiSpec.lean` |
| C123–C124 | `precompiles/utils/src/data/xcm.rs` | round trip by cases over junctions and induction over lists; FALSE in part (witnesses) |
| C125–C131 | `precompiles/balances-erc20`: `execute` on raw calldata over `pallet_balances` with locks, reserves, reaping | exact result states and acceptance by evaluating on ABI calldata; an effect relation for arbitrary calldata, induction over histories; signed digests by injectivity of the ABI encoding; C131 FALSE (witnesses) |
| C132–C140 | `precompiles/assets-erc20` on raw calldata over `pallet_assets` (minimum balance, status, freezing, approvals with deposits), `runtime/common/src/precompiles.rs` (routing), `address_to_asset_id` | as C125–C131; deposits and supply as sums over finite supports; C139 FALSE for `permit` (witness) |
| C141–C144 | `asset-registry`: all calls and getters, with Rust's `binary_search` as a loop, generic in the asset type | search proved correct on sorted lists; invariants over histories; C142, C144 FALSE in part (witnesses) |
| C145–C147 | `FirstAssetTrader`, `XcmFeesToAccount` | exact effects; invariant over sessions of purchases and refunds; C146, C147 FALSE in part |
| C148–C151 | `MultiCurrencyAdapter`, `XcmAssetRegistry`, `CurrencyIdConvert`, `GiftConvert` of parallel and heiko | exact effects, induction over operation lists; C149 FALSE in part |
| C152–C160 | `emergency-shutdown`, `evm-signatures`, `BaseCallFilter`, `WhiteListFilter`, `ProxyType` over a model of call dispatch (origins with filters, batches, derivative accounts, proxies, nonces, account removal) | executions as derivation trees (`Runtime/Lemmas.lean`), each property by induction over the tree and over histories; C154, C156–C159 FALSE in part (witnesses) |
| C161–C165 | `xcm-helper`: all requests, fee table, queries; SCALE bytes of `ump.rs`; the relay chain's executor for the six instructions used | exact acceptance and effects; histories with an arbitrary rest of the chain; execution of every message over an arbitrary relay chain; prefix-freeness by mutual induction over calls; C163, C164 FALSE (witnesses) |
| C166–C170 | `currency-adapter` over models of `pallet_balances` (existential deposit, locks, references, removal of accounts) and `pallet_assets` (status, freezing, minimum balances) | invariant "lock in force" over histories; exact effects with dust; simulation of `Prelude/Ledger`; equivalence of `reducible_balance` with acceptance of transfers |
| C171–C175 | storage migrations of crowdloans (v1–v4), loans (v3), asset-registry (XCM v2 to v3) and the EVM | exact effects; histories of crowdloans calls between upgrades; the registry generic in the two location types and the conversion, with induction over the iterated keys; C171–C174 FALSE in part (witnesses) |
| C176–C180 | `liquid-staking` again: requests, fast and instant unstaking, eras, rate and commission, settings | exact `↔` characterisations of acceptance and effect of every call that the invariants left open (found by mutation testing); frame over all calls for the settings |
| C181–C183 | `loans` vouchers as a token: transfers and coverage, the liquidation-free class, reported free amounts | value bounds through three roundings on top of the reachable-state invariant; witnesses for the refutations; exact equations for reports and transfers |
| C184–C188 | entry of XCM messages: barriers, weigher, executor, origin conversion, reserves, composed with the adapter and the trader | exact `↔` for the barrier; induction over all executions of nested messages (`drive_ind`) for origins, payers and units; C185 and C188 FALSE in part |
| C189–C192 | all eight pallets over one ledger and one query counter (`System/*`) | rely–guarantee: every call of every pallet stays within what all others assume about their environment; induction over interleaved histories; the single-pallet theorems are then instantiated |
| C193 | `System/Origin.lean`: the origin check on the first line of every extrinsic, `EnsureRootOrMoreThanHalfGeneralCouncil`, members of the agents and automators, the router | case analysis on top of C190; router swaps by induction along the route |
| C194, C195 | `Terms` projections of each pallet's state (`System/Terms.lean`, `System/LoansTerms.lean`, `System/StakeTerms.lean`), specification in `System/TermsSpec.lean` | frame lemma per call and pallet, along the nested calls between pallets (liquid staking → lending, AMM → all), combined with the origin table of C193 |
| C196 | `Tx.need`, `meets`, `dispatch` (`System/Origin.lean`); specification in `System/AccessSpec.lean`, grouped by who acts rather than by pallet | case analysis over all extrinsics; both directions, so that neither a missing nor a superfluous origin check is accepted |
| C197 | `Runtime/Accounts.lean`: the byte strings behind the addresses of pallets (`"modl" ++ id`), parachains (`"sibl" ++ id`, `"para" ++ id`), the relay chain (`"Parent"`) and `OneAccount` | positional representation of byte lists: injectivity for equal lengths, first four bytes as residue modulo 2^32 |
| C198 | `System/Deployed.lean`: the `System.Cfg` of parallel, heiko, vanilla, kerria with every constant; hashed addresses by an arbitrary function without collisions among the inputs used | `Cfg.OK` from C197 and a finite comparison of ids; then C187/C186 of the XCM executor composed with it |
| C199 | `Xcm/Entry.lean`: whole messages through weigher, barrier, executor, adapter and trader | symbolic execution of the four instructions for all parameters; weights of nested messages by mutual induction (`C184_weight_sum`) |
| C200 | `Evm/Deployed.lean`: the filter of each runtime (`Runtime/Model.lean`) under the dispatches of the precompiles | refuted on every runtime; the possible effects of arbitrary calldata, case by case |
| C201 | `Evm/Keccak.lean` (Keccak-256), `Evm/Surface.lean` | the hashes are evaluated by the kernel; case analysis over the selectors |
| C202 | `Prices/Lp.lean`, `Amm/Share.lean` | AM-GM with rounding for the price; step lemma `share_call` and induction for the share |
| C203 | `Loans/PriceMono.lean`, `Prices/Lp.lean`, `System/Feed.lean`, `System/Trading.lean`, `System/TradingEx.lean` | monotonicity of health in prices, monotonicity of prices in pools, trades only grow pools |
| C204 | `System/Feed.lean` | what prices are made of besides pools and supplies is not touched by users' extrinsics (C194 plus frames) |
| C205 | `Oracle/{Model,Spec,Props}.lean` | the middle of a list with an honest majority lies between two honest values; invariant over histories; counterexample with the deployed `MinimumCount` |
| C206 | `Oracle/Props2.lean` | invariant (times are past); a changed price is a member of the unexpired list; counterexample: time passes |
| C207 | `Oracle/Props2.lean` | induction over the fed list, case analysis of steps |
| C208 | `Amm/Exit.lean` | forward evaluation of `remove_liquidity` under the invariant; division by zero of the fee; invariant of blocked pools over histories |
| C209 | `Stable/Exit.lean` | as C208, with the curve invariant found or not; a concrete cycle of the iteration |
| C210 | `Router/Tradeable.lean` | induction over the route: later hops use other pools; C15, C81, C82 |
| C211 | `Farming/Exit.lean` | invariant: the reward index is at most 10^12 times the rewards ever dispatched; false without a bound on rewards (`C211_refuted`) |
| C212 | `Staking/Accept.lean` | both directions: view lemmas for `stake`/`unstake`/`claimFor` give the conditions, solvency and ledger invariants give success |
| C213 | `Evm/Gas.lean`, `Evm/GasProps.lean` | metered programs = list of charges + result; erasure to the unmetered model; per-function prices; a check for gas is always followed by an equal charge, so the price is the threshold |
| C214 | `Evm/GasPaid.lean` | by cases on the function, against a separate price list; `permit` refutes the full statement |
| C215 | `giftConv` of each runtime (System/Deployed), `Xcm.giftParallel`/`giftHeiko`, `Bridge.materialize` | case analysis on the asset; C109 for the payout |
| C216 | `Bridge.materialize`, `newBlock` iterated, `ProposalLifetime` of each runtime | refuted by a run on Parallel; the exact lifetime by induction over blocks |
| C217 | the parameters in System/Deployed, through `stake`, `unstake`, `contribute`, `get_vault_term_rate`, `claim`, `register_chain` | inversion of each call against a table in tokens, days and eras |
| C218 | `Feed.world` (the wiring of pallet_prices), `getPrice` | from C91 for liquid, auxiliary and plain assets |
| C219 | `System.redeemAndLend` over the shared ledger | inversion, C116 for the supply |
| C220 | `Runtime/Fee.lean`: `WeightToFee`, byte fee, deposits, `compute_fee` | bounds on two roundings, monotonicity |
| C221 | `Runtime/Genesis.lean`: `accumulate`, the `evm` section, `build` of balances and EVM | invariant of the fold over a sorted map; `SumsTo` of a list without duplicates; vanilla by evaluation for every allocation |
| C222 | `Runtime/Genesis.lean`: codes | exact set of addresses with code; an asset's address is not among them |
| C223 | `System/PaidSpec.lean`, `System/Paid.lean` | dual of C193: per pallet, a call pays only a listed set of accounts; the set per extrinsic in `Paid` |
| C224 | `System/Proxied.lean`: `kindOf` ties extrinsics to the runtime's proxy lists | from C223 and the streams a call can open; refuted for `Streaming` with a concrete theft |
| C225 | `Steady`: histories without committee changes; `payouts`/`rejections` count events | refuted by two fixtures (committee 5→3 and 6→4); for steady committees by the invariant that an open proposal has neither enough approvals nor enough refusals |
| C226 | `NoPanic x := x ≠ .error .panic`; `Room` (numbers in range), `Tx.stable`, `Tx.edge`, `LoanFits` | a simp set `np` that follows `NoPanic` through binds and checked operations, per pallet, with the pallets' invariants where an operation is only safe because of one; refuted by a stuck stableswap pool |
| C227 | `Hook`, `initBlock` without its rollback | `np`, for all states |
| C228 | `Answerable`: the unbonded amount is covered by the noted active stake; `Patient` histories | `np`; invariant `Meets` over patient histories; refuted by a reachable history of two overlapping requests (`exA1..exA3`) |
| C229 | `StatusTold`, `LiquidityTold`, `ShortfallTold`: query result against the effect of the call in the same state | unfolding both paths; refuted by three fixtures |
| C230 | `accrueAll`: every active market accrued to now; `debtSum`/`collSum` in that state | C41 plus monotonicity of the exchange rate under accrual; refuted by a fixture a year old |
| C231 | `Amm/Events.lean`: `execE` returns the events; `Notes`: an observer who sees nothing else | erasure to `exec`; induction over histories with events |
| C232 | `Loans/Told.lean`: `execE`; `Ev.paid`/`Ev.got`/`Ev.names` say what an event announces | erasure to `exec`, the exact views of C116; refuted by a transfer of ptokens |
| C233 | `claimable`: credited rewards plus what C112 says is due, per set of markets | `Keeps` for every step of every call; refuted by a liquidation 100 blocks after a loan |
| C234 | `Bridge/Network.lean`: any number of instances of the pallet and their relayers; histories `Net.Run` | per-chain books of sent and paid amounts, payouts traced to an honest vote (C32) and from there to an announcement, payouts distinct (C30), sums over the chains |
| C235 | `Loans/Lent.lean`: histories `Counted` that count calls, clock movements and seconds; `owed` and the unrounded `exactDebt` against the recorded total | invariant `Held` in rational arithmetic: both sides in units of the market's first day (`ub`, `tot`), one lemma for accruals, one for borrow/repay/liquidation; refuted by three small accruals (402 owed, 400 recorded) |
| C236 | `Loans/BorRewards.lean`: histories `Steady` with a largest index and a least positive total; `paidBor`, `pendingBor` from the reward events, `emissionBor` from the speed events | potential invariant `BInv` (credited + pending + emission not yet in the index ≤ emission) with the debts in units of the first day, using `Held` of C235 after every accrual (`Fit`); refuted by the history of C235 followed by 1000 blocks |
| C237 | `Staking/Told.lean`: `execE` with events; `Notes.see` is an observer of events only; `Told.paid`/`got`/`silent`/`request` say what an event announces | erasure to `exec`, shape lemmas per call, induction over histories `Heard`; three refutations by concrete histories |
| C238 | `Crowdloans/Told.lean`: `execE` with events; `Notes.see` is an observer of events only; `Told.Fact` says what each event claims about the states before and after | erasure to `exec`, frames and `Announced` per call, facts from the invariant; three refutations by concrete histories |
| C239 | `Stable/Told.lean`: `execE` with events, an observer of events only | erasure to `exec`, one step lemma per call, induction on histories with their events |
| C240 | `Farming/Told.lean`: `execE` with all nine kinds of event; `Notes.see`, `Ann.paid`/`got`/`cools`/`takes`, `Ann.holds` | erasure to `exec`; induction on histories; amounts, cooling and facts per call; two pairs of executions for what is not announced |
| C241 | `Streaming/Told.lean`: `execE` with all four kinds of event; `Notes.see`, `Line.Right`, `Ann.paid`/`got`, `Ann.holds` | erasure to `exec`; induction on histories; amounts and facts per call; `C241_refuted`: the announced "cancellable" is a constant |
| C242 | `Bridge/Told.lean`: `execE`, `changeMembersE` with all sixteen kinds of event; `Notes.see`, `Notes.Good`, `Ann.paid`/`got`, `Ann.holds` | erasure to `exec`; induction on histories; amounts (up to the gift) and facts per call |
| C243 | `Router/Told.lean`: `swapExactInE`, `swapExactOutE` with the events of the pools and the router's own; `TrueTo`, `Linked` | erasure; induction over the route; refutation on the pool of C14 |
| C244 | `Registry/Told.lean`: `execE` with all five kinds of event; `Notes.see`, `Ann.holds` | erasure to `exec`; induction on histories; facts per call |
| C245 | `Prices/Told.lean`: `execE`; `lastSaid`: the last event about an asset | induction on histories; with C90 for the answers |
| C246 | `Runtime/Told.lean`: `togglePalletE`, `toggleCallE`; `palletsOff`, `callsOff` count switches | flags per call; counting along histories; refuted by two executions with the same events |
| C247 | `Helper/Told.lean`: `updateFeeE`; histories of Helper/Spec.lean with events | the announced setting per call; every setting in force is announced or initial, by induction; refuted by two executions with the same events |
| C248 | `Runtime/ToldEvm.lean`: `evmCallE` over `bypass` | one event with signer and result; failure leaves only fee and nonce, by the charge lemmas; success gives every transfer under `batch_all` by induction on the nesting; refuted by a batch with a failing item |
| C249 | `Loans/ToldRewards.lean`: `execE` (Loans/Told.lean) with the log of settled rewards of Loans/Model.lean | `Even` (claimable and announced grow by the same) for every helper, composed over every call; induction over histories with events |
| C250 | `Loans/ToldRewards.lean`: `pot`, `potIn`, `potOut` over `execE` | the two transfers of the pot per call, all other calls by the amounts of C232 (`amounts_of`); induction over histories |
| C251 | `Amm/Lookup.lean`: `poolByLp` over any enumeration of the keys, `poolByPair` | invariant `reach_lp`: no two pools have the same token (from the shape of every call, `exec_pools`); specification: the storage map itself |
| C252 | `Loans/Info.lean`: `marketInfo`, `fullRate` | accepted models (C57) and their bounds (C46) applied to `marketStatus`; case distinction over the market calls |

## 7. What is modelled and what is not

| source | model | left out |
|--------|-------|----------|
| `pallets/amm/src/lib.rs` | `Amm/Model.lean`: all extrinsics, `AMM` trait functions, oracle; events in `Amm/Events.lean`; lookups in `Amm/Lookup.lean` | weights, governance origin |
| `pallets/router/src/lib.rs` | `Router/Model.lean`, `Router/Told.lean` (events) | weights |
| `pallets/stableswap/src/lib.rs` | `Stable/Model.lean`; events in `Stable/Told.lean` | weights, `do_get_delta_on_the_fly`/`get_base` (unused), `get_pools` |
| `pallets/streaming/src/{lib,types}.rs` | `Streaming/Model.lean`; events in `Streaming/Told.lean` | weights |
| `pallets/farming/src/{lib,types}.rs` | `Farming/Model.lean`; events in `Farming/Told.lean` | weights |
| `pallets/bridge/src/{lib,types}.rs` | `Bridge/Model.lean`; events in `Bridge/Told.lean` | weights, address bytes |
| `pallets/loans/src/{lib,interest,farming,ptoken,types,rate_model}.rs` | `Loans/Model.lean`, `Loans/Rate.lean`, `can_withdraw`/`can_deposit` in `Loans/Ptoken.lean`; `get_market_info` in `Loans/Info.lean`; events in `Loans/Told.lean`, `Loans/ToldRewards.lean` | storage versions |
| `pallets/liquid-staking/src/{lib,types,distribution}.rs` | `Staking/Types.lean`, `Staking/Dist.lean`, `Staking/Model.lean`; events in `Staking/Told.lean` | proof verification itself (`verify_merkle_proof` is "the relay chain shows this value"), `force_set_era_start_block` bookkeeping of the RPC, XCM encoding |
| `pallets/crowdloans/src/{lib,types}.rs` | `Crowdloans/Model.lean`; events in `Crowdloans/Told.lean` | `get_exchange_rate` (f64), XCM encoding, child-trie hashing |
| `pallets/prices/src/lib.rs` | `Prices/Model.lean`; events in `Prices/Told.lean` | weights, privileged origins, log |
| `precompiles/utils/src/data.rs`, `data/xcm.rs` | `Evm/Codec.lean`, `Evm/Xcm.lean` (bytes; `usize` = 32 bits as on wasm) | logs' byte layout |
| `precompiles/balances-erc20/src/{lib,eip2612}.rs` | `Evm/Erc20.lean` (contexts, `pallet_balances::transfer` with existential deposit, permits), `Evm/BalancesErc20.lean`, `Evm/Gas.lean` | `keccak_256` and `secp256k1_ecdsa_recover` are arbitrary functions; function selectors are written as their 4-byte constants |
| `precompiles/assets-erc20/src/{lib,eip2612}.rs`, `runtime/common/src/precompiles.rs`, `runtime/parallel/src/lib.rs:470-486` | `Evm/AssetsErc20.lean`, `Evm/Gas.lean` | stateless precompiles (their bodies); `pallet_assets` providers, approval counts and account reasons |
| `pallets/asset-registry/src/lib.rs` | `Registry/Model.lean`; events in `Registry/Told.lean` | weights, migration |
| `pallets/traits/src/xcm.rs` | `Xcm/Trader.lean`, `Xcm/Adapter.lean` | location → account conversion (arbitrary function), non-fungible assets, `From<AssetType> for CurrencyId` (hash) |
| `pallets/emergency-shutdown/src/lib.rs`, `pallets/evm-signatures/src/{lib,ethereum}.rs`, `runtime/{parallel,heiko,kerria,vanilla}/src/lib.rs`: `WhiteListFilter`, `BaseCallFilter`, `ProxyType` | `Runtime/Model.lean` (events in `Runtime/Told.lean`, `Runtime/ToldEvm.lean`) (lists per runtime) | other dispatching calls (`sudo` of kerria and vanilla, `multisig`, `scheduler`, `force_batch`, `dispatch_as`, collectives), proxy deposits and announcements, weights; all other calls are leaves with an arbitrary acceptance rule |
| `pallets/xcm-helper/src/lib.rs`, `pallets/traits/src/ump.rs` | `Helper/Model.lean`, `Helper/Codec.lean`; event in `Helper/Told.lean` | the maximal weight of notifications; `xcm-executor` 0.9.38 is modelled from outside knowledge in `Helper/Model.lean` (`step`, `exec`): C163 and C164 rest on it |
| `migrations.rs` of crowdloans, loans, liquid-staking and asset-registry, `runtime/common/src/evm_migration.rs` | `Migrations/Model.lean` | weights, logs, `try-runtime` checks; `liquid-staking`'s migration only raises the version; locations are general keys of parachains in the counterexample, arbitrary otherwise |
| `runtime/{parallel,heiko,kerria,vanilla}/src/lib.rs` oracle configuration (`runtime/parallel/src/lib.rs:1360-1398`) | `Oracle/Model.lean` | `orml_oracle` is not in the repository: modelled from outside knowledge; events, weights |
| `runtime/common/src/lib.rs:18-47`, `runtime/parallel/src/lib.rs:1155-1347` | `Xcm/Entry.lean` | `xcm-executor`, the other barriers, `FixedWeightBounds` and orml's `MultiNativeAsset` (release-v0.9.38) are modelled from outside knowledge, as listed at the top of the file; non-fungible assets; what dispatched calls do; sending |
| `runtime/*/src/lib.rs`: how the pallets are wired together (`type Assets`, `type Loans`, `type Streaming`, `type XCM`, `PalletId`s) | `System/Model.lean`, `System/Origin.lean` (origins, router), `Runtime/Accounts.lean` (addresses), `System/Deployed.lean` (the configurations of the four runtimes) | prices as a pallet (prices are free to change); accounts are numbers; that the accounts of different pallets differ is the hypothesis `Cfg.OK.apart` of the system theorems, proved for the deployed configurations in C197 and C198 |
| `pallets/currency-adapter`, `pallet_assets`, `pallet_balances` | `Currency/Model.lean` in detail; `Prelude/Ledger.lean` for all other pallets (section 2; C168 says when the two agree) | `pallet_balances` and `pallet_assets` 0.9.38 from outside knowledge; providers other than the balance, reasons of locks, insufficient assets; the simple ledger has no dust, frozen or locked money |
| `runtime/common/src/constants.rs`, `pallet_transaction_payment::Config` | `Runtime/Fee.lean` | `compute_fee`, `Perbill` (outside knowledge); the adjustment of the multiplier |
| `node/parallel/src/chain_spec/*.rs` | `Runtime/Genesis.lean`: `accumulate`, balances and EVM sections | `build` of the pallets (outside knowledge), keys, councils, the specifications in JSON |

Not modelled at all: other runtime configuration, benchmarks, the node, the TypeScript tooling,
and the EVM precompiles not listed above.

Except in `System/Origin.lean`, privileged origins are modelled as "anybody may make the call": safety theorems therefore hold for every governance
behaviour; C193 and the properties after it say who may make which call.
