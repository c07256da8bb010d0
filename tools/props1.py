import json
P=[]
def p(title,statement,quantifier,why,anchors):
    P.append(dict(id="C%02d"%(len(P)+1),title=title,statement=statement,quantifier=quantifier,why_tests_cant=why,anchors=anchors))

# ---------------- AMM
A="pallets/amm/src/lib.rs"
p("AMM swap never decreases the constant product",
  "A successful AMM swap leaves the product of the pool's two recorded reserves at least as large as before, and the product strictly grows by at least the fee: (reserve_in + amount_in - fee) * (reserve_out - amount_out) >= reserve_in * reserve_out.",
  "every pool state, every trade direction, every amount_in, every LP fee in [0,100%]",
  "Rounding of the fee (ceil) and of the output (floor) depends on the exact residues of u128 values; a test samples a handful of triples.",
  [A+": do_swap, get_amount_out"])
p("AMM reserves are always backed by real tokens",
  "After any history of create_pool, add_liquidity, remove_liquidity, swaps, fee changes and outside transfers by other accounts, for every asset the AMM account holds at least the sum of the reserves that all pools record for this asset.",
  "every finite sequence of calls by any accounts over any number of pools, from the empty state",
  "An invariant over unbounded histories and all pools sharing an asset; tests run a few calls.",
  [A+": create_pool, add_liquidity, remove_liquidity, do_swap, do_add_liquidity, do_remove_liquidity"])
p("AMM trade pays exactly the quoted amount",
  "A successful swap takes exactly amount_in of the input asset from the trader, gives exactly the amount quoted by get_amounts_out on the pre-trade pool, moves the pool reserves by exactly the same amounts, and changes no other account's balance and no other pool.",
  "every state, trader, asset pair and amount",
  "Frame conditions quantify over all other accounts, assets and pools.",
  [A+": do_swap, get_amounts_out"])
p("AMM output is always strictly less than the reserve",
  "get_amount_out is strictly smaller than the output reserve whenever that reserve is positive and the input reserve is positive, so no swap can drain a pool; and it is monotone in amount_in.",
  "every amount_in, reserve_in > 0, reserve_out > 0",
  "Universally quantified arithmetic over u128.",
  [A+": get_amount_out"])
p("Quoted input suffices for the requested output",
  "If get_amount_in(amount_out) succeeds with x then selling x on the same pool yields at least amount_out (the code comment's claim 'to make sure it greater than expected amount_out').",
  "every amount_out, reserves and LP fee below 100%",
  "The +1 has to dominate three different roundings for every residue.",
  [A+": get_amount_in, get_amount_out"])
p("AMM round trip is never profitable",
  "Selling x of A for y of B and immediately selling y back returns at most x of A.",
  "every pool, amount and fee",
  "Exact rounding for all u128 inputs.",
  [A+": do_swap, get_amount_out"])
p("Adding liquidity does not dilute existing LPs",
  "With the protocol fee not minting, add_liquidity never lowers the per-LP-token backing of either reserve (base/total_supply and quote/total_supply), takes at most the desired amounts and at least the minimum amounts.",
  "every existing pool with positive supply, every desired and minimum amounts",
  "Floor divisions against arbitrary reserves.",
  [A+": add_liquidity, get_ideal_amounts, do_add_liquidity"])
p("Removing liquidity pays at most the pro-rata share",
  "remove_liquidity burns exactly the given LP amount from the caller and pays floor(liquidity*reserve/total_supply) of each side, hence never more than the pro-rata share, and never lowers the per-LP-token backing of the remaining holders.",
  "every pool state and liquidity amount",
  "Floor rounding for all inputs.",
  [A+": remove_liquidity, calculate_reserves_to_remove, do_remove_liquidity"])
p("Add-then-remove liquidity is never profitable in the AMM",
  "With protocol fees off, adding liquidity and then removing the LP tokens just received returns at most what was put in, for each of the two assets.",
  "every pool with positive supply and reserves, every desired amounts",
  "Exact rounding for all inputs.",
  [A+": add_liquidity, remove_liquidity"])
p("Locked minimum liquidity",
  "In every reachable state of the AMM each pool's LP token supply is at least MinimumLiquidity, and the lock account's LP balance never decreases.",
  "every history in which the lock account signs no call",
  "Invariant over unbounded histories.",
  [A+": do_add_liquidity, do_remove_liquidity"])
p("Protocol fee is taken only from growth",
  "The LP tokens minted to the protocol fee receiver before add/remove_liquidity represent only a share of the growth of sqrt(k) since the last liquidity event.",
  "every pool and protocol fee setting",
  "Depends on the history of fee toggling; FALSE in the code when the fee is switched on for an existing pool (k_last = 0), see DESIGN.md; proved when k_last is recorded.",
  [A+": do_mint_protocol_fee, protocol_fee_on, update_protocol_fee"])
p("Pair order is irrelevant",
  "add_liquidity, remove_liquidity and create_pool called with (a,b,(x,y)) and with (b,a,(y,x)) have exactly the same effect; calls with a = b are rejected.",
  "all states, pairs and amounts",
  "Equality of functions on all inputs.",
  [A+": sort_assets, add_liquidity, create_pool, remove_liquidity"])
# ---------------- Router
R="pallets/router/src/lib.rs"
p("Router exact-in: slippage bound is honoured end to end",
  "If swap_exact_tokens_for_tokens succeeds on a route of at least two assets, the trader's balance of the first asset falls by exactly amount_in, the balance of the last asset rises by exactly the quoted amount which is at least min_amount_out, and the trader's balances of all intermediate and unrelated assets are unchanged.",
  "every route (any length), amounts and AMM state",
  "Needs an induction over the route, using that no pool is visited twice.",
  [R+": swap_exact_tokens_for_tokens, route_checks", A+": get_amounts_out, swap"])
p("Router exact-out: price bound is honoured end to end",
  "If swap_tokens_for_exact_tokens succeeds on a route of at least two assets the trader pays exactly the quoted input, at most max_amount_in, of the first asset, and receives at least amount_out of the last.",
  "every route, amounts and AMM state",
  "Induction over the route; relies on the quote lemma for each hop.",
  [R+": swap_tokens_for_exact_tokens", A+": get_amounts_in"])
p("Route discovery is sound and complete",
  "get_all_routes terminates and returns only simple paths from token_in to token_out along existing pools, and every such path with a successful quote is returned.",
  "every pool graph",
  "Graph search over arbitrary graphs; termination is not testable.",
  [R+": get_all_routes, get_output_routes"])
p("Best route is optimal",
  "get_best_route returns a route whose quoted output is maximal (or whose quoted input is minimal when reversed) among all simple paths that can be quoted.",
  "every pool graph and amount",
  "Optimality over all paths of arbitrary graphs.",
  [R+": get_best_route, get_all_routes"])
# ---------------- Stableswap
S="pallets/stableswap/src/lib.rs"
p("Stableswap add-then-remove is never profitable",
  "Adding liquidity to a stableswap pool and immediately removing the received LP tokens returns at most what was put in.",
  "every pool with positive supply, every amount",
  "FALSE in the code: LP tokens are minted twice (proportional share plus share*(d1-d0)/d0); a concrete profitable history is proved.",
  [S+": do_add_liquidity, do_get_liquidity, do_remove_liquidity"])
p("Stableswap output never exceeds the reserve",
  "A successful stableswap trade pays out at most the recorded output reserve, and moves reserves by exactly the transferred amounts.",
  "every pool state and amount",
  "Newton iteration over all inputs.",
  [S+": do_swap, get_amount_out", "pallets/stableswap/src/helpers.rs: compute_d, compute_base"])
# ---------------- Streaming
T="pallets/streaming/src/lib.rs"
TT="pallets/streaming/src/types.rs"
p("Streaming pallet is always solvent",
  "After any history, for every asset the streaming account holds at least the sum of the remaining balances of all unfinished streams in this asset.",
  "every finite history of create, cancel, withdraw, set_minimum_deposit, time advancing",
  "Invariant over unbounded histories and any number of streams.",
  [T+": do_create, cancel, withdraw"])
p("A stream pays out exactly its deposit",
  "For every stream ever created, the amount paid to the recipient plus the amount refunded to the sender plus (while unfinished) the remaining balance equals the deposit.",
  "every stream in every history",
  "History property.",
  [T+": create, cancel, withdraw", TT+": try_deduct, try_cancel"])
p("Recipient never withdraws ahead of vesting",
  "While a stream is unfinished, what the recipient has withdrawn is at most rate_per_sec * elapsed (all of deposit once end_time is reached). For the native currency, a withdrawal that leaves at most the existential deposit may close the stream, so the payment may run ahead by at most the existential deposit.",
  "every stream, history and time",
  "Depends on all interleavings of withdrawals and time.",
  [T+": withdraw", TT+": balance_of, delta_of"])
p("A stream can always be settled",
  "In every reachable state the sender of an unfinished cancellable stream can compute both balances without arithmetic error, they add up to the remaining balance, and after end_time the recipient can withdraw the whole remaining balance.",
  "every reachable state and time",
  "Absence of underflow over all histories.",
  [T+": cancel, withdraw", TT+": balance_of"])
p("Only the parties can move stream funds",
  "A call changes a stream only if it is a withdrawal signed by its recipient or a cancel of a cancellable stream signed by its sender; a finished stream never changes again except by being archived; non-cancellable streams are never cancelled.",
  "every state, caller and call",
  "Quantifies over all callers and calls.",
  [T+": cancel, withdraw"])
p("Stream archiving never drops live funds",
  "Removing old streams from the library only ever deletes finished streams, and the per-account library entries always refer to existing streams.",
  "every reachable state",
  "Invariant over histories.",
  [T+": update_finished_stream_library, try_push_stream_library, try_remove_stream_library"])
# ---------------- Farming
F="pallets/farming/src/lib.rs"
FT="pallets/farming/src/types.rs"
p("Farming pool total equals the sum of positions",
  "In every reachable state total_deposited of each pool equals the sum over all users of deposit_balance.",
  "every history",
  "Sum over unboundedly many users.",
  [F+": deposit, withdraw"])
p("Farming vault is always solvent",
  "In every reachable state, for every asset the farming account of this asset holds at least: all deposits and cooling-down amounts of pools staking it, plus all unclaimed rewards (settled and pending) and the not yet streamed rewards of pools paying it.",
  "every history over any set of pools sharing assets",
  "Invariant with rounding over unbounded histories.",
  [F+": deposit, withdraw, redeem, claim, dispatch_reward, update_reward", FT+": reward_per_share"])
p("Rewards claimed never exceed rewards dispatched",
  "For each pool the total reward paid to users never exceeds the total amount dispatched to it.",
  "every history",
  "Accumulated rounding over unbounded histories.",
  [F+": claim, dispatch_reward, update_reward", FT+": reward_per_share, update_reward_per_share"])
p("Lock and cool-down are respected",
  "withdraw succeeds only at or after unlock_height; redeem pays exactly the sum of the user's items whose cool-down has elapsed, removes exactly these, and keeps the others.",
  "every state and block number",
  "All item lists of any length.",
  [F+": withdraw, redeem"])
p("Reward settlement is idempotent and path independent",
  "Settling a user's reward twice in the same block changes nothing the second time, and a second claim in the same block pays nothing.",
  "every state",
  "All inputs.",
  [F+": update_reward, claim"])
# ---------------- Bridge
B="pallets/bridge/src/lib.rs"
p("The bridge nonce registry is exactly the set of resolved nonces",
  "After resolving nonce n, has_bridged(m) holds iff it held before or m = n; the registry stays sorted, with non-empty, disjoint and non-adjacent intervals.",
  "every registry reachable from the empty one and every order of nonces",
  "All insertion orders of an unbounded set.",
  [B+": update_bridge_registry, merge_overlapping_intervals, has_bridged"])
p("No nonce is materialized twice",
  "In every history, between registration and unregistration of a source chain each nonce leads to at most one payout, and after a nonce is resolved (approved or rejected) every further vote for it is rejected.",
  "every history of votes by any members, block advances and expiry cleanups",
  "Interleavings of competing proposals.",
  [B+": materialize, resolve_proposal, execute_materialize, cancel_materialize"])
p("A payout needs threshold distinct relay votes",
  "Each materialize payout is backed by at least VoteThreshold pairwise distinct accounts, each of which was a relay member (or root) when it voted for exactly this (nonce, token, recipient, amount).",
  "every history",
  "History property over all vote interleavings.",
  [B+": materialize, ensure_relay_member", "pallets/bridge/src/types.rs: try_to_complete, has_voted"])
p("Bridge caps are hard limits",
  "Successful teleports keep out_amount <= out_cap and successful payouts keep in_amount <= in_cap, with the amounts growing by exactly the bridged amount.",
  "every state and amount",
  "All inputs.",
  [B+": update_bridge_token_cap, ensure_under_bridge_cap"])
p("Teleport accounting",
  "A successful teleport debits exactly amount from the caller, credits exactly fee (external token) or amount (home token) to the bridge account, reduces total issuance by amount-fee for external tokens and by nothing otherwise, and emits a nonce one above the previous one.",
  "every state, amount, token",
  "All inputs and frame.",
  [B+": teleport, teleport_internal, bump_nonce"])
p("Rejecting a bogus proposal does not lose the real transfer",
  "Voting down a wrong proposal for a nonce leaves the genuine proposal for this nonce executable.",
  "every history",
  "FALSE in the code: a rejected proposal consumes the nonce for every other proposal; a concrete history is proved.",
  [B+": cancel_materialize, update_bridge_registry"])
# ---------------- Loans
L="pallets/loans/src/lib.rs"
LI="pallets/loans/src/interest.rs"
LR="pallets/loans/src/rate_model.rs"
LP="pallets/loans/src/ptoken.rs"
LF="pallets/loans/src/farming.rs"
p("Voucher supply equals the sum of deposits",
  "In every reachable state, total_issuance of each ptoken equals the sum over all accounts of the voucher balances.",
  "every history of mint, redeem, borrow, repay, liquidate, ptoken transfer, reserve operations and time",
  "Sum over unboundedly many accounts, unbounded histories.",
  [L+": do_mint, do_redeem_voucher, liquidated_transfer", LP+": do_transfer_ptokens, total_issuance, balance"])
p("Mint then redeem is never profitable",
  "Supplying an amount and at once redeeming the received vouchers returns at most the amount supplied (market with positive supply, no interest in between).",
  "every market state and amount",
  "Two nested floor divisions by a rounded rate.",
  [L+": do_mint, do_redeem_voucher, calc_collateral_amount, calc_underlying_amount", LI+": calculate_exchange_rate"])
p("Redeem never pays more than requested nor more than the share",
  "redeem(amount) pays at most amount, burns the corresponding vouchers, never pays more than the vouchers' pro-rata share of cash + borrows - reserves, and never touches the reserved cash.",
  "every state and amount",
  "All inputs.",
  [L+": do_redeem, do_redeem_voucher, ensure_enough_cash"])
p("Interest accrual is monotone",
  "Accruing interest never lowers total borrows, total reserves or the borrow index, adds to reserves at most the accrued interest, changes no balance, and is a no-op when time has not advanced.",
  "every market state and time",
  "All inputs.",
  [LI+": accrue_interest, get_market_status, accrued_interest, increment_index"])
p("Debt grows only by interest or own borrowing",
  "The debt of an account in a market is changed only by its own borrow or repay, by a liquidation of this account, or by interest accrual; without these it is constant, and accrual never lowers it.",
  "every account, market and call",
  "Frame over all accounts.",
  [L+": current_borrow_balance, do_borrow, do_repay_borrow_with_amount, liquidated_transfer"])
p("Borrowing needs sufficient collateral",
  "After a successful borrow by an account without liquidation-free positions, the value of its debts does not exceed its collateral value by more than one unit of 10^-18 (price rounding).",
  "every state, prices and amount",
  "Sums over all markets with rounding.",
  [L+": borrow_allowed, ensure_liquidity, get_account_liquidity"])
p("Redeeming collateral keeps the account healthy",
  "Redeeming from a collateral position succeeds only if the account's liquidity covers the value removed, so a healthy account stays healthy.",
  "every state and amount",
  "All inputs with rounding.",
  [L+": redeem_allowed, ensure_liquidity"])
p("Healthy accounts cannot be liquidated",
  "liquidate_borrow fails for an account whose liquidation-threshold collateral covers its debts (and whose liquidation-free position is not exceeded); a liquidator is never the borrower.",
  "every state",
  "All inputs.",
  [L+": liquidate_borrow_allowed, do_liquidate_borrow"])
p("Liquidation conserves vouchers and is bounded",
  "A successful liquidation repays exactly repay_amount of debt, repay value is at most close_factor of the debt value, moves vouchers from the borrower to liquidator and incentive account with nothing created or lost, and seizes no more than the borrower has.",
  "every state and amount",
  "All inputs.",
  [L+": do_liquidate_borrow, liquidated_transfer, liquidate_borrow_allowed"])
p("Supply and borrow caps are hard limits",
  "After a successful mint the market's cash is at most supply_cap; after a successful borrow total borrows is at most borrow_cap.",
  "every state and amount",
  "All inputs.",
  [L+": ensure_under_supply_cap, ensure_under_borrow_cap"])
p("Interest rate model is bounded and monotone",
  "For every accepted jump model the borrow rate lies between base_rate and full_rate and is non-decreasing in utilization; the supply rate never exceeds the borrow rate.",
  "every accepted model and every utilization",
  "All parameter values; also shows that jump_utilization = 0 is accepted but makes the rate undefined at zero utilization.",
  [LR+": JumpModel::check_model, get_borrow_rate, get_supply_rate"])
p("Repaying never exceeds the debt and full repayment clears it",
  "repay_borrow takes exactly the repaid amount from the payer, fails if it exceeds the current debt, and repay_borrow_all leaves a debt of zero.",
  "every state",
  "All inputs.",
  [L+": repay_borrow, repay_borrow_all, do_repay_borrow_with_amount"])
p("Supply rewards never exceed the emission",
  "The rewards accrued by all suppliers of a market never exceed speed * blocks.",
  "every history",
  "FALSE in the code: ptoken transfers settle rewards under the ptoken id instead of the underlying id, so the same vouchers earn twice; a concrete history is proved, and the bound is proved for histories without ptoken transfers.",
  [LF+": update_reward_supply_index, distribute_supplier_reward", LP+": do_transfer_ptokens"])
p("Market bookkeeping is a bijection",
  "In every reachable state (without force_update_market) each market's ptoken id maps back to its asset, no two markets share a ptoken id, and a ptoken id is never itself a market.",
  "every history of add_market/activate/update",
  "Invariant over histories.",
  [L+": add_market, ensure_ptoken, update_market, underlying_id, ptoken_id"])
B="pallets/bridge/src/lib.rs"
p("The bridge token tables are inverse to each other",
  "In every reachable state a bridge token id stands for an asset exactly if this asset's token settings carry this id; no two assets share a bridge token id.",
  "every history of registrations, removals, setting changes, teleports and payouts",
  "Invariant over histories.",
  [B+": register_bridge_token, unregister_bridge_token, try_mutate_bridge_token, update_bridge_token_cap"])
p("The vote threshold follows the committee size",
  "After the committee changes to any non-empty set the threshold is the configured percentage of its size, rounded up, hence at least 1 and at most the size; a change to the empty committee keeps the old threshold.",
  "every committee and every percentage between 1 and 100",
  "All sizes and percentages.",
  [B+": change_vote_threshold, ensure_valid_threshold"])
p("A bridge payout credits exactly the voted amount to the voted recipient",
  "The call that pays a proposal out credits exactly amount to the recipient (minted for external tokens, from the bridge account for home tokens); apart from the optional native gift no other balance or issuance changes.",
  "every reachable state and every payout of a non-native asset",
  "All inputs and frame.",
  [B+": execute_materialize, grant_incentive_bonus"])
p("The threshold-th approval pays immediately",
  "A successful approving vote on an open proposal ends with the payout exactly if the proposal then has at least VoteThreshold approvals.",
  "every state and proposal",
  "All states.",
  [B+": materialize, resolve_proposal", "pallets/bridge/src/types.rs: try_to_complete"])
p("The loan exchange rate never falls",
  "No call and nothing the rest of the chain does lowers the amount of underlying per voucher of a market that keeps having vouchers.",
  "every reachable state, every call and every step of the environment",
  "Unbounded histories, nested roundings.",
  [L+": do_mint, do_redeem_voucher, liquidated_transfer, add_reserves, reduce_reserves", "pallets/loans/src/interest.rs: calculate_exchange_rate"])
p("Loan reserves are covered",
  "In every reachable state the reserves of a market are at most its cash plus its outstanding loans.",
  "every history",
  "Invariant over histories.",
  [L+": add_reserves, reduce_reserves", "pallets/loans/src/interest.rs: accrue_interest"])
p("The exchange rate can always be computed",
  "In every reachable state the exchange rate of a market is valid (so that suppliers can redeem).",
  "every history, including token transfers to the pallet account by anybody",
  "FALSE in the code: the rate must stay below 1, and a third party can push it to 1 by sending tokens to the pallet account, which blocks minting and redeeming; proved: the rate never drops below 0.02 and is valid as long as the market owns fewer tokens than there are vouchers.",
  ["pallets/loans/src/interest.rs: ensure_valid_exchange_rate, calculate_exchange_rate"])
p("Market parameters stay in their accepted ranges",
  "Every market has an accepted interest model; without force_update_market also collateral factor <= liquidation threshold < 1, 0 < reserve factor < 1 and a positive supply cap; hence collateral value never exceeds liquidation value, and an account that has just borrowed is not liquidatable at the same prices (up to one unit).",
  "every history of governance calls",
  "Invariant over histories and all positions.",
  [L+": add_market, update_market, update_rate_model, force_update_market"])
p("Stableswap pools are covered by the pool account",
  "In every reachable state the stableswap account owns at least the sum of the reserves recorded for all pools, asset by asset, and the minimum liquidity of every pool stays locked.",
  "every history of calls and of the rest of the chain",
  "Invariant over unbounded histories.",
  [S+": do_swap, do_add_liquidity, do_remove_liquidity, create_pool"])
p("A trade in a balanced stableswap pool never pays more than it takes",
  "In a pool with equal reserves a trader never receives more units than they pay; more generally the payment is bounded by the curve invariant up to one unit.",
  "every pool size and amount",
  "FALSE in the code for pools above about 5.5e12 units: products that do not fit u128 count as zero, so that a trade of 1000 units pays 5.8e10 (reserves 1e13) or the whole reserve (reserves 1e18); proved for smaller pools.",
  [S+": do_swap, get_amount_out", "pallets/stableswap/src/helpers.rs: div, compute_d, compute_base"])
p("Adding stableswap liquidity respects the caller's limits",
  "A successful add_liquidity takes of each asset an amount between the stated minimum and desired amounts, exactly by which the reserves and the pool account grow; other pools are untouched.",
  "every state, pair, amounts",
  "All inputs and frame.",
  [S+": add_liquidity, get_ideal_amounts, do_add_liquidity"])
K="pallets/liquid-staking/src/lib.rs"
KT="pallets/liquid-staking/src/types.rs"

p("The staking exchange rate never falls",
  "Whatever users, governance, the relay chain and the rest of the chain do, the exchange rate from liquid to staking tokens never gets lower.",
  "every pair of states connected by any sequence of calls, block hooks and environment steps",
  "Unbounded histories.",
  [K+": do_update_exchange_rate, do_advance_era"])
p("Liquid staking tokens are covered by stake",
  "After any history the liquid tokens at the current rate, plus what waits to be unbonded, are worth at most what is staked on the relay chain plus what waits to be bonded.",
  "every history, every timing of relay-chain responses",
  "FALSE in the code: two rebond requests for the same unlocking chunk can be in flight, the relay chain executes the second only in part, but the pallet books it in full; proved for histories in which reported rebonds were executed in full.",
  [K+": do_notification_received, do_matching, do_update_exchange_rate", KT+": rebond, consolidate_stake"])
p("The liquid staking pallet is solvent",
  "After any history all liquid tokens at the current rate, all claims of unstakers and the reserves are worth at most what the pallet holds plus what its derivative accounts have on the relay chain.",
  "every history, every set of claimants",
  "FALSE in the code: the commission on a reward reported after a partly executed rebond mints too many liquid tokens; proved for histories in which rewards are reported while the tokens are covered, and for histories in which rebonds are executed in full.",
  [K+": set_staking_ledger, get_inflate_liquid_amount, do_notification_received"])
p("Claims of unstakers are backed",
  "After any history the reserves, the pooled stake and all claims of all unstakers together are at most what the pallet holds, what is unbonding on the relay chain and what waits to be unbonded.",
  "every history, every set of claimants",
  "Sum over unboundedly many users and steps.",
  [K+": unstake, claim_for, do_claim_for, do_notification_received"])
p("Pooled stake is really there",
  "After any history the pallet's account holds at least the reserves plus the whole stake half of the matching pool.",
  "every history",
  "Invariant over histories.",
  [K+": stake, reduce_reserves, fast_match_unstake, do_notification_received"])
p("Locks in the matching pool are exactly the requests in flight",
  "After any history the locked amounts of the matching pool are the sums of the amounts of the requests in flight and never exceed the pool; the response that a rebond was executed is always accepted, that of an extra bond if the total fits u128, that of a first bond unless the account was bonded by another request, that of an unbond if that much is still active.",
  "every history, every request, every order of responses",
  "Asynchronous responses in any order.",
  [K+": do_bond, do_bond_extra, do_unbond, do_rebond, do_notification_received", KT+": set_stake_amount_lock, consolidate_stake, consolidate_unstake"])
p("Every relay-chain response takes effect at most once",
  "A failed response, or one for an unknown request, changes nothing; after a request was reported as executed, every later response with its id changes nothing, whatever happens in between.",
  "every history, every id",
  "Replays at any later time.",
  [K+": notification_received, do_notification_received"])
p("Staking ledgers add up",
  "After any history the total of the staking ledger of every derivative account is its active stake plus all of its unlocking chunks.",
  "every history, every derivative account",
  "Invariant over histories.",
  [KT+": bond_extra, unbond, rebond, consolidate_unlocked"])
p("Unstakers get exactly what they unstaked, once, in time",
  "A claim pays exactly the chunks that are due and keeps the others; an unstaked amount is due exactly from BondingDuration + 1 eras on; a due claim succeeds as soon as the pallet has the money free; nobody else's calls change an account's queue; over any history an account's claims plus its remaining queue are at most, and exactly (while amounts fit u128), what was unstaked for it.",
  "every history, every account",
  "Unbounded histories, merging and filtering of queues.",
  [K+": unstake, claim_for, do_claim_for, target_era"])
p("Staking is exact and round trips do not profit",
  "A stake takes exactly the given amount, splits it exactly into XCM fee, reserves and pooled stake, and mints the net amount's worth of liquid tokens, rounded down by a bounded error; unstaking all of them at the same rate never promises more than the net amount.",
  "every state, staker and amount",
  "All rates and amounts; two roundings.",
  [K+": stake, unstake, staking_to_liquid, liquid_to_staking"])
p("Fast unstaking pays exactly and cannot get stuck",
  "Fast unstaking of an account burns, charges and pays exactly the matched part of its request, never more than its balance or the free pooled stake; it cannot fail for lack of funds in a reachable state; it does not touch other accounts' requests and tokens.",
  "every reachable state, every account",
  "All states and amounts.",
  [K+": fast_match_unstake, do_fast_match_unstake"])
p("The era's matching nets stake against unstake exactly",
  "In every reachable state the matching succeeds; free stake plus unbonding equals free unstake plus bonding plus rebonding, one side is zero, rebonding is preferred over bonding and bounded by what is unbonding; the requests sent are exactly the configured distributions of these amounts and a withdrawal for each account with something to withdraw.",
  "every reachable state",
  "All pool states.",
  [K+": do_matching, do_multi_bond, do_multi_rebond, do_multi_unbond, do_multi_withdraw_unbonded", KT+": matching"])
p("Distributions respect caps, minimum bonds and totals",
  "Both strategies distribute at most the input, to each derivative account at most once, within its cap, leaving the minimum bond when unbonding and within what is unbonding when rebonding; the max-min strategy distributes as much as possible.",
  "every list of accounts, every amount, cap and minimum bond",
  "Lists of any length. The last part is FALSE for bonding in the code (the loop stops at the first account whose total has reached the cap); proved if no account is at the cap.",
  ["pallets/liquid-staking/src/distribution.rs: get_bond_distributions, get_unbond_distributions, get_rebond_distributions"])
p("The market cap bounds what is staked",
  "A stake is accepted only if everything bonded or pooled for bonding stays within the market cap.",
  "every reachable state and stake",
  "FALSE in the code: pooled stake is not counted; proved: everything bonded plus this stake stays within the cap, and no bond request goes above an account's cap.",
  [K+": ensure_market_cap, ensure_staking_ledger_cap"])
p("Unstake reserves are held",
  "After any history the pallet's account holds at least the recorded unstake reserves in liquid tokens.",
  "every history",
  "FALSE in the code: unstaking through the matching pool books a reserve without taking tokens; proved for histories without such charges.",
  [K+": unstake, reduce_unstake_reserves"])
p("The commission is bounded",
  "The liquid tokens that a reward report mints all go to the fee receiver and are worth, at the current rate, at most the commission's share of the reward; nothing else changes hands and only that account's ledger changes.",
  "every history with full rebonds, every reward",
  "Nested roundings over all states.",
  [K+": set_staking_ledger, get_inflate_liquid_amount"])
p("Price accumulators are exact and monotone",
  "A swap adds to each price accumulator of its pool the elapsed blocks times the price after the swap (nothing if already stamped in this block) and stamps the pool with the current block; no other call changes them; over any history they and the stamp never decrease and the stamp is never in the future.",
  "every swap, every call and every history",
  "Unbounded histories; fixed-point rounding and saturation for all reserves. (Finding: the elapsed time is weighted with the price after the trade, C77_final_price_weighs_the_past.)",
  ["pallets/amm/src/lib.rs: do_update_oracle, do_swap", "pallets/traits/src/lib.rs: Pool"])
p("Pools are permanent and LP tokens unique",
  "Once a pair has a pool it has it forever with the same LP token; creating it again is rejected; no two pairs ever share an LP token.",
  "every history",
  "Unbounded histories.",
  ["pallets/amm/src/lib.rs: create_pool, add_liquidity, remove_liquidity, swap"])
p("Deposits are exact",
  "create_pool takes exactly the given amounts, records them as reserves, locks the minimum liquidity and mints the rest of the integer square root of the product to the receiver. add_liquidity takes exactly the price-keeping amounts within the caller's bounds, rejects if they are below the minima, and mints exactly the smaller of the two proportional shares.",
  "every state, caller, pair and amounts",
  "All amounts and reserves, roundings, both orders of the pair.",
  ["pallets/amm/src/lib.rs: create_pool, add_liquidity, get_ideal_amounts, do_add_liquidity"])
p("Protocol fee bookkeeping",
  "With the protocol fee on, a liquidity event mints exactly the formula's share to the fee receiver and remembers the resulting reserves; with the fee off it mints nothing and forgets the remembered reserves; a new pool remembers its reserves exactly if the fee is on.",
  "every reachable state and liquidity event",
  "All reserves, supplies and fee settings; fee toggled any number of times.",
  ["pallets/amm/src/lib.rs: do_mint_protocol_fee, do_add_liquidity, do_remove_liquidity"])
p("Trading stays possible",
  "In every reachable state a trade above the minimum input, funded by the trader, on an existing pool without overflow of the reserve goes through.",
  "every reachable state and trade",
  "FALSE in the code: the price accumulators use checked addition, so a pool with an extreme price fills an accumulator and can never trade again in a later block (C81_refuted, C81_full_accumulator_freezes); proved whenever the accumulators have room.",
  ["pallets/amm/src/lib.rs: do_swap, do_update_oracle"])
p("The router accepts exactly the trades it should",
  "A routed trade is carried out if and only if the route is non-empty, not too long and free of repetitions, the amount is positive and spendable, the quote for the whole route meets the trader's limit and each hop succeeds with the quoted amounts; the state is then the result of the hops; otherwise the error names the failed check and nothing changes.",
  "every state, route of any length, trader, amount and limit",
  "Routes of any length and all states.",
  ["pallets/router/src/lib.rs: swap_exact_tokens_for_tokens, swap_tokens_for_exact_tokens, route_checks"])
p("StableSwap: price accumulators, permanent pools, unique LP tokens",
  "A stable-swap trade adds to each price accumulator the price after the trade times the blocks elapsed since the pool's last trade (nothing within one block); no other call touches them, and over any history they never decrease. A pool once created exists forever with its LP token, creating it again is rejected, and no two pairs share an LP token.",
  "every history of calls",
  "Unbounded histories, all reserves and block numbers.",
  ["pallets/stableswap/src/lib.rs: do_update_oracle, do_swap, create_pool"])
p("StableSwap: what the quotes compute",
  "The curve invariant answered for two reserves is where Newton's iteration from their sum settles (difference at most one, at most 255 steps); the output quote is the old reserve minus where the iteration for the other reserve settles after the fees; the input quote is the constant-product formula. Consequently the two quotes do not fit together.",
  "every pair of reserves and amount",
  "All reserves and amounts; convergence is a property of unbounded integer ranges. (Finding: C84_quotes_disagree.)",
  ["pallets/stableswap/src/lib.rs: delta_util, get_base, get_amount_out, get_amount_in, get_amounts_out, get_amounts_in"])
p("StableSwap: liquidity events are exact",
  "create_pool, add_liquidity and remove_liquidity move exactly the amounts of the formulas, mint or burn exactly the LP tokens of the formulas (including the protocol's share if the fee is on), and remember the reserves for the next protocol fee exactly if the fee is on.",
  "every state, caller, pair and amounts",
  "All amounts, reserves and supplies, both orders of the pair.",
  ["pallets/stableswap/src/lib.rs: create_pool, add_liquidity, remove_liquidity, do_mint_protocol_fee"])
p("Streaming: exactly the sound streams are accepted, and each step is exact",
  "create succeeds exactly for an enabled asset, a deposit at least the minimum, a start not in the past, a window with a positive rate per second, distinct parties and a funded sender (with room in the lists), with the documented error otherwise; the stream is stored as requested; balance_of answers the vested-and-unpaid part for the recipient, the rest for the sender, zero for others; a withdrawal pays exactly the amount asked (plus the native dust).",
  "every reachable state, parties, amounts and times",
  "All amounts, times and histories.",
  ["pallets/streaming/src/lib.rs: create, do_create, withdraw, balance_of, set_minimum_deposit", "pallets/streaming/src/types.rs: Stream"])
p("Streaming: the library lists are ordered and complete",
  "Each account's lists of streams are strictly descending by id; every stored stream is in its recipient's incoming list, every finished stored stream in both parties' finished lists; only the oldest finished stream of a party is ever archived.",
  "every reachable state",
  "Unbounded histories of creations, withdrawals and cancellations by any accounts.",
  ["pallets/streaming/src/lib.rs: try_push_stream_library, update_finished_stream_library, get_stream_library"])
p("Farming: administration is exact and locks are bounded",
  "A farming pool is created exactly when its pair and lock do not exist and the durations respect the limits; status, cool-down and unlock height change only as requested under the documented conditions and touch no stake or balance; in every history a pool unlocks at most its lock duration (at most the configured maximum) from now and every withdrawn item matures at most the maximal cool-down from now; staking calls are accepted or rejected with the documented error.",
  "every reachable state, pool, user and amount",
  "Unbounded histories of governance and staking calls.",
  ["pallets/farming/src/lib.rs: create, set_pool_status, set_pool_cool_down_duration, reset_pool_unlock_height, deposit, withdraw"])
p("Farming: rewards are fair",
  "No call changes a pool or position it does not address, nor another user's position. Over any history, all users of a pool who did not act in between and were settled at the same reward index earn exactly stake times one common factor (rounded down): equals are treated equally, more stake never earns less, and nothing others do reduces an earned reward. Claiming more often never earns more.",
  "every history of any users' calls and passing blocks",
  "Unbounded interleavings; roundings for all stakes, rates and intervals.",
  ["pallets/farming/src/lib.rs: update_reward, claim", "pallets/farming/src/types.rs: reward_per_share, update_reward_per_share"])
p("Prices: the emergency price wins",
  "While an emergency price is set for an asset of known decimals, every reader of prices gets exactly it (normalised by the decimals) marked with timestamp 0, whatever the oracle or the rates say; the last set or reset decides; a reset restores the derived price; no other asset's price is affected; conversely an answer with timestamp 0 is an emergency price.",
  "every history of set/reset/mapping calls and provider changes, every asset and price",
  "All prices, decimals and histories. (Finding: C90_refuted.)",
  ["pallets/prices/src/lib.rs: set_price, reset_price, get_emergency_price, get_price, get_no_op"])
p("Prices: derived prices follow their formula",
  "Without an emergency price, the served price is the price per whole token times 10^(18-decimals), exactly; that price is the oracle's for ordinary assets, the relay price times the staking rate for the liquid token, times the vault rate for crowdloan tokens, the relay price for auxiliary tokens, 2*sqrt(x*y)/supply vault tokens for LP tokens (depending on the pool only through x*y), that of the target for mapped foreign assets; it falls back to the oracle when a rate is unavailable, keeps the oracle's timestamp and is monotone in the relay price.",
  "every state of the providers, every asset",
  "All rates, prices, decimals, reserves and mapping chains.",
  ["pallets/prices/src/lib.rs: get_price, get_special_asset_price, get_staking_asset_price, get_vault_asset_price, get_lp_vault_asset_price, normalize_detail_price"])
p("Prices: asking for a price always answers",
  "Reading a price never traps, whatever mappings governance has configured.",
  "every state with LP tokens in circulation, every asset",
  "Chains of foreign-asset mappings of any length, including cycles. (Finding: C92_refuted.)",
  ["pallets/prices/src/lib.rs: set_foreign_asset, get_special_asset_price"])
L="pallets/crowdloans/src/lib.rs: "
p("Crowdloans: the books of a vault are exact and the money is there",
  "At any time a vault's pending and in-flight totals equal the sums of its users' contributions of that kind, the pallet account owns at least the pending and in-flight contributions of all vaults together, and in a closed vault any such contribution can be refunded immediately.",
  "every reachable state, every set of vaults, every user",
  "Unbounded histories of calls, relay-chain answers and other pallets' activity.",
  [L+"contribute, migrate_pending, notification_received, refund, refund_for, do_update_contribution"])
p("Crowdloans: contributions",
  "A contribution is accepted exactly under the documented conditions (open or pending vault, before its end block, at least the minimum, within the cap, funds available, message deliverable); it then takes exactly the amount, credits exactly the contributor, and leaves every other contribution alone.",
  "every reachable state, account, parachain and amount",
  "All amounts, balances and vault states.",
  [L+"contribute"])
p("Crowdloans: the cap",
  "The money in a vault grows only by contributions to it, and never beyond the cap in force at that moment.",
  "every call in every reachable state",
  "All interleavings of migrations, answers and contributions.",
  [L+"contribute, update_vault, migrate_pending, do_migrate_contribution"])
p("Crowdloans: conservation for every user",
  "For every user and vault: everything paid in equals what is pending, in flight and confirmed plus everything returned, claimed or withdrawn; and the record of payments is exactly what happens to the user's relay tokens.",
  "every history, user and vault, including dissolved vaults",
  "Unbounded histories.",
  [L+"contribute, claim, withdraw, refund, redeem, redeem_and_lend_for, notification_received"])
p("Crowdloans: relay tokens are never minted out of nothing",
  "The relay tokens the pallet mints for a vault (refunds, withdrawals, redemptions) never exceed those it burned when the relay chain confirmed the vault's contributions.",
  "every history, every vault including dissolved ones",
  "Unbounded histories; a double payment would only show after a particular history.",
  [L+"do_redeem, do_withdraw_for, do_refund_for, do_notification_received"])
p("Crowdloans: derivative tokens are backed and redeemable",
  "For every derivative token, the vaults' confirmed investment equals the circulation plus unclaimed contributions; only claims mint and only redemptions burn; and whoever holds derivative tokens of an expired vault can redeem them.",
  "every reachable state, token and holder",
  "Sums over all vaults and holders of all histories. (Finding: C98_refuted.)",
  [L+"claim, redeem, create_vault, do_claim_for, do_redeem"])
p("Crowdloans: claims and withdrawals pay exactly once",
  "After a won auction a contributor gets exactly the confirmed contribution in derivative tokens, after a lost one exactly the confirmed contribution in relay tokens, in both cases once; nobody else's contribution changes.",
  "every reachable state, user and vault",
  "Unbounded histories of claims and withdrawals by anyone on anyone's behalf.",
  [L+"claim, claim_for, force_claim_for, withdraw, withdraw_for"])
p("Crowdloans: phases",
  "A vault's phase changes only along the documented life cycle: pending, contributing, closed (or reopened), succeeded or failed, expired.",
  "every call in every reachable state, including late relay-chain answers",
  "Interleavings of calls with relay-chain answers of unbounded delay. (Finding: C100_refuted.)",
  [L+"open, close, reopen, auction_succeeded, auction_failed, slot_expired, notification_received"])
p("Crowdloans: vaults are isolated",
  "A parachain has at most one unfinished vault, no two vaults share contribution storage, and every call changes the data and contributions of at most one vault.",
  "every reachable state and call",
  "Unbounded numbers of vaults, re-creation of vaults, late answers.",
  [L+"create_vault, current_vault, next_trie_index, dissolve_vault"])
p("Crowdloans: answers of the relay chain",
  "Each answer to a sent contribution is accounted for exactly once: a confirmation moves the amount from in flight to confirmed and burns it, a rejection pays it back, and a second answer to the same query changes nothing.",
  "every reachable state, query and sequence of answers",
  "Duplicate and late answers. (Finding: C102_refuted.)",
  [L+"notification_received, do_notification_received"])
p("Crowdloans: migration and refunds make progress and pay exactly",
  "Migrating sends exactly the first pending contributions up to the limit, one message per contribution with its amount and referral code, and changes nobody's total; refunding pays exactly the first contributions up to the limit; enough refunds return every contribution of every user in full.",
  "every reachable state, any number of contributions and limits",
  "Unbounded numbers of contributors and of calls.",
  [L+"migrate_pending, refund, do_refund_for"])
p("Crowdloans: dissolving a vault loses nothing",
  "A vault can be dissolved exactly when it is finished and empty; at that moment every user has got back, claimed or withdrawn exactly what they paid in, and everything burned for the relay chain has been paid out again.",
  "every history",
  "Unbounded histories.",
  [L+"dissolve_vault"])
p("Crowdloans: the reported progress of a lease",
  "The progress of a lease used for pricing is 0 before its start, 1 from its end on, the elapsed share rounded down in between, never above 1 and never decreasing.",
  "every lease, block and configuration including saturation",
  "All blocks and configurations; saturation at the type bounds.",
  [L+"get_vault_term_rate"])
p("Bridge: teleports are accepted exactly when they should be",
  "teleport succeeds exactly when the destination chain and the token are registered, the token is enabled, the amount is positive, covers the fee, is owned by the caller and fits under the outgoing cap, and neither the counter of the cap nor the nonce overflows.",
  "every reachable state, caller, chain, token and amount",
  "Liveness and safety for all states: a rejected valid transfer and an accepted invalid one are both excluded.",
  [B+": teleport, teleport_internal, ensure_under_bridge_cap, bump_nonce"])
p("Bridge: votes are accepted exactly when they should be",
  "materialize (non-native token) succeeds exactly when the caller may vote, chain and token are registered and enabled, the nonce is unresolved, the amount positive and under the incoming cap, and the proposal is new or open and not yet voted on by the caller; a deciding vote additionally needs the payout to be possible.",
  "every reachable state, voter, chain, nonce, call and vote",
  "Liveness and safety for all committees, thresholds and histories of votes.",
  [B+": materialize, resolve_proposal, execute_materialize, materialize_allowed", "pallets/bridge/src/types.rs"])
p("Bridge: administration does exactly what was asked",
  "Registering or unregistering a chain or token and changing a fee, status or cap is accepted exactly when the chain or token is (not) registered, changes exactly the requested entry, and leaves every balance, nonce, vote and other entry as it was.",
  "every reachable state and administrative call",
  "Frame conditions over the whole state, for all states.",
  [B+": register_chain, unregister_chain, register_bridge_token, unregister_bridge_token, set_bridge_token_fee, set_bridge_token_status, set_bridge_token_cap, clean_cap_accumulated_value"])
p("Bridge: the gift for new accounts",
  "A payout gives the recipient exactly the missing existential deposit plus the configured gift when the token amount qualifies and the gift account covers the gift, and nothing otherwise; nobody else's native balance changes.",
  "every state and deciding vote paying out a non-native token",
  "All balances of recipient and gift account, including the edge where the gift account holds the gift but not the deposit. (Finding: C109_low_gift_account_blocks.)",
  [B+": grant_incentive_bonus"])
p("Bridge: the life of a proposal",
  "A proposal is created by its first vote with an expiry a fixed lifetime ahead, keeps this expiry, collects each vote at the end of the right list, disappears in exactly the block of its expiry, and no stored proposal is ever past its expiry; votes never touch other proposals.",
  "every reachable state, vote and block",
  "Interleavings of votes, blocks and administration of unbounded length.",
  [B+": materialize, on_initialize", "pallets/bridge/src/types.rs: Proposal"])
p("Loans: interest is exactly what the rate model says",
  "When interest is accrued over an elapsed time, total borrows grow by the model's rate at the current utilisation times the time (rounded down), the reserves by the reserve factor's share of that interest, the borrow index by the same rate, the published rates are the current ones, and nothing else changes; the rounding loss is less than one unit plus one unit per elapsed year; the very first accrual only starts the clock.",
  "every state, market, rate model and elapsed time",
  "Exact formula and frame for all parameters; a test checks one rate and one interval.",
  ["pallets/loans/src/interest.rs: accrue_interest, accrued_interest", "pallets/loans/src/rate_model.rs: get_borrow_rate"])
p("Loans: claimed rewards are exactly the earned ones",
  "claim_reward and claim_reward_for_market pay the caller exactly what was accrued to it before plus, per market, its ptokens (debt) times the growth of the reward index since it was last settled; afterwards nothing is left to claim, a second claim pays nothing and nobody else's rewards change; the index grows by speed times blocks divided by the supply, rounded down.",
  "every reachable state, account and market",
  "All histories of deposits, loans, speed changes and claims.",
  ["pallets/loans/src/farming.rs", "pallets/loans/src/lib.rs: claim_reward, claim_reward_for_market"])
p("Loans: market administration does exactly what was asked",
  "A market is added exactly if asset and ptoken are unused and the factors, caps and rate model are acceptable, and it starts empty; activating, updating or force-updating a market changes exactly the given parameters; changing the reward speeds first settles the indices, so nothing already earned changes.",
  "every reachable state and administrative call",
  "Acceptance and frame for all parameter combinations.",
  ["pallets/loans/src/lib.rs: add_market, activate_market, update_rate_model, update_market, force_update_market, update_market_reward_speed"])
p("Loans: only active markets are usable",
  "Supplying, redeeming, borrowing, repaying, switching collateral, liquidating, moving reserves and changing reward speeds fail in every market that is pending or under supervision.",
  "every state, call and market state",
  "All entry points and all states.",
  ["pallets/loans/src/lib.rs: ensure_active_market"])
p("Loans: a debtor keeps collateral for all its debts",
  "An account whose collateral covers all its debts and which redeems part of it still has collateral for all its debts.",
  "every reachable state and redemption",
  "Refuted: debts in non-active markets are not counted (C115_refuted), so a debtor can take out everything while the market it owes to is suspended. Proved for accounts owing only in active markets.",
  ["pallets/loans/src/lib.rs: total_borrowed_value, active_markets, redeem_allowed"])
p("Loans: each user call moves exactly the right amounts",
  "Minting gives amount/rate ptokens for the amount; redeeming burns amount/rate ptokens and pays rate times that; borrowing and repaying change the caller's debt and the total by the amount, after accrued interest; a liquidation seizes the repaid value times the incentive, split between liquidator and incentive account; reserve and reward transfers move what they say. Nobody else's deposit, debt, or balance changes.",
  "every reachable state, caller, market and amount",
  "Exact amounts and frames, for all states.",
  ["pallets/loans/src/lib.rs: mint, redeem, redeem_all, borrow, repay_borrow, collateral_asset, liquidate_borrow, add_reserves, reduce_reserves, add_reward, withdraw_missing_reward"])
p("Loans: valid calls are accepted",
  "Supplying within the cap, redeeming and borrowing within the account's liquidity and the pool's cash, repaying up to the debt, switching collateral and claiming rewards succeed whenever the caller has the tokens and the numbers fit into 128 bits; all limits are inclusive.",
  "every reachable state, caller, market and amount",
  "Liveness over all states: no reachable bookkeeping (reward indices, interest snapshots) can block a valid call.",
  ["pallets/loans/src/lib.rs: mint, redeem, borrow, repay_borrow, collateral_asset, claim_reward_for_market"])
p("Loans: the record of earned interest",
  "Supplying and redeeming add to the caller's earned interest exactly its ptokens times the growth of the exchange rate since it was last settled (rounded down); no other call changes any such record and it never falls; a liquidation repays at most the close factor of the debt not covered by liquidation-free collateral.",
  "every state, call and account",
  "Exact amounts and frame over all calls. (Finding: ptokens received by transfer count as earned, C118_transfer_counts_as_earned.)",
  ["pallets/loans/src/lib.rs: update_earned_stored, liquidate_borrow_allowed"])
p("Crowdloans: the bonus stream",
  "On a runtime that connects the streaming pallet, a claim with a bonus opens exactly one stream: from the crowdloan account to the claimant, over contribution times bonus rate converted from relay to native decimals (rounded down, capped), between the configured times, not cancellable; without a bonus none. On a runtime that does not connect it, claims never open a stream. No other running stream changes.",
  "every reachable state, claimant, vault, decimals and bonus configuration",
  "All decimals and amounts, including the overflow cases. (Finding: a bonus below one unit per second makes the whole claim fail, C119_small_bonus_blocks; heiko and vanilla configure `type Streaming = ()`, so that a configured bonus is silently never paid, C119_no_streaming.)",
  ["pallets/crowdloans/src/lib.rs: do_claim_for, normalized_amount", "pallets/streaming/src/lib.rs: StreamingTrait::create"])
p("Crowdloans: settings",
  "Setting the VRF delay, the proxy address or a lease's bonus changes exactly that setting; a bonus is accepted exactly for a lease whose first period is not after its last and a stream that ends after it starts.",
  "every state and setting",
  "Frame over the whole state.",
  ["pallets/crowdloans/src/lib.rs: set_vrf, update_proxy, update_leases_bonus"])
p("EVM ABI: what precompiles write and read is the Solidity ABI",
  "For every list of argument types built from integers, booleans, addresses, hashes, byte strings, arrays and tuples, and all values of them, the bytes a precompile produces (and the calldata with selector) are exactly the Solidity ABI encoding, decoding them returns the same selector and values and two different values never have the same encoding.",
  "every type, every value that fits it, every trailing garbage",
  "Type expressions nest without bound; needs induction over types and values.",
  ["precompiles/utils/src/data.rs: EvmDataReader, EvmDataWriter, EvmData"])
p("EVM ABI: hostile calldata cannot panic a precompile",
  "Whatever bytes a caller sends, decoding them at any argument types either returns values or reverts; it never panics (no out-of-range slice, no arithmetic overflow), and a decoded array is never longer than the calldata that was sent.",
  "every byte string and every argument type",
  "Adversarial input: all byte strings.",
  ["precompiles/utils/src/data.rs: EvmDataReader::move_cursor, read_pointer, Vec::read, Bytes::read"])
p("EVM XCM: multilocations survive the EVM boundary",
  "Encoding a multilocation and decoding the bytes returns the same multilocation.",
  "every multilocation",
  "Refuted: the encoder of a network id writes extra length bytes the decoder does not expect, so Ethereum/ByFork networks are misread (C123_refuted, C123_ethereum_misread). Proved for all multilocations without those networks.",
  ["precompiles/utils/src/data/xcm.rs: network_id_to_bytes, network_id_from_bytes, impl EvmData for Junction, MultiLocation"])
p("EVM XCM: hostile multilocations cannot panic a precompile",
  "Whatever bytes are given as junction, decoding returns a junction or reverts.",
  "every byte string",
  "Refuted: a GeneralKey junction whose declared length differs from the copied slice panics (C124_refuted). Proved for all byte strings where the key sizes agree.",
  ["precompiles/utils/src/data/xcm.rs: impl EvmData for Junction"])
p("Native ERC-20: exact behaviour of every function",
  "Calling the native token contract with the ABI calldata of totalSupply, name, symbol, decimals, balanceOf, allowance, nonces, approve, transfer and transferFrom does exactly what ERC-20 says: the views return the ABI encoded values and change nothing; approve replaces the allowance; transfer succeeds exactly when the runtime's call filter lets transfers through and the amount can leave the caller and arrive, and transferFrom when also the caller's allowance covers it (or the caller is the owner), and then moves exactly that amount, takes it off exactly that allowance, returns true and logs the event.",
  "every calldata tail, argument, caller, state and runtime configuration",
  "Exactness over all 256-bit arguments and all states, at the level of bytes.",
  ["precompiles/balances-erc20/src/lib.rs: execute, total_supply, balance_of, allowance, approve, transfer, transfer_from"])
p("Native ERC-20: whatever is sent, nobody loses tokens without consent",
  "Whatever bytes are sent to the native token contract, an account that is not the caller loses tokens only if it had approved the caller, and at most the rest of that allowance (which is reduced by it), and its allowances change only by being spent or by a permit carrying its own valid signature.",
  "every byte string, call context, state and account",
  "Adversarial input: all byte strings.",
  ["precompiles/balances-erc20/src/lib.rs: execute, transfer_from", "precompiles/balances-erc20/src/eip2612.rs: permit"])
p("Native ERC-20: a passive owner never loses more than it approved",
  "Over any history of calls by others, an account's balance falls by no more than its spenders' allowances have fallen (plus, per call, less than one existential deposit, which the chain takes when an account falls below it).",
  "every history of any length with arbitrary calldata",
  "Histories of unbounded length.",
  ["precompiles/balances-erc20/src/lib.rs: transfer_from"])
p("Native ERC-20: permits bind and cannot be replayed",
  "A permit is accepted exactly when it has not expired and the signature over owner, spender, value, deadline, the owner's current nonce, token name, chain id and contract address was made by the owner; it then sets exactly that allowance and uses up the nonce. Two different permits, or the same permit for another token or chain, never have the same signed digest unless the hash function collides on the strings hashed for them, nonces never fall, and so no signature is accepted twice in any history.",
  "every permit, signature, history and hash function",
  "Replay over histories of unbounded length; binding for all field values.",
  ["precompiles/balances-erc20/src/eip2612.rs: permit, generate_permit, compute_domain_separator, nonces"])
p("Native ERC-20: deposits give the value back, withdrawals change nothing",
  "Calling deposit, an unknown function or sending plain value to the native token contract returns the whole value that was sent; withdraw succeeds exactly for at most the spendable balance and changes no balance.",
  "every call, value and state in which nobody falls below the existential deposit",
  "All states and values.",
  ["precompiles/balances-erc20/src/lib.rs: deposit, withdraw, execute"])
p("Native ERC-20: no call creates or destroys tokens",
  "Whatever bytes are sent to the native token contract, the total supply stays the same and balances that added up to it still do.",
  "every byte string, context and state",
  "Adversarial input; sums over unboundedly many accounts.",
  ["precompiles/balances-erc20/src/lib.rs: execute"])
p("Native ERC-20: static calls change nothing and non-payable functions refuse value",
  "A call to the native token contract in a static context leaves the state as it is, and value sent along with transfer makes the call fail.",
  "every calldata and context",
  "Refuted: the result of the modifier check is dropped, so a static call can approve or transfer and value sent with transfer stays on the contract's account (C131_static_refuted, C131_payable_refuted). Proved: the functions that are not meant to change anything do not.",
  ["precompiles/balances-erc20/src/lib.rs: execute", "precompiles/utils/src/lib.rs: check_function_modifier"])
p("Asset ERC-20: the functions do what ERC-20 says",
  "At the contract address of an existing asset: totalSupply, name, symbol, decimals, minimumBalance, balanceOf, allowance and nonces return the stored data ABI encoded; the functions that dispatch a call of the assets pallet need the runtime's call filter to let it through (see C200); apart from that approve succeeds exactly when the asset is live and the caller can pay the approval deposit, and sets exactly that allowance; transfer succeeds exactly when the asset is live, the sender is not frozen and has the amount, and the recipient ends at or above the minimum balance without overflow, and moves exactly the amount (or everything when the remainder would be below the minimum balance); transferFrom needs an allowance of at least the amount when the caller is not the owner and takes exactly the amount off it. Each logs the standard event and changes nothing else.",
  "every asset, caller, arguments, trailing bytes and state",
  "Exact success conditions and exact effects over all states and arguments.",
  ["precompiles/assets-erc20/src/lib.rs: execute, balance_of, allowance, approve, approve_inner, transfer, transfer_from"])
p("Asset ERC-20: nobody loses tokens or allowances without consent",
  "Whatever bytes are sent to an asset's contract: no other asset, no approval of another asset and no whole native balance changes, and an account that did not make the call loses tokens only to a spender within the allowance it gave (plus a remainder below the minimum balance) or by a burn of the asset's admin; its allowances change only by being spent or by a permit that its own key signed for the current nonce.",
  "every byte string, context and state, every account but the caller",
  "Adversarial input in unboundedly many states.",
  ["precompiles/assets-erc20/src/lib.rs: execute", "precompiles/assets-erc20/src/eip2612.rs: permit"])
p("Asset ERC-20: approval deposits stay covered and come back",
  "The deposits recorded for an account's approvals are always covered by its reserved native balance, whatever bytes are sent to asset contracts; when an approval is spent to the end its owner gets the whole deposit back. (Setting an allowance to 0 keeps the deposit.)",
  "every byte string, context and state",
  "A sum over unboundedly many approvals, preserved by arbitrary input.",
  ["precompiles/assets-erc20/src/lib.rs: approve_inner, transfer_from"])
p("Asset ERC-20: only the issuer mints and only the admin burns",
  "Where the runtime's call filter lets mint and burn through: mint of an amount above 0 succeeds exactly for the issuer of a live asset when nothing overflows and the recipient reaches the minimum balance, and adds exactly the amount to balance and supply; burn of an amount above 0 succeeds exactly for the admin of a live asset on an existing, unfrozen account, and destroys the amount, or all there is if less.",
  "every asset, caller, arguments and state",
  "Exact success conditions and effects over all states.",
  ["precompiles/assets-erc20/src/lib.rs: mint, burn"])
p("Asset ERC-20: permits bind and cannot be replayed",
  "A permit is accepted exactly when it has not expired, the signature over its fields, the owner's current nonce at this address and this token contract was made by the owner, the asset is live, the owner can pay the deposit and the runtime's call filter lets approvals through (see C200); it then has the effect of the owner's approve and uses up the nonce. Nonces never fall, and in no history are two accepted permits (of any two asset contracts or addresses) for the same signed message unless the hash function collides on the strings hashed for them.",
  "every permit, signature, history and hash function",
  "Replay over histories of unbounded length and over all contracts.",
  ["precompiles/assets-erc20/src/eip2612.rs: permit, generate_permit, compute_domain_separator, nonces"])
p("EVM calls reach the right token contract",
  "Address 2050 and no other is the native token; an address is an asset's contract exactly when its first four bytes are ff and its last four are the number of an existing asset; the address derived from an asset's number leads back to it and differs for different assets; a token contract is never run in the context of another address (DELEGATECALL, CALLCODE).",
  "every address, context, asset number and state",
  "All 160-bit addresses.",
  ["runtime/common/src/precompiles.rs: execute, is_precompile, used_addresses", "runtime/parallel/src/lib.rs: address_to_asset_id, asset_id_to_address"])
p("Asset ERC-20: the supply is the sum of the balances",
  "Whatever bytes are sent to asset contracts, an asset whose supply was the sum of its balances still is so; the supply rises only when the asset's issuer calls and falls only when its admin calls; roles, minimum balance, status, frozen accounts and name never change.",
  "every byte string, context and state, every asset",
  "A sum over unboundedly many accounts, adversarial input.",
  ["precompiles/assets-erc20/src/lib.rs: execute"])
p("Asset ERC-20: static calls change nothing and value is refused",
  "A call to an asset contract in a static context leaves the state as it is, and a call that brings native value fails.",
  "every calldata and context",
  "The first part is refuted: permit is classified as a view function and is accepted in a static call (C139_static_refuted). Proved: every other static call changes nothing, a static permit has only the effect of the signer's approve, and value is always refused.",
  ["precompiles/assets-erc20/src/lib.rs: execute", "precompiles/utils/src/lib.rs: check_function_modifier"])
p("Asset ERC-20: a passive owner never loses more than it has approved",
  "Over any history of calls by others than the asset's admin, an account that does nothing itself and signs no permit loses at most what its spenders' allowances have gone down by, plus less than one minimum balance per call.",
  "every history of calls with arbitrary calldata, interleaved with anything else on the chain",
  "Histories of unbounded length.",
  ["precompiles/assets-erc20/src/lib.rs: transfer_from"])
p("Asset registry: an asset is accepted for fees exactly if it has a rate",
  "After any sequence of registry calls, payment_is_supported is true for an asset type exactly if get_units_per_second has a value for it, and the stored list of accepted types is ascending, without repetition, and lists exactly the accepted types.",
  "every sequence of registry calls, every asset type",
  "The list is searched with binary search, which is only correct on sorted lists: an invariant over unbounded histories.",
  ["pallets/asset-registry/src/lib.rs: update_asset_units_per_second, update_asset_type, remove_fee_payment_asset, deregister_asset, payment_is_supported"])
p("Asset registry: ids and types determine each other",
  "After any sequence of registry calls an asset id has a type exactly if that type leads to that id.",
  "every sequence of registry calls, every id and type",
  "Refuted: one type can be registered for two ids, and updating an asset to the type it has removes the type's id (C142_refuted, C142_same_type_update). Proved: the id found for a type always has that type; the full equivalence in histories that never bring in a type already in use.",
  ["pallets/asset-registry/src/lib.rs: register_asset, update_asset_type, deregister_asset, get_asset_id, get_asset_type"])
p("Asset registry: each call does exactly what it says",
  "Only the update origin can change the registry. register_asset is accepted exactly for new ids and links id and type; a fee rate can be set exactly for types that lead to an id; update_asset_type to a different type moves the id and the fee rate; remove_fee_payment_asset and deregister_asset remove exactly the rate, or the link and the rate; nothing else changes.",
  "every state, argument and origin",
  "Exact success conditions and effects over all states.",
  ["pallets/asset-registry/src/lib.rs: register_asset, update_asset_units_per_second, update_asset_type, remove_fee_payment_asset, deregister_asset"])
p("Asset registry: an asset accepted for fees is registered",
  "An asset type accepted for fee payment leads to an asset id, so that fees taken in it can be booked.",
  "every sequence of registry calls, every asset type",
  "Refuted: an update of an accepted asset to the type it already has removes the id but not the acceptance (C144_refuted). Proved for all histories without such an update.",
  ["pallets/asset-registry/src/lib.rs: update_asset_type, update_asset_units_per_second"])
p("XCM fees: execution weight costs exactly the registered rate",
  "Buying weight succeeds exactly if the first fungible asset offered is accepted for fees and there is enough of it; it takes exactly rate times weight per second, rounded down, of that asset and nothing of any other. Refunds are paid in the asset of the first purchase at its rate.",
  "every holding, weight, rate table and trader state",
  "Arithmetic over all 64-bit weights and 128-bit rates.",
  ["pallets/traits/src/xcm.rs: FirstAssetTrader, buy_weight, refund_weight"])
p("XCM fees: a message never gets back more than it paid",
  "Over the life of a message the refunds of an asset do not exceed the fees taken in it.",
  "every sequence of purchases and refunds",
  "Refuted at the trader: each purchase is added to the trader's weight twice, so twice the weight can be refunded, and a purchase in a cheap asset can be refunded in an expensive one (C146_refuted, C146_cross_asset); a refund can panic (C146_refund_panics). Proved: when refunds are requested of no more weight than the first purchase (as the executor does for paid messages) the session does not panic, refunds stay within the payments of each asset and the revenue is exactly the difference.",
  ["pallets/traits/src/xcm.rs: buy_weight, refund_weight, drop"])
p("XCM fees: every fee is given back or reaches the treasury",
  "What is taken in fees of an asset is exactly what is refunded plus what is booked as revenue, and revenue of a known asset is minted to the treasury in full.",
  "every sequence of purchases and refunds",
  "Refuted: fees taken in a second asset are neither refunded nor booked (C147_refuted). Proved for sessions that pay in one asset.",
  ["pallets/traits/src/xcm.rs: buy_weight, refund_weight, drop, XcmFeesToAccount::take_revenue"])
p("XCM assets: deposits, withdrawals and transfers are exact",
  "An incoming deposit succeeds exactly if place and asset are known and the issuance stays in range, and gives the account exactly the amount (plus, for the relay chain's asset, the gift due from the gift account); a withdrawal destroys and a transfer moves exactly the amount; nothing else changes, and a failure creates nothing.",
  "every ledger, asset, location and configuration",
  "Exact success conditions and effects over all states.",
  ["pallets/traits/src/xcm.rs: deposit_asset, withdraw_asset, internal_transfer_asset"])
p("XCM gifts: an account gets the gift at most once",
  "An account that received the native-token gift with a relay-chain deposit does not receive it again.",
  "every account and history",
  "Refuted: sending the gift on and depositing again earns it again (C149_refuted). Proved: the gift only tops up the spendable balance to the gift amount, is never due to an account that has it, and never exceeds the gift fund; the exact thresholds (4.952 DOT on parallel, 0.099904 KSM on heiko).",
  ["pallets/traits/src/xcm.rs: deposit_asset", "runtime/parallel/src/lib.rs: GiftConvert", "runtime/heiko/src/lib.rs: GiftConvert"])
p("XCM assets: supply follows deposits and withdrawals",
  "Over any sequence of deposits, withdrawals and transfers, successful or not, the issuance of an asset is what it was plus deposits minus withdrawals, balances keep adding up to it, and an account loses units only as the source of a withdrawal or transfer (or as the gift account).",
  "every sequence of adapter operations, every asset and account",
  "Histories of unbounded length.",
  ["pallets/traits/src/xcm.rs: deposit_asset, withdraw_asset, internal_transfer_asset"])
p("XCM locations: local and absolute names mean the same asset",
  "An asset of this chain resolves to the same id by its local and by its absolute location; foreign locations resolve to exactly what is registered; with a one-to-one registry two locations resolve to one asset only if they are the local and absolute names of one place. An asset registered under a local location is never found.",
  "every location, registry and parachain number",
  "All locations of unbounded variety.",
  ["pallets/traits/src/xcm.rs: XcmAssetRegistry::convert, get_asset_id, CurrencyIdConvert::convert"])
p("Emergency switch: exactly the switched-off calls are blocked",
  "A user's transaction with a call that is on neither list or is switched off costs fee and nonce and does nothing else, and a listed call that is on reaches its pallet. The switches are at any time exactly what the toggle events say, only root and the council make such events, they can flip any switch in every state (no lock-out), and a pallet's switch concerns the calls of that pallet and no others.",
  "every state, history of transactions and call",
  "Histories of unbounded length and all combinations of switches.",
  ["pallets/emergency-shutdown/src/lib.rs: toggle_pallet, toggle_call, contains", "runtime/parallel/src/lib.rs: WhiteListFilter, BaseCallFilter"])
p("Call filter: nothing slips through nested calls of a signed transaction",
  "Everything that a signed transaction carries out, at any depth of batches, derivative accounts and proxies, is a call that users may make.",
  "every signed transaction and state",
  "Call trees of unbounded depth.",
  ["runtime/parallel/src/lib.rs: BaseCallFilter", "pallets/emergency-shutdown/src/lib.rs: contains"])
p("Call filter: no transaction of a user gets around it",
  "No transaction of a user, signed or unsigned, ever carries out a call that is switched off or on neither list.",
  "every transaction and state",
  "Refuted: EVMSignatureCall::call dispatches with dispatch_bypass_filter (C154_refuted). Proved: only the outermost call inside a signature call gets around, all below it is filtered, and switching off that pallet closes the door.",
  ["pallets/evm-signatures/src/lib.rs: call", "runtime/parallel/src/lib.rs: BaseCallFilter"])
p("Proxies: a transaction acts only for accounts its signer controls, within the proxy type",
  "Everything a signed transaction carries out is done for accounts the signer controls fully (itself, derivative accounts, unlimited proxies, transitively) or is listed by a limited proxy type that was given to such an account. All other accounts keep native balance, nonce and proxies, and no new power comes out of the transaction.",
  "every signed transaction (also ones that change proxies) and state",
  "Call trees of unbounded depth over all proxy graphs.",
  ["runtime/parallel/src/lib.rs: ProxyType, InstanceFilter::filter"])
p("EVM signature calls: only with the account's signature over this call and nonce",
  "An unsigned transaction does something for an account only if it is a signature call whose signer signed exactly that call with its current nonce and controls the account; and with such a signature the fee goes to the treasury, the nonce moves on by one and the call is carried out for the signer, or, if it fails, only fee and nonce are gone.",
  "every unsigned transaction, state and runtime",
  "Refuted for heiko and vanilla, where VerifySignature is false: anybody can act for any account (C156_refuted_unverified). Proved for parallel and kerria.",
  ["pallets/evm-signatures/src/lib.rs: call, valid_signature", "pallets/evm-signatures/src/ethereum.rs: verify", "runtime/heiko/src/lib.rs: VerifySignature", "runtime/vanilla/src/lib.rs: VerifySignature"])
p("EVM signature calls: no replay",
  "A signature call that has had an effect has none when it is sent again, whatever happened in between.",
  "every signature call and history",
  "Refuted: the nonce is forgotten when the account is removed (C157_refuted). Proved: no replay, and no second call with the same nonce, as long as the account is not removed.",
  ["pallets/evm-signatures/src/lib.rs: call"])
p("EVM signature calls: being included costs the signer something",
  "A signature call that the transaction pool accepts takes the fee or at least the nonce when it is included in a block.",
  "every signature call and state",
  "Refuted: the pool does not check the balance, and without it the whole call is undone and stays valid (C158_refuted). Proved: the pool accepts exactly calls with the current nonce and a good signature, and signers with enough money are charged.",
  ["pallets/evm-signatures/src/lib.rs: call, validate_unsigned"])
p("EVM signatures: signed bytes determine chain, nonce and call",
  "What is signed determines the magic number, the nonce and the call, so a signature is good for one call, one nonce and one chain only.",
  "every call, nonce and pair of runtimes",
  "Refuted for pairs of runtimes with the same magic number (parallel/kerria 2012, heiko/vanilla 2085; C159_refuted). Proved: injectivity of the signed bytes, separation of the two families.",
  ["pallets/evm-signatures/src/lib.rs: valid_signature", "runtime/parallel/src/lib.rs: CallMagicNumber"])
p("EVM withdrawals: only the owner of an address takes its money",
  "withdraw succeeds only for the account whose first 20 bytes are the address, moves exactly the amount from the address's account to the caller and nothing else; and the owner can take out any amount up to all of it.",
  "every ledger, origin, asset, address and amount",
  "All states and amounts.",
  ["pallets/evm-signatures/src/lib.rs: withdraw, transfer"])
p("Requests to the relay chain are what was asked for, and cost exactly the fee set",
  "A staking, crowdloan or proxy request of another pallet is accepted exactly if the fee set for it is in the helper account and the message can be sent. Then exactly the fee is burnt from that account and one message is sent: it withdraws the fee, pays with it, makes the calls meant by the request in order, reports to a fresh query registered with the caller's callback and deadline, and returns what is left. Over any history the issuance of the relay token falls by exactly what the messages withdraw for fees, and no two messages report to the same query.",
  "every request, state, configuration and history, with the rest of the chain free to move money and make queries",
  "Eleven copies of the same message-building code with instructions inserted by position; sums and freshness over unbounded histories.",
  ["pallets/xcm-helper/src/lib.rs: do_ump_transact, report_outcome_notify, append_transact, do_bond .. do_nominate"])
p("Relay-chain fees and weights are never zero",
  "Whatever has been set, every request has a non-zero fee and a non-zero weight; a setting is accepted exactly if neither is zero, and changes only the entry of that request.",
  "every history of settings and requests",
  "Quantifies over all histories of governance settings.",
  ["pallets/xcm-helper/src/lib.rs: update_xcm_weight_fee", "pallets/traits/src/ump.rs: XcmWeightFeeMisc"])
p("A success report from the relay chain means that the calls succeeded",
  "If the relay chain reports that a request was carried out, then each of its calls succeeded; a failed call is reported as a failure.",
  "every relay chain (arbitrary rules, state, prices and weights), request and state",
  "Needs the semantics of the other chain's executor, for any behaviour of the calls there.",
  ["pallets/xcm-helper/src/lib.rs: report_outcome_notify", "pallets/liquid-staking/src/lib.rs: notification_received"])
p("Requests with two calls are all-or-nothing",
  "A request that stands for two calls (transfer and bond, transfer and bond more, withdraw and transfer back, fund and contribute by proxy) is carried out entirely or not at all.",
  "every relay chain, request with two calls and state",
  "Depends on failures on another chain between two instructions.",
  ["pallets/xcm-helper/src/lib.rs: append_transact, do_bond, do_bond_extra, do_withdraw_unbonded, do_proxy_contribute"])
p("The bytes of relay-chain calls are unambiguous",
  "The bytes sent for a relay-chain call are bytes that begin with the network's numbers for pallet and function and determine the call: different calls have different bytes, and the bytes of one are never the beginning of those of another, at any nesting of proxies, derivative accounts and batches.",
  "every call with arguments in the range of their types, for both networks",
  "Infinitely many nested calls; compact integers have four overlapping formats.",
  ["pallets/traits/src/ump.rs: PolkadotCall, KusamaCall and the call enums"])
p("A governance lock protects the locked money",
  "Once governance has locked an amount of an account's native money, money leaves the account's free balance only if at least the locked amount remains, until governance changes that lock.",
  "every state, account and amount, and every later history of transfers, mints, burns and locks of other pallets",
  "Quantifies over all later histories, and over accounts that do not exist yet when they are locked.",
  ["pallets/currency-adapter/src/lib.rs: force_set_lock, transfer, burn_from", "runtime/parallel/src/lib.rs: pallet_balances::Config"])
p("Lock administration changes one lock",
  "A lock can be set and removed through the adapter exactly for the native currency. Setting an amount other than zero makes it the adapter's lock of that account whatever it was before; zero changes nothing; removing takes that lock away. The locks of other pallets, of other accounts and all balances stay, and what remains frozen is the largest remaining lock.",
  "every state, currency, account and amount",
  "Any number of locks of other pallets may be present.",
  ["pallets/currency-adapter/src/lib.rs: force_set_lock, force_remove_lock"])
p("The multi-currency interface behaves as a ledger",
  "Seen through balances and issuance, every transfer between two accounts, mint and burn that succeeds and leaves no remainder below the minimum balance is the corresponding step of a simple ledger. Conversely a transfer the ledger allows succeeds if the sender's money is free and the receiver reaches the minimum balance.",
  "every state whose balances add up, every currency (native or asset), account and amount",
  "Two pallets with different rules stand behind the interface; all states of both are meant.",
  ["pallets/currency-adapter/src/lib.rs: transfer, mint_into, burn_from, balance, total_issuance"])
p("The multi-currency interface conserves money",
  "In every currency the balances add up to the issuance, for ever. A transfer between two accounts moves the amount and changes no issuance; if less than the minimum balance would remain, the remainder goes to the treasury (native) or to the receiver (assets). A mint adds exactly the amount; a burn removes exactly what it reports: the amount, or the whole balance where less than the minimum would remain.",
  "every history of transfers, mints, burns, locks and freezes of any currencies",
  "Dust arises for particular combinations of balances, amounts and minimum balances.",
  ["pallets/currency-adapter/src/lib.rs: transfer, mint_into, burn_from"])
p("What is shown as spendable can be spent",
  "A transfer between two accounts succeeds exactly if the amount does not exceed the balance shown as reducible for it (with or without keeping the account alive), and the receiver can take what is sent.",
  "every state, currency, pair of different accounts and amount above zero",
  "The reducible balance is computed from locks, reserves, references and minimum balances in a different way than the checks of a transfer.",
  ["pallets/currency-adapter/src/lib.rs: reducible_balance, transfer"])
p("Upgrades repeat no correction",
  "The storage migration that the current runtime runs at every upgrade corrects the invested amount of one crowdloan vault. Once it has done so, later upgrades change nothing, whatever contributions, refunds and redemptions took place in between; and it never touches any other vault, balance or setting.",
  "all storages, all histories of calls between two upgrades",
  "The migration is guarded only by a version that it does not raise; whether it is harmless depends on everything that happened since the last upgrade.",
  ["pallets/crowdloans/src/migrations.rs: v4::migrate", "runtime/parallel/src/lib.rs: CrowdloansMigrationV4 / Executive"])
p("Crowdloan migrations add vaults without mixing their contributions",
  "Each crowdloan migration runs only once, on the version before it; it adds its vaults, leaves all others, all contributions and all balances alone, and no two vaults ever share the child storage that holds their contributions.",
  "all storages before the migration",
  "The migrations write fixed indices; whether these are free depends on how many vaults the chain has created.",
  ["pallets/crowdloans/src/migrations.rs: v1::migrate, v2::migrate, v3::migrate"])
p("Loans migration keeps markets valid",
  "The loans migration to version 3 keeps every setting of every market and the reward speeds, runs once, and every market that satisfied the old rules satisfies the rules that add_market and update_market enforce now (in particular a liquidation threshold below 100% and not below the collateral factor).",
  "all markets and storages of version 2",
  "The rules are checked when a market is added, not by the migration; rounding and saturation of Permill arithmetic decide.",
  ["pallets/loans/src/migrations.rs: v3::migrate", "pallets/loans/src/lib.rs: add_market, update_market"])
p("Registry migration keeps assets, fee rates and payability",
  "The migration of the asset registry from XCM v2 to v3 locations keeps for each location its asset and its fee rate, for each asset its location, and whoever could pay fees in an asset can do so afterwards; if a location in use cannot be converted it stops.",
  "all reachable registries, all iteration orders and conversions",
  "The list of accepted assets is searched by bisection, so it depends on the order of locations, which differs between the two formats.",
  ["pallets/asset-registry/src/migration.rs: XcmV2ToV3AssetManager::on_runtime_upgrade", "pallets/asset-registry/src/lib.rs: payment_is_supported"])
p("Precompile addresses get their stub code once",
  "The EVM migration gives every precompile address the code that reverts on a chain where address 1 has no code, touches no other address, and does nothing when run again or where address 1 already has code.",
  "all EVM storages",
  "It must hold for whatever contracts are deployed when the upgrade comes.",
  ["runtime/common/src/evm_migration.rs: InitEvmGenesis::on_runtime_upgrade"])
p("Relay-chain requests are sent exactly when allowed", "bond, bond_extra, unbond, rebond, withdraw_unbonded and nominate of the liquid-staking pallet send exactly one request with the next query id, burn exactly the fee configured for that kind of request from the XCM helper's account and lock exactly the amount in the matching half of the pool, and they do so exactly if the derivative index is configured, the account has (or for a first bond has not) a ledger, the minimum, the cap per account, the chunk limit and the unlocked part of the pool allow it, the helper can pay and the message can be sent. An amount of 0 does nothing; a withdrawal is asked for exactly if a chunk with a non-zero amount is due.", "every configuration, state, derivative index and amount", "Boundary combinations of six conditions in arbitrary states; a test checks single values.", ["pallets/liquid-staking/src/lib.rs: do_bond, do_bond_extra, do_unbond, do_rebond, do_withdraw_unbonded, do_nominate", "pallets/xcm-helper/src/lib.rs"])
p("Fast and instant unstaking do exactly what they say", "unstake through the matching pool is accepted exactly from the minimum on, moves no token and raises the account's request by the amount minus the fee share, capped by what the account holds; cancel_unstake always succeeds and lowers only the caller's request; unstake through the lending pallet pays the value of the amount minus the fee share and minus the instant fee at once, unstake through the relay chain pays nothing yet, and both burn exactly the amount.", "every configuration, state, account, amount and provider", "Exact amounts after three roundings hold for all rates, factors and balances only by proof.", ["pallets/liquid-staking/src/lib.rs: unstake, cancel_unstake, do_loans_instant_unstake"])
p("Eras advance and requests are triggered exactly when due", "At the start of a block the era advances by the number of whole era lengths since the recorded start, which then becomes the current relay block; the requests of an era are sent in the first block at or after the configured offset in which that succeeds, never twice in an era, and if they fail the block changes nothing. A storage proof sets the era exactly if it shows the relay chain's era, and never lowers it. Ends of blocks only clear the marks of updated ledgers.", "every configuration, state, relay block and era", "Schedules of blocks, eras and failures cannot be enumerated.", ["pallets/liquid-staking/src/lib.rs: on_initialize, on_finalize, do_advance_era, set_current_era, force_advance_era, force_set_current_era, force_set_era_start_block, offset"])
p("Exchange rate and commission formula", "When an era begins the exchange rate becomes the maximum of the old one and (active bonds + to be staked - to be unstaked) / liquid issuance rounded down, and stays if there are no liquid tokens or the backing is negative. A reported staking ledger is accepted exactly if it is the relay chain's, shows more total and active stake and the same unlocking chunks, no request is open and the account was not updated in this block; it mints floor(k / (backing + reward - k)) of the issuance for the fee receiver, where k is the commission on the reward.", "every configuration, state, ledger and reward within u128", "Exact fixed-point results for all amounts; acceptance boundaries in all states.", ["pallets/liquid-staking/src/lib.rs: do_update_exchange_rate, get_inflate_liquid_amount, set_staking_ledger, force_set_staking_ledger"])
p("Only governance calls change liquid-staking settings", "The reserve factors, the cap per account and the commission rate are changed only by their four governance calls, each of which accepts exactly its documented range; no other call, block hook or response from the relay chain changes them. Reserves are paid out exactly up to what is booked.", "every configuration, state and call", "Absence of a side effect in every call and state is universal.", ["pallets/liquid-staking/src/lib.rs: update_reserve_factor, update_unstake_reserve_factor, update_staking_ledger_cap, update_commission_rate, reduce_reserves, reduce_unstake_reserves"])
p("Transferring vouchers keeps the sender's debts covered", "Whoever has debts covered by its collateral and transfers vouchers (ptokens) of one market to somebody else still has them covered afterwards, up to the rounding of a few units of the underlying; whoever is not covered can give away nothing of value. Its debts do not change.", "every configuration, reachable state, voucher id, sender, recipient and amount", "The free value is converted with three roundings and a recorded exchange rate that may be stale; it must be compared with the actual rate in every reachable state.", ["pallets/loans/src/ptoken.rs: transfer, transfer_ptokens_internal, reducible_asset", "pallets/loans/src/lib.rs: get_account_liquidity"])
p("Ordinary debts stay backed by collateral that can be seized", "Collateral of the liquidation-free class (and auxiliary tokens) is never seized, everything else can be; the class is exactly what governance set; and whoever has its ordinary debts covered by ordinary collateral keeps them so covered when it transfers vouchers.", "every configuration, reachable state, sender, recipient and amount", "Two collateral classes and their debts interact in all positions of an account.", ["pallets/loans/src/lib.rs: update_liquidation_free_collateral, liquidate_borrow, get_lf_borrowed_amount, redeem_allowed", "pallets/loans/src/ptoken.rs: transfer, reducible_asset"])
p("The voucher token interface tells the truth", "What the token interface of a voucher reports as free is all of an unpledged position, all of a pledged one if the rest covers the debts, and otherwise the free value divided by collateral factor, price and exchange rate; free vouchers and what can_withdraw admits can be transferred; a transfer moves exactly its amount, changes no other balance, no issuance, no debt and no money.", "every configuration, reachable state, voucher id, account and amount", "Agreement of reports and calls has to hold in all states.", ["pallets/loans/src/ptoken.rs: reducible_balance, can_withdraw, can_deposit, transfer, balance, total_issuance"])
p("Which XCM messages are let in", "A message from another chain is run exactly if it weighs nothing, begins with the response to a query this chain expects from that origin, is a single version subscription or its end by the relay chain or a location one step below it, or brings assets and (after at most three ClearOrigin) buys at least its whole weight. It is run as sent, except that a paid message buys exactly its weight; every other message, and every message with too many instructions (nested ones included), has no effect.", "all messages, origins, weights and chain states", "Messages are arbitrary nested lists of instructions written by other chains.", ["runtime/parallel/src/lib.rs: Barrier, ParentOrSiblings, XcmConfig", "runtime/common/src/lib.rs: AllowKnownQueryResponses"])
p("No XCM message runs unpaid", "A message from another chain that has any effect pays for its whole weight first, in an accepted asset at its registered rate.", "all messages, origins, rates and chain states", "It quantifies over all messages that pass the barrier.", ["runtime/common/src/lib.rs: AllowKnownQueryResponses", "runtime/parallel/src/lib.rs: Barrier", "pallets/traits/src/xcm.rs: FirstAssetTrader::buy_weight"])
p("In whose name XCM messages act", "Every call dispatched by a message has an origin into which the message's origin, or a location inside it, converts: a parachain acts only as its own sovereign account, as itself, or as a location inside it; only the relay chain acts as root.", "all messages, with any descents of the origin, handlers and appendices", "Messages can change their origin and run nested programs on errors.", ["runtime/parallel/src/lib.rs: XcmOriginToTransactDispatchOrigin, LocationToAccountId"])
p("Whose money an XCM message can take", "A message lowers balances only of accounts of its origin and of locations inside it (for a parachain: of its sovereign account), and native tokens of the gift account.", "all messages, assets, accounts and chain states", "Messages can withdraw, transfer, trap, claim and refund in any order.", ["runtime/parallel/src/lib.rs: LocalAssetTransactor, LocationToAccountId", "pallets/traits/src/xcm.rs: MultiCurrencyAdapter"])
p("Only its reserve brings units of an asset", "A message from another chain does not increase the number of units of an asset (issued or trapped) unless it comes from the asset's reserve chain; fees, refunds and trapped assets included.", "all messages and histories of messages, all rates, all assets", "Units move between ledger, holding register, fee trader and traps; rounding and double counting of weight matter.", ["runtime/parallel/src/lib.rs: XcmConfig", "pallets/traits/src/xcm.rs: FirstAssetTrader, MultiCurrencyAdapter", "runtime/common/src/lib.rs: AllowKnownQueryResponses"])
p("Every pallet's guarantees hold at the same time", "After any history of calls to the AMM, stableswap, farming, lending, streaming, liquid staking, crowdloans and bridge pallets, in any order and with the calls they make to each other, what each pallet sees is one of its own histories, so everything proved about one of them holds; and nothing is promised twice: of every asset, the balances of ordinary accounts, the reserves of all pools, everything owed by streams, farming pools, crowdloans and liquid staking are together at most the asset's total issuance.", "all histories of calls to all eight pallets interleaved with anything else that does not spend from their accounts", "The interference of eight pallets over one ledger has unboundedly many interleavings; tests use one pallet at a time with the others mocked", ["runtime/parallel/src/lib.rs: Config impls of all pallets", "pallets/crowdloans/src/lib.rs: redeem_and_lend_for", "pallets/liquid-staking/src/lib.rs: Loans calls", "pallets/crowdloans/src/lib.rs: Streaming calls"])
p("Nobody else pays, and no pallet spends another pallet's funds", "A call lowers a balance only of the account that signed it, of an account governance names in it as payer (receiver of first LP tokens, payer of rewards or reserves), of accounts whose pending fast-unstake requests are matched, and of the accounts of the pallets that act in it; the account in which another pallet keeps what it owes never loses anything.", "all calls in all states reachable by any history of the eight pallets", "Quantifies over all calls, accounts and histories", ["runtime/parallel/src/lib.rs: PalletId constants", "pallets/amm/src/lib.rs: create_pool", "pallets/farming/src/lib.rs: dispatch_reward", "pallets/loans/src/lib.rs: add_reserves", "pallets/liquid-staking/src/lib.rs: fast_match_unstake"])
p("Responses from the relay chain reach the pallet that asked", "Liquid staking and crowdloans never wait for the same XCM query, and a response delivered to the pallet that did not ask changes nothing.", "all histories of the two pallets and of other users of XCM queries, all responses", "Depends on every interleaving of requests of two pallets over a shared counter", ["pallets/xcm-helper/src/lib.rs: report_outcome_notify", "pallets/liquid-staking/src/lib.rs: notification_received", "pallets/crowdloans/src/lib.rs: notification_received"])
p("Only its issuer mints or burns a token", "Whatever pools and bridged tokens are registered, a call changes the issuance only of the LP tokens of its own pallet's pools (AMM, stableswap), of external tokens (bridge), of the staking, liquid and collateral currency (liquid staking), of the relay currency and derivative tokens (crowdloans); farming, lending and streaming never change any issuance. The liquid token is minted and burnt by liquid staking only, derivative tokens by crowdloans only.", "all calls in all states reachable by any history of the eight pallets", "Quantifies over all histories and all registered assets", ["pallets/amm/src/lib.rs: create_pool", "pallets/stableswap/src/lib.rs: create_pool", "pallets/bridge/src/lib.rs: register_bridge_token", "pallets/liquid-staking/src/lib.rs: stake, unstake", "pallets/crowdloans/src/lib.rs: claim, redeem"])
p("Only the owner's signature, or a listed decision, takes tokens from an account", "Whatever extrinsic of the nine pallets anybody dispatches with whatever origin, a balance of an account that is not a pallet's own falls only if that account signed the extrinsic, or governance (root, or more than half of the general council) names it as payer, or governance or an agent matches its own pending fast-unstake request, or governance or an automator redeems its expired derivative tokens to lend them for it. In particular nothing an ordinary user signs, and no unsigned extrinsic, response or minority motion, lowers anybody else's balance.", "all origins, all extrinsics, all accounts, all states reachable by any history of the pallets", "Quantifies over all origins, extrinsics and histories", ["pallets/amm/src/lib.rs: add_liquidity, remove_liquidity, create_pool", "pallets/router/src/lib.rs: swap_exact_tokens_for_tokens, swap_tokens_for_exact_tokens", "pallets/liquid-staking/src/lib.rs: ensure_origin", "pallets/crowdloans/src/lib.rs: ensure_origin!, redeem_and_lend_for", "runtime/parallel/src/lib.rs: EnsureRootOrMoreThanHalfGeneralCouncil"])
p("Terms are set by governance only", "Whatever anybody but governance dispatches, in whatever state of all pallets together, fees and existing pools of the AMM and of stableswap, status, lock, cool-down and running reward of farming pools, lending markets and reward speeds, least stream deposits, staking parameters, and tokens, chains, caps, relayers and threshold of the bridge stay as they are; vault parameters of crowdloans change only by governance, automators or responses from the relay chain.", "all extrinsics of the nine pallets, all origins, all reachable states", "Absence of a side effect of every call in every state is universal", ["runtime/parallel/src/lib.rs: EnsureRootOrMoreThanHalfGeneralCouncil", "pallets/amm/src/lib.rs: create_pool, update_protocol_fee", "pallets/farming/src/lib.rs: create, set_pool_status, reset_pool_unlock_height", "pallets/loans/src/lib.rs: add_market, update_market", "pallets/bridge/src/lib.rs: register_bridge_token"])
p("Nobody changes somebody else's position", "What an ordinary account signs changes nothing the pallets keep for another account: deposits, debts and rewards in lending, farming positions, unstaking requests, streams it has no part in, crowdloan contributions. The exceptions are liquidating the other account, sending it ptokens (which only adds to its deposit, keeps its collateral flag and its debts), and triggering that its own contribution is claimed by or paid back to it.", "all extrinsics of the nine pallets signed by any account that is neither agent nor automator, all other accounts, all reachable states", "Absence of a side effect of every call in every state is universal", ["pallets/loans/src/lib.rs", "pallets/loans/src/ptoken.rs", "pallets/farming/src/lib.rs", "pallets/streaming/src/lib.rs", "pallets/crowdloans/src/lib.rs: claim, withdraw", "pallets/liquid-staking/src/lib.rs"])
p("Who may make which extrinsic, exactly", "Every extrinsic of the nine pallets is carried out for exactly those who may make it and rejected as bad origin for everybody else: users make their own operations with their own signature and depend on no role, vote or list; anybody triggers payments of vault contributions to their owners; agents, automators, the relay chain's replies, root's vote on the bridge and the runtime's hooks are limited to their own calls; governance does the rest and nothing of the users' business except redeeming deposits.", "all extrinsics of the nine pallets, all origins, all role assignments, all states", "Quantifies over all extrinsics and origins; tests try a few wrong origins", ["runtime/parallel/src/lib.rs: EnsureRootOrMoreThanHalfGeneralCouncil, impl Config for pallets", "pallets/liquid-staking/src/lib.rs: ensure_origin", "pallets/crowdloans/src/lib.rs", "pallets/loans/src/lib.rs", "pallets/bridge/src/lib.rs: ensure_admin, materialize"])
p("Runtime: derived addresses do not clash",
  "Pallets with different ids have different accounts; different parachains have different sovereign accounts, here and on the relay chain; and the accounts of pallets, of parachains, of the relay chain and the keyless account [1; 32] are all different from each other, whatever the ids.",
  "every pair of 8-byte pallet ids and every pair of 32-bit parachain ids",
  "Ranges over 2^64 pallet ids and 2^32 parachain ids.",
  ["runtime/parallel/src/lib.rs: LocationToAccountId, OneAccount", "pallets/crowdloans/src/lib.rs: account_id, para_account_id", "pallets/amm/src/lib.rs: account_id"])
p("Runtime: the deployed configurations meet the assumptions",
  "Each of the four runtimes' configurations (accounts, currencies, fees, limits) meets everything the theorems about the pallets together assume, so those hold of the chains as deployed; and no XCM message from the relay chain or another parachain, however it is composed, takes tokens from an account in which a pallet keeps what it owes to users or makes a call signed by such an account.",
  "every runtime, every set of derivative tokens apart from the runtime's own currencies, every hash function without the listed collisions, every message and state",
  "Composition of all pallets with arbitrary messages from other chains; unit tests use mock runtimes with other ids and constants.",
  ["runtime/parallel/src/lib.rs", "runtime/heiko/src/lib.rs", "runtime/vanilla/src/lib.rs", "runtime/kerria/src/lib.rs", "primitives/src/tokens.rs", "runtime/common/src/constants.rs"])
p("Incoming cross-chain transfers arrive exactly, or are trapped",
  "A transfer message (bring assets, clear the origin, buy execution, deposit) from the reserve chain of a registered asset credits the beneficiary with exactly the amount sent minus the fee for four instructions, the treasury with the fee, and changes no other balance, trap or call log; the supply grows by exactly the amount. For tokens coming back from a sibling its account on this chain pays instead and the supply stays. The relay chain's asset brings exactly the gift due from the gift account. If the part set aside for fees is too small nothing arrives: that part is lost and the rest is trapped for the sending chain.",
  "every configuration, registry, fee rate, amount, fee limit, beneficiary, message origin and ledger",
  "The result depends on all amounts, rates and weight limits, and on saturations at the ends of their ranges.",
  ["runtime/parallel/src/lib.rs: Barrier, XcmConfig, LocalAssetTransactor", "runtime/common/src/lib.rs: AllowKnownQueryResponses", "pallets/traits/src/xcm.rs: MultiCurrencyAdapter, FirstAssetTrader, XcmFeesToAccount"])
p("Asset ERC-20 on the deployed runtimes: allowances can be given and spent",
 "On each of the four runtimes, with nothing switched off, the holder of a live asset who can pay the deposit can give a spender an allowance through the asset's contract, and the spender can use it. Once governance switches off the pallet behind a token, its contract moves nothing.",
 "every runtime, state of the emergency switch, calldata, caller and token state",
 "Refuted on every runtime: the contracts dispatch approve_transfer, cancel_approval and transfer_approved through the runtime's call filter, which lists none of them, so approve, permit and transferFrom by a spender always fail (the tests of the precompile run on a mock without a filter). Proved: no successful call with any calldata changes an allowance or nonce, transferFrom works exactly for the owner itself, transfer, mint, burn and the native token are open unless switched off, and a switched off pallet's contract changes nothing.",
 ["precompiles/utils/src/lib.rs: try_dispatch", "runtime/parallel/src/lib.rs: BaseCallFilter", "runtime/heiko/src/lib.rs: BaseCallFilter", "runtime/kerria/src/lib.rs: BaseCallFilter", "runtime/vanilla/src/lib.rs: BaseCallFilter", "precompiles/assets-erc20/src/lib.rs: approve_inner, transfer_from"])
p("Token contracts run the function that the calldata names",
 "A call to a token contract runs exactly the function whose signature's Keccak hash begins with the first four bytes of the calldata; all other calldata is a deposit for the native token and is refused by an asset's contract; no two functions share a selector, the event topics are distinct and are those of ERC-20, and the permit type hashes are those of EIP-712 and EIP-2612.",
 "every calldata, context and state",
 "All 2^32 selectors and all byte strings; hash values are computed inside the proof.",
 ["precompiles/balances-erc20/src/lib.rs: Action, execute", "precompiles/assets-erc20/src/lib.rs: Action, execute", "precompiles/balances-erc20/src/eip2612.rs: PERMIT_TYPEHASH, PERMIT_DOMAIN", "precompiles/utils/src/data.rs: read_selector"])
p("LP collateral is never overstated",
  "The price that the money market gets for an LP token of a crowdloan pool never values a position above what it stands for: the value of any number n of LP tokens is at most n/supply of what the pool's two reserves are worth at the prices of the vault token and the relay token (if the vault token is not dearer than the relay token). And what one LP token stands for never shrinks: reserves' product over the square of the supply never falls in any history of calls while the protocol fee is off, and with it on only by the LP tokens minted as that fee.",
  "every pool, oracle price, supply, amount, and every history of AMM calls by anybody",
  "Rounding of a square root and four fixed-point operations over all u128 reserves and prices; arbitrary histories.",
  ["pallets/prices/src/lib.rs: get_lp_vault_asset_price", "pallets/amm/src/lib.rs: do_add_liquidity, do_remove_liquidity, do_swap, do_mint_protocol_fee"])
p("Trading cannot make a borrower liquidatable",
  "After any number of swaps by anybody in any pools, no asset has a lower price than before (only LP tokens can have a different one, a higher one), and a borrower whose debts are in anything but LP tokens and who was not underwater before these swaps cannot be liquidated after them, in any asset, for any amount, by anyone.",
  "every reachable state, every number, size and order of swaps, every borrower and liquidation",
  "Needs the combination of AMM, price feed and money market for all trade sequences: manipulation by huge trades is exactly what tests with fixed numbers cannot exclude.",
  ["pallets/loans/src/lib.rs: ensure_liquidate, do_liquidate", "pallets/prices/src/lib.rs: get_price, get_special_asset_price, get_lp_vault_asset_price", "pallets/amm/src/lib.rs: do_swap, get_pool_by_lp_asset", "pallets/router/src/lib.rs: swap_exact_tokens_for_tokens, swap_tokens_for_exact_tokens"])
p("Ordinary users cannot move prices",
  "No extrinsic that an account without a privileged role signs changes the price the money market uses for any asset that is not an LP token (nor mapped to one): staking, unstaking, trading, lending, liquidating, contributing and bridging leave it exactly as it was.",
  "every reachable state, every signed extrinsic of the modelled pallets, every asset",
  "Every extrinsic of eight pallets with every argument, including price paths through exchange rates of staking and crowdloans.",
  ["runtime/parallel/src/lib.rs: pallet_prices::Config", "pallets/prices/src/lib.rs: get_price", "pallets/liquid-staking/src/lib.rs: get_exchange_rate", "pallets/crowdloans/src/lib.rs: get_exchange_rate", "pallets/loans/src/lib.rs: get_full_interest_rate"])
p("A dishonest minority of oracle operators cannot set prices",
  "As long as fewer than half of the oracle's operators are dishonest, every price the oracle answers lies between the smallest and the largest value that honest operators feed.",
  "every history of feeds, committee changes, blocks and times, every asset and every set of dishonest operators",
  "The guarantee is about arbitrary adversarial feeds in arbitrary order and timing; a test shows the median of one list of numbers.",
  ["runtime/parallel/src/lib.rs: orml_oracle::Config for Runtime, MinimumCount, ExpiresIn, AggregatedDataProvider", "runtime/heiko/src/lib.rs: MinimumCount", "runtime/kerria/src/lib.rs: MinimumCount", "runtime/vanilla/src/lib.rs: MinimumCount"])
p("No expired price is used",
  "A price whose last feed is older than the expiry time of the oracle (one hour) is not answered by the price feed any more, so that lending and liquidation stop instead of using it; and a price that a feed changes was fed by a current operator and has not expired.",
  "every history of the oracle, every asset, every length of time without feeds",
  "Staleness needs long histories without feeds; tests feed a price and read it at once.",
  ["runtime/parallel/src/lib.rs: ExpiresIn, AggregatedDataProvider, TimeStampedPrices", "pallets/prices/src/lib.rs: get_price", "pallets/loans/src/lib.rs: get_price"])
p("Who feeds prices, and what a feed does",
  "Only members of the oracle committee and root can feed, each once per block, whatever happens in between; a feed stores the sender's values of the named assets and makes the price of each the middle of the unexpired values of all current operators if there are enough of them, and changes no other price; nothing else that happens to the oracle changes any price.",
  "every state of the oracle, every origin, every list of assets and values (with repetitions)",
  "All lists with repetitions, committees and expiry patterns; a test uses one.",
  ["runtime/parallel/src/lib.rs: orml_oracle::Config for Runtime, pallet_membership::Config<OracleMembershipInstance>"])
p("A liquidity provider can always leave an AMM pool",
  "Whoever owns LP tokens of a pool can redeem any part of them by remove_liquidity at any time, whatever the governance has done with the protocol fee.",
  "every reachable state of the pallet, every pool, every holder and every amount she owns",
  "Depends on the protocol fee, on what a pool remembers from its last deposit, on rounding and on every other pool's reserves, over all histories.",
  ["pallets/amm/src/lib.rs: remove_liquidity, do_remove_liquidity, do_mint_protocol_fee, get_protocol_fee_reciprocal_proportion, protocol_fee_on"])
p("A liquidity provider can always leave a stableswap pool",
  "Whoever owns LP tokens of a stableswap pool can redeem any part of them by remove_liquidity at any time.",
  "every reachable state, every pool, every holder and every amount she owns, for the constants of the vanilla runtime",
  "The curve invariant is found by iteration with rounding; whether it converges depends on the exact reserves.",
  ["pallets/stableswap/src/lib.rs: remove_liquidity, do_mint_protocol_fee, delta_util", "pallets/stableswap/src/helpers.rs: compute_d, div"])
p("The recommended route can be traded at the recommended price",
  "Whoever can spend the amount can trade it along the route that get_best_route (and the router RPC) recommends, and gets exactly the recommended yield.",
  "every reachable pool graph, every iteration order of the pool map, every amount, pair and trader",
  "All pool graphs, routes and amounts, and the conditions of each hop after the earlier hops have moved the reserves.",
  ["pallets/router/src/lib.rs: get_best_route, get_all_routes, swap_exact_tokens_for_tokens, route_checks", "pallets/amm/src/lib.rs: do_swap, get_amounts_out"])
p("A depositor can always leave a farming pool",
"Whoever has stake in an unlocked farming pool can withdraw it, redeem it after the cool-down and claim all rewards earned; the withdrawal and the redemption together pay exactly the stake and everything that was cooling down.",
"every history of calls of all users and of governance, every pool, user and amount",
"FALSE in the code without a limit on rewards: each call first adds rewards * 10^12 / stake to a 128-bit index, so a pool with a tiny stake and a reward of 3.4*10^26 units (340 million tokens of 18 decimals) overflows and is frozen for everybody for ever, which no test with ordinary amounts shows; proved: with fewer units dispatched nothing can stop a user from leaving with everything.",
["pallets/farming/src/lib.rs: withdraw, redeem, claim, update_reward", "pallets/farming/src/types.rs: reward_per_share"])
p("Liquid staking: which stakes, unstakes and claims are accepted",
  "With an exchange rate of at least one, staking m tokens succeeds exactly if m reaches the minimum stake, covers the XCM fee and the reserve share, is owned by the caller, fits under the staking cap together with everything bonded, and the supply of liquid tokens stays representable. Unstaking q liquid tokens through the relay chain succeeds exactly if q reaches the minimum, is owned, the caller's list of pending withdrawals has room (fewer than 32 entries, or 32 of which the last is for the same era), and the sums are representable. A claim succeeds exactly if something is due and the pallet holds the due amount beyond its reserves and the pooled stake. There is no other reason for refusal.",
  "every reachable history of the staking pallet, every caller, every amount",
  "A unit test shows some calls pass and some fail; that no further condition can refuse an honest call in any reachable state is an equivalence over all states and inputs.",
  ["pallets/liquid-staking/src/lib.rs: stake, unstake, claim_for, do_claim_for, ensure_market_cap, get_total_unclaimed"])
p("Token contracts and gas: metering never changes a result",
  "A call to the token contract of the native currency or of an asset that succeeds with some amount of gas does exactly what it does with unlimited gas and uses exactly a fixed price: for the native token the price depends only on the function called; for assets also on whether an old allowance is replaced and whether the caller moves its own tokens. With the price or more the call succeeds, with less it runs out of gas and changes nothing; a call the contract refuses succeeds with no amount of gas, and one that fails for another reason than gas fails for the same reason with unlimited gas.",
  "every calldata, caller, state, amount of gas and price table",
  "A unit test uses a fixed gas limit; that no amount of gas can make a call take another path or stop half way is a statement over all gas limits, states and inputs.",
  ["precompiles/utils/src/lib.rs: try_dispatch, log_costs, record_log_costs_manual", "precompiles/balances-erc20/src/lib.rs: execute", "precompiles/balances-erc20/src/eip2612.rs: permit", "precompiles/assets-erc20/src/lib.rs: execute, approve_inner", "precompiles/assets-erc20/src/eip2612.rs: permit"])
p("Token contracts and gas: everything written is paid for",
  "Every successful call to a token contract pays at least for the logs it emits, for each storage entry the contract writes itself and for each call it dispatches. (False for permit: on the native token it writes a nonce and an allowance and emits a log for the price of one storage read, 1000 gas on Parallel.)",
  "every calldata, caller, state, amount of gas and price table",
  "A missing charge is invisible in functional tests; that every path charges for its effects must hold for every function and input.",
  ["precompiles/balances-erc20/src/lib.rs: approve, transfer, transfer_from, deposit, withdraw", "precompiles/balances-erc20/src/eip2612.rs: permit", "precompiles/assets-erc20/src/lib.rs: approve, transfer, transfer_from, mint, burn", "precompiles/assets-erc20/src/eip2612.rs: permit"])
p("Gifts for newcomers on the deployed chains", "On every runtime an incoming transfer earns 0.65 native tokens exactly if it is at least 300 EUSDT or EUSDC, at least 4.952 DOT (Parallel, Kerria) or 0.099904 KSM (Heiko, Vanilla), with the usual decimals; more tokens never earn less; bridge and XCM use the same rule. Over the bridge the recipient is topped up to the existential deposit plus 0.65, if the gift account holds 0.65, and nobody else's native balance changes.", "all chains, assets, amounts, decimals, balances of recipient and gift account", "All amounts around each threshold on four runtimes, and all decimals that governance may register.", ["runtime/parallel/src/lib.rs: GiftConvert", "runtime/heiko/src/lib.rs: GiftConvert", "runtime/vanilla/src/lib.rs: GiftConvert", "runtime/kerria/src/lib.rs: GiftConvert", "pallets/bridge/src/lib.rs: materialize"])
p("Bridge proposals expire after about 30 days", "A bridge proposal on which no further vote is cast is gone 31 days after its first vote, as the runtimes document for ProposalLifetime.", "all chains, states, proposals and numbers of blocks", "Refuted: the constant is 2592000 blocks, which is 360 days at 12 seconds per block on Parallel and Heiko (C216_refuted). Proved: the exact number of blocks on every runtime.", ["runtime/parallel/src/lib.rs: ProposalLifetime", "runtime/heiko/src/lib.rs: ProposalLifetime", "runtime/common/src/constants.rs: MILLISECS_PER_BLOCK", "pallets/bridge/src/lib.rs: materialize, on_initialize"])
p("The terms of the deployed chains", "On each runtime: smallest stake, unstake and crowdloan contribution; the part of a stake kept for messages; the number of eras until unstaked tokens are due; the relay blocks at which lease periods begin, and the reported progress and length of a lease; which chains stream crowdloan bonuses; which chain id cannot be registered on the bridge; and the three currencies, all in tokens, days and eras.", "all runtimes, states, amounts and leases", "Constants of four runtimes that interact with every call; a test sees one runtime and a few amounts.", ["runtime/parallel/src/lib.rs", "runtime/heiko/src/lib.rs", "runtime/vanilla/src/lib.rs", "runtime/kerria/src/lib.rs", "pallets/liquid-staking/src/lib.rs: stake, unstake", "pallets/crowdloans/src/lib.rs: contribute, get_vault_term_rate, claim"])
p("What the liquid currency is worth", "On each runtime the lending pallet values sDOT or sKSM at the oracle price of DOT or KSM times the current exchange rate of liquid staking, rounded down, and the auxiliary collateral currency at exactly the price of DOT or KSM; with equal decimals and a rate of at least 1 the liquid currency is never worth less than the relay currency nor more than the rate times as much.", "all runtimes, states, oracle prices, exchange rates and decimals up to 18", "All prices and rates, through four providers wired together by the runtime.", ["runtime/parallel/src/lib.rs: pallet_prices::Config", "pallets/prices/src/lib.rs: get_price, get_staking_asset_price", "pallets/liquid-staking/src/lib.rs: ExchangeRateProvider"])
p("Redeeming and lending for a user", "Redeeming an expired crowdloan and lending the proceeds for a user in one transaction is possible only for an account that has sent a transaction before and a vault that has expired; it takes exactly the amount of derivative tokens from the user, puts exactly that amount of relay tokens into the lending pool, and gives the user exactly the ptokens a supply of that amount earns; no other balance, deposit or debt changes.", "every reachable state of the whole runtime, user, vault and amount", "Two pallets in one transaction, over all their states; a failure of the second must undo the first.", ["pallets/crowdloans/src/lib.rs: redeem_and_lend_for", "pallets/loans/src/lib.rs: do_mint"])
p("Fees are proportional to weight and never below the price of the base weight",
"The weight fee is 0.12 tokens per base extrinsic weight, exact to half a unit plus one part in 10^9 of the weight; it grows with the weight and no weight is free. A paying transaction costs at least 0.12 tokens (to one unit) plus 0.00001 tokens per byte plus its tip, and more length, weight, congestion or tip never makes it cheaper. Storage deposits are 0.15 tokens per item and 0.06 per byte and do not overflow.",
"every base weight, weight, length, multiplier and tip",
"Rounding of the polynomial over all 64-bit weights; saturation at the extremes.",
["runtime/common/src/constants.rs: WeightToFee, deposit", "runtime/parallel/src/lib.rs: TransactionByteFee, pallet_transaction_payment::Config"])
p("The first block gives out the allocations and records their sum",
"The genesis of each chain adds up allocations to the same account, is refused exactly if the total overflows or somebody would be below the existential deposit, gives every account what the list gives it, and records the sum of all balances as the total issuance.",
"every chain and every list of allocations",
"Refuted for vanilla: the EVM section gives Alice's mapped account 2^128 - 1 units on top, the issuance saturates and is smaller than the sum of the balances from block zero on. True for the three other chains.",
["node/parallel/src/chain_spec/mod.rs: accumulate", "node/parallel/src/chain_spec/vanilla.rs: vanilla_genesis", "node/parallel/src/chain_spec/parallel.rs: parallel_genesis"])
p("Every precompile has code, so that contracts can call it",
"The genesis puts code that reverts under every address that the precompile set answers for, so that Solidity's check for code passes when a contract calls it.",
"every chain, list of allocations, registered asset and address",
"Refuted: only the fourteen fixed addresses get code; the token contracts of assets, which are precompiles as soon as the asset exists, have none (neither from the genesis nor from the migration).",
["node/parallel/src/chain_spec/heiko.rs: heiko_genesis", "runtime/common/src/precompiles.rs: used_addresses, is_precompile"])
p("Who is paid by a transaction", "If a transaction signed by a user (neither a liquid staking agent nor a crowdloans automator) raises a balance of an account that is not a pallet's own, that account is the signer, the receiver of the exchanges' protocol fee (when liquidity is added or removed), the contributor whose due from a crowdloan vault is paid out, the recipient of a stream that the signer opened and now cancels, or the recipient of a bridged transfer on which the signer, a relayer, votes.", "all configurations, states, users, extrinsics of the nine pallets and the router, accounts and assets", "tests look at the balances of the two or three accounts of a scenario; the statement is about all accounts, all assets and all extrinsics over the shared ledger", ["pallets/*/src/lib.rs (every extrinsic that takes a signed origin)", "pallets/router/src/lib.rs"])
p("Limited proxies: nobody else gets the owner's tokens", "Whatever a proxy of a type that stands for one pallet (loans, staking, crowdloans, farming, streaming, AMM) does in the name of its owner, no other user's balance rises (but the protocol fee receiver's, and a contributor's own due), and no other account is promised the owner's tokens by a stream.", "all runtimes, proxy types, states, extrinsics that the type lists, owners and other accounts", "the proxy filter and the pallets are tested apart; that the listed calls of all five pallets cannot credit a third account is a statement about every state of every pallet", ["runtime/parallel/src/lib.rs (InstanceFilter for ProxyType)", "runtime/heiko/src/lib.rs", "runtime/kerria/src/lib.rs", "runtime/vanilla/src/lib.rs", "pallets/streaming/src/lib.rs (create)"])
p("A vote counts on its own side", "A relayer's vote against a transfer never pays it out and moves no tokens; a vote for a transfer never rejects it.", "all configurations, reachable states, committees, proposals and votes", "Whether the deciding vote has the right side depends on the history of votes and committee changes between the first vote and this one; tests vote with a fixed committee.", ["pallets/bridge/src/types.rs: Proposal::try_to_complete", "pallets/bridge/src/lib.rs: materialize, resolve_proposal, change_vote_threshold"])
p("No transaction an ordinary account signs makes the runtime panic",
  "Whatever account (other than the pallets' own keyless accounts) signs whatever transaction of the AMM, the router, farming, lending, streaming, liquid staking, crowdloans or the bridge, in whatever state the chain can reach, the runtime either executes it or returns an error; it does not panic. The numbers of the chain are assumed in range: exchange fee between 0 and 1, liquidation incentives at least 1, a non-zero collateral factor for the collateral of instant unstaking, counters and block numbers not at the end of their type, one account's pending claims representable, the value of a loan addable to what may be borrowed liquidation-free; and relayers do not vote about nonce 0 or the last nonce. For stableswap pools the property is false: adding to or withdrawing from a pool whose curve invariant is not found panics.",
  "all reachable states of the whole system, all signers, all transactions with all arguments",
  "panics hide in unchecked arithmetic, unwraps and divisions that only particular values reach; a test shows that its own values do not panic",
  ["pallets/amm/src/lib.rs", "pallets/router/src/lib.rs", "pallets/farming/src/lib.rs", "pallets/loans/src/lib.rs", "pallets/streaming/src/lib.rs", "pallets/liquid-staking/src/lib.rs", "pallets/crowdloans/src/lib.rs", "pallets/bridge/src/lib.rs", "pallets/stableswap/src/lib.rs"])
p("The hooks of a block never panic",
  "In every state whatsoever the hooks that run at the beginning and the end of a block - liquid staking's matching, requests to the relay chain, advancement of eras and update of the exchange rate, its cleanup, and the bridge's removal of expired proposals - come to an end without a panic, including in the parts that are rolled back when they fail. A block can always be begun and ended.",
  "all configurations and all states, reachable or not",
  "a panic in a hook stops the chain for good; tests run the hooks in the few states they build",
  ["pallets/liquid-staking/src/lib.rs on_initialize, on_finalize, do_matching, do_advance_era, do_update_exchange_rate", "pallets/liquid-staking/src/distribution.rs", "pallets/bridge/src/lib.rs on_initialize"])
p("The answer of the relay chain can always be processed",
  "An answer of the relay chain to a request of the crowdloan pallet never panics. An answer to a request of liquid staking does not panic if it reports a failure, if the request is unknown, or if what is unbonded is at most the active stake noted for the derivative account (and sums are representable). Without that condition the property is false: two unbonding requests under way at the same time are both computed from the same noted stake, may exceed it together, and the answer to the second one panics although the relay chain reports success.",
  "all reachable states, all answers to all requests",
  "it depends on how several eras, unstakes and answers interleave; tests answer every request before the next one is made",
  ["pallets/liquid-staking/src/lib.rs notification_received, do_notification_received, do_matching", "pallets/liquid-staking/src/types.rs StakingLedger::unbond", "pallets/crowdloans/src/lib.rs notification_received"])
p("The queries of the lending pallet tell what a transaction will find",
  "The status of a market shown by the query (total borrows, reserves, borrow index, exchange rate) is exactly what the next transaction in that market works with, and where it can be shown transactions can accrue; whoever can borrow has been shown enough liquidity; whoever is liquidated has been shown a shortfall. The last two hold if the interest of the markets concerned was accrued in this block, the first if interest was ever accrued in the market; without these conditions each of the three is false.",
  "all reachable states, all markets, accounts and amounts",
  "queries and transactions are different code paths over time-dependent state; agreement in a test says nothing about a market nobody has touched for a while",
  ["pallets/loans/rpc/runtime-api/src/lib.rs", "runtime/parallel/src/lib.rs LoansApi", "pallets/loans/src/interest.rs get_market_status, accrue_interest", "pallets/loans/src/lib.rs get_account_liquidity, get_account_liquidation_threshold_liquidity, borrow, liquidate_borrow"])
p("All interest due counts when somebody borrows",
  "After a loan the collateral of the account covers its debts, counted with all interest due at that moment. True up to one unit of rounding if the other active markets were accrued in the same block; in general what is not covered is at most the interest that was due but not accrued. As stated it is false: interest on debts in other markets only counts once somebody has used those markets.",
  "all reachable states, all loans of ordinary assets",
  "the error grows with the time since the last transaction in another market",
  ["pallets/loans/src/lib.rs do_borrow, borrow_allowed, ensure_liquidity, current_borrow_balance", "pallets/loans/src/interest.rs accrue_interest"])
p("The events of the AMM tell what happened",
  "Every accepted transaction of the AMM deposits an event; who starts with an empty page and takes down the events in order knows at every moment the pool token and both reserves of every pool, whatever the history; and per event the caller has paid and received exactly the announced amounts of every asset, except that the number of pool tokens minted is not announced.",
  "all histories of the AMM pallet, all pools, accounts and assets",
  "the statement is about every prefix of every history, including failed transactions and transfers outside the pallet",
  ["pallets/amm/src/lib.rs Event, add_liquidity, remove_liquidity, create_pool, do_swap, update_protocol_fee, update_protocol_fee_receiver"])
p("The events of the lending pallet tell what happened",
  "Assets move between the lending pallet and ordinary accounts exactly as the events of the call announce; a loan, a repayment and a liquidation are announced with the amount by which the debt changed (after adding interest); and nobody's assets, deposits or debts change unless an event of the call names them. The last part is false for transfers of ptokens, which deposit no event at all, and true for all other calls.",
  "all reachable states, all calls of the lending pallet and transfers of ptokens, all accounts and assets",
  "an account changed without an event is found only by looking at all accounts after every possible call",
  ["pallets/loans/src/lib.rs Event, mint, redeem, redeem_all, borrow, repay_borrow, repay_borrow_all, liquidate_borrow, add_reserves, reduce_reserves, reduce_incentive_reserves", "pallets/loans/src/farming.rs pay_reward", "pallets/loans/src/ptoken.rs transfer"])
p("Nobody else can reduce the reward one has earned",
  "What somebody else signs never reduces what an account could claim right before: in rewards for deposits never; in rewards for deposits and debts together not unless it is the account itself that is liquidated, provided the interest of all markets was accrued in this block. As stated it is false: a liquidation settles the borrow reward of the liquidator, not of the account whose debt it reduces, which loses what it had earned on the repaid part.",
  "all reachable states, all calls signed by others, all accounts but the pallet's incentive account, all sets of markets",
  "a forgotten settlement before a balance change shows only for the account that was not looked at, and only if blocks have passed",
  ["pallets/loans/src/lib.rs liquidated_transfer, do_mint, do_borrow, do_repay_borrow_with_amount, do_redeem_voucher", "pallets/loans/src/farming.rs distribute_borrower_reward, distribute_supplier_reward", "pallets/loans/src/ptoken.rs do_transfer_ptokens"])
p("Bridged tokens are backed across chains",
  "On a network of chains that run the bridge pallet, in every history in which fewer relayers than the vote threshold of each chain are dishonest, honest relayers approve only transfers that the other chain announced, and no chain is taken off the list: (1) every payout was announced by the chain it names, with the same recipient and amount, and is made once; (2) over all chains no more is paid out than was announced; (3) the units of a token that exist away from its home chain, together with everything on its way between any two chains, never exceed what the bridge account holds on the home chain; (4) hence an announced transfer home that was not yet paid can always be paid from the bridge account.",
  "every number of chains, every order of the steps of the chains, every set of dishonest relayers below the threshold and whatever they vote, every change of fees, caps, status and committee, every movement of tokens elsewhere",
  "the property is about several chains at once, and about all interleavings and all behaviours of the dishonest relayers; the unit tests run one chain with cooperating relayers",
  ["pallets/bridge/src/lib.rs: teleport, materialize, execute_materialize, teleport_internal, update_bridge_registry", "pallets/bridge/src/types.rs: Proposal::try_to_complete"])
p("Debts and the recorded total of a lending market",
"In every lending market the amount recorded as lent and what the borrowers owe together agree up to rounding, in both directions and over whole histories of calls, liquidations and interest. What any group of borrowers owes exceeds the recorded total by at most one unit for every moment the clock moved plus one for every year, times the growth of the market's index; the total exceeds the debts before rounding by at most one unit per call plus a 10^18-th part of the largest total per call, per clock movement and per year, times the same growth. (That debts never exceed the total at all is false: interest on a small total is rounded down to nothing at each accrual while the debt keeps growing.)",
"all configurations, all histories of calls by any accounts with time passing arbitrarily in between, all markets, all finite groups of borrowers",
"The rounding errors of interest on the total, of the index and of every debt accumulate over arbitrarily long histories and over arbitrarily many borrowers; whether they stay within a bound that does not depend on the amounts cannot be seen from examples.",
["pallets/loans/src/interest.rs: accrue_interest, get_market_status, accrued_interest, increment_index", "pallets/loans/src/lib.rs: current_borrow_balance, do_borrow, do_repay_borrow_with_amount, liquidated_transfer"])
p("Borrow rewards and the emission",
"The rewards credited to the borrowers of a market, plus those they could still have credited, stay within the emission configured for borrowers (speed times the blocks it was in force) up to a factor that only depends on rounding: L / ((L - e)(1 - X/10^36) - 1), where L is the least positive total ever lent in units of the market's first day, X the largest borrow index and e one unit for every moment the clock moved and every year. This holds for every history of calls, including liquidations and changes of the speed. (That the emission is never exceeded at all is false: the index is computed from the recorded total, the rewards from the debts, and debts may exceed the total.)",
"all configurations, all histories of calls by any accounts with blocks and time passing arbitrarily in between, all markets, all finite groups of borrowers",
"Over-payment would come from rounding that accumulates over a whole history of accruals, borrowings, repayments and liquidations of many accounts; tests with one or two borrowers and large amounts show none.",
["pallets/loans/src/farming.rs: update_reward_borrow_index, distribute_borrower_reward, collect_market_reward", "pallets/loans/src/lib.rs: update_market_reward_speed, do_borrow, do_repay_borrow_with_amount, liquidated_transfer"])
p("The events of liquid staking tell what happened",
"(1) Whoever reads all events of liquid staking from the start knows the exchange rate, the commission and the other settings that have an event, the era, and the staking ledgers of all derivative accounts, without looking at storage. (2) Every call announces exactly the requests it sends to the relay chain, in order. (3) The amounts in the events are the amounts that moved: what an account pays or receives is what the events of the call say about it, claims announce exactly what was due, and the matching pool changes exactly as announced.",
"all configurations, all states, all calls, all histories of calls and events; for amounts, all accounts that are not accounts of the pallet",
"Indexers rely on events over whole histories, while tests look at single events after single calls; an update without event, or an event with an amount computed differently, shows only in some interleaving of calls.",
["pallets/liquid-staking/src/lib.rs: Event, stake, unstake, cancel_unstake, claim_for, fast_match_unstake, do_bond, do_matching, do_advance_era, do_update_exchange_rate, force_set_current_era, notification_received"])
p("The events of crowdloans tell what happened",
"(1) Whoever reads all events of the crowdloans pallet knows, without looking at storage, every vault's phase, cap, end block, strategy, derivative token and index, the current vault of each parachain, the derivative token of each lease, the proxy account, the bonuses and whether contributions are stopped. (2) Every call announces exactly the requests it sends to the relay chain, in order. (3) Every event is true: amounts announced are exactly what was contributed, claimed, withdrawn, redeemed or refunded, 'all migrated' and 'all refunded' are announced exactly if nothing is left, the phase named is the vault's. (4) Every call deposits an event, and everybody whose tokens move is named in one.",
"all configurations, all calls in all reachable states, all histories of calls and events with anything else happening in between",
"Front ends and indexers rely on events over whole histories of many vaults and contributors; tests look at single events after single calls.",
["pallets/crowdloans/src/lib.rs: Event, create_vault, update_vault, contribute, migrate_pending, refund, refund_for, dissolve_vault, do_contribute, do_withdraw, do_claim_for, do_withdraw_for, do_redeem, do_notification_received"])
p("The events of stable swap tell what happened", "Every accepted transaction of the stable-swap pallet deposits an event; who starts with an empty page and takes down the events in order knows at every moment the pool token and both reserves of every pool, whatever the history; per event the caller has paid and received exactly the announced amounts of every asset, except that the number of pool tokens minted is not announced; and a pool comes into being only with an event that says so.", "all histories of the stable-swap pallet, all pools, accounts and assets", "the statement is about every prefix of every history, including failed transactions and transfers outside the pallet", ["pallets/stableswap/src/lib.rs Event, add_liquidity, remove_liquidity, create_pool, do_swap"])
p("The events of farming tell what happened", "Every accepted transaction of farming deposits exactly one event, about its own pool. Whoever reads all events from the start knows which pools there are, whether they take deposits, until when they are locked, how much is staked in each and by whom. Balances of users change exactly as the events say (a withdrawal is paid out at once if the pool has no cool-down, and otherwise sets the stake cooling); a claim pays all that was claimable and announces it; a redemption announces the sum of the items that are due, and removes exactly these. Pools and positions that no event mentions do not change. Not announced, and not to be inferred: the cool-down of a new pool, the payer of a dispatched reward and the number of blocks it is spread over.", "all histories of the farming pallet, all pools, accounts and assets", "the statement is about every prefix of every history, including failed transactions and transfers outside the pallet", ["pallets/farming/src/lib.rs Event, create, set_pool_status, set_pool_cool_down_duration, reset_pool_unlock_height, deposit, withdraw, redeem, claim, dispatch_reward"])
p("The events of streaming tell what happened", "Every accepted transaction of streaming deposits exactly one event. Whoever knows the minimum deposits at the start and reads all events knows of every stored stream its parties, asset, deposit, schedule, what remains in it, whether it is over and whether it can be cancelled; knows that every stream noted as running is stored, how many streams there have been, and the minimum deposits. Balances of everybody but the pallet change exactly as the events say. A withdrawal announced is at most what was left; a cancellation names both parties and divides all that was left, the recipient having in the end exactly what had vested. Streams an event does not name are unchanged, or were already over and are dropped from storage.", "all histories of the streaming pallet, all streams, accounts and assets", "the statement is about every prefix of every history, including the silent archiving of finished streams by calls about other streams", ["pallets/streaming/src/lib.rs Event, create, cancel, withdraw, set_minimum_deposit, do_create, update_finished_stream_library"])
p("The events of the bridge tell what happened", "Every accepted transaction of the bridge deposits an event. Whoever reads all events from the start knows, without looking at storage, the registered chains and the counter of each, the registered tokens with asset, fee, switch, caps and accumulated amounts, the vote threshold, which transfers of each registered chain are already decided, and of every stored proposal who voted which way and whether it is open, approved or rejected. Balances of everybody but the bridge and the gift account change exactly as the events say, except for gifts of the native asset to the recipient of an announced payout. An approval or rejection is announced only of a transfer that was undecided before and is decided after; a vote announced is recorded; a payout announced belongs to an approved proposal; the fee announced is the token's. The expiry of a proposal is not announced.", "all histories of the bridge pallet with blocks, membership changes and transfers outside, all chains, tokens, accounts and assets", "the statement is about every prefix of every history; votes, re-opened proposals, several proposals under one nonce and registry intervals interact", ["pallets/bridge/src/lib.rs Event, every deposit_event, materialize, resolve_proposal, execute_materialize, cancel_materialize, change_vote_threshold", "pallets/bridge/src/types.rs"])
p("The events of the router tell what happened",
"The event of an accepted router trade is true: the announced input is what the trader has paid of the first asset of the announced route, the announced output is what they have received of the last, and no other balance of anybody but the pool account has changed. The events of the pools in between form a chain from the one to the other, and keep every reader's notes of the pools right. Deposit of events changes neither acceptance nor state.",
"for all reachable pool states, traders, routes of any length and amounts, both extrinsics",
"Tests check the event of a single trade with round numbers; exact-out trades round differently in each hop, and routes can be of any length.",
["pallets/router/src/lib.rs: swap_exact_tokens_for_tokens, swap_tokens_for_exact_tokens, Event::Traded", "pallets/amm/src/lib.rs: do_swap, Event::Traded"])
p("The events of the asset registry tell what happened",
"Every accepted call of the asset registry deposits exactly one event, and what it says is the case: an asset announced as registered had no type before and is linked with the announced type both ways after; a fee rate announced is set and the type is accepted for fees; an asset announced to have a new type has it; after the announced deregistration of an asset and its type nothing is stored about either; a type announced as no longer accepted is not accepted. Whoever has read all events knows the type of every asset, the asset of every type, every fee rate and which types are accepted for fees. Deposit of events changes neither acceptance nor state.",
"for all histories of calls by any origins, of any length, asset ids and asset types",
"Each unit test checks one event after one call; the claim is about what can be rebuilt from the events of histories of any length, including ones where assets share a type.",
["pallets/asset-registry/src/lib.rs: Event, register_asset, update_asset_units_per_second, update_asset_type, remove_fee_payment_asset, deregister_asset"])
p("The events of the price feed tell which emergency prices are set",
"In every state that any history leads to, the emergency price of every asset is the one announced by the last event about the asset: the price of SetPrice, or none after ResetPrice or without any event. Hence, while the last event about an asset announces a price, every reader of the price feed is answered that price, scaled by the asset's decimals. Deposit of events changes nothing.",
"for all histories of calls interleaved with arbitrary changes of oracle, decimals, exchange rates and pools, and all assets",
"Tests set one price and read it back; the claim is about the last of arbitrarily many events in histories of any length.",
["pallets/prices/src/lib.rs: Event, set_price, reset_price, set_emergency_price, reset_emergency_price, get_price"])
p("The events of the emergency switch tell what is switched off",
"Every accepted call of the emergency switch announces the new position of the switch it has turned, which was in the other position before, and no other switch moves. Whoever has read all events knows which pallets and which calls are switched off.",
"for all histories of toggles by root or the council, interleaved with anything that leaves the switches alone",
"Tests toggle one pallet; whether events determine the switches is a statement about pairs of histories.",
["pallets/emergency-shutdown/src/lib.rs: Event, toggle_pallet, toggle_call"])
p("The event of the cross-chain helper tells which fee is in force",
"Every accepted change of a fee setting announces the setting that is in force afterwards for the kind of request it is about, and leaves all other settings as they were. Whoever has read all events knows the setting of every kind of request.",
"for all histories of settings, requests, payments of fees and activity of the rest of the chain, and all kinds of request",
"Tests set one fee; whether events determine the settings is a statement about pairs of histories.",
["pallets/xcm-helper/src/lib.rs: Event::XcmWeightFeeUpdated, update_xcm_weight_fee"])
p("The event of a call with an Ethereum signature tells what became of it", "Every accepted call with an Ethereum signature is announced exactly once, naming the account whose key signed it and whose current nonce it used. If the event says that the signed call failed, only the fee and the nonce have been taken; if it says that it succeeded, every transfer the signed call asks for, directly or as an item of a batch, has been made in the name of the signer.", "for all states, signed calls of any nesting, signers, signatures and nonces", "Tests sign one simple call; what the announced result means for calls nested to any depth is a statement about all calls.", ["pallets/evm-signatures/src/lib.rs: Event::Executed, call"])
p("The reward events of the lending pallet determine what everybody can claim", "After any history, what an account can claim is the sum of the rewards announced as settled for it (DistributedSupplierReward, DistributedBorrowerReward) less the sum announced as paid to it (RewardPaid); so nobody is ever paid more than was announced as settled, and each single call changes what is claimable by exactly what its events say.", "for all histories of calls by all accounts, time, prices and other activity, and all accounts", "Tests check single payments; that no call changes what is claimable without an event is a statement about all calls and histories.", ["pallets/loans/src/farming.rs: distribute_supplier_reward, distribute_borrower_reward, pay_reward", "pallets/loans/src/lib.rs: Event::DistributedSupplierReward, Event::DistributedBorrowerReward, Event::RewardPaid"])
p("The reward pot of the lending pallet holds what its events say", "As long as no call is made by or for the account of the reward pot and nobody else can spend from it, the pot holds exactly what was announced as added (RewardAdded) less what was announced as withdrawn and paid (RewardWithdrawn, RewardPaid), plus what others sent to it directly; so no more is ever paid out than was put in. No other call of the pallet (deposits, loans, liquidations, reserves) touches the pot.", "for all histories of calls by all accounts and other activity", "Tests check single payments from a funded pot; the balance sheet holds over all histories and all other calls.", ["pallets/loans/src/lib.rs: add_reward, withdraw_missing_reward, Event::RewardAdded, Event::RewardWithdrawn", "pallets/loans/src/farming.rs: pay_reward, reward_account_id"])
p("Looking up pools finds the right one, whatever the order of the storage",
"Two different pools of the AMM never have the same pool token. So get_pool_by_lp_asset finds for a token the pool that has it, with the two assets it is a pool of, and nothing exactly if there is no such pool: the answer does not depend on the order in which the storage is iterated. get_pool_by_asset_pair finds the pool of the two assets whichever is named first, and nothing for an asset with itself. get_pools lists every pool once, never a pair of assets in both orders. Whatever happens later, a pool stays the pool of its token and of its two assets.",
"for all states any history of calls and other activity leads to, all tokens and assets, and all orders of iteration",
"The first match of an iteration over hashed keys is only well defined because no second match exists; this is an invariant of all histories, and a test with one or two pools sees one order.",
["pallets/amm/src/lib.rs: get_pools, get_pool_by_lp_asset, get_pool_by_asset_pair, sort_assets, create_pool"])
p("The parameters shown of a market, and what they promise",
"get_market_info answers exactly for the markets with a jump rate model, with the factors last set; only the calls of the update origin that set parameters of the market change what it shows. Whatever happened before, no status of a market shows a borrow rate above the full rate shown, nor a full rate above 50% a year, nor a supply rate above the borrow rate, nor a utilization above one. The interest a status adds to the loans is at most the interest at the full rate for the time since the last accrual, and the reserves get no more of it than the reserve factor says.",
"for all states any history of calls and other activity leads to, all markets, all moments",
"The bound of the shown rate needs that every model that was ever accepted is bounded, for every utilization; tests look at a few rates.",
["pallets/loans/src/lib.rs: LoansMarketDataProvider::get_market_info, get_full_interest_rate", "pallets/loans/src/interest.rs: get_market_status, accrued_interest", "pallets/loans/src/rate_model.rs: JumpModel"])
with open('/verif/properties.jsonl','w') as f:
    for x in P: f.write(json.dumps(x)+"\n")
print(len(P))
