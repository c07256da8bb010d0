{"id": "C01", "title": "AMM swap never decreases the constant product", "statement": "A successful AMM swap leaves the product of the pool's two recorded reserves at least as large as before, and the product strictly grows by at least the fee: (reserve_in + amount_in - fee) * (reserve_out - amount_out) >= reserve_in * reserve_out.", "quantifier": "every pool state, every trade direction, every amount_in, every LP fee in [0,100%]", "why_tests_cant": "Rounding of the fee (ceil) and of the output (floor) depends on the exact residues of u128 values; a test samples a handful of triples.", "anchors": ["pallets/amm/src/lib.rs: do_swap, get_amount_out"]}
{"id": "C02", "title": "AMM reserves are always backed by real tokens", "statement": "After any history of create_pool, add_liquidity, remove_liquidity, swaps, fee changes and outside transfers by other accounts, for every asset the AMM account holds at least the sum of the reserves that all pools record for this asset.", "quantifier": "every finite sequence of calls by any accounts over any number of pools, from the empty state", "why_tests_cant": "An invariant over unbounded histories and all pools sharing an asset; tests run a few calls.", "anchors": ["pallets/amm/src/lib.rs: create_pool, add_liquidity, remove_liquidity, do_swap, do_add_liquidity, do_remove_liquidity"]}
{"id": "C03", "title": "AMM trade pays exactly the quoted amount", "statement": "A successful swap takes exactly amount_in of the input asset from the trader, gives exactly the amount quoted by get_amounts_out on the pre-trade pool, moves the pool reserves by exactly the same amounts, and changes no other account's balance and no other pool.", "quantifier": "every state, trader, asset pair and amount", "why_tests_cant": "Frame conditions quantify over all other accounts, assets and pools.", "anchors": ["pallets/amm/src/lib.rs: do_swap, get_amounts_out"]}
{"id": "C04", "title": "AMM output is always strictly less than the reserve", "statement": "get_amount_out is strictly smaller than the output reserve whenever that reserve is positive and the input reserve is positive, so no swap can drain a pool; and it is monotone in amount_in.", "quantifier": "every amount_in, reserve_in > 0, reserve_out > 0", "why_tests_cant": "Universally quantified arithmetic over u128.", "anchors": ["pallets/amm/src/lib.rs: get_amount_out"]}
{"id": "C05", "title": "Quoted input suffices for the requested output", "statement": "If get_amount_in(amount_out) succeeds with x then selling x on the same pool yields at least amount_out (the code comment's claim 'to make sure it greater than expected amount_out').", "quantifier": "every amount_out, reserves and LP fee below 100%", "why_tests_cant": "The +1 has to dominate three different roundings for every residue.", "anchors": ["pallets/amm/src/lib.rs: get_amount_in, get_amount_out"]}
{"id": "C06", "title": "AMM round trip is never profitable", "statement": "Selling x of A for y of B and immediately selling y back returns at most x of A.", "quantifier": "every pool, amount and fee", "why_tests_cant": "Exact rounding for all u128 inputs.", "anchors": ["pallets/amm/src/lib.rs: do_swap, get_amount_out"]}
{"id": "C07", "title": "Adding liquidity does not dilute existing LPs", "statement": "With the protocol fee not minting, add_liquidity never lowers the per-LP-token backing of either reserve (base/total_supply and quote/total_supply), takes at most the desired amounts and at least the minimum amounts.", "quantifier": "every existing pool with positive supply, every desired and minimum amounts", "why_tests_cant": "Floor divisions against arbitrary reserves.", "anchors": ["pallets/amm/src/lib.rs: add_liquidity, get_ideal_amounts, do_add_liquidity"]}
{"id": "C08", "title": "Removing liquidity pays at most the pro-rata share", "statement": "remove_liquidity burns exactly the given LP amount from the caller and pays floor(liquidity*reserve/total_supply) of each side, hence never more than the pro-rata share, and never lowers the per-LP-token backing of the remaining holders.", "quantifier": "every pool state and liquidity amount", "why_tests_cant": "Floor rounding for all inputs.", "anchors": ["pallets/amm/src/lib.rs: remove_liquidity, calculate_reserves_to_remove, do_remove_liquidity"]}
{"id": "C09", "title": "Add-then-remove liquidity is never profitable in the AMM", "statement": "With protocol fees off, adding liquidity and then removing the LP tokens just received returns at most what was put in, for each of the two assets.", "quantifier": "every pool with positive supply and reserves, every desired amounts", "why_tests_cant": "Exact rounding for all inputs.", "anchors": ["pallets/amm/src/lib.rs: add_liquidity, remove_liquidity"]}
{"id": "C10", "title": "Locked minimum liquidity", "statement": "In every reachable state of the AMM each pool's LP token supply is at least MinimumLiquidity, and the lock account's LP balance never decreases.", "quantifier": "every history in which the lock account signs no call", "why_tests_cant": "Invariant over unbounded histories.", "anchors": ["pallets/amm/src/lib.rs: do_add_liquidity, do_remove_liquidity"]}
{"id": "C11", "title": "Protocol fee is taken only from growth", "statement": "The LP tokens minted to the protocol fee receiver before add/remove_liquidity represent only a share of the growth of sqrt(k) since the last liquidity event.", "quantifier": "every pool and protocol fee setting", "why_tests_cant": "Depends on the history of fee toggling; FALSE in the code when the fee is switched on for an existing pool (k_last = 0), see DESIGN.md; proved when k_last is recorded.", "anchors": ["pallets/amm/src/lib.rs: do_mint_protocol_fee, protocol_fee_on, update_protocol_fee"]}
{"id": "C12", "title": "Pair order is irrelevant", "statement": "add_liquidity, remove_liquidity and create_pool called with (a,b,(x,y)) and with (b,a,(y,x)) have exactly the same effect; calls with a = b are rejected.", "quantifier": "all states, pairs and amounts", "why_tests_cant": "Equality of functions on all inputs.", "anchors": ["pallets/amm/src/lib.rs: sort_assets, add_liquidity, create_pool, remove_liquidity"]}
{"id": "C13", "title": "Router exact-in: slippage bound is honoured end to end", "statement": "If swap_exact_tokens_for_tokens succeeds on a route of at least two assets, the trader's balance of the first asset falls by exactly amount_in, the balance of the last asset rises by exactly the quoted amount which is at least min_amount_out, and the trader's balances of all intermediate and unrelated assets are unchanged.", "quantifier": "every route (any length), amounts and AMM state", "why_tests_cant": "Needs an induction over the route, using that no pool is visited twice.", "anchors": ["pallets/router/src/lib.rs: swap_exact_tokens_for_tokens, route_checks", "pallets/amm/src/lib.rs: get_amounts_out, swap"]}
{"id": "C14", "title": "Router exact-out: price bound is honoured end to end", "statement": "If swap_tokens_for_exact_tokens succeeds on a route of at least two assets the trader pays exactly the quoted input, at most max_amount_in, of the first asset, and receives at least amount_out of the last.", "quantifier": "every route, amounts and AMM state", "why_tests_cant": "Induction over the route; relies on the quote lemma for each hop.", "anchors": ["pallets/router/src/lib.rs: swap_tokens_for_exact_tokens", "pallets/amm/src/lib.rs: get_amounts_in"]}
{"id": "C15", "title": "Route discovery is sound and complete", "statement": "get_all_routes terminates and returns only simple paths from token_in to token_out along existing pools, and every such path with a successful quote is returned.", "quantifier": "every pool graph", "why_tests_cant": "Graph search over arbitrary graphs; termination is not testable.", "anchors": ["pallets/router/src/lib.rs: get_all_routes, get_output_routes"]}
{"id": "C16", "title": "Best route is optimal", "statement": "get_best_route returns a route whose quoted output is maximal (or whose quoted input is minimal when reversed) among all simple paths that can be quoted.", "quantifier": "every pool graph and amount", "why_tests_cant": "Optimality over all paths of arbitrary graphs.", "anchors": ["pallets/router/src/lib.rs: get_best_route, get_all_routes"]}
{"id": "C17", "title": "Stableswap add-then-remove is never profitable", "statement": "Adding liquidity to a stableswap pool and immediately removing the received LP tokens returns at most what was put in.", "quantifier": "every pool with positive supply, every amount", "why_tests_cant": "FALSE in the code: LP tokens are minted twice (proportional share plus share*(d1-d0)/d0); a concrete profitable history is proved.", "anchors": ["pallets/stableswap/src/lib.rs: do_add_liquidity, do_get_liquidity, do_remove_liquidity"]}
{"id": "C18", "title": "Stableswap output never exceeds the reserve", "statement": "A successful stableswap trade pays out at most the recorded output reserve, and moves reserves by exactly the transferred amounts.", "quantifier": "every pool state and amount", "why_tests_cant": "Newton iteration over all inputs.", "anchors": ["pallets/stableswap/src/lib.rs: do_swap, get_amount_out", "pallets/stableswap/src/helpers.rs: compute_d, compute_base"]}
{"id": "C19", "title": "Streaming pallet is always solvent", "statement": "After any history, for every asset the streaming account holds at least the sum of the remaining balances of all unfinished streams in this asset.", "quantifier": "every finite history of create, cancel, withdraw, set_minimum_deposit, time advancing", "why_tests_cant": "Invariant over unbounded histories and any number of streams.", "anchors": ["pallets/streaming/src/lib.rs: do_create, cancel, withdraw"]}
{"id": "C20", "title": "A stream pays out exactly its deposit", "statement": "For every stream ever created, the amount paid to the recipient plus the amount refunded to the sender plus (while unfinished) the remaining balance equals the deposit.", "quantifier": "every stream in every history", "why_tests_cant": "History property.", "anchors": ["pallets/streaming/src/lib.rs: create, cancel, withdraw", "pallets/streaming/src/types.rs: try_deduct, try_cancel"]}
{"id": "C21", "title": "Recipient never withdraws ahead of vesting", "statement": "While a stream is unfinished, what the recipient has withdrawn is at most rate_per_sec * elapsed (all of deposit once end_time is reached). For the native currency, a withdrawal that leaves at most the existential deposit may close the stream, so the payment may run ahead by at most the existential deposit.", "quantifier": "every stream, history and time", "why_tests_cant": "Depends on all interleavings of withdrawals and time.", "anchors": ["pallets/streaming/src/lib.rs: withdraw", "pallets/streaming/src/types.rs: balance_of, delta_of"]}
{"id": "C22", "title": "A stream can always be settled", "statement": "In every reachable state the sender of an unfinished cancellable stream can compute both balances without arithmetic error, they add up to the remaining balance, and after end_time the recipient can withdraw the whole remaining balance.", "quantifier": "every reachable state and time", "why_tests_cant": "Absence of underflow over all histories.", "anchors": ["pallets/streaming/src/lib.rs: cancel, withdraw", "pallets/streaming/src/types.rs: balance_of"]}
{"id": "C23", "title": "Only the parties can move stream funds", "statement": "A call changes a stream only if it is a withdrawal signed by its recipient or a cancel of a cancellable stream signed by its sender; a finished stream never changes again except by being archived; non-cancellable streams are never cancelled.", "quantifier": "every state, caller and call", "why_tests_cant": "Quantifies over all callers and calls.", "anchors": ["pallets/streaming/src/lib.rs: cancel, withdraw"]}
{"id": "C24", "title": "Stream archiving never drops live funds", "statement": "Removing old streams from the library only ever deletes finished streams, and the per-account library entries always refer to existing streams.", "quantifier": "every reachable state", "why_tests_cant": "Invariant over histories.", "anchors": ["pallets/streaming/src/lib.rs: update_finished_stream_library, try_push_stream_library, try_remove_stream_library"]}
{"id": "C25", "title": "Farming pool total equals the sum of positions", "statement": "In every reachable state total_deposited of each pool equals the sum over all users of deposit_balance.", "quantifier": "every history", "why_tests_cant": "Sum over unboundedly many users.", "anchors": ["pallets/farming/src/lib.rs: deposit, withdraw"]}
{"id": "C26", "title": "Farming vault is always solvent", "statement": "In every reachable state, for every asset the farming account of this asset holds at least: all deposits and cooling-down amounts of pools staking it, plus all unclaimed rewards (settled and pending) and the not yet streamed rewards of pools paying it.", "quantifier": "every history over any set of pools sharing assets", "why_tests_cant": "Invariant with rounding over unbounded histories.", "anchors": ["pallets/farming/src/lib.rs: deposit, withdraw, redeem, claim, dispatch_reward, update_reward", "pallets/farming/src/types.rs: reward_per_share"]}
{"id": "C27", "title": "Rewards claimed never exceed rewards dispatched", "statement": "For each pool the total reward paid to users never exceeds the total amount dispatched to it.", "quantifier": "every history", "why_tests_cant": "Accumulated rounding over unbounded histories.", "anchors": ["pallets/farming/src/lib.rs: claim, dispatch_reward, update_reward", "pallets/farming/src/types.rs: reward_per_share, update_reward_per_share"]}
{"id": "C28", "title": "Lock and cool-down are respected", "statement": "withdraw succeeds only at or after unlock_height; redeem pays exactly the sum of the user's items whose cool-down has elapsed, removes exactly these, and keeps the others.", "quantifier": "every state and block number", "why_tests_cant": "All item lists of any length.", "anchors": ["pallets/farming/src/lib.rs: withdraw, redeem"]}
{"id": "C29", "title": "Reward settlement is idempotent and path independent", "statement": "Settling a user's reward twice in the same block changes nothing the second time, and a second claim in the same block pays nothing.", "quantifier": "every state", "why_tests_cant": "All inputs.", "anchors": ["pallets/farming/src/lib.rs: update_reward, claim"]}
{"id": "C30", "title": "The bridge nonce registry is exactly the set of resolved nonces", "statement": "After resolving nonce n, has_bridged(m) holds iff it held before or m = n; the registry stays sorted, with non-empty, disjoint and non-adjacent intervals.", "quantifier": "every registry reachable from the empty one and every order of nonces", "why_tests_cant": "All insertion orders of an unbounded set.", "anchors": ["pallets/bridge/src/lib.rs: update_bridge_registry, merge_overlapping_intervals, has_bridged"]}
{"id": "C31", "title": "No nonce is materialized twice", "statement": "In every history, between registration and unregistration of a source chain each nonce leads to at most one payout, and after a nonce is resolved (approved or rejected) every further vote for it is rejected.", "quantifier": "every history of votes by any members, block advances and expiry cleanups", "why_tests_cant": "Interleavings of competing proposals.", "anchors": ["pallets/bridge/src/lib.rs: materialize, resolve_proposal, execute_materialize, cancel_materialize"]}
{"id": "C32", "title": "A payout needs threshold distinct relay votes", "statement": "Each materialize payout is backed by at least VoteThreshold pairwise distinct accounts, each of which was a relay member (or root) when it voted for exactly this (nonce, token, recipient, amount).", "quantifier": "every history", "why_tests_cant": "History property over all vote interleavings.", "anchors": ["pallets/bridge/src/lib.rs: materialize, ensure_relay_member", "pallets/bridge/src/types.rs: try_to_complete, has_voted"]}
{"id": "C33", "title": "Bridge caps are hard limits", "statement": "Successful teleports keep out_amount <= out_cap and successful payouts keep in_amount <= in_cap, with the amounts growing by exactly the bridged amount.", "quantifier": "every state and amount", "why_tests_cant": "All inputs.", "anchors": ["pallets/bridge/src/lib.rs: update_bridge_token_cap, ensure_under_bridge_cap"]}
{"id": "C34", "title": "Teleport accounting", "statement": "A successful teleport debits exactly amount from the caller, credits exactly fee (external token) or amount (home token) to the bridge account, reduces total issuance by amount-fee for external tokens and by nothing otherwise, and emits a nonce one above the previous one.", "quantifier": "every state, amount, token", "why_tests_cant": "All inputs and frame.", "anchors": ["pallets/bridge/src/lib.rs: teleport, teleport_internal, bump_nonce"]}
{"id": "C35", "title": "Rejecting a bogus proposal does not lose the real transfer", "statement": "Voting down a wrong proposal for a nonce leaves the genuine proposal for this nonce executable.", "quantifier": "every history", "why_tests_cant": "FALSE in the code: a rejected proposal consumes the nonce for every other proposal; a concrete history is proved.", "anchors": ["pallets/bridge/src/lib.rs: cancel_materialize, update_bridge_registry"]}
{"id": "C36", "title": "Voucher supply equals the sum of deposits", "statement": "In every reachable state, total_issuance of each ptoken equals the sum over all accounts of the voucher balances.", "quantifier": "every history of mint, redeem, borrow, repay, liquidate, ptoken transfer, reserve operations and time", "why_tests_cant": "Sum over unboundedly many accounts, unbounded histories.", "anchors": ["pallets/loans/src/lib.rs: do_mint, do_redeem_voucher, liquidated_transfer", "pallets/loans/src/ptoken.rs: do_transfer_ptokens, total_issuance, balance"]}
{"id": "C37", "title": "Mint then redeem is never profitable", "statement": "Supplying an amount and at once redeeming the received vouchers returns at most the amount supplied (market with positive supply, no interest in between).", "quantifier": "every market state and amount", "why_tests_cant": "Two nested floor divisions by a rounded rate.", "anchors": ["pallets/loans/src/lib.rs: do_mint, do_redeem_voucher, calc_collateral_amount, calc_underlying_amount", "pallets/loans/src/interest.rs: calculate_exchange_rate"]}
{"id": "C38", "title": "Redeem never pays more than requested nor more than the share", "statement": "redeem(amount) pays at most amount, burns the corresponding vouchers, never pays more than the vouchers' pro-rata share of cash + borrows - reserves, and never touches the reserved cash.", "quantifier": "every state and amount", "why_tests_cant": "All inputs.", "anchors": ["pallets/loans/src/lib.rs: do_redeem, do_redeem_voucher, ensure_enough_cash"]}
{"id": "C39", "title": "Interest accrual is monotone", "statement": "Accruing interest never lowers total borrows, total reserves or the borrow index, adds to reserves at most the accrued interest, changes no balance, and is a no-op when time has not advanced.", "quantifier": "every market state and time", "why_tests_cant": "All inputs.", "anchors": ["pallets/loans/src/interest.rs: accrue_interest, get_market_status, accrued_interest, increment_index"]}
{"id": "C40", "title": "Debt grows only by interest or own borrowing", "statement": "The debt of an account in a market is changed only by its own borrow or repay, by a liquidation of this account, or by interest accrual; without these it is constant, and accrual never lowers it.", "quantifier": "every account, market and call", "why_tests_cant": "Frame over all accounts.", "anchors": ["pallets/loans/src/lib.rs: current_borrow_balance, do_borrow, do_repay_borrow_with_amount, liquidated_transfer"]}
{"id": "C41", "title": "Borrowing needs sufficient collateral", "statement": "After a successful borrow by an account without liquidation-free positions, the value of its debts does not exceed its collateral value by more than one unit of 10^-18 (price rounding).", "quantifier": "every state, prices and amount", "why_tests_cant": "Sums over all markets with rounding.", "anchors": ["pallets/loans/src/lib.rs: borrow_allowed, ensure_liquidity, get_account_liquidity"]}
{"id": "C42", "title": "Redeeming collateral keeps the account healthy", "statement": "Redeeming from a collateral position succeeds only if the account's liquidity covers the value removed, so a healthy account stays healthy.", "quantifier": "every state and amount", "why_tests_cant": "All inputs with rounding.", "anchors": ["pallets/loans/src/lib.rs: redeem_allowed, ensure_liquidity"]}
{"id": "C43", "title": "Healthy accounts cannot be liquidated", "statement": "liquidate_borrow fails for an account whose liquidation-threshold collateral covers its debts (and whose liquidation-free position is not exceeded); a liquidator is never the borrower.", "quantifier": "every state", "why_tests_cant": "All inputs.", "anchors": ["pallets/loans/src/lib.rs: liquidate_borrow_allowed, do_liquidate_borrow"]}
{"id": "C44", "title": "Liquidation conserves vouchers and is bounded", "statement": "A successful liquidation repays exactly repay_amount of debt, repay value is at most close_factor of the debt value, moves vouchers from the borrower to liquidator and incentive account with nothing created or lost, and seizes no more than the borrower has.", "quantifier": "every state and amount", "why_tests_cant": "All inputs.", "anchors": ["pallets/loans/src/lib.rs: do_liquidate_borrow, liquidated_transfer, liquidate_borrow_allowed"]}
{"id": "C45", "title": "Supply and borrow caps are hard limits", "statement": "After a successful mint the market's cash is at most supply_cap; after a successful borrow total borrows is at most borrow_cap.", "quantifier": "every state and amount", "why_tests_cant": "All inputs.", "anchors": ["pallets/loans/src/lib.rs: ensure_under_supply_cap, ensure_under_borrow_cap"]}
{"id": "C46", "title": "Interest rate model is bounded and monotone", "statement": "For every accepted jump model the borrow rate lies between base_rate and full_rate and is non-decreasing in utilization; the supply rate never exceeds the borrow rate.", "quantifier": "every accepted model and every utilization", "why_tests_cant": "All parameter values; also shows that jump_utilization = 0 is accepted but makes the rate undefined at zero utilization.", "anchors": ["pallets/loans/src/rate_model.rs: JumpModel::check_model, get_borrow_rate, get_supply_rate"]}
{"id": "C47", "title": "Repaying never exceeds the debt and full repayment clears it", "statement": "repay_borrow takes exactly the repaid amount from the payer, fails if it exceeds the current debt, and repay_borrow_all leaves a debt of zero.", "quantifier": "every state", "why_tests_cant": "All inputs.", "anchors": ["pallets/loans/src/lib.rs: repay_borrow, repay_borrow_all, do_repay_borrow_with_amount"]}
{"id": "C48", "title": "Supply rewards never exceed the emission", "statement": "The rewards accrued by all suppliers of a market never exceed speed * blocks.", "quantifier": "every history", "why_tests_cant": "FALSE in the code: ptoken transfers settle rewards under the ptoken id instead of the underlying id, so the same vouchers earn twice; a concrete history is proved, and the bound is proved for histories without ptoken transfers.", "anchors": ["pallets/loans/src/farming.rs: update_reward_supply_index, distribute_supplier_reward", "pallets/loans/src/ptoken.rs: do_transfer_ptokens"]}
{"id": "C49", "title": "Market bookkeeping is a bijection", "statement": "In every reachable state (without force_update_market) each market's ptoken id maps back to its asset, no two markets share a ptoken id, and a ptoken id is never itself a market.", "quantifier": "every history of add_market/activate/update", "why_tests_cant": "Invariant over histories.", "anchors": ["pallets/loans/src/lib.rs: add_market, ensure_ptoken, update_market, underlying_id, ptoken_id"]}
{"id": "C50", "title": "The bridge token tables are inverse to each other", "statement": "In every reachable state a bridge token id stands for an asset exactly if this asset's token settings carry this id; no two assets share a bridge token id.", "quantifier": "every history of registrations, removals, setting changes, teleports and payouts", "why_tests_cant": "Invariant over histories.", "anchors": ["pallets/bridge/src/lib.rs: register_bridge_token, unregister_bridge_token, try_mutate_bridge_token, update_bridge_token_cap"]}
{"id": "C51", "title": "The vote threshold follows the committee size", "statement": "After the committee changes to any non-empty set the threshold is the configured percentage of its size, rounded up, hence at least 1 and at most the size; a change to the empty committee keeps the old threshold.", "quantifier": "every committee and every percentage between 1 and 100", "why_tests_cant": "All sizes and percentages.", "anchors": ["pallets/bridge/src/lib.rs: change_vote_threshold, ensure_valid_threshold"]}
{"id": "C52", "title": "A bridge payout credits exactly the voted amount to the voted recipient", "statement": "The call that pays a proposal out credits exactly amount to the recipient (minted for external tokens, from the bridge account for home tokens); apart from the optional native gift no other balance or issuance changes.", "quantifier": "every reachable state and every payout of a non-native asset", "why_tests_cant": "All inputs and frame.", "anchors": ["pallets/bridge/src/lib.rs: execute_materialize, grant_incentive_bonus"]}
{"id": "C53", "title": "The threshold-th approval pays immediately", "statement": "A successful approving vote on an open proposal ends with the payout exactly if the proposal then has at least VoteThreshold approvals.", "quantifier": "every state and proposal", "why_tests_cant": "All states.", "anchors": ["pallets/bridge/src/lib.rs: materialize, resolve_proposal", "pallets/bridge/src/types.rs: try_to_complete"]}
{"id": "C54", "title": "The loan exchange rate never falls", "statement": "No call and nothing the rest of the chain does lowers the amount of underlying per voucher of a market that keeps having vouchers.", "quantifier": "every reachable state, every call and every step of the environment", "why_tests_cant": "Unbounded histories, nested roundings.", "anchors": ["pallets/loans/src/lib.rs: do_mint, do_redeem_voucher, liquidated_transfer, add_reserves, reduce_reserves", "pallets/loans/src/interest.rs: calculate_exchange_rate"]}
{"id": "C55", "title": "Loan reserves are covered", "statement": "In every reachable state the reserves of a market are at most its cash plus its outstanding loans.", "quantifier": "every history", "why_tests_cant": "Invariant over histories.", "anchors": ["pallets/loans/src/lib.rs: add_reserves, reduce_reserves", "pallets/loans/src/interest.rs: accrue_interest"]}
{"id": "C56", "title": "The exchange rate can always be computed", "statement": "In every reachable state the exchange rate of a market is valid (so that suppliers can redeem).", "quantifier": "every history, including token transfers to the pallet account by anybody", "why_tests_cant": "FALSE in the code: the rate must stay below 1, and a third party can push it to 1 by sending tokens to the pallet account, which blocks minting and redeeming; proved: the rate never drops below 0.02 and is valid as long as the market owns fewer tokens than there are vouchers.", "anchors": ["pallets/loans/src/interest.rs: ensure_valid_exchange_rate, calculate_exchange_rate"]}
{"id": "C57", "title": "Market parameters stay in their accepted ranges", "statement": "Every market has an accepted interest model; without force_update_market also collateral factor <= liquidation threshold < 1, 0 < reserve factor < 1 and a positive supply cap; hence collateral value never exceeds liquidation value, and an account that has just borrowed is not liquidatable at the same prices (up to one unit).", "quantifier": "every history of governance calls", "why_tests_cant": "Invariant over histories and all positions.", "anchors": ["pallets/loans/src/lib.rs: add_market, update_market, update_rate_model, force_update_market"]}
{"id": "C58", "title": "Stableswap pools are covered by the pool account", "statement": "In every reachable state the stableswap account owns at least the sum of the reserves recorded for all pools, asset by asset, and the minimum liquidity of every pool stays locked.", "quantifier": "every history of calls and of the rest of the chain", "why_tests_cant": "Invariant over unbounded histories.", "anchors": ["pallets/stableswap/src/lib.rs: do_swap, do_add_liquidity, do_remove_liquidity, create_pool"]}
{"id": "C59", "title": "A trade in a balanced stableswap pool never pays more than it takes", "statement": "In a pool with equal reserves a trader never receives more units than they pay; more generally the payment is bounded by the curve invariant up to one unit.", "quantifier": "every pool size and amount", "why_tests_cant": "FALSE in the code for pools above about 5.5e12 units: products that do not fit u128 count as zero, so that a trade of 1000 units pays 5.8e10 (reserves 1e13) or the whole reserve (reserves 1e18); proved for smaller pools.", "anchors": ["pallets/stableswap/src/lib.rs: do_swap, get_amount_out", "pallets/stableswap/src/helpers.rs: div, compute_d, compute_base"]}
{"id": "C60", "title": "Adding stableswap liquidity respects the caller's limits", "statement": "A successful add_liquidity takes of each asset an amount between the stated minimum and desired amounts, exactly by which the reserves and the pool account grow; other pools are untouched.", "quantifier": "every state, pair, amounts", "why_tests_cant": "All inputs and frame.", "anchors": ["pallets/stableswap/src/lib.rs: add_liquidity, get_ideal_amounts, do_add_liquidity"]}
{"id": "C61", "title": "The staking exchange rate never falls", "statement": "Whatever users, governance, the relay chain and the rest of the chain do, the exchange rate from liquid to staking tokens never gets lower.", "quantifier": "every pair of states connected by any sequence of calls, block hooks and environment steps", "why_tests_cant": "Unbounded histories.", "anchors": ["pallets/liquid-staking/src/lib.rs: do_update_exchange_rate, do_advance_era"]}
{"id": "C62", "title": "Liquid staking tokens are covered by stake", "statement": "After any history the liquid tokens at the current rate, plus what waits to be unbonded, are worth at most what is staked on the relay chain plus what waits to be bonded.", "quantifier": "every history, every timing of relay-chain responses", "why_tests_cant": "FALSE in the code: two rebond requests for the same unlocking chunk can be in flight, the relay chain executes the second only in part, but the pallet books it in full; proved for histories in which reported rebonds were executed in full.", "anchors": ["pallets/liquid-staking/src/lib.rs: do_notification_received, do_matching, do_update_exchange_rate", "pallets/liquid-staking/src/types.rs: rebond, consolidate_stake"]}
{"id": "C63", "title": "The liquid staking pallet is solvent", "statement": "After any history all liquid tokens at the current rate, all claims of unstakers and the reserves are worth at most what the pallet holds plus what its derivative accounts have on the relay chain.", "quantifier": "every history, every set of claimants", "why_tests_cant": "FALSE in the code: the commission on a reward reported after a partly executed rebond mints too many liquid tokens; proved for histories in which rewards are reported while the tokens are covered, and for histories in which rebonds are executed in full.", "anchors": ["pallets/liquid-staking/src/lib.rs: set_staking_ledger, get_inflate_liquid_amount, do_notification_received"]}
{"id": "C64", "title": "Claims of unstakers are backed", "statement": "After any history the reserves, the pooled stake and all claims of all unstakers together are at most what the pallet holds, what is unbonding on the relay chain and what waits to be unbonded.", "quantifier": "every history, every set of claimants", "why_tests_cant": "Sum over unboundedly many users and steps.", "anchors": ["pallets/liquid-staking/src/lib.rs: unstake, claim_for, do_claim_for, do_notification_received"]}
{"id": "C65", "title": "Pooled stake is really there", "statement": "After any history the pallet's account holds at least the reserves plus the whole stake half of the matching pool.", "quantifier": "every history", "why_tests_cant": "Invariant over histories.", "anchors": ["pallets/liquid-staking/src/lib.rs: stake, reduce_reserves, fast_match_unstake, do_notification_received"]}
{"id": "C66", "title": "Locks in the matching pool are exactly the requests in flight", "statement": "After any history the locked amounts of the matching pool are the sums of the amounts of the requests in flight and never exceed the pool; the response that a rebond was executed is always accepted, that of an extra bond if the total fits u128, that of a first bond unless the account was bonded by another request, that of an unbond if that much is still active.", "quantifier": "every history, every request, every order of responses", "why_tests_cant": "Asynchronous responses in any order.", "anchors": ["pallets/liquid-staking/src/lib.rs: do_bond, do_bond_extra, do_unbond, do_rebond, do_notification_received", "pallets/liquid-staking/src/types.rs: set_stake_amount_lock, consolidate_stake, consolidate_unstake"]}
{"id": "C67", "title": "Every relay-chain response takes effect at most once", "statement": "A failed response, or one for an unknown request, changes nothing; after a request was reported as executed, every later response with its id changes nothing, whatever happens in between.", "quantifier": "every history, every id", "why_tests_cant": "Replays at any later time.", "anchors": ["pallets/liquid-staking/src/lib.rs: notification_received, do_notification_received"]}
{"id": "C68", "title": "Staking ledgers add up", "statement": "After any history the total of the staking ledger of every derivative account is its active stake plus all of its unlocking chunks.", "quantifier": "every history, every derivative account", "why_tests_cant": "Invariant over histories.", "anchors": ["pallets/liquid-staking/src/types.rs: bond_extra, unbond, rebond, consolidate_unlocked"]}
{"id": "C69", "title": "Unstakers get exactly what they unstaked, once, in time", "statement": "A claim pays exactly the chunks that are due and keeps the others; an unstaked amount is due exactly from BondingDuration + 1 eras on; a due claim succeeds as soon as the pallet has the money free; nobody else's calls change an account's queue; over any history an account's claims plus its remaining queue are at most, and exactly (while amounts fit u128), what was unstaked for it.", "quantifier": "every history, every account", "why_tests_cant": "Unbounded histories, merging and filtering of queues.", "anchors": ["pallets/liquid-staking/src/lib.rs: unstake, claim_for, do_claim_for, target_era"]}
{"id": "C70", "title": "Staking is exact and round trips do not profit", "statement": "A stake takes exactly the given amount, splits it exactly into XCM fee, reserves and pooled stake, and mints the net amount's worth of liquid tokens, rounded down by a bounded error; unstaking all of them at the same rate never promises more than the net amount.", "quantifier": "every state, staker and amount", "why_tests_cant": "All rates and amounts; two roundings.", "anchors": ["pallets/liquid-staking/src/lib.rs: stake, unstake, staking_to_liquid, liquid_to_staking"]}
{"id": "C71", "title": "Fast unstaking pays exactly and cannot get stuck", "statement": "Fast unstaking of an account burns, charges and pays exactly the matched part of its request, never more than its balance or the free pooled stake; it cannot fail for lack of funds in a reachable state; it does not touch other accounts' requests and tokens.", "quantifier": "every reachable state, every account", "why_tests_cant": "All states and amounts.", "anchors": ["pallets/liquid-staking/src/lib.rs: fast_match_unstake, do_fast_match_unstake"]}
{"id": "C72", "title": "The era's matching nets stake against unstake exactly", "statement": "In every reachable state the matching succeeds; free stake plus unbonding equals free unstake plus bonding plus rebonding, one side is zero, rebonding is preferred over bonding and bounded by what is unbonding; the requests sent are exactly the configured distributions of these amounts and a withdrawal for each account with something to withdraw.", "quantifier": "every reachable state", "why_tests_cant": "All pool states.", "anchors": ["pallets/liquid-staking/src/lib.rs: do_matching, do_multi_bond, do_multi_rebond, do_multi_unbond, do_multi_withdraw_unbonded", "pallets/liquid-staking/src/types.rs: matching"]}
{"id": "C73", "title": "Distributions respect caps, minimum bonds and totals", "statement": "Both strategies distribute at most the input, to each derivative account at most once, within its cap, leaving the minimum bond when unbonding and within what is unbonding when rebonding; the max-min strategy distributes as much as possible.", "quantifier": "every list of accounts, every amount, cap and minimum bond", "why_tests_cant": "Lists of any length. The last part is FALSE for bonding in the code (the loop stops at the first account whose total has reached the cap); proved if no account is at the cap.", "anchors": ["pallets/liquid-staking/src/distribution.rs: get_bond_distributions, get_unbond_distributions, get_rebond_distributions"]}
{"id": "C74", "title": "The market cap bounds what is staked", "statement": "A stake is accepted only if everything bonded or pooled for bonding stays within the market cap.", "quantifier": "every reachable state and stake", "why_tests_cant": "FALSE in the code: pooled stake is not counted; proved: everything bonded plus this stake stays within the cap, and no bond request goes above an account's cap.", "anchors": ["pallets/liquid-staking/src/lib.rs: ensure_market_cap, ensure_staking_ledger_cap"]}
{"id": "C75", "title": "Unstake reserves are held", "statement": "After any history the pallet's account holds at least the recorded unstake reserves in liquid tokens.", "quantifier": "every history", "why_tests_cant": "FALSE in the code: unstaking through the matching pool books a reserve without taking tokens; proved for histories without such charges.", "anchors": ["pallets/liquid-staking/src/lib.rs: unstake, reduce_unstake_reserves"]}
{"id": "C76", "title": "The commission is bounded", "statement": "The liquid tokens that a reward report mints all go to the fee receiver and are worth, at the current rate, at most the commission's share of the reward; nothing else changes hands and only that account's ledger changes.", "quantifier": "every history with full rebonds, every reward", "why_tests_cant": "Nested roundings over all states.", "anchors": ["pallets/liquid-staking/src/lib.rs: set_staking_ledger, get_inflate_liquid_amount"]}
{"id": "C77", "title": "Price accumulators are exact and monotone", "statement": "A swap adds to each price accumulator of its pool the elapsed blocks times the price after the swap (nothing if already stamped in this block) and stamps the pool with the current block; no other call changes them; over any history they and the stamp never decrease and the stamp is never in the future.", "quantifier": "every swap, every call and every history", "why_tests_cant": "Unbounded histories; fixed-point rounding and saturation for all reserves. (Finding: the elapsed time is weighted with the price after the trade, C77_final_price_weighs_the_past.)", "anchors": ["pallets/amm/src/lib.rs: do_update_oracle, do_swap", "pallets/traits/src/lib.rs: Pool"]}
{"id": "C78", "title": "Pools are permanent and LP tokens unique", "statement": "Once a pair has a pool it has it forever with the same LP token; creating it again is rejected; no two pairs ever share an LP token.", "quantifier": "every history", "why_tests_cant": "Unbounded histories.", "anchors": ["pallets/amm/src/lib.rs: create_pool, add_liquidity, remove_liquidity, swap"]}
{"id": "C79", "title": "Deposits are exact", "statement": "create_pool takes exactly the given amounts, records them as reserves, locks the minimum liquidity and mints the rest of the integer square root of the product to the receiver. add_liquidity takes exactly the price-keeping amounts within the caller's bounds, rejects if they are below the minima, and mints exactly the smaller of the two proportional shares.", "quantifier": "every state, caller, pair and amounts", "why_tests_cant": "All amounts and reserves, roundings, both orders of the pair.", "anchors": ["pallets/amm/src/lib.rs: create_pool, add_liquidity, get_ideal_amounts, do_add_liquidity"]}
{"id": "C80", "title": "Protocol fee bookkeeping", "statement": "With the protocol fee on, a liquidity event mints exactly the formula's share to the fee receiver and remembers the resulting reserves; with the fee off it mints nothing and forgets the remembered reserves; a new pool remembers its reserves exactly if the fee is on.", "quantifier": "every reachable state and liquidity event", "why_tests_cant": "All reserves, supplies and fee settings; fee toggled any number of times.", "anchors": ["pallets/amm/src/lib.rs: do_mint_protocol_fee, do_add_liquidity, do_remove_liquidity"]}
{"id": "C81", "title": "Trading stays possible", "statement": "In every reachable state a trade above the minimum input, funded by the trader, on an existing pool without overflow of the reserve goes through.", "quantifier": "every reachable state and trade", "why_tests_cant": "FALSE in the code: the price accumulators use checked addition, so a pool with an extreme price fills an accumulator and can never trade again in a later block (C81_refuted, C81_full_accumulator_freezes); proved whenever the accumulators have room.", "anchors": ["pallets/amm/src/lib.rs: do_swap, do_update_oracle"]}
{"id": "C82", "title": "The router accepts exactly the trades it should", "statement": "A routed trade is carried out if and only if the route is non-empty, not too long and free of repetitions, the amount is positive and spendable, the quote for the whole route meets the trader's limit and each hop succeeds with the quoted amounts; the state is then the result of the hops; otherwise the error names the failed check and nothing changes.", "quantifier": "every state, route of any length, trader, amount and limit", "why_tests_cant": "Routes of any length and all states.", "anchors": ["pallets/router/src/lib.rs: swap_exact_tokens_for_tokens, swap_tokens_for_exact_tokens, route_checks"]}
{"id": "C83", "title": "StableSwap: price accumulators, permanent pools, unique LP tokens", "statement": "A stable-swap trade adds to each price accumulator the price after the trade times the blocks elapsed since the pool's last trade (nothing within one block); no other call touches them, and over any history they never decrease. A pool once created exists forever with its LP token, creating it again is rejected, and no two pairs share an LP token.", "quantifier": "every history of calls", "why_tests_cant": "Unbounded histories, all reserves and block numbers.", "anchors": ["pallets/stableswap/src/lib.rs: do_update_oracle, do_swap, create_pool"]}
{"id": "C84", "title": "StableSwap: what the quotes compute", "statement": "The curve invariant answered for two reserves is where Newton's iteration from their sum settles (difference at most one, at most 255 steps); the output quote is the old reserve minus where the iteration for the other reserve settles after the fees; the input quote is the constant-product formula. Consequently the two quotes do not fit together.", "quantifier": "every pair of reserves and amount", "why_tests_cant": "All reserves and amounts; convergence is a property of unbounded integer ranges. (Finding: C84_quotes_disagree.)", "anchors": ["pallets/stableswap/src/lib.rs: delta_util, get_base, get_amount_out, get_amount_in, get_amounts_out, get_amounts_in"]}
{"id": "C85", "title": "StableSwap: liquidity events are exact", "statement": "create_pool, add_liquidity and remove_liquidity move exactly the amounts of the formulas, mint or burn exactly the LP tokens of the formulas (including the protocol's share if the fee is on), and remember the reserves for the next protocol fee exactly if the fee is on.", "quantifier": "every state, caller, pair and amounts", "why_tests_cant": "All amounts, reserves and supplies, both orders of the pair.", "anchors": ["pallets/stableswap/src/lib.rs: create_pool, add_liquidity, remove_liquidity, do_mint_protocol_fee"]}
{"id": "C86", "title": "Streaming: exactly the sound streams are accepted, and each step is exact", "statement": "create succeeds exactly for an enabled asset, a deposit at least the minimum, a start not in the past, a window with a positive rate per second, distinct parties and a funded sender (with room in the lists), with the documented error otherwise; the stream is stored as requested; balance_of answers the vested-and-unpaid part for the recipient, the rest for the sender, zero for others; a withdrawal pays exactly the amount asked (plus the native dust).", "quantifier": "every reachable state, parties, amounts and times", "why_tests_cant": "All amounts, times and histories.", "anchors": ["pallets/streaming/src/lib.rs: create, do_create, withdraw, balance_of, set_minimum_deposit", "pallets/streaming/src/types.rs: Stream"]}
{"id": "C87", "title": "Streaming: the library lists are ordered and complete", "statement": "Each account's lists of streams are strictly descending by id; every stored stream is in its recipient's incoming list, every finished stored stream in both parties' finished lists; only the oldest finished stream of a party is ever archived.", "quantifier": "every reachable state", "why_tests_cant": "Unbounded histories of creations, withdrawals and cancellations by any accounts.", "anchors": ["pallets/streaming/src/lib.rs: try_push_stream_library, update_finished_stream_library, get_stream_library"]}
{"id": "C88", "title": "Farming: administration is exact and locks are bounded", "statement": "A farming pool is created exactly when its pair and lock do not exist and the durations respect the limits; status, cool-down and unlock height change only as requested under the documented conditions and touch no stake or balance; in every history a pool unlocks at most its lock duration (at most the configured maximum) from now and every withdrawn item matures at most the maximal cool-down from now; staking calls are accepted or rejected with the documented error.", "quantifier": "every reachable state, pool, user and amount", "why_tests_cant": "Unbounded histories of governance and staking calls.", "anchors": ["pallets/farming/src/lib.rs: create, set_pool_status, set_pool_cool_down_duration, reset_pool_unlock_height, deposit, withdraw"]}
{"id": "C89", "title": "Farming: rewards are fair", "statement": "No call changes a pool or position it does not address, nor another user's position. Over any history, all users of a pool who did not act in between and were settled at the same reward index earn exactly stake times one common factor (rounded down): equals are treated equally, more stake never earns less, and nothing others do reduces an earned reward. Claiming more often never earns more.", "quantifier": "every history of any users' calls and passing blocks", "why_tests_cant": "Unbounded interleavings; roundings for all stakes, rates and intervals.", "anchors": ["pallets/farming/src/lib.rs: update_reward, claim", "pallets/farming/src/types.rs: reward_per_share, update_reward_per_share"]}
{"id": "C90", "title": "Prices: the emergency price wins", "statement": "While an emergency price is set for an asset of known decimals, every reader of prices gets exactly it (normalised by the decimals) marked with timestamp 0, whatever the oracle or the rates say; the last set or reset decides; a reset restores the derived price; no other asset's price is affected; conversely an answer with timestamp 0 is an emergency price.", "quantifier": "every history of set/reset/mapping calls and provider changes, every asset and price", "why_tests_cant": "All prices, decimals and histories. (Finding: C90_refuted.)", "anchors": ["pallets/prices/src/lib.rs: set_price, reset_price, get_emergency_price, get_price, get_no_op"]}
{"id": "C91", "title": "Prices: derived prices follow their formula", "statement": "Without an emergency price, the served price is the price per whole token times 10^(18-decimals), exactly; that price is the oracle's for ordinary assets, the relay price times the staking rate for the liquid token, times the vault rate for crowdloan tokens, the relay price for auxiliary tokens, 2*sqrt(x*y)/supply vault tokens for LP tokens (depending on the pool only through x*y), that of the target for mapped foreign assets; it falls back to the oracle when a rate is unavailable, keeps the oracle's timestamp and is monotone in the relay price.", "quantifier": "every state of the providers, every asset", "why_tests_cant": "All rates, prices, decimals, reserves and mapping chains.", "anchors": ["pallets/prices/src/lib.rs: get_price, get_special_asset_price, get_staking_asset_price, get_vault_asset_price, get_lp_vault_asset_price, normalize_detail_price"]}
{"id": "C92", "title": "Prices: asking for a price always answers", "statement": "Reading a price never traps, whatever mappings governance has configured.", "quantifier": "every state with LP tokens in circulation, every asset", "why_tests_cant": "Chains of foreign-asset mappings of any length, including cycles. (Finding: C92_refuted.)", "anchors": ["pallets/prices/src/lib.rs: set_foreign_asset, get_special_asset_price"]}
{"id": "C93", "title": "Crowdloans: the books of a vault are exact and the money is there", "statement": "At any time a vault's pending and in-flight totals equal the sums of its users' contributions of that kind, the pallet account owns at least the pending and in-flight contributions of all vaults together, and in a closed vault any such contribution can be refunded immediately.", "quantifier": "every reachable state, every set of vaults, every user", "why_tests_cant": "Unbounded histories of calls, relay-chain answers and other pallets' activity.", "anchors": ["pallets/crowdloans/src/lib.rs: contribute, migrate_pending, notification_received, refund, refund_for, do_update_contribution"]}
{"id": "C94", "title": "Crowdloans: contributions", "statement": "A contribution is accepted exactly under the documented conditions (open or pending vault, before its end block, at least the minimum, within the cap, funds available, message deliverable); it then takes exactly the amount, credits exactly the contributor, and leaves every other contribution alone.", "quantifier": "every reachable state, account, parachain and amount", "why_tests_cant": "All amounts, balances and vault states.", "anchors": ["pallets/crowdloans/src/lib.rs: contribute"]}
{"id": "C95", "title": "Crowdloans: the cap", "statement": "The money in a vault grows only by contributions to it, and never beyond the cap in force at that moment.", "quantifier": "every call in every reachable state", "why_tests_cant": "All interleavings of migrations, answers and contributions.", "anchors": ["pallets/crowdloans/src/lib.rs: contribute, update_vault, migrate_pending, do_migrate_contribution"]}
{"id": "C96", "title": "Crowdloans: conservation for every user", "statement": "For every user and vault: everything paid in equals what is pending, in flight and confirmed plus everything returned, claimed or withdrawn; and the record of payments is exactly what happens to the user's relay tokens.", "quantifier": "every history, user and vault, including dissolved vaults", "why_tests_cant": "Unbounded histories.", "anchors": ["pallets/crowdloans/src/lib.rs: contribute, claim, withdraw, refund, redeem, redeem_and_lend_for, notification_received"]}
{"id": "C97", "title": "Crowdloans: relay tokens are never minted out of nothing", "statement": "The relay tokens the pallet mints for a vault (refunds, withdrawals, redemptions) never exceed those it burned when the relay chain confirmed the vault's contributions.", "quantifier": "every history, every vault including dissolved ones", "why_tests_cant": "Unbounded histories; a double payment would only show after a particular history.", "anchors": ["pallets/crowdloans/src/lib.rs: do_redeem, do_withdraw_for, do_refund_for, do_notification_received"]}
{"id": "C98", "title": "Crowdloans: derivative tokens are backed and redeemable", "statement": "For every derivative token, the vaults' confirmed investment equals the circulation plus unclaimed contributions; only claims mint and only redemptions burn; and whoever holds derivative tokens of an expired vault can redeem them.", "quantifier": "every reachable state, token and holder", "why_tests_cant": "Sums over all vaults and holders of all histories. (Finding: C98_refuted.)", "anchors": ["pallets/crowdloans/src/lib.rs: claim, redeem, create_vault, do_claim_for, do_redeem"]}
{"id": "C99", "title": "Crowdloans: claims and withdrawals pay exactly once", "statement": "After a won auction a contributor gets exactly the confirmed contribution in derivative tokens, after a lost one exactly the confirmed contribution in relay tokens, in both cases once; nobody else's contribution changes.", "quantifier": "every reachable state, user and vault", "why_tests_cant": "Unbounded histories of claims and withdrawals by anyone on anyone's behalf.", "anchors": ["pallets/crowdloans/src/lib.rs: claim, claim_for, force_claim_for, withdraw, withdraw_for"]}
{"id": "C100", "title": "Crowdloans: phases", "statement": "A vault's phase changes only along the documented life cycle: pending, contributing, closed (or reopened), succeeded or failed, expired.", "quantifier": "every call in every reachable state, including late relay-chain answers", "why_tests_cant": "Interleavings of calls with relay-chain answers of unbounded delay. (Finding: C100_refuted.)", "anchors": ["pallets/crowdloans/src/lib.rs: open, close, reopen, auction_succeeded, auction_failed, slot_expired, notification_received"]}
{"id": "C101", "title": "Crowdloans: vaults are isolated", "statement": "A parachain has at most one unfinished vault, no two vaults share contribution storage, and every call changes the data and contributions of at most one vault.", "quantifier": "every reachable state and call", "why_tests_cant": "Unbounded numbers of vaults, re-creation of vaults, late answers.", "anchors": ["pallets/crowdloans/src/lib.rs: create_vault, current_vault, next_trie_index, dissolve_vault"]}
{"id": "C102", "title": "Crowdloans: answers of the relay chain", "statement": "Each answer to a sent contribution is accounted for exactly once: a confirmation moves the amount from in flight to confirmed and burns it, a rejection pays it back, and a second answer to the same query changes nothing.", "quantifier": "every reachable state, query and sequence of answers", "why_tests_cant": "Duplicate and late answers. (Finding: C102_refuted.)", "anchors": ["pallets/crowdloans/src/lib.rs: notification_received, do_notification_received"]}
{"id": "C103", "title": "Crowdloans: migration and refunds make progress and pay exactly", "statement": "Migrating sends exactly the first pending contributions up to the limit, one message per contribution with its amount and referral code, and changes nobody's total; refunding pays exactly the first contributions up to the limit; enough refunds return every contribution of every user in full.", "quantifier": "every reachable state, any number of contributions and limits", "why_tests_cant": "Unbounded numbers of contributors and of calls.", "anchors": ["pallets/crowdloans/src/lib.rs: migrate_pending, refund, do_refund_for"]}
{"id": "C104", "title": "Crowdloans: dissolving a vault loses nothing", "statement": "A vault can be dissolved exactly when it is finished and empty; at that moment every user has got back, claimed or withdrawn exactly what they paid in, and everything burned for the relay chain has been paid out again.", "quantifier": "every history", "why_tests_cant": "Unbounded histories.", "anchors": ["pallets/crowdloans/src/lib.rs: dissolve_vault"]}
{"id": "C105", "title": "Crowdloans: the reported progress of a lease", "statement": "The progress of a lease used for pricing is 0 before its start, 1 from its end on, the elapsed share rounded down in between, never above 1 and never decreasing.", "quantifier": "every lease, block and configuration including saturation", "why_tests_cant": "All blocks and configurations; saturation at the type bounds.", "anchors": ["pallets/crowdloans/src/lib.rs: get_vault_term_rate"]}
{"id": "C106", "title": "Bridge: teleports are accepted exactly when they should be", "statement": "teleport succeeds exactly when the destination chain and the token are registered, the token is enabled, the amount is positive, covers the fee, is owned by the caller and fits under the outgoing cap, and neither the counter of the cap nor the nonce overflows.", "quantifier": "every reachable state, caller, chain, token and amount", "why_tests_cant": "Liveness and safety for all states: a rejected valid transfer and an accepted invalid one are both excluded.", "anchors": ["pallets/bridge/src/lib.rs: teleport, teleport_internal, ensure_under_bridge_cap, bump_nonce"]}
{"id": "C107", "title": "Bridge: votes are accepted exactly when they should be", "statement": "materialize (non-native token) succeeds exactly when the caller may vote, chain and token are registered and enabled, the nonce is unresolved, the amount positive and under the incoming cap, and the proposal is new or open and not yet voted on by the caller; a deciding vote additionally needs the payout to be possible.", "quantifier": "every reachable state, voter, chain, nonce, call and vote", "why_tests_cant": "Liveness and safety for all committees, thresholds and histories of votes.", "anchors": ["pallets/bridge/src/lib.rs: materialize, resolve_proposal, execute_materialize, materialize_allowed", "pallets/bridge/src/types.rs"]}
{"id": "C108", "title": "Bridge: administration does exactly what was asked", "statement": "Registering or unregistering a chain or token and changing a fee, status or cap is accepted exactly when the chain or token is (not) registered, changes exactly the requested entry, and leaves every balance, nonce, vote and other entry as it was.", "quantifier": "every reachable state and administrative call", "why_tests_cant": "Frame conditions over the whole state, for all states.", "anchors": ["pallets/bridge/src/lib.rs: register_chain, unregister_chain, register_bridge_token, unregister_bridge_token, set_bridge_token_fee, set_bridge_token_status, set_bridge_token_cap, clean_cap_accumulated_value"]}
{"id": "C109", "title": "Bridge: the gift for new accounts", "statement": "A payout gives the recipient exactly the missing existential deposit plus the configured gift when the token amount qualifies and the gift account covers the gift, and nothing otherwise; nobody else's native balance changes.", "quantifier": "every state and deciding vote paying out a non-native token", "why_tests_cant": "All balances of recipient and gift account, including the edge where the gift account holds the gift but not the deposit. (Finding: C109_low_gift_account_blocks.)", "anchors": ["pallets/bridge/src/lib.rs: grant_incentive_bonus"]}
{"id": "C110", "title": "Bridge: the life of a proposal", "statement": "A proposal is created by its first vote with an expiry a fixed lifetime ahead, keeps this expiry, collects each vote at the end of the right list, disappears in exactly the block of its expiry, and no stored proposal is ever past its expiry; votes never touch other proposals.", "quantifier": "every reachable state, vote and block", "why_tests_cant": "Interleavings of votes, blocks and administration of unbounded length.", "anchors": ["pallets/bridge/src/lib.rs: materialize, on_initialize", "pallets/bridge/src/types.rs: Proposal"]}
{"id": "C111", "title": "Loans: interest is exactly what the rate model says", "statement": "When interest is accrued over an elapsed time, total borrows grow by the model's rate at the current utilisation times the time (rounded down), the reserves by the reserve factor's share of that interest, the borrow index by the same rate, the published rates are the current ones, and nothing else changes; the rounding loss is less than one unit plus one unit per elapsed year; the very first accrual only starts the clock.", "quantifier": "every state, market, rate model and elapsed time", "why_tests_cant": "Exact formula and frame for all parameters; a test checks one rate and one interval.", "anchors": ["pallets/loans/src/interest.rs: accrue_interest, accrued_interest", "pallets/loans/src/rate_model.rs: get_borrow_rate"]}
{"id": "C112", "title": "Loans: claimed rewards are exactly the earned ones", "statement": "claim_reward and claim_reward_for_market pay the caller exactly what was accrued to it before plus, per market, its ptokens (debt) times the growth of the reward index since it was last settled; afterwards nothing is left to claim, a second claim pays nothing and nobody else's rewards change; the index grows by speed times blocks divided by the supply, rounded down.", "quantifier": "every reachable state, account and market", "why_tests_cant": "All histories of deposits, loans, speed changes and claims.", "anchors": ["pallets/loans/src/farming.rs", "pallets/loans/src/lib.rs: claim_reward, claim_reward_for_market"]}
{"id": "C113", "title": "Loans: market administration does exactly what was asked", "statement": "A market is added exactly if asset and ptoken are unused and the factors, caps and rate model are acceptable, and it starts empty; activating, updating or force-updating a market changes exactly the given parameters; changing the reward speeds first settles the indices, so nothing already earned changes.", "quantifier": "every reachable state and administrative call", "why_tests_cant": "Acceptance and frame for all parameter combinations.", "anchors": ["pallets/loans/src/lib.rs: add_market, activate_market, update_rate_model, update_market, force_update_market, update_market_reward_speed"]}
{"id": "C114", "title": "Loans: only active markets are usable", "statement": "Supplying, redeeming, borrowing, repaying, switching collateral, liquidating, moving reserves and changing reward speeds fail in every market that is pending or under supervision.", "quantifier": "every state, call and market state", "why_tests_cant": "All entry points and all states.", "anchors": ["pallets/loans/src/lib.rs: ensure_active_market"]}
{"id": "C115", "title": "Loans: a debtor keeps collateral for all its debts", "statement": "An account whose collateral covers all its debts and which redeems part of it still has collateral for all its debts.", "quantifier": "every reachable state and redemption", "why_tests_cant": "Refuted: debts in non-active markets are not counted (C115_refuted), so a debtor can take out everything while the market it owes to is suspended. Proved for accounts owing only in active markets.", "anchors": ["pallets/loans/src/lib.rs: total_borrowed_value, active_markets, redeem_allowed"]}
{"id": "C116", "title": "Loans: each user call moves exactly the right amounts", "statement": "Minting gives amount/rate ptokens for the amount; redeeming burns amount/rate ptokens and pays rate times that; borrowing and repaying change the caller's debt and the total by the amount, after accrued interest; a liquidation seizes the repaid value times the incentive, split between liquidator and incentive account; reserve and reward transfers move what they say. Nobody else's deposit, debt, or balance changes.", "quantifier": "every reachable state, caller, market and amount", "why_tests_cant": "Exact amounts and frames, for all states.", "anchors": ["pallets/loans/src/lib.rs: mint, redeem, redeem_all, borrow, repay_borrow, collateral_asset, liquidate_borrow, add_reserves, reduce_reserves, add_reward, withdraw_missing_reward"]}
{"id": "C117", "title": "Loans: valid calls are accepted", "statement": "Supplying within the cap, redeeming and borrowing within the account's liquidity and the pool's cash, repaying up to the debt, switching collateral and claiming rewards succeed whenever the caller has the tokens and the numbers fit into 128 bits; all limits are inclusive.", "quantifier": "every reachable state, caller, market and amount", "why_tests_cant": "Liveness over all states: no reachable bookkeeping (reward indices, interest snapshots) can block a valid call.", "anchors": ["pallets/loans/src/lib.rs: mint, redeem, borrow, repay_borrow, collateral_asset, claim_reward_for_market"]}
{"id": "C118", "title": "Loans: the record of earned interest", "statement": "Supplying and redeeming add to the caller's earned interest exactly its ptokens times the growth of the exchange rate since it was last settled (rounded down); no other call changes any such record and it never falls; a liquidation repays at most the close factor of the debt not covered by liquidation-free collateral.", "quantifier": "every state, call and account", "why_tests_cant": "Exact amounts and frame over all calls. (Finding: ptokens received by transfer count as earned, C118_transfer_counts_as_earned.)", "anchors": ["pallets/loans/src/lib.rs: update_earned_stored, liquidate_borrow_allowed"]}
{"id": "C119", "title": "Crowdloans: the bonus stream", "statement": "On a runtime that connects the streaming pallet, a claim with a bonus opens exactly one stream: from the crowdloan account to the claimant, over contribution times bonus rate converted from relay to native decimals (rounded down, capped), between the configured times, not cancellable; without a bonus none. On a runtime that does not connect it, claims never open a stream. No other running stream changes.", "quantifier": "every reachable state, claimant, vault, decimals and bonus configuration", "why_tests_cant": "All decimals and amounts, including the overflow cases. (Finding: a bonus below one unit per second makes the whole claim fail, C119_small_bonus_blocks; heiko and vanilla configure `type Streaming = ()`, so that a configured bonus is silently never paid, C119_no_streaming.)", "anchors": ["pallets/crowdloans/src/lib.rs: do_claim_for, normalized_amount", "pallets/streaming/src/lib.rs: StreamingTrait::create"]}
{"id": "C120", "title": "Crowdloans: settings", "statement": "Setting the VRF delay, the proxy address or a lease's bonus changes exactly that setting; a bonus is accepted exactly for a lease whose first period is not after its last and a stream that ends after it starts.", "quantifier": "every state and setting", "why_tests_cant": "Frame over the whole state.", "anchors": ["pallets/crowdloans/src/lib.rs: set_vrf, update_proxy, update_leases_bonus"]}
{"id": "C121", "title": "EVM ABI: what precompiles write and read is the Solidity ABI", "statement": "For every list of argument types built from integers, booleans, addresses, hashes, byte strings, arrays and tuples, and all values of them, the bytes a precompile produces (and the calldata with selector) are exactly the Solidity ABI encoding, decoding them returns the same selector and values and two different values never have the same encoding.", "quantifier": "every type, every value that fits it, every trailing garbage", "why_tests_cant": "Type expressions nest without bound; needs induction over types and values.", "anchors": ["precompiles/utils/src/data.rs: EvmDataReader, EvmDataWriter, EvmData"]}
{"id": "C122", "title": "EVM ABI: hostile calldata cannot panic a precompile", "statement": "Whatever bytes a caller sends, decoding them at any argument types either returns values or reverts; it never panics (no out-of-range slice, no arithmetic overflow), and a decoded array is never longer than the calldata that was sent.", "quantifier": "every byte string and every argument type", "why_tests_cant": "Adversarial input: all byte strings.", "anchors": ["precompiles/utils/src/data.rs: EvmDataReader::move_cursor, read_pointer, Vec::read, Bytes::read"]}
{"id": "C123", "title": "EVM XCM: multilocations survive the EVM boundary", "statement": "Encoding a multilocation and decoding the bytes returns the same multilocation.", "quantifier": "every multilocation", "why_tests_cant": "Refuted: the encoder of a network id writes extra length bytes the decoder does not expect, so Ethereum/ByFork networks are misread (C123_refuted, C123_ethereum_misread). Proved for all multilocations without those networks.", "anchors": ["precompiles/utils/src/data/xcm.rs: network_id_to_bytes, network_id_from_bytes, impl EvmData for Junction, MultiLocation"]}
{"id": "C124", "title": "EVM XCM: hostile multilocations cannot panic a precompile", "statement": "Whatever bytes are given as junction, decoding returns a junction or reverts.", "quantifier": "every byte string", "why_tests_cant": "Refuted: a GeneralKey junction whose declared length differs from the copied slice panics (C124_refuted). Proved for all byte strings where the key sizes agree.", "anchors": ["precompiles/utils/src/data/xcm.rs: impl EvmData for Junction"]}
{"id": "C125", "title": "Native ERC-20: exact behaviour of every function", "statement": "Calling the native token contract with the ABI calldata of totalSupply, name, symbol, decimals, balanceOf, allowance, nonces, approve, transfer and transferFrom does exactly what ERC-20 says: the views return the ABI encoded values and change nothing; approve replaces the allowance; transfer succeeds exactly when the runtime's call filter lets transfers through and the amount can leave the caller and arrive, and transferFrom when also the caller's allowance covers it (or the caller is the owner), and then moves exactly that amount, takes it off exactly that allowance, returns true and logs the event.", "quantifier": "every calldata tail, argument, caller, state and runtime configuration", "why_tests_cant": "Exactness over all 256-bit arguments and all states, at the level of bytes.", "anchors": ["precompiles/balances-erc20/src/lib.rs: execute, total_supply, balance_of, allowance, approve, transfer, transfer_from"]}
{"id": "C126", "title": "Native ERC-20: whatever is sent, nobody loses tokens without consent", "statement": "Whatever bytes are sent to the native token contract, an account that is not the caller loses tokens only if it had approved the caller, and at most the rest of that allowance (which is reduced by it), and its allowances change only by being spent or by a permit carrying its own valid signature.", "quantifier": "every byte string, call context, state and account", "why_tests_cant": "Adversarial input: all byte strings.", "anchors": ["precompiles/balances-erc20/src/lib.rs: execute, transfer_from", "precompiles/balances-erc20/src/eip2612.rs: permit"]}
{"id": "C127", "title": "Native ERC-20: a passive owner never loses more than it approved", "statement": "Over any history of calls by others, an account's balance falls by no more than its spenders' allowances have fallen (plus, per call, less than one existential deposit, which the chain takes when an account falls below it).", "quantifier": "every history of any length with arbitrary calldata", "why_tests_cant": "Histories of unbounded length.", "anchors": ["precompiles/balances-erc20/src/lib.rs: transfer_from"]}
{"id": "C128", "title": "Native ERC-20: permits bind and cannot be replayed", "statement": "A permit is accepted exactly when it has not expired and the signature over owner, spender, value, deadline, the owner's current nonce, token name, chain id and contract address was made by the owner; it then sets exactly that allowance and uses up the nonce. Two different permits, or the same permit for another token or chain, never have the same signed digest unless the hash function collides on the strings hashed for them, nonces never fall, and so no signature is accepted twice in any history.", "quantifier": "every permit, signature, history and hash function", "why_tests_cant": "Replay over histories of unbounded length; binding for all field values.", "anchors": ["precompiles/balances-erc20/src/eip2612.rs: permit, generate_permit, compute_domain_separator, nonces"]}
{"id": "C129", "title": "Native ERC-20: deposits give the value back, withdrawals change nothing", "statement": "Calling deposit, an unknown function or sending plain value to the native token contract returns the whole value that was sent; withdraw succeeds exactly for at most the spendable balance and changes no balance.", "quantifier": "every call, value and state in which nobody falls below the existential deposit", "why_tests_cant": "All states and values.", "anchors": ["precompiles/balances-erc20/src/lib.rs: deposit, withdraw, execute"]}
{"id": "C130", "title": "Native ERC-20: no call creates or destroys tokens", "statement": "Whatever bytes are sent to the native token contract, the total supply stays the same and balances that added up to it still do.", "quantifier": "every byte string, context and state", "why_tests_cant": "Adversarial input; sums over unboundedly many accounts.", "anchors": ["precompiles/balances-erc20/src/lib.rs: execute"]}
{"id": "C131", "title": "Native ERC-20: static calls change nothing and non-payable functions refuse value", "statement": "A call to the native token contract in a static context leaves the state as it is, and value sent along with transfer makes the call fail.", "quantifier": "every calldata and context", "why_tests_cant": "Refuted: the result of the modifier check is dropped, so a static call can approve or transfer and value sent with transfer stays on the contract's account (C131_static_refuted, C131_payable_refuted). Proved: the functions that are not meant to change anything do not.", "anchors": ["precompiles/balances-erc20/src/lib.rs: execute", "precompiles/utils/src/lib.rs: check_function_modifier"]}
{"id": "C132", "title": "Asset ERC-20: the functions do what ERC-20 says", "statement": "At the contract address of an existing asset: totalSupply, name, symbol, decimals, minimumBalance, balanceOf, allowance and nonces return the stored data ABI encoded; the functions that dispatch a call of the assets pallet need the runtime's call filter to let it through (see C200); apart from that approve succeeds exactly when the asset is live and the caller can pay the approval deposit, and sets exactly that allowance; transfer succeeds exactly when the asset is live, the sender is not frozen and has the amount, and the recipient ends at or above the minimum balance without overflow, and moves exactly the amount (or everything when the remainder would be below the minimum balance); transferFrom needs an allowance of at least the amount when the caller is not the owner and takes exactly the amount off it. Each logs the standard event and changes nothing else.", "quantifier": "every asset, caller, arguments, trailing bytes and state", "why_tests_cant": "Exact success conditions and exact effects over all states and arguments.", "anchors": ["precompiles/assets-erc20/src/lib.rs: execute, balance_of, allowance, approve, approve_inner, transfer, transfer_from"]}
{"id": "C133", "title": "Asset ERC-20: nobody loses tokens or allowances without consent", "statement": "Whatever bytes are sent to an asset's contract: no other asset, no approval of another asset and no whole native balance changes, and an account that did not make the call loses tokens only to a spender within the allowance it gave (plus a remainder below the minimum balance) or by a burn of the asset's admin; its allowances change only by being spent or by a permit that its own key signed for the current nonce.", "quantifier": "every byte string, context and state, every account but the caller", "why_tests_cant": "Adversarial input in unboundedly many states.", "anchors": ["precompiles/assets-erc20/src/lib.rs: execute", "precompiles/assets-erc20/src/eip2612.rs: permit"]}
{"id": "C134", "title": "Asset ERC-20: approval deposits stay covered and come back", "statement": "The deposits recorded for an account's approvals are always covered by its reserved native balance, whatever bytes are sent to asset contracts; when an approval is spent to the end its owner gets the whole deposit back. (Setting an allowance to 0 keeps the deposit.)", "quantifier": "every byte string, context and state", "why_tests_cant": "A sum over unboundedly many approvals, preserved by arbitrary input.", "anchors": ["precompiles/assets-erc20/src/lib.rs: approve_inner, transfer_from"]}
{"id": "C135", "title": "Asset ERC-20: only the issuer mints and only the admin burns", "statement": "Where the runtime's call filter lets mint and burn through: mint of an amount above 0 succeeds exactly for the issuer of a live asset when nothing overflows and the recipient reaches the minimum balance, and adds exactly the amount to balance and supply; burn of an amount above 0 succeeds exactly for the admin of a live asset on an existing, unfrozen account, and destroys the amount, or all there is if less.", "quantifier": "every asset, caller, arguments and state", "why_tests_cant": "Exact success conditions and effects over all states.", "anchors": ["precompiles/assets-erc20/src/lib.rs: mint, burn"]}
{"id": "C136", "title": "Asset ERC-20: permits bind and cannot be replayed", "statement": "A permit is accepted exactly when it has not expired, the signature over its fields, the owner's current nonce at this address and this token contract was made by the owner, the asset is live, the owner can pay the deposit and the runtime's call filter lets approvals through (see C200); it then has the effect of the owner's approve and uses up the nonce. Nonces never fall, and in no history are two accepted permits (of any two asset contracts or addresses) for the same signed message unless the hash function collides on the strings hashed for them.", "quantifier": "every permit, signature, history and hash function", "why_tests_cant": "Replay over histories of unbounded length and over all contracts.", "anchors": ["precompiles/assets-erc20/src/eip2612.rs: permit, generate_permit, compute_domain_separator, nonces"]}
{"id": "C137", "title": "EVM calls reach the right token contract", "statement": "Address 2050 and no other is the native token; an address is an asset's contract exactly when its first four bytes are ff and its last four are the number of an existing asset; the address derived from an asset's number leads back to it and differs for different assets; a token contract is never run in the context of another address (DELEGATECALL, CALLCODE).", "quantifier": "every address, context, asset number and state", "why_tests_cant": "All 160-bit addresses.", "anchors": ["runtime/common/src/precompiles.rs: execute, is_precompile, used_addresses", "runtime/parallel/src/lib.rs: address_to_asset_id, asset_id_to_address"]}
{"id": "C138", "title": "Asset ERC-20: the supply is the sum of the balances", "statement": "Whatever bytes are sent to asset contracts, an asset whose supply was the sum of its balances still is so; the supply rises only when the asset's issuer calls and falls only when its admin calls; roles, minimum balance, status, frozen accounts and name never change.", "quantifier": "every byte string, context and state, every asset", "why_tests_cant": "A sum over unboundedly many accounts, adversarial input.", "anchors": ["precompiles/assets-erc20/src/lib.rs: execute"]}
{"id": "C139", "title": "Asset ERC-20: static calls change nothing and value is refused", "statement": "A call to an asset contract in a static context leaves the state as it is, and a call that brings native value fails.", "quantifier": "every calldata and context", "why_tests_cant": "The first part is refuted: permit is classified as a view function and is accepted in a static call (C139_static_refuted). Proved: every other static call changes nothing, a static permit has only the effect of the signer's approve, and value is always refused.", "anchors": ["precompiles/assets-erc20/src/lib.rs: execute", "precompiles/utils/src/lib.rs: check_function_modifier"]}
{"id": "C140", "title": "Asset ERC-20: a passive owner never loses more than it has approved", "statement": "Over any history of calls by others than the asset's admin, an account that does nothing itself and signs no permit loses at most what its spenders' allowances have gone down by, plus less than one minimum balance per call.", "quantifier": "every history of calls with arbitrary calldata, interleaved with anything else on the chain", "why_tests_cant": "Histories of unbounded length.", "anchors": ["precompiles/assets-erc20/src/lib.rs: transfer_from"]}
{"id": "C141", "title": "Asset registry: an asset is accepted for fees exactly if it has a rate", "statement": "After any sequence of registry calls, payment_is_supported is true for an asset type exactly if get_units_per_second has a value for it, and the stored list of accepted types is ascending, without repetition, and lists exactly the accepted types.", "quantifier": "every sequence of registry calls, every asset type", "why_tests_cant": "The list is searched with binary search, which is only correct on sorted lists: an invariant over unbounded histories.", "anchors": ["pallets/asset-registry/src/lib.rs: update_asset_units_per_second, update_asset_type, remove_fee_payment_asset, deregister_asset, payment_is_supported"]}
{"id": "C142", "title": "Asset registry: ids and types determine each other", "statement": "After any sequence of registry calls an asset id has a type exactly if that type leads to that id.", "quantifier": "every sequence of registry calls, every id and type", "why_tests_cant": "Refuted: one type can be registered for two ids, and updating an asset to the type it has removes the type's id (C142_refuted, C142_same_type_update). Proved: the id found for a type always has that type; the full equivalence in histories that never bring in a type already in use.", "anchors": ["pallets/asset-registry/src/lib.rs: register_asset, update_asset_type, deregister_asset, get_asset_id, get_asset_type"]}
{"id": "C143", "title": "Asset registry: each call does exactly what it says", "statement": "Only the update origin can change the registry. register_asset is accepted exactly for new ids and links id and type; a fee rate can be set exactly for types that lead to an id; update_asset_type to a different type moves the id and the fee rate; remove_fee_payment_asset and deregister_asset remove exactly the rate, or the link and the rate; nothing else changes.", "quantifier": "every state, argument and origin", "why_tests_cant": "Exact success conditions and effects over all states.", "anchors": ["pallets/asset-registry/src/lib.rs: register_asset, update_asset_units_per_second, update_asset_type, remove_fee_payment_asset, deregister_asset"]}
{"id": "C144", "title": "Asset registry: an asset accepted for fees is registered", "statement": "An asset type accepted for fee payment leads to an asset id, so that fees taken in it can be booked.", "quantifier": "every sequence of registry calls, every asset type", "why_tests_cant": "Refuted: an update of an accepted asset to the type it already has removes the id but not the acceptance (C144_refuted). Proved for all histories without such an update.", "anchors": ["pallets/asset-registry/src/lib.rs: update_asset_type, update_asset_units_per_second"]}
{"id": "C145", "title": "XCM fees: execution weight costs exactly the registered rate", "statement": "Buying weight succeeds exactly if the first fungible asset offered is accepted for fees and there is enough of it; it takes exactly rate times weight per second, rounded down, of that asset and nothing of any other. Refunds are paid in the asset of the first purchase at its rate.", "quantifier": "every holding, weight, rate table and trader state", "why_tests_cant": "Arithmetic over all 64-bit weights and 128-bit rates.", "anchors": ["pallets/traits/src/xcm.rs: FirstAssetTrader, buy_weight, refund_weight"]}
{"id": "C146", "title": "XCM fees: a message never gets back more than it paid", "statement": "Over the life of a message the refunds of an asset do not exceed the fees taken in it.", "quantifier": "every sequence of purchases and refunds", "why_tests_cant": "Refuted at the trader: each purchase is added to the trader's weight twice, so twice the weight can be refunded, and a purchase in a cheap asset can be refunded in an expensive one (C146_refuted, C146_cross_asset); a refund can panic (C146_refund_panics). Proved: when refunds are requested of no more weight than the first purchase (as the executor does for paid messages) the session does not panic, refunds stay within the payments of each asset and the revenue is exactly the difference.", "anchors": ["pallets/traits/src/xcm.rs: buy_weight, refund_weight, drop"]}
{"id": "C147", "title": "XCM fees: every fee is given back or reaches the treasury", "statement": "What is taken in fees of an asset is exactly what is refunded plus what is booked as revenue, and revenue of a known asset is minted to the treasury in full.", "quantifier": "every sequence of purchases and refunds", "why_tests_cant": "Refuted: fees taken in a second asset are neither refunded nor booked (C147_refuted). Proved for sessions that pay in one asset.", "anchors": ["pallets/traits/src/xcm.rs: buy_weight, refund_weight, drop, XcmFeesToAccount::take_revenue"]}
{"id": "C148", "title": "XCM assets: deposits, withdrawals and transfers are exact", "statement": "An incoming deposit succeeds exactly if place and asset are known and the issuance stays in range, and gives the account exactly the amount (plus, for the relay chain's asset, the gift due from the gift account); a withdrawal destroys and a transfer moves exactly the amount; nothing else changes, and a failure creates nothing.", "quantifier": "every ledger, asset, location and configuration", "why_tests_cant": "Exact success conditions and effects over all states.", "anchors": ["pallets/traits/src/xcm.rs: deposit_asset, withdraw_asset, internal_transfer_asset"]}
{"id": "C149", "title": "XCM gifts: an account gets the gift at most once", "statement": "An account that received the native-token gift with a relay-chain deposit does not receive it again.", "quantifier": "every account and history", "why_tests_cant": "Refuted: sending the gift on and depositing again earns it again (C149_refuted). Proved: the gift only tops up the spendable balance to the gift amount, is never due to an account that has it, and never exceeds the gift fund; the exact thresholds (4.952 DOT on parallel, 0.099904 KSM on heiko).", "anchors": ["pallets/traits/src/xcm.rs: deposit_asset", "runtime/parallel/src/lib.rs: GiftConvert", "runtime/heiko/src/lib.rs: GiftConvert"]}
{"id": "C150", "title": "XCM assets: supply follows deposits and withdrawals", "statement": "Over any sequence of deposits, withdrawals and transfers, successful or not, the issuance of an asset is what it was plus deposits minus withdrawals, balances keep adding up to it, and an account loses units only as the source of a withdrawal or transfer (or as the gift account).", "quantifier": "every sequence of adapter operations, every asset and account", "why_tests_cant": "Histories of unbounded length.", "anchors": ["pallets/traits/src/xcm.rs: deposit_asset, withdraw_asset, internal_transfer_asset"]}
{"id": "C151", "title": "XCM locations: local and absolute names mean the same asset", "statement": "An asset of this chain resolves to the same id by its local and by its absolute location; foreign locations resolve to exactly what is registered; with a one-to-one registry two locations resolve to one asset only if they are the local and absolute names of one place. An asset registered under a local location is never found.", "quantifier": "every location, registry and parachain number", "why_tests_cant": "All locations of unbounded variety.", "anchors": ["pallets/traits/src/xcm.rs: XcmAssetRegistry::convert, get_asset_id, CurrencyIdConvert::convert"]}
{"id": "C152", "title": "Emergency switch: exactly the switched-off calls are blocked", "statement": "A user's transaction with a call that is on neither list or is switched off costs fee and nonce and does nothing else, and a listed call that is on reaches its pallet. The switches are at any time exactly what the toggle events say, only root and the council make such events, they can flip any switch in every state (no lock-out), and a pallet's switch concerns the calls of that pallet and no others.", "quantifier": "every state, history of transactions and call", "why_tests_cant": "Histories of unbounded length and all combinations of switches.", "anchors": ["pallets/emergency-shutdown/src/lib.rs: toggle_pallet, toggle_call, contains", "runtime/parallel/src/lib.rs: WhiteListFilter, BaseCallFilter"]}
{"id": "C153", "title": "Call filter: nothing slips through nested calls of a signed transaction", "statement": "Everything that a signed transaction carries out, at any depth of batches, derivative accounts and proxies, is a call that users may make.", "quantifier": "every signed transaction and state", "why_tests_cant": "Call trees of unbounded depth.", "anchors": ["runtime/parallel/src/lib.rs: BaseCallFilter", "pallets/emergency-shutdown/src/lib.rs: contains"]}
{"id": "C154", "title": "Call filter: no transaction of a user gets around it", "statement": "No transaction of a user, signed or unsigned, ever carries out a call that is switched off or on neither list.", "quantifier": "every transaction and state", "why_tests_cant": "Refuted: EVMSignatureCall::call dispatches with dispatch_bypass_filter (C154_refuted). Proved: only the outermost call inside a signature call gets around, all below it is filtered, and switching off that pallet closes the door.", "anchors": ["pallets/evm-signatures/src/lib.rs: call", "runtime/parallel/src/lib.rs: BaseCallFilter"]}
{"id": "C155", "title": "Proxies: a transaction acts only for accounts its signer controls, within the proxy type", "statement": "Everything a signed transaction carries out is done for accounts the signer controls fully (itself, derivative accounts, unlimited proxies, transitively) or is listed by a limited proxy type that was given to such an account. All other accounts keep native balance, nonce and proxies, and no new power comes out of the transaction.", "quantifier": "every signed transaction (also ones that change proxies) and state", "why_tests_cant": "Call trees of unbounded depth over all proxy graphs.", "anchors": ["runtime/parallel/src/lib.rs: ProxyType, InstanceFilter::filter"]}
{"id": "C156", "title": "EVM signature calls: only with the account's signature over this call and nonce", "statement": "An unsigned transaction does something for an account only if it is a signature call whose signer signed exactly that call with its current nonce and controls the account; and with such a signature the fee goes to the treasury, the nonce moves on by one and the call is carried out for the signer, or, if it fails, only fee and nonce are gone.", "quantifier": "every unsigned transaction, state and runtime", "why_tests_cant": "Refuted for heiko and vanilla, where VerifySignature is false: anybody can act for any account (C156_refuted_unverified). Proved for parallel and kerria.", "anchors": ["pallets/evm-signatures/src/lib.rs: call, valid_signature", "pallets/evm-signatures/src/ethereum.rs: verify", "runtime/heiko/src/lib.rs: VerifySignature", "runtime/vanilla/src/lib.rs: VerifySignature"]}
{"id": "C157", "title": "EVM signature calls: no replay", "statement": "A signature call that has had an effect has none when it is sent again, whatever happened in between.", "quantifier": "every signature call and history", "why_tests_cant": "Refuted: the nonce is forgotten when the account is removed (C157_refuted). Proved: no replay, and no second call with the same nonce, as long as the account is not removed.", "anchors": ["pallets/evm-signatures/src/lib.rs: call"]}
{"id": "C158", "title": "EVM signature calls: being included costs the signer something", "statement": "A signature call that the transaction pool accepts takes the fee or at least the nonce when it is included in a block.", "quantifier": "every signature call and state", "why_tests_cant": "Refuted: the pool does not check the balance, and without it the whole call is undone and stays valid (C158_refuted). Proved: the pool accepts exactly calls with the current nonce and a good signature, and signers with enough money are charged.", "anchors": ["pallets/evm-signatures/src/lib.rs: call, validate_unsigned"]}
{"id": "C159", "title": "EVM signatures: signed bytes determine chain, nonce and call", "statement": "What is signed determines the magic number, the nonce and the call, so a signature is good for one call, one nonce and one chain only.", "quantifier": "every call, nonce and pair of runtimes", "why_tests_cant": "Refuted for pairs of runtimes with the same magic number (parallel/kerria 2012, heiko/vanilla 2085; C159_refuted). Proved: injectivity of the signed bytes, separation of the two families.", "anchors": ["pallets/evm-signatures/src/lib.rs: valid_signature", "runtime/parallel/src/lib.rs: CallMagicNumber"]}
{"id": "C160", "title": "EVM withdrawals: only the owner of an address takes its money", "statement": "withdraw succeeds only for the account whose first 20 bytes are the address, moves exactly the amount from the address's account to the caller and nothing else; and the owner can take out any amount up to all of it.", "quantifier": "every ledger, origin, asset, address and amount", "why_tests_cant": "All states and amounts.", "anchors": ["pallets/evm-signatures/src/lib.rs: withdraw, transfer"]}
{"id": "C161", "title": "Requests to the relay chain are what was asked for, and cost exactly the fee set", "statement": "A staking, crowdloan or proxy request of another pallet is accepted exactly if the fee set for it is in the helper account and the message can be sent. Then exactly the fee is burnt from that account and one message is sent: it withdraws the fee, pays with it, makes the calls meant by the request in order, reports to a fresh query registered with the caller's callback and deadline, and returns what is left. Over any history the issuance of the relay token falls by exactly what the messages withdraw for fees, and no two messages report to the same query.", "quantifier": "every request, state, configuration and history, with the rest of the chain free to move money and make queries", "why_tests_cant": "Eleven copies of the same message-building code with instructions inserted by position; sums and freshness over unbounded histories.", "anchors": ["pallets/xcm-helper/src/lib.rs: do_ump_transact, report_outcome_notify, append_transact, do_bond .. do_nominate"]}
{"id": "C162", "title": "Relay-chain fees and weights are never zero", "statement": "Whatever has been set, every request has a non-zero fee and a non-zero weight; a setting is accepted exactly if neither is zero, and changes only the entry of that request.", "quantifier": "every history of settings and requests", "why_tests_cant": "Quantifies over all histories of governance settings.", "anchors": ["pallets/xcm-helper/src/lib.rs: update_xcm_weight_fee", "pallets/traits/src/ump.rs: XcmWeightFeeMisc"]}
{"id": "C163", "title": "A success report from the relay chain means that the calls succeeded", "statement": "If the relay chain reports that a request was carried out, then each of its calls succeeded; a failed call is reported as a failure.", "quantifier": "every relay chain (arbitrary rules, state, prices and weights), request and state", "why_tests_cant": "Needs the semantics of the other chain's executor, for any behaviour of the calls there.", "anchors": ["pallets/xcm-helper/src/lib.rs: report_outcome_notify", "pallets/liquid-staking/src/lib.rs: notification_received"]}
{"id": "C164", "title": "Requests with two calls are all-or-nothing", "statement": "A request that stands for two calls (transfer and bond, transfer and bond more, withdraw and transfer back, fund and contribute by proxy) is carried out entirely or not at all.", "quantifier": "every relay chain, request with two calls and state", "why_tests_cant": "Depends on failures on another chain between two instructions.", "anchors": ["pallets/xcm-helper/src/lib.rs: append_transact, do_bond, do_bond_extra, do_withdraw_unbonded, do_proxy_contribute"]}
{"id": "C165", "title": "The bytes of relay-chain calls are unambiguous", "statement": "The bytes sent for a relay-chain call are bytes that begin with the network's numbers for pallet and function and determine the call: different calls have different bytes, and the bytes of one are never the beginning of those of another, at any nesting of proxies, derivative accounts and batches.", "quantifier": "every call with arguments in the range of their types, for both networks", "why_tests_cant": "Infinitely many nested calls; compact integers have four overlapping formats.", "anchors": ["pallets/traits/src/ump.rs: PolkadotCall, KusamaCall and the call enums"]}
{"id": "C166", "title": "A governance lock protects the locked money", "statement": "Once governance has locked an amount of an account's native money, money leaves the account's free balance only if at least the locked amount remains, until governance changes that lock.", "quantifier": "every state, account and amount, and every later history of transfers, mints, burns and locks of other pallets", "why_tests_cant": "Quantifies over all later histories, and over accounts that do not exist yet when they are locked.", "anchors": ["pallets/currency-adapter/src/lib.rs: force_set_lock, transfer, burn_from", "runtime/parallel/src/lib.rs: pallet_balances::Config"]}
{"id": "C167", "title": "Lock administration changes one lock", "statement": "A lock can be set and removed through the adapter exactly for the native currency. Setting an amount other than zero makes it the adapter's lock of that account whatever it was before; zero changes nothing; removing takes that lock away. The locks of other pallets, of other accounts and all balances stay, and what remains frozen is the largest remaining lock.", "quantifier": "every state, currency, account and amount", "why_tests_cant": "Any number of locks of other pallets may be present.", "anchors": ["pallets/currency-adapter/src/lib.rs: force_set_lock, force_remove_lock"]}
{"id": "C168", "title": "The multi-currency interface behaves as a ledger", "statement": "Seen through balances and issuance, every transfer between two accounts, mint and burn that succeeds and leaves no remainder below the minimum balance is the corresponding step of a simple ledger. Conversely a transfer the ledger allows succeeds if the sender's money is free and the receiver reaches the minimum balance.", "quantifier": "every state whose balances add up, every currency (native or asset), account and amount", "why_tests_cant": "Two pallets with different rules stand behind the interface; all states of both are meant.", "anchors": ["pallets/currency-adapter/src/lib.rs: transfer, mint_into, burn_from, balance, total_issuance"]}
{"id": "C169", "title": "The multi-currency interface conserves money", "statement": "In every currency the balances add up to the issuance, for ever. A transfer between two accounts moves the amount and changes no issuance; if less than the minimum balance would remain, the remainder goes to the treasury (native) or to the receiver (assets). A mint adds exactly the amount; a burn removes exactly what it reports: the amount, or the whole balance where less than the minimum would remain.", "quantifier": "every history of transfers, mints, burns, locks and freezes of any currencies", "why_tests_cant": "Dust arises for particular combinations of balances, amounts and minimum balances.", "anchors": ["pallets/currency-adapter/src/lib.rs: transfer, mint_into, burn_from"]}
{"id": "C170", "title": "What is shown as spendable can be spent", "statement": "A transfer between two accounts succeeds exactly if the amount does not exceed the balance shown as reducible for it (with or without keeping the account alive), and the receiver can take what is sent.", "quantifier": "every state, currency, pair of different accounts and amount above zero", "why_tests_cant": "The reducible balance is computed from locks, reserves, references and minimum balances in a different way than the checks of a transfer.", "anchors": ["pallets/currency-adapter/src/lib.rs: reducible_balance, transfer"]}
{"id": "C171", "title": "Upgrades repeat no correction", "statement": "The storage migration that the current runtime runs at every upgrade corrects the invested amount of one crowdloan vault. Once it has done so, later upgrades change nothing, whatever contributions, refunds and redemptions took place in between; and it never touches any other vault, balance or setting.", "quantifier": "all storages, all histories of calls between two upgrades", "why_tests_cant": "The migration is guarded only by a version that it does not raise; whether it is harmless depends on everything that happened since the last upgrade.", "anchors": ["pallets/crowdloans/src/migrations.rs: v4::migrate", "runtime/parallel/src/lib.rs: CrowdloansMigrationV4 / Executive"]}
{"id": "C172", "title": "Crowdloan migrations add vaults without mixing their contributions", "statement": "Each crowdloan migration runs only once, on the version before it; it adds its vaults, leaves all others, all contributions and all balances alone, and no two vaults ever share the child storage that holds their contributions.", "quantifier": "all storages before the migration", "why_tests_cant": "The migrations write fixed indices; whether these are free depends on how many vaults the chain has created.", "anchors": ["pallets/crowdloans/src/migrations.rs: v1::migrate, v2::migrate, v3::migrate"]}
{"id": "C173", "title": "Loans migration keeps markets valid", "statement": "The loans migration to version 3 keeps every setting of every market and the reward speeds, runs once, and every market that satisfied the old rules satisfies the rules that add_market and update_market enforce now (in particular a liquidation threshold below 100% and not below the collateral factor).", "quantifier": "all markets and storages of version 2", "why_tests_cant": "The rules are checked when a market is added, not by the migration; rounding and saturation of Permill arithmetic decide.", "anchors": ["pallets/loans/src/migrations.rs: v3::migrate", "pallets/loans/src/lib.rs: add_market, update_market"]}
{"id": "C174", "title": "Registry migration keeps assets, fee rates and payability", "statement": "The migration of the asset registry from XCM v2 to v3 locations keeps for each location its asset and its fee rate, for each asset its location, and whoever could pay fees in an asset can do so afterwards; if a location in use cannot be converted it stops.", "quantifier": "all reachable registries, all iteration orders and conversions", "why_tests_cant": "The list of accepted assets is searched by bisection, so it depends on the order of locations, which differs between the two formats.", "anchors": ["pallets/asset-registry/src/migration.rs: XcmV2ToV3AssetManager::on_runtime_upgrade", "pallets/asset-registry/src/lib.rs: payment_is_supported"]}
{"id": "C175", "title": "Precompile addresses get their stub code once", "statement": "The EVM migration gives every precompile address the code that reverts on a chain where address 1 has no code, touches no other address, and does nothing when run again or where address 1 already has code.", "quantifier": "all EVM storages", "why_tests_cant": "It must hold for whatever contracts are deployed when the upgrade comes.", "anchors": ["runtime/common/src/evm_migration.rs: InitEvmGenesis::on_runtime_upgrade"]}
{"id": "C176", "title": "Relay-chain requests are sent exactly when allowed", "statement": "bond, bond_extra, unbond, rebond, withdraw_unbonded and nominate of the liquid-staking pallet send exactly one request with the next query id, burn exactly the fee configured for that kind of request from the XCM helper's account and lock exactly the amount in the matching half of the pool, and they do so exactly if the derivative index is configured, the account has (or for a first bond has not) a ledger, the minimum, the cap per account, the chunk limit and the unlocked part of the pool allow it, the helper can pay and the message can be sent. An amount of 0 does nothing; a withdrawal is asked for exactly if a chunk with a non-zero amount is due.", "quantifier": "every configuration, state, derivative index and amount", "why_tests_cant": "Boundary combinations of six conditions in arbitrary states; a test checks single values.", "anchors": ["pallets/liquid-staking/src/lib.rs: do_bond, do_bond_extra, do_unbond, do_rebond, do_withdraw_unbonded, do_nominate", "pallets/xcm-helper/src/lib.rs"]}
{"id": "C177", "title": "Fast and instant unstaking do exactly what they say", "statement": "unstake through the matching pool is accepted exactly from the minimum on, moves no token and raises the account's request by the amount minus the fee share, capped by what the account holds; cancel_unstake always succeeds and lowers only the caller's request; unstake through the lending pallet pays the value of the amount minus the fee share and minus the instant fee at once, unstake through the relay chain pays nothing yet, and both burn exactly the amount.", "quantifier": "every configuration, state, account, amount and provider", "why_tests_cant": "Exact amounts after three roundings hold for all rates, factors and balances only by proof.", "anchors": ["pallets/liquid-staking/src/lib.rs: unstake, cancel_unstake, do_loans_instant_unstake"]}
{"id": "C178", "title": "Eras advance and requests are triggered exactly when due", "statement": "At the start of a block the era advances by the number of whole era lengths since the recorded start, which then becomes the current relay block; the requests of an era are sent in the first block at or after the configured offset in which that succeeds, never twice in an era, and if they fail the block changes nothing. A storage proof sets the era exactly if it shows the relay chain's era, and never lowers it. Ends of blocks only clear the marks of updated ledgers.", "quantifier": "every configuration, state, relay block and era", "why_tests_cant": "Schedules of blocks, eras and failures cannot be enumerated.", "anchors": ["pallets/liquid-staking/src/lib.rs: on_initialize, on_finalize, do_advance_era, set_current_era, force_advance_era, force_set_current_era, force_set_era_start_block, offset"]}
{"id": "C179", "title": "Exchange rate and commission formula", "statement": "When an era begins the exchange rate becomes the maximum of the old one and (active bonds + to be staked - to be unstaked) / liquid issuance rounded down, and stays if there are no liquid tokens or the backing is negative. A reported staking ledger is accepted exactly if it is the relay chain's, shows more total and active stake and the same unlocking chunks, no request is open and the account was not updated in this block; it mints floor(k / (backing + reward - k)) of the issuance for the fee receiver, where k is the commission on the reward.", "quantifier": "every configuration, state, ledger and reward within u128", "why_tests_cant": "Exact fixed-point results for all amounts; acceptance boundaries in all states.", "anchors": ["pallets/liquid-staking/src/lib.rs: do_update_exchange_rate, get_inflate_liquid_amount, set_staking_ledger, force_set_staking_ledger"]}
{"id": "C180", "title": "Only governance calls change liquid-staking settings", "statement": "The reserve factors, the cap per account and the commission rate are changed only by their four governance calls, each of which accepts exactly its documented range; no other call, block hook or response from the relay chain changes them. Reserves are paid out exactly up to what is booked.", "quantifier": "every configuration, state and call", "why_tests_cant": "Absence of a side effect in every call and state is universal.", "anchors": ["pallets/liquid-staking/src/lib.rs: update_reserve_factor, update_unstake_reserve_factor, update_staking_ledger_cap, update_commission_rate, reduce_reserves, reduce_unstake_reserves"]}
{"id": "C181", "title": "Transferring vouchers keeps the sender's debts covered", "statement": "Whoever has debts covered by its collateral and transfers vouchers (ptokens) of one market to somebody else still has them covered afterwards, up to the rounding of a few units of the underlying; whoever is not covered can give away nothing of value. Its debts do not change.", "quantifier": "every configuration, reachable state, voucher id, sender, recipient and amount", "why_tests_cant": "The free value is converted with three roundings and a recorded exchange rate that may be stale; it must be compared with the actual rate in every reachable state.", "anchors": ["pallets/loans/src/ptoken.rs: transfer, transfer_ptokens_internal, reducible_asset", "pallets/loans/src/lib.rs: get_account_liquidity"]}
{"id": "C182", "title": "Ordinary debts stay backed by collateral that can be seized", "statement": "Collateral of the liquidation-free class (and auxiliary tokens) is never seized, everything else can be; the class is exactly what governance set; and whoever has its ordinary debts covered by ordinary collateral keeps them so covered when it transfers vouchers.", "quantifier": "every configuration, reachable state, sender, recipient and amount", "why_tests_cant": "Two collateral classes and their debts interact in all positions of an account.", "anchors": ["pallets/loans/src/lib.rs: update_liquidation_free_collateral, liquidate_borrow, get_lf_borrowed_amount, redeem_allowed", "pallets/loans/src/ptoken.rs: transfer, reducible_asset"]}
{"id": "C183", "title": "The voucher token interface tells the truth", "statement": "What the token interface of a voucher reports as free is all of an unpledged position, all of a pledged one if the rest covers the debts, and otherwise the free value divided by collateral factor, price and exchange rate; free vouchers and what can_withdraw admits can be transferred; a transfer moves exactly its amount, changes no other balance, no issuance, no debt and no money.", "quantifier": "every configuration, reachable state, voucher id, account and amount", "why_tests_cant": "Agreement of reports and calls has to hold in all states.", "anchors": ["pallets/loans/src/ptoken.rs: reducible_balance, can_withdraw, can_deposit, transfer, balance, total_issuance"]}
{"id": "C184", "title": "Which XCM messages are let in", "statement": "A message from another chain is run exactly if it weighs nothing, begins with the response to a query this chain expects from that origin, is a single version subscription or its end by the relay chain or a location one step below it, or brings assets and (after at most three ClearOrigin) buys at least its whole weight. It is run as sent, except that a paid message buys exactly its weight; every other message, and every message with too many instructions (nested ones included), has no effect.", "quantifier": "all messages, origins, weights and chain states", "why_tests_cant": "Messages are arbitrary nested lists of instructions written by other chains.", "anchors": ["runtime/parallel/src/lib.rs: Barrier, ParentOrSiblings, XcmConfig", "runtime/common/src/lib.rs: AllowKnownQueryResponses"]}
{"id": "C185", "title": "No XCM message runs unpaid", "statement": "A message from another chain that has any effect pays for its whole weight first, in an accepted asset at its registered rate.", "quantifier": "all messages, origins, rates and chain states", "why_tests_cant": "It quantifies over all messages that pass the barrier.", "anchors": ["runtime/common/src/lib.rs: AllowKnownQueryResponses", "runtime/parallel/src/lib.rs: Barrier", "pallets/traits/src/xcm.rs: FirstAssetTrader::buy_weight"]}
{"id": "C186", "title": "In whose name XCM messages act", "statement": "Every call dispatched by a message has an origin into which the message's origin, or a location inside it, converts: a parachain acts only as its own sovereign account, as itself, or as a location inside it; only the relay chain acts as root.", "quantifier": "all messages, with any descents of the origin, handlers and appendices", "why_tests_cant": "Messages can change their origin and run nested programs on errors.", "anchors": ["runtime/parallel/src/lib.rs: XcmOriginToTransactDispatchOrigin, LocationToAccountId"]}
{"id": "C187", "title": "Whose money an XCM message can take", "statement": "A message lowers balances only of accounts of its origin and of locations inside it (for a parachain: of its sovereign account), and native tokens of the gift account.", "quantifier": "all messages, assets, accounts and chain states", "why_tests_cant": "Messages can withdraw, transfer, trap, claim and refund in any order.", "anchors": ["runtime/parallel/src/lib.rs: LocalAssetTransactor, LocationToAccountId", "pallets/traits/src/xcm.rs: MultiCurrencyAdapter"]}
{"id": "C188", "title": "Only its reserve brings units of an asset", "statement": "A message from another chain does not increase the number of units of an asset (issued or trapped) unless it comes from the asset's reserve chain; fees, refunds and trapped assets included.", "quantifier": "all messages and histories of messages, all rates, all assets", "why_tests_cant": "Units move between ledger, holding register, fee trader and traps; rounding and double counting of weight matter.", "anchors": ["runtime/parallel/src/lib.rs: XcmConfig", "pallets/traits/src/xcm.rs: FirstAssetTrader, MultiCurrencyAdapter", "runtime/common/src/lib.rs: AllowKnownQueryResponses"]}
{"id": "C189", "title": "Every pallet's guarantees hold at the same time", "statement": "After any history of calls to the AMM, stableswap, farming, lending, streaming, liquid staking, crowdloans and bridge pallets, in any order and with the calls they make to each other, what each pallet sees is one of its own histories, so everything proved about one of them holds; and nothing is promised twice: of every asset, the balances of ordinary accounts, the reserves of all pools, everything owed by streams, farming pools, crowdloans and liquid staking are together at most the asset's total issuance.", "quantifier": "all histories of calls to all eight pallets interleaved with anything else that does not spend from their accounts", "why_tests_cant": "The interference of eight pallets over one ledger has unboundedly many interleavings; tests use one pallet at a time with the others mocked", "anchors": ["runtime/parallel/src/lib.rs: Config impls of all pallets", "pallets/crowdloans/src/lib.rs: redeem_and_lend_for", "pallets/liquid-staking/src/lib.rs: Loans calls", "pallets/crowdloans/src/lib.rs: Streaming calls"]}
{"id": "C190", "title": "Nobody else pays, and no pallet spends another pallet's funds", "statement": "A call lowers a balance only of the account that signed it, of an account governance names in it as payer (receiver of first LP tokens, payer of rewards or reserves), of accounts whose pending fast-unstake requests are matched, and of the accounts of the pallets that act in it; the account in which another pallet keeps what it owes never loses anything.", "quantifier": "all calls in all states reachable by any history of the eight pallets", "why_tests_cant": "Quantifies over all calls, accounts and histories", "anchors": ["runtime/parallel/src/lib.rs: PalletId constants", "pallets/amm/src/lib.rs: create_pool", "pallets/farming/src/lib.rs: dispatch_reward", "pallets/loans/src/lib.rs: add_reserves", "pallets/liquid-staking/src/lib.rs: fast_match_unstake"]}
{"id": "C191", "title": "Responses from the relay chain reach the pallet that asked", "statement": "Liquid staking and crowdloans never wait for the same XCM query, and a response delivered to the pallet that did not ask changes nothing.", "quantifier": "all histories of the two pallets and of other users of XCM queries, all responses", "why_tests_cant": "Depends on every interleaving of requests of two pallets over a shared counter", "anchors": ["pallets/xcm-helper/src/lib.rs: report_outcome_notify", "pallets/liquid-staking/src/lib.rs: notification_received", "pallets/crowdloans/src/lib.rs: notification_received"]}
{"id": "C192", "title": "Only its issuer mints or burns a token", "statement": "Whatever pools and bridged tokens are registered, a call changes the issuance only of the LP tokens of its own pallet's pools (AMM, stableswap), of external tokens (bridge), of the staking, liquid and collateral currency (liquid staking), of the relay currency and derivative tokens (crowdloans); farming, lending and streaming never change any issuance. The liquid token is minted and burnt by liquid staking only, derivative tokens by crowdloans only.", "quantifier": "all calls in all states reachable by any history of the eight pallets", "why_tests_cant": "Quantifies over all histories and all registered assets", "anchors": ["pallets/amm/src/lib.rs: create_pool", "pallets/stableswap/src/lib.rs: create_pool", "pallets/bridge/src/lib.rs: register_bridge_token", "pallets/liquid-staking/src/lib.rs: stake, unstake", "pallets/crowdloans/src/lib.rs: claim, redeem"]}
{"id": "C193", "title": "Only the owner's signature, or a listed decision, takes tokens from an account", "statement": "Whatever extrinsic of the nine pallets anybody dispatches with whatever origin, a balance of an account that is not a pallet's own falls only if that account signed the extrinsic, or governance (root, or more than half of the general council) names it as payer, or governance or an agent matches its own pending fast-unstake request, or governance or an automator redeems its expired derivative tokens to lend them for it. In particular nothing an ordinary user signs, and no unsigned extrinsic, response or minority motion, lowers anybody else's balance.", "quantifier": "all origins, all extrinsics, all accounts, all states reachable by any history of the pallets", "why_tests_cant": "Quantifies over all origins, extrinsics and histories", "anchors": ["pallets/amm/src/lib.rs: add_liquidity, remove_liquidity, create_pool", "pallets/router/src/lib.rs: swap_exact_tokens_for_tokens, swap_tokens_for_exact_tokens", "pallets/liquid-staking/src/lib.rs: ensure_origin", "pallets/crowdloans/src/lib.rs: ensure_origin!, redeem_and_lend_for", "runtime/parallel/src/lib.rs: EnsureRootOrMoreThanHalfGeneralCouncil"]}
{"id": "C194", "title": "Terms are set by governance only", "statement": "Whatever anybody but governance dispatches, in whatever state of all pallets together, fees and existing pools of the AMM and of stableswap, status, lock, cool-down and running reward of farming pools, lending markets and reward speeds, least stream deposits, staking parameters, and tokens, chains, caps, relayers and threshold of the bridge stay as they are; vault parameters of crowdloans change only by governance, automators or responses from the relay chain.", "quantifier": "all extrinsics of the nine pallets, all origins, all reachable states", "why_tests_cant": "Absence of a side effect of every call in every state is universal", "anchors": ["runtime/parallel/src/lib.rs: EnsureRootOrMoreThanHalfGeneralCouncil", "pallets/amm/src/lib.rs: create_pool, update_protocol_fee", "pallets/farming/src/lib.rs: create, set_pool_status, reset_pool_unlock_height", "pallets/loans/src/lib.rs: add_market, update_market", "pallets/bridge/src/lib.rs: register_bridge_token"]}
{"id": "C195", "title": "Nobody changes somebody else's position", "statement": "What an ordinary account signs changes nothing the pallets keep for another account: deposits, debts and rewards in lending, farming positions, unstaking requests, streams it has no part in, crowdloan contributions. The exceptions are liquidating the other account, sending it ptokens (which only adds to its deposit, keeps its collateral flag and its debts), and triggering that its own contribution is claimed by or paid back to it.", "quantifier": "all extrinsics of the nine pallets signed by any account that is neither agent nor automator, all other accounts, all reachable states", "why_tests_cant": "Absence of a side effect of every call in every state is universal", "anchors": ["pallets/loans/src/lib.rs", "pallets/loans/src/ptoken.rs", "pallets/farming/src/lib.rs", "pallets/streaming/src/lib.rs", "pallets/crowdloans/src/lib.rs: claim, withdraw", "pallets/liquid-staking/src/lib.rs"]}
{"id": "C196", "title": "Who may make which extrinsic, exactly", "statement": "Every extrinsic of the nine pallets is carried out for exactly those who may make it and rejected as bad origin for everybody else: users make their own operations with their own signature and depend on no role, vote or list; anybody triggers payments of vault contributions to their owners; agents, automators, the relay chain's replies, root's vote on the bridge and the runtime's hooks are limited to their own calls; governance does the rest and nothing of the users' business except redeeming deposits.", "quantifier": "all extrinsics of the nine pallets, all origins, all role assignments, all states", "why_tests_cant": "Quantifies over all extrinsics and origins; tests try a few wrong origins", "anchors": ["runtime/parallel/src/lib.rs: EnsureRootOrMoreThanHalfGeneralCouncil, impl Config for pallets", "pallets/liquid-staking/src/lib.rs: ensure_origin", "pallets/crowdloans/src/lib.rs", "pallets/loans/src/lib.rs", "pallets/bridge/src/lib.rs: ensure_admin, materialize"]}
{"id": "C197", "title": "Runtime: derived addresses do not clash", "statement": "Pallets with different ids have different accounts; different parachains have different sovereign accounts, here and on the relay chain; and the accounts of pallets, of parachains, of the relay chain and the keyless account [1; 32] are all different from each other, whatever the ids.", "quantifier": "every pair of 8-byte pallet ids and every pair of 32-bit parachain ids", "why_tests_cant": "Ranges over 2^64 pallet ids and 2^32 parachain ids.", "anchors": ["runtime/parallel/src/lib.rs: LocationToAccountId, OneAccount", "pallets/crowdloans/src/lib.rs: account_id, para_account_id", "pallets/amm/src/lib.rs: account_id"]}
{"id": "C198", "title": "Runtime: the deployed configurations meet the assumptions", "statement": "Each of the four runtimes' configurations (accounts, currencies, fees, limits) meets everything the theorems about the pallets together assume, so those hold of the chains as deployed; and no XCM message from the relay chain or another parachain, however it is composed, takes tokens from an account in which a pallet keeps what it owes to users or makes a call signed by such an account.", "quantifier": "every runtime, every set of derivative tokens apart from the runtime's own currencies, every hash function without the listed collisions, every message and state", "why_tests_cant": "Composition of all pallets with arbitrary messages from other chains; unit tests use mock runtimes with other ids and constants.", "anchors": ["runtime/parallel/src/lib.rs", "runtime/heiko/src/lib.rs", "runtime/vanilla/src/lib.rs", "runtime/kerria/src/lib.rs", "primitives/src/tokens.rs", "runtime/common/src/constants.rs"]}
{"id": "C199", "title": "Incoming cross-chain transfers arrive exactly, or are trapped", "statement": "A transfer message (bring assets, clear the origin, buy execution, deposit) from the reserve chain of a registered asset credits the beneficiary with exactly the amount sent minus the fee for four instructions, the treasury with the fee, and changes no other balance, trap or call log; the supply grows by exactly the amount. For tokens coming back from a sibling its account on this chain pays instead and the supply stays. The relay chain's asset brings exactly the gift due from the gift account. If the part set aside for fees is too small nothing arrives: that part is lost and the rest is trapped for the sending chain.", "quantifier": "every configuration, registry, fee rate, amount, fee limit, beneficiary, message origin and ledger", "why_tests_cant": "The result depends on all amounts, rates and weight limits, and on saturations at the ends of their ranges.", "anchors": ["runtime/parallel/src/lib.rs: Barrier, XcmConfig, LocalAssetTransactor", "runtime/common/src/lib.rs: AllowKnownQueryResponses", "pallets/traits/src/xcm.rs: MultiCurrencyAdapter, FirstAssetTrader, XcmFeesToAccount"]}
{"id": "C200", "title": "Asset ERC-20 on the deployed runtimes: allowances can be given and spent", "statement": "On each of the four runtimes, with nothing switched off, the holder of a live asset who can pay the deposit can give a spender an allowance through the asset's contract, and the spender can use it. Once governance switches off the pallet behind a token, its contract moves nothing.", "quantifier": "every runtime, state of the emergency switch, calldata, caller and token state", "why_tests_cant": "Refuted on every runtime: the contracts dispatch approve_transfer, cancel_approval and transfer_approved through the runtime's call filter, which lists none of them, so approve, permit and transferFrom by a spender always fail (the tests of the precompile run on a mock without a filter). Proved: no successful call with any calldata changes an allowance or nonce, transferFrom works exactly for the owner itself, transfer, mint, burn and the native token are open unless switched off, and a switched off pallet's contract changes nothing.", "anchors": ["precompiles/utils/src/lib.rs: try_dispatch", "runtime/parallel/src/lib.rs: BaseCallFilter", "runtime/heiko/src/lib.rs: BaseCallFilter", "runtime/kerria/src/lib.rs: BaseCallFilter", "runtime/vanilla/src/lib.rs: BaseCallFilter", "precompiles/assets-erc20/src/lib.rs: approve_inner, transfer_from"]}
{"id": "C201", "title": "Token contracts run the function that the calldata names", "statement": "A call to a token contract runs exactly the function whose signature's Keccak hash begins with the first four bytes of the calldata; all other calldata is a deposit for the native token and is refused by an asset's contract; no two functions share a selector, the event topics are distinct and are those of ERC-20, and the permit type hashes are those of EIP-712 and EIP-2612.", "quantifier": "every calldata, context and state", "why_tests_cant": "All 2^32 selectors and all byte strings; hash values are computed inside the proof.", "anchors": ["precompiles/balances-erc20/src/lib.rs: Action, execute", "precompiles/assets-erc20/src/lib.rs: Action, execute", "precompiles/balances-erc20/src/eip2612.rs: PERMIT_TYPEHASH, PERMIT_DOMAIN", "precompiles/utils/src/data.rs: read_selector"]}
{"id": "C202", "title": "LP collateral is never overstated", "statement": "The price that the money market gets for an LP token of a crowdloan pool never values a position above what it stands for: the value of any number n of LP tokens is at most n/supply of what the pool's two reserves are worth at the prices of the vault token and the relay token (if the vault token is not dearer than the relay token). And what one LP token stands for never shrinks: reserves' product over the square of the supply never falls in any history of calls while the protocol fee is off, and with it on only by the LP tokens minted as that fee.", "quantifier": "every pool, oracle price, supply, amount, and every history of AMM calls by anybody", "why_tests_cant": "Rounding of a square root and four fixed-point operations over all u128 reserves and prices; arbitrary histories.", "anchors": ["pallets/prices/src/lib.rs: get_lp_vault_asset_price", "pallets/amm/src/lib.rs: do_add_liquidity, do_remove_liquidity, do_swap, do_mint_protocol_fee"]}
{"id": "C203", "title": "Trading cannot make a borrower liquidatable", "statement": "After any number of swaps by anybody in any pools, no asset has a lower price than before (only LP tokens can have a different one, a higher one), and a borrower whose debts are in anything but LP tokens and who was not underwater before these swaps cannot be liquidated after them, in any asset, for any amount, by anyone.", "quantifier": "every reachable state, every number, size and order of swaps, every borrower and liquidation", "why_tests_cant": "Needs the combination of AMM, price feed and money market for all trade sequences: manipulation by huge trades is exactly what tests with fixed numbers cannot exclude.", "anchors": ["pallets/loans/src/lib.rs: ensure_liquidate, do_liquidate", "pallets/prices/src/lib.rs: get_price, get_special_asset_price, get_lp_vault_asset_price", "pallets/amm/src/lib.rs: do_swap, get_pool_by_lp_asset", "pallets/router/src/lib.rs: swap_exact_tokens_for_tokens, swap_tokens_for_exact_tokens"]}
{"id": "C204", "title": "Ordinary users cannot move prices", "statement": "No extrinsic that an account without a privileged role signs changes the price the money market uses for any asset that is not an LP token (nor mapped to one): staking, unstaking, trading, lending, liquidating, contributing and bridging leave it exactly as it was.", "quantifier": "every reachable state, every signed extrinsic of the modelled pallets, every asset", "why_tests_cant": "Every extrinsic of eight pallets with every argument, including price paths through exchange rates of staking and crowdloans.", "anchors": ["runtime/parallel/src/lib.rs: pallet_prices::Config", "pallets/prices/src/lib.rs: get_price", "pallets/liquid-staking/src/lib.rs: get_exchange_rate", "pallets/crowdloans/src/lib.rs: get_exchange_rate", "pallets/loans/src/lib.rs: get_full_interest_rate"]}
{"id": "C205", "title": "A dishonest minority of oracle operators cannot set prices", "statement": "As long as fewer than half of the oracle's operators are dishonest, every price the oracle answers lies between the smallest and the largest value that honest operators feed.", "quantifier": "every history of feeds, committee changes, blocks and times, every asset and every set of dishonest operators", "why_tests_cant": "The guarantee is about arbitrary adversarial feeds in arbitrary order and timing; a test shows the median of one list of numbers.", "anchors": ["runtime/parallel/src/lib.rs: orml_oracle::Config for Runtime, MinimumCount, ExpiresIn, AggregatedDataProvider", "runtime/heiko/src/lib.rs: MinimumCount", "runtime/kerria/src/lib.rs: MinimumCount", "runtime/vanilla/src/lib.rs: MinimumCount"]}
{"id": "C206", "title": "No expired price is used", "statement": "A price whose last feed is older than the expiry time of the oracle (one hour) is not answered by the price feed any more, so that lending and liquidation stop instead of using it; and a price that a feed changes was fed by a current operator and has not expired.", "quantifier": "every history of the oracle, every asset, every length of time without feeds", "why_tests_cant": "Staleness needs long histories without feeds; tests feed a price and read it at once.", "anchors": ["runtime/parallel/src/lib.rs: ExpiresIn, AggregatedDataProvider, TimeStampedPrices", "pallets/prices/src/lib.rs: get_price", "pallets/loans/src/lib.rs: get_price"]}
{"id": "C207", "title": "Who feeds prices, and what a feed does", "statement": "Only members of the oracle committee and root can feed, each once per block, whatever happens in between; a feed stores the sender's values of the named assets and makes the price of each the middle of the unexpired values of all current operators if there are enough of them, and changes no other price; nothing else that happens to the oracle changes any price.", "quantifier": "every state of the oracle, every origin, every list of assets and values (with repetitions)", "why_tests_cant": "All lists with repetitions, committees and expiry patterns; a test uses one.", "anchors": ["runtime/parallel/src/lib.rs: orml_oracle::Config for Runtime, pallet_membership::Config<OracleMembershipInstance>"]}
{"id": "C208", "title": "A liquidity provider can always leave an AMM pool", "statement": "Whoever owns LP tokens of a pool can redeem any part of them by remove_liquidity at any time, whatever the governance has done with the protocol fee.", "quantifier": "every reachable state of the pallet, every pool, every holder and every amount she owns", "why_tests_cant": "Depends on the protocol fee, on what a pool remembers from its last deposit, on rounding and on every other pool's reserves, over all histories.", "anchors": ["pallets/amm/src/lib.rs: remove_liquidity, do_remove_liquidity, do_mint_protocol_fee, get_protocol_fee_reciprocal_proportion, protocol_fee_on"]}
{"id": "C209", "title": "A liquidity provider can always leave a stableswap pool", "statement": "Whoever owns LP tokens of a stableswap pool can redeem any part of them by remove_liquidity at any time.", "quantifier": "every reachable state, every pool, every holder and every amount she owns, for the constants of the vanilla runtime", "why_tests_cant": "The curve invariant is found by iteration with rounding; whether it converges depends on the exact reserves.", "anchors": ["pallets/stableswap/src/lib.rs: remove_liquidity, do_mint_protocol_fee, delta_util", "pallets/stableswap/src/helpers.rs: compute_d, div"]}
{"id": "C210", "title": "The recommended route can be traded at the recommended price", "statement": "Whoever can spend the amount can trade it along the route that get_best_route (and the router RPC) recommends, and gets exactly the recommended yield.", "quantifier": "every reachable pool graph, every iteration order of the pool map, every amount, pair and trader", "why_tests_cant": "All pool graphs, routes and amounts, and the conditions of each hop after the earlier hops have moved the reserves.", "anchors": ["pallets/router/src/lib.rs: get_best_route, get_all_routes, swap_exact_tokens_for_tokens, route_checks", "pallets/amm/src/lib.rs: do_swap, get_amounts_out"]}
{"id": "C211", "title": "A depositor can always leave a farming pool", "statement": "Whoever has stake in an unlocked farming pool can withdraw it, redeem it after the cool-down and claim all rewards earned; the withdrawal and the redemption together pay exactly the stake and everything that was cooling down.", "quantifier": "every history of calls of all users and of governance, every pool, user and amount", "why_tests_cant": "FALSE in the code without a limit on rewards: each call first adds rewards * 10^12 / stake to a 128-bit index, so a pool with a tiny stake and a reward of 3.4*10^26 units (340 million tokens of 18 decimals) overflows and is frozen for everybody for ever, which no test with ordinary amounts shows; proved: with fewer units dispatched nothing can stop a user from leaving with everything.", "anchors": ["pallets/farming/src/lib.rs: withdraw, redeem, claim, update_reward", "pallets/farming/src/types.rs: reward_per_share"]}
{"id": "C212", "title": "Liquid staking: which stakes, unstakes and claims are accepted", "statement": "With an exchange rate of at least one, staking m tokens succeeds exactly if m reaches the minimum stake, covers the XCM fee and the reserve share, is owned by the caller, fits under the staking cap together with everything bonded, and the supply of liquid tokens stays representable. Unstaking q liquid tokens through the relay chain succeeds exactly if q reaches the minimum, is owned, the caller's list of pending withdrawals has room (fewer than 32 entries, or 32 of which the last is for the same era), and the sums are representable. A claim succeeds exactly if something is due and the pallet holds the due amount beyond its reserves and the pooled stake. There is no other reason for refusal.", "quantifier": "every reachable history of the staking pallet, every caller, every amount", "why_tests_cant": "A unit test shows some calls pass and some fail; that no further condition can refuse an honest call in any reachable state is an equivalence over all states and inputs.", "anchors": ["pallets/liquid-staking/src/lib.rs: stake, unstake, claim_for, do_claim_for, ensure_market_cap, get_total_unclaimed"]}
{"id": "C213", "title": "Token contracts and gas: metering never changes a result", "statement": "A call to the token contract of the native currency or of an asset that succeeds with some amount of gas does exactly what it does with unlimited gas and uses exactly a fixed price: for the native token the price depends only on the function called; for assets also on whether an old allowance is replaced and whether the caller moves its own tokens. With the price or more the call succeeds, with less it runs out of gas and changes nothing; a call the contract refuses succeeds with no amount of gas, and one that fails for another reason than gas fails for the same reason with unlimited gas.", "quantifier": "every calldata, caller, state, amount of gas and price table", "why_tests_cant": "A unit test uses a fixed gas limit; that no amount of gas can make a call take another path or stop half way is a statement over all gas limits, states and inputs.", "anchors": ["precompiles/utils/src/lib.rs: try_dispatch, log_costs, record_log_costs_manual", "precompiles/balances-erc20/src/lib.rs: execute", "precompiles/balances-erc20/src/eip2612.rs: permit", "precompiles/assets-erc20/src/lib.rs: execute, approve_inner", "precompiles/assets-erc20/src/eip2612.rs: permit"]}
{"id": "C214", "title": "Token contracts and gas: everything written is paid for", "statement": "Every successful call to a token contract pays at least for the logs it emits, for each storage entry the contract writes itself and for each call it dispatches. (False for permit: on the native token it writes a nonce and an allowance and emits a log for the price of one storage read, 1000 gas on Parallel.)", "quantifier": "every calldata, caller, state, amount of gas and price table", "why_tests_cant": "A missing charge is invisible in functional tests; that every path charges for its effects must hold for every function and input.", "anchors": ["precompiles/balances-erc20/src/lib.rs: approve, transfer, transfer_from, deposit, withdraw", "precompiles/balances-erc20/src/eip2612.rs: permit", "precompiles/assets-erc20/src/lib.rs: approve, transfer, transfer_from, mint, burn", "precompiles/assets-erc20/src/eip2612.rs: permit"]}
{"id": "C215", "title": "Gifts for newcomers on the deployed chains", "statement": "On every runtime an incoming transfer earns 0.65 native tokens exactly if it is at least 300 EUSDT or EUSDC, at least 4.952 DOT (Parallel, Kerria) or 0.099904 KSM (Heiko, Vanilla), with the usual decimals; more tokens never earn less; bridge and XCM use the same rule. Over the bridge the recipient is topped up to the existential deposit plus 0.65, if the gift account holds 0.65, and nobody else's native balance changes.", "quantifier": "all chains, assets, amounts, decimals, balances of recipient and gift account", "why_tests_cant": "All amounts around each threshold on four runtimes, and all decimals that governance may register.", "anchors": ["runtime/parallel/src/lib.rs: GiftConvert", "runtime/heiko/src/lib.rs: GiftConvert", "runtime/vanilla/src/lib.rs: GiftConvert", "runtime/kerria/src/lib.rs: GiftConvert", "pallets/bridge/src/lib.rs: materialize"]}
{"id": "C216", "title": "Bridge proposals expire after about 30 days", "statement": "A bridge proposal on which no further vote is cast is gone 31 days after its first vote, as the runtimes document for ProposalLifetime.", "quantifier": "all chains, states, proposals and numbers of blocks", "why_tests_cant": "Refuted: the constant is 2592000 blocks, which is 360 days at 12 seconds per block on Parallel and Heiko (C216_refuted). Proved: the exact number of blocks on every runtime.", "anchors": ["runtime/parallel/src/lib.rs: ProposalLifetime", "runtime/heiko/src/lib.rs: ProposalLifetime", "runtime/common/src/constants.rs: MILLISECS_PER_BLOCK", "pallets/bridge/src/lib.rs: materialize, on_initialize"]}
{"id": "C217", "title": "The terms of the deployed chains", "statement": "On each runtime: smallest stake, unstake and crowdloan contribution; the part of a stake kept for messages; the number of eras until unstaked tokens are due; the relay blocks at which lease periods begin, and the reported progress and length of a lease; which chains stream crowdloan bonuses; which chain id cannot be registered on the bridge; and the three currencies, all in tokens, days and eras.", "quantifier": "all runtimes, states, amounts and leases", "why_tests_cant": "Constants of four runtimes that interact with every call; a test sees one runtime and a few amounts.", "anchors": ["runtime/parallel/src/lib.rs", "runtime/heiko/src/lib.rs", "runtime/vanilla/src/lib.rs", "runtime/kerria/src/lib.rs", "pallets/liquid-staking/src/lib.rs: stake, unstake", "pallets/crowdloans/src/lib.rs: contribute, get_vault_term_rate, claim"]}
{"id": "C218", "title": "What the liquid currency is worth", "statement": "On each runtime the lending pallet values sDOT or sKSM at the oracle price of DOT or KSM times the current exchange rate of liquid staking, rounded down, and the auxiliary collateral currency at exactly the price of DOT or KSM; with equal decimals and a rate of at least 1 the liquid currency is never worth less than the relay currency nor more than the rate times as much.", "quantifier": "all runtimes, states, oracle prices, exchange rates and decimals up to 18", "why_tests_cant": "All prices and rates, through four providers wired together by the runtime.", "anchors": ["runtime/parallel/src/lib.rs: pallet_prices::Config", "pallets/prices/src/lib.rs: get_price, get_staking_asset_price", "pallets/liquid-staking/src/lib.rs: ExchangeRateProvider"]}
{"id": "C219", "title": "Redeeming and lending for a user", "statement": "Redeeming an expired crowdloan and lending the proceeds for a user in one transaction is possible only for an account that has sent a transaction before and a vault that has expired; it takes exactly the amount of derivative tokens from the user, puts exactly that amount of relay tokens into the lending pool, and gives the user exactly the ptokens a supply of that amount earns; no other balance, deposit or debt changes.", "quantifier": "every reachable state of the whole runtime, user, vault and amount", "why_tests_cant": "Two pallets in one transaction, over all their states; a failure of the second must undo the first.", "anchors": ["pallets/crowdloans/src/lib.rs: redeem_and_lend_for", "pallets/loans/src/lib.rs: do_mint"]}
{"id": "C220", "title": "Fees are proportional to weight and never below the price of the base weight", "statement": "The weight fee is 0.12 tokens per base extrinsic weight, exact to half a unit plus one part in 10^9 of the weight; it grows with the weight and no weight is free. A paying transaction costs at least 0.12 tokens (to one unit) plus 0.00001 tokens per byte plus its tip, and more length, weight, congestion or tip never makes it cheaper. Storage deposits are 0.15 tokens per item and 0.06 per byte and do not overflow.", "quantifier": "every base weight, weight, length, multiplier and tip", "why_tests_cant": "Rounding of the polynomial over all 64-bit weights; saturation at the extremes.", "anchors": ["runtime/common/src/constants.rs: WeightToFee, deposit", "runtime/parallel/src/lib.rs: TransactionByteFee, pallet_transaction_payment::Config"]}
{"id": "C221", "title": "The first block gives out the allocations and records their sum", "statement": "The genesis of each chain adds up allocations to the same account, is refused exactly if the total overflows or somebody would be below the existential deposit, gives every account what the list gives it, and records the sum of all balances as the total issuance.", "quantifier": "every chain and every list of allocations", "why_tests_cant": "Refuted for vanilla: the EVM section gives Alice's mapped account 2^128 - 1 units on top, the issuance saturates and is smaller than the sum of the balances from block zero on. True for the three other chains.", "anchors": ["node/parallel/src/chain_spec/mod.rs: accumulate", "node/parallel/src/chain_spec/vanilla.rs: vanilla_genesis", "node/parallel/src/chain_spec/parallel.rs: parallel_genesis"]}
{"id": "C222", "title": "Every precompile has code, so that contracts can call it", "statement": "The genesis puts code that reverts under every address that the precompile set answers for, so that Solidity's check for code passes when a contract calls it.", "quantifier": "every chain, list of allocations, registered asset and address", "why_tests_cant": "Refuted: only the fourteen fixed addresses get code; the token contracts of assets, which are precompiles as soon as the asset exists, have none (neither from the genesis nor from the migration).", "anchors": ["node/parallel/src/chain_spec/heiko.rs: heiko_genesis", "runtime/common/src/precompiles.rs: used_addresses, is_precompile"]}
{"id": "C223", "title": "Who is paid by a transaction", "statement": "If a transaction signed by a user (neither a liquid staking agent nor a crowdloans automator) raises a balance of an account that is not a pallet's own, that account is the signer, the receiver of the exchanges' protocol fee (when liquidity is added or removed), the contributor whose due from a crowdloan vault is paid out, the recipient of a stream that the signer opened and now cancels, or the recipient of a bridged transfer on which the signer, a relayer, votes.", "quantifier": "all configurations, states, users, extrinsics of the nine pallets and the router, accounts and assets", "why_tests_cant": "tests look at the balances of the two or three accounts of a scenario; the statement is about all accounts, all assets and all extrinsics over the shared ledger", "anchors": ["pallets/*/src/lib.rs (every extrinsic that takes a signed origin)", "pallets/router/src/lib.rs"]}
{"id": "C224", "title": "Limited proxies: nobody else gets the owner's tokens", "statement": "Whatever a proxy of a type that stands for one pallet (loans, staking, crowdloans, farming, streaming, AMM) does in the name of its owner, no other user's balance rises (but the protocol fee receiver's, and a contributor's own due), and no other account is promised the owner's tokens by a stream.", "quantifier": "all runtimes, proxy types, states, extrinsics that the type lists, owners and other accounts", "why_tests_cant": "the proxy filter and the pallets are tested apart; that the listed calls of all five pallets cannot credit a third account is a statement about every state of every pallet", "anchors": ["runtime/parallel/src/lib.rs (InstanceFilter for ProxyType)", "runtime/heiko/src/lib.rs", "runtime/kerria/src/lib.rs", "runtime/vanilla/src/lib.rs", "pallets/streaming/src/lib.rs (create)"]}
{"id": "C225", "title": "A vote counts on its own side", "statement": "A relayer's vote against a transfer never pays it out and moves no tokens; a vote for a transfer never rejects it.", "quantifier": "all configurations, reachable states, committees, proposals and votes", "why_tests_cant": "Whether the deciding vote has the right side depends on the history of votes and committee changes between the first vote and this one; tests vote with a fixed committee.", "anchors": ["pallets/bridge/src/types.rs: Proposal::try_to_complete", "pallets/bridge/src/lib.rs: materialize, resolve_proposal, change_vote_threshold"]}
{"id": "C226", "title": "No transaction an ordinary account signs makes the runtime panic", "statement": "Whatever account (other than the pallets' own keyless accounts) signs whatever transaction of the AMM, the router, farming, lending, streaming, liquid staking, crowdloans or the bridge, in whatever state the chain can reach, the runtime either executes it or returns an error; it does not panic. The numbers of the chain are assumed in range: exchange fee between 0 and 1, liquidation incentives at least 1, a non-zero collateral factor for the collateral of instant unstaking, counters and block numbers not at the end of their type, one account's pending claims representable, the value of a loan addable to what may be borrowed liquidation-free; and relayers do not vote about nonce 0 or the last nonce. For stableswap pools the property is false: adding to or withdrawing from a pool whose curve invariant is not found panics.", "quantifier": "all reachable states of the whole system, all signers, all transactions with all arguments", "why_tests_cant": "panics hide in unchecked arithmetic, unwraps and divisions that only particular values reach; a test shows that its own values do not panic", "anchors": ["pallets/amm/src/lib.rs", "pallets/router/src/lib.rs", "pallets/farming/src/lib.rs", "pallets/loans/src/lib.rs", "pallets/streaming/src/lib.rs", "pallets/liquid-staking/src/lib.rs", "pallets/crowdloans/src/lib.rs", "pallets/bridge/src/lib.rs", "pallets/stableswap/src/lib.rs"]}
{"id": "C227", "title": "The hooks of a block never panic", "statement": "In every state whatsoever the hooks that run at the beginning and the end of a block - liquid staking's matching, requests to the relay chain, advancement of eras and update of the exchange rate, its cleanup, and the bridge's removal of expired proposals - come to an end without a panic, including in the parts that are rolled back when they fail. A block can always be begun and ended.", "quantifier": "all configurations and all states, reachable or not", "why_tests_cant": "a panic in a hook stops the chain for good; tests run the hooks in the few states they build", "anchors": ["pallets/liquid-staking/src/lib.rs on_initialize, on_finalize, do_matching, do_advance_era, do_update_exchange_rate", "pallets/liquid-staking/src/distribution.rs", "pallets/bridge/src/lib.rs on_initialize"]}
{"id": "C228", "title": "The answer of the relay chain can always be processed", "statement": "An answer of the relay chain to a request of the crowdloan pallet never panics. An answer to a request of liquid staking does not panic if it reports a failure, if the request is unknown, or if what is unbonded is at most the active stake noted for the derivative account (and sums are representable). Without that condition the property is false: two unbonding requests under way at the same time are both computed from the same noted stake, may exceed it together, and the answer to the second one panics although the relay chain reports success.", "quantifier": "all reachable states, all answers to all requests", "why_tests_cant": "it depends on how several eras, unstakes and answers interleave; tests answer every request before the next one is made", "anchors": ["pallets/liquid-staking/src/lib.rs notification_received, do_notification_received, do_matching", "pallets/liquid-staking/src/types.rs StakingLedger::unbond", "pallets/crowdloans/src/lib.rs notification_received"]}
{"id": "C229", "title": "The queries of the lending pallet tell what a transaction will find", "statement": "The status of a market shown by the query (total borrows, reserves, borrow index, exchange rate) is exactly what the next transaction in that market works with, and where it can be shown transactions can accrue; whoever can borrow has been shown enough liquidity; whoever is liquidated has been shown a shortfall. The last two hold if the interest of the markets concerned was accrued in this block, the first if interest was ever accrued in the market; without these conditions each of the three is false.", "quantifier": "all reachable states, all markets, accounts and amounts", "why_tests_cant": "queries and transactions are different code paths over time-dependent state; agreement in a test says nothing about a market nobody has touched for a while", "anchors": ["pallets/loans/rpc/runtime-api/src/lib.rs", "runtime/parallel/src/lib.rs LoansApi", "pallets/loans/src/interest.rs get_market_status, accrue_interest", "pallets/loans/src/lib.rs get_account_liquidity, get_account_liquidation_threshold_liquidity, borrow, liquidate_borrow"]}
{"id": "C230", "title": "All interest due counts when somebody borrows", "statement": "After a loan the collateral of the account covers its debts, counted with all interest due at that moment. True up to one unit of rounding if the other active markets were accrued in the same block; in general what is not covered is at most the interest that was due but not accrued. As stated it is false: interest on debts in other markets only counts once somebody has used those markets.", "quantifier": "all reachable states, all loans of ordinary assets", "why_tests_cant": "the error grows with the time since the last transaction in another market", "anchors": ["pallets/loans/src/lib.rs do_borrow, borrow_allowed, ensure_liquidity, current_borrow_balance", "pallets/loans/src/interest.rs accrue_interest"]}
{"id": "C231", "title": "The events of the AMM tell what happened", "statement": "Every accepted transaction of the AMM deposits an event; who starts with an empty page and takes down the events in order knows at every moment the pool token and both reserves of every pool, whatever the history; and per event the caller has paid and received exactly the announced amounts of every asset, except that the number of pool tokens minted is not announced.", "quantifier": "all histories of the AMM pallet, all pools, accounts and assets", "why_tests_cant": "the statement is about every prefix of every history, including failed transactions and transfers outside the pallet", "anchors": ["pallets/amm/src/lib.rs Event, add_liquidity, remove_liquidity, create_pool, do_swap, update_protocol_fee, update_protocol_fee_receiver"]}
{"id": "C232", "title": "The events of the lending pallet tell what happened", "statement": "Assets move between the lending pallet and ordinary accounts exactly as the events of the call announce; a loan, a repayment and a liquidation are announced with the amount by which the debt changed (after adding interest); and nobody's assets, deposits or debts change unless an event of the call names them. The last part is false for transfers of ptokens, which deposit no event at all, and true for all other calls.", "quantifier": "all reachable states, all calls of the lending pallet and transfers of ptokens, all accounts and assets", "why_tests_cant": "an account changed without an event is found only by looking at all accounts after every possible call", "anchors": ["pallets/loans/src/lib.rs Event, mint, redeem, redeem_all, borrow, repay_borrow, repay_borrow_all, liquidate_borrow, add_reserves, reduce_reserves, reduce_incentive_reserves", "pallets/loans/src/farming.rs pay_reward", "pallets/loans/src/ptoken.rs transfer"]}
{"id": "C233", "title": "Nobody else can reduce the reward one has earned", "statement": "What somebody else signs never reduces what an account could claim right before: in rewards for deposits never; in rewards for deposits and debts together not unless it is the account itself that is liquidated, provided the interest of all markets was accrued in this block. As stated it is false: a liquidation settles the borrow reward of the liquidator, not of the account whose debt it reduces, which loses what it had earned on the repaid part.", "quantifier": "all reachable states, all calls signed by others, all accounts but the pallet's incentive account, all sets of markets", "why_tests_cant": "a forgotten settlement before a balance change shows only for the account that was not looked at, and only if blocks have passed", "anchors": ["pallets/loans/src/lib.rs liquidated_transfer, do_mint, do_borrow, do_repay_borrow_with_amount, do_redeem_voucher", "pallets/loans/src/farming.rs distribute_borrower_reward, distribute_supplier_reward", "pallets/loans/src/ptoken.rs do_transfer_ptokens"]}
{"id": "C234", "title": "Bridged tokens are backed across chains", "statement": "On a network of chains that run the bridge pallet, in every history in which fewer relayers than the vote threshold of each chain are dishonest, honest relayers approve only transfers that the other chain announced, and no chain is taken off the list: (1) every payout was announced by the chain it names, with the same recipient and amount, and is made once; (2) over all chains no more is paid out than was announced; (3) the units of a token that exist away from its home chain, together with everything on its way between any two chains, never exceed what the bridge account holds on the home chain; (4) hence an announced transfer home that was not yet paid can always be paid from the bridge account.", "quantifier": "every number of chains, every order of the steps of the chains, every set of dishonest relayers below the threshold and whatever they vote, every change of fees, caps, status and committee, every movement of tokens elsewhere", "why_tests_cant": "the property is about several chains at once, and about all interleavings and all behaviours of the dishonest relayers; the unit tests run one chain with cooperating relayers", "anchors": ["pallets/bridge/src/lib.rs: teleport, materialize, execute_materialize, teleport_internal, update_bridge_registry", "pallets/bridge/src/types.rs: Proposal::try_to_complete"]}
{"id": "C235", "title": "Debts and the recorded total of a lending market", "statement": "In every lending market the amount recorded as lent and what the borrowers owe together agree up to rounding, in both directions and over whole histories of calls, liquidations and interest. What any group of borrowers owes exceeds the recorded total by at most one unit for every moment the clock moved plus one for every year, times the growth of the market's index; the total exceeds the debts before rounding by at most one unit per call plus a 10^18-th part of the largest total per call, per clock movement and per year, times the same growth. (That debts never exceed the total at all is false: interest on a small total is rounded down to nothing at each accrual while the debt keeps growing.)", "quantifier": "all configurations, all histories of calls by any accounts with time passing arbitrarily in between, all markets, all finite groups of borrowers", "why_tests_cant": "The rounding errors of interest on the total, of the index and of every debt accumulate over arbitrarily long histories and over arbitrarily many borrowers; whether they stay within a bound that does not depend on the amounts cannot be seen from examples.", "anchors": ["pallets/loans/src/interest.rs: accrue_interest, get_market_status, accrued_interest, increment_index", "pallets/loans/src/lib.rs: current_borrow_balance, do_borrow, do_repay_borrow_with_amount, liquidated_transfer"]}
{"id": "C236", "title": "Borrow rewards and the emission", "statement": "The rewards credited to the borrowers of a market, plus those they could still have credited, stay within the emission configured for borrowers (speed times the blocks it was in force) up to a factor that only depends on rounding: L / ((L - e)(1 - X/10^36) - 1), where L is the least positive total ever lent in units of the market's first day, X the largest borrow index and e one unit for every moment the clock moved and every year. This holds for every history of calls, including liquidations and changes of the speed. (That the emission is never exceeded at all is false: the index is computed from the recorded total, the rewards from the debts, and debts may exceed the total.)", "quantifier": "all configurations, all histories of calls by any accounts with blocks and time passing arbitrarily in between, all markets, all finite groups of borrowers", "why_tests_cant": "Over-payment would come from rounding that accumulates over a whole history of accruals, borrowings, repayments and liquidations of many accounts; tests with one or two borrowers and large amounts show none.", "anchors": ["pallets/loans/src/farming.rs: update_reward_borrow_index, distribute_borrower_reward, collect_market_reward", "pallets/loans/src/lib.rs: update_market_reward_speed, do_borrow, do_repay_borrow_with_amount, liquidated_transfer"]}
{"id": "C237", "title": "The events of liquid staking tell what happened", "statement": "(1) Whoever reads all events of liquid staking from the start knows the exchange rate, the commission and the other settings that have an event, the era, and the staking ledgers of all derivative accounts, without looking at storage. (2) Every call announces exactly the requests it sends to the relay chain, in order. (3) The amounts in the events are the amounts that moved: what an account pays or receives is what the events of the call say about it, claims announce exactly what was due, and the matching pool changes exactly as announced.", "quantifier": "all configurations, all states, all calls, all histories of calls and events; for amounts, all accounts that are not accounts of the pallet", "why_tests_cant": "Indexers rely on events over whole histories, while tests look at single events after single calls; an update without event, or an event with an amount computed differently, shows only in some interleaving of calls.", "anchors": ["pallets/liquid-staking/src/lib.rs: Event, stake, unstake, cancel_unstake, claim_for, fast_match_unstake, do_bond, do_matching, do_advance_era, do_update_exchange_rate, force_set_current_era, notification_received"]}
{"id": "C238", "title": "The events of crowdloans tell what happened", "statement": "(1) Whoever reads all events of the crowdloans pallet knows, without looking at storage, every vault's phase, cap, end block, strategy, derivative token and index, the current vault of each parachain, the derivative token of each lease, the proxy account, the bonuses and whether contributions are stopped. (2) Every call announces exactly the requests it sends to the relay chain, in order. (3) Every event is true: amounts announced are exactly what was contributed, claimed, withdrawn, redeemed or refunded, 'all migrated' and 'all refunded' are announced exactly if nothing is left, the phase named is the vault's. (4) Every call deposits an event, and everybody whose tokens move is named in one.", "quantifier": "all configurations, all calls in all reachable states, all histories of calls and events with anything else happening in between", "why_tests_cant": "Front ends and indexers rely on events over whole histories of many vaults and contributors; tests look at single events after single calls.", "anchors": ["pallets/crowdloans/src/lib.rs: Event, create_vault, update_vault, contribute, migrate_pending, refund, refund_for, dissolve_vault, do_contribute, do_withdraw, do_claim_for, do_withdraw_for, do_redeem, do_notification_received"]}
{"id": "C239", "title": "The events of stable swap tell what happened", "statement": "Every accepted transaction of the stable-swap pallet deposits an event; who starts with an empty page and takes down the events in order knows at every moment the pool token and both reserves of every pool, whatever the history; per event the caller has paid and received exactly the announced amounts of every asset, except that the number of pool tokens minted is not announced; and a pool comes into being only with an event that says so.", "quantifier": "all histories of the stable-swap pallet, all pools, accounts and assets", "why_tests_cant": "the statement is about every prefix of every history, including failed transactions and transfers outside the pallet", "anchors": ["pallets/stableswap/src/lib.rs Event, add_liquidity, remove_liquidity, create_pool, do_swap"]}
{"id": "C240", "title": "The events of farming tell what happened", "statement": "Every accepted transaction of farming deposits exactly one event, about its own pool. Whoever reads all events from the start knows which pools there are, whether they take deposits, until when they are locked, how much is staked in each and by whom. Balances of users change exactly as the events say (a withdrawal is paid out at once if the pool has no cool-down, and otherwise sets the stake cooling); a claim pays all that was claimable and announces it; a redemption announces the sum of the items that are due, and removes exactly these. Pools and positions that no event mentions do not change. Not announced, and not to be inferred: the cool-down of a new pool, the payer of a dispatched reward and the number of blocks it is spread over.", "quantifier": "all histories of the farming pallet, all pools, accounts and assets", "why_tests_cant": "the statement is about every prefix of every history, including failed transactions and transfers outside the pallet", "anchors": ["pallets/farming/src/lib.rs Event, create, set_pool_status, set_pool_cool_down_duration, reset_pool_unlock_height, deposit, withdraw, redeem, claim, dispatch_reward"]}
{"id": "C241", "title": "The events of streaming tell what happened", "statement": "Every accepted transaction of streaming deposits exactly one event. Whoever knows the minimum deposits at the start and reads all events knows of every stored stream its parties, asset, deposit, schedule, what remains in it, whether it is over and whether it can be cancelled; knows that every stream noted as running is stored, how many streams there have been, and the minimum deposits. Balances of everybody but the pallet change exactly as the events say. A withdrawal announced is at most what was left; a cancellation names both parties and divides all that was left, the recipient having in the end exactly what had vested. Streams an event does not name are unchanged, or were already over and are dropped from storage.", "quantifier": "all histories of the streaming pallet, all streams, accounts and assets", "why_tests_cant": "the statement is about every prefix of every history, including the silent archiving of finished streams by calls about other streams", "anchors": ["pallets/streaming/src/lib.rs Event, create, cancel, withdraw, set_minimum_deposit, do_create, update_finished_stream_library"]}
{"id": "C242", "title": "The events of the bridge tell what happened", "statement": "Every accepted transaction of the bridge deposits an event. Whoever reads all events from the start knows, without looking at storage, the registered chains and the counter of each, the registered tokens with asset, fee, switch, caps and accumulated amounts, the vote threshold, which transfers of each registered chain are already decided, and of every stored proposal who voted which way and whether it is open, approved or rejected. Balances of everybody but the bridge and the gift account change exactly as the events say, except for gifts of the native asset to the recipient of an announced payout. An approval or rejection is announced only of a transfer that was undecided before and is decided after; a vote announced is recorded; a payout announced belongs to an approved proposal; the fee announced is the token's. The expiry of a proposal is not announced.", "quantifier": "all histories of the bridge pallet with blocks, membership changes and transfers outside, all chains, tokens, accounts and assets", "why_tests_cant": "the statement is about every prefix of every history; votes, re-opened proposals, several proposals under one nonce and registry intervals interact", "anchors": ["pallets/bridge/src/lib.rs Event, every deposit_event, materialize, resolve_proposal, execute_materialize, cancel_materialize, change_vote_threshold", "pallets/bridge/src/types.rs"]}
{"id": "C243", "title": "The events of the router tell what happened", "statement": "The event of an accepted router trade is true: the announced input is what the trader has paid of the first asset of the announced route, the announced output is what they have received of the last, and no other balance of anybody but the pool account has changed. The events of the pools in between form a chain from the one to the other, and keep every reader's notes of the pools right. Deposit of events changes neither acceptance nor state.", "quantifier": "for all reachable pool states, traders, routes of any length and amounts, both extrinsics", "why_tests_cant": "Tests check the event of a single trade with round numbers; exact-out trades round differently in each hop, and routes can be of any length.", "anchors": ["pallets/router/src/lib.rs: swap_exact_tokens_for_tokens, swap_tokens_for_exact_tokens, Event::Traded", "pallets/amm/src/lib.rs: do_swap, Event::Traded"]}
{"id": "C244", "title": "The events of the asset registry tell what happened", "statement": "Every accepted call of the asset registry deposits exactly one event, and what it says is the case: an asset announced as registered had no type before and is linked with the announced type both ways after; a fee rate announced is set and the type is accepted for fees; an asset announced to have a new type has it; after the announced deregistration of an asset and its type nothing is stored about either; a type announced as no longer accepted is not accepted. Whoever has read all events knows the type of every asset, the asset of every type, every fee rate and which types are accepted for fees. Deposit of events changes neither acceptance nor state.", "quantifier": "for all histories of calls by any origins, of any length, asset ids and asset types", "why_tests_cant": "Each unit test checks one event after one call; the claim is about what can be rebuilt from the events of histories of any length, including ones where assets share a type.", "anchors": ["pallets/asset-registry/src/lib.rs: Event, register_asset, update_asset_units_per_second, update_asset_type, remove_fee_payment_asset, deregister_asset"]}
{"id": "C245", "title": "The events of the price feed tell which emergency prices are set", "statement": "In every state that any history leads to, the emergency price of every asset is the one announced by the last event about the asset: the price of SetPrice, or none after ResetPrice or without any event. Hence, while the last event about an asset announces a price, every reader of the price feed is answered that price, scaled by the asset's decimals. Deposit of events changes nothing.", "quantifier": "for all histories of calls interleaved with arbitrary changes of oracle, decimals, exchange rates and pools, and all assets", "why_tests_cant": "Tests set one price and read it back; the claim is about the last of arbitrarily many events in histories of any length.", "anchors": ["pallets/prices/src/lib.rs: Event, set_price, reset_price, set_emergency_price, reset_emergency_price, get_price"]}
{"id": "C246", "title": "The events of the emergency switch tell what is switched off", "statement": "Every accepted call of the emergency switch announces the new position of the switch it has turned, which was in the other position before, and no other switch moves. Whoever has read all events knows which pallets and which calls are switched off.", "quantifier": "for all histories of toggles by root or the council, interleaved with anything that leaves the switches alone", "why_tests_cant": "Tests toggle one pallet; whether events determine the switches is a statement about pairs of histories.", "anchors": ["pallets/emergency-shutdown/src/lib.rs: Event, toggle_pallet, toggle_call"]}
{"id": "C247", "title": "The event of the cross-chain helper tells which fee is in force", "statement": "Every accepted change of a fee setting announces the setting that is in force afterwards for the kind of request it is about, and leaves all other settings as they were. Whoever has read all events knows the setting of every kind of request.", "quantifier": "for all histories of settings, requests, payments of fees and activity of the rest of the chain, and all kinds of request", "why_tests_cant": "Tests set one fee; whether events determine the settings is a statement about pairs of histories.", "anchors": ["pallets/xcm-helper/src/lib.rs: Event::XcmWeightFeeUpdated, update_xcm_weight_fee"]}
{"id": "C248", "title": "The event of a call with an Ethereum signature tells what became of it", "statement": "Every accepted call with an Ethereum signature is announced exactly once, naming the account whose key signed it and whose current nonce it used. If the event says that the signed call failed, only the fee and the nonce have been taken; if it says that it succeeded, every transfer the signed call asks for, directly or as an item of a batch, has been made in the name of the signer.", "quantifier": "for all states, signed calls of any nesting, signers, signatures and nonces", "why_tests_cant": "Tests sign one simple call; what the announced result means for calls nested to any depth is a statement about all calls.", "anchors": ["pallets/evm-signatures/src/lib.rs: Event::Executed, call"]}
{"id": "C249", "title": "The reward events of the lending pallet determine what everybody can claim", "statement": "After any history, what an account can claim is the sum of the rewards announced as settled for it (DistributedSupplierReward, DistributedBorrowerReward) less the sum announced as paid to it (RewardPaid); so nobody is ever paid more than was announced as settled, and each single call changes what is claimable by exactly what its events say.", "quantifier": "for all histories of calls by all accounts, time, prices and other activity, and all accounts", "why_tests_cant": "Tests check single payments; that no call changes what is claimable without an event is a statement about all calls and histories.", "anchors": ["pallets/loans/src/farming.rs: distribute_supplier_reward, distribute_borrower_reward, pay_reward", "pallets/loans/src/lib.rs: Event::DistributedSupplierReward, Event::DistributedBorrowerReward, Event::RewardPaid"]}
{"id": "C250", "title": "The reward pot of the lending pallet holds what its events say", "statement": "As long as no call is made by or for the account of the reward pot and nobody else can spend from it, the pot holds exactly what was announced as added (RewardAdded) less what was announced as withdrawn and paid (RewardWithdrawn, RewardPaid), plus what others sent to it directly; so no more is ever paid out than was put in. No other call of the pallet (deposits, loans, liquidations, reserves) touches the pot.", "quantifier": "for all histories of calls by all accounts and other activity", "why_tests_cant": "Tests check single payments from a funded pot; the balance sheet holds over all histories and all other calls.", "anchors": ["pallets/loans/src/lib.rs: add_reward, withdraw_missing_reward, Event::RewardAdded, Event::RewardWithdrawn", "pallets/loans/src/farming.rs: pay_reward, reward_account_id"]}
{"id": "C251", "title": "Looking up pools finds the right one, whatever the order of the storage", "statement": "Two different pools of the AMM never have the same pool token. So get_pool_by_lp_asset finds for a token the pool that has it, with the two assets it is a pool of, and nothing exactly if there is no such pool: the answer does not depend on the order in which the storage is iterated. get_pool_by_asset_pair finds the pool of the two assets whichever is named first, and nothing for an asset with itself. get_pools lists every pool once, never a pair of assets in both orders. Whatever happens later, a pool stays the pool of its token and of its two assets.", "quantifier": "for all states any history of calls and other activity leads to, all tokens and assets, and all orders of iteration", "why_tests_cant": "The first match of an iteration over hashed keys is only well defined because no second match exists; this is an invariant of all histories, and a test with one or two pools sees one order.", "anchors": ["pallets/amm/src/lib.rs: get_pools, get_pool_by_lp_asset, get_pool_by_asset_pair, sort_assets, create_pool"]}
{"id": "C252", "title": "The parameters shown of a market, and what they promise", "statement": "get_market_info answers exactly for the markets with a jump rate model, with the factors last set; only the calls of the update origin that set parameters of the market change what it shows. Whatever happened before, no status of a market shows a borrow rate above the full rate shown, nor a full rate above 50% a year, nor a supply rate above the borrow rate, nor a utilization above one. The interest a status adds to the loans is at most the interest at the full rate for the time since the last accrual, and the reserves get no more of it than the reserve factor says.", "quantifier": "for all states any history of calls and other activity leads to, all markets, all moments", "why_tests_cant": "The bound of the shown rate needs that every model that was ever accepted is bounded, for every utilization; tests look at a few rates.", "anchors": ["pallets/loans/src/lib.rs: LoansMarketDataProvider::get_market_info, get_full_interest_rate", "pallets/loans/src/interest.rs: get_market_status, accrued_interest", "pallets/loans/src/rate_model.rs: JumpModel"]}
