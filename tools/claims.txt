# property | status | theorems | note
C01 | proved | Verif.Amm.C01_swap_product | product of reserves never falls, also net of the fee; strictly grows for non-empty pools
C02 | proved | Verif.Amm.C02_reserves_backed | invariant over every history, incl. arbitrary other-pallet steps that take nothing from the AMM account
C03 | proved | Verif.Amm.C03_swap_exact | 
C04 | proved | Verif.Amm.C04_out_lt_reserve, Verif.Amm.C04_out_mono, Verif.Amm.C04_reserves_positive |
C05 | partial | Verif.Amm.C05_quote_in_insufficient, Verif.Amm.C05_refuted, Verif.Amm.C05_partial_shortfall, Verif.Amm.C05_partial_plus_one | the full claim is false of the code (refuted with a witness); proved: shortfall bound and that one unit more suffices
C06 | proved | Verif.Amm.C06_round_trip |
C07 | proved | Verif.Amm.C07_add_no_dilution |
C08 | proved | Verif.Amm.C08_remove_pro_rata |
C09 | proved | Verif.Amm.C09_add_remove |
C10 | proved | Verif.Amm.C10_min_liquidity, Verif.Amm.C10_lock_monotone |
C11 | partial | Verif.Amm.C11_fee_without_growth, Verif.Amm.C11_fee_of_growth_partial | refuted: enabling the fee mints without growth; partial: fee bounded by growth once reserves were remembered
C12 | proved | Verif.Amm.C12_add_order, Verif.Amm.C12_remove_order, Verif.Amm.C12_create_order, Verif.Amm.C12_identical |
C13 | proved | Verif.Router.C13_exact_in |
C14 | partial | Verif.Router.C14_refuted, Verif.Router.C14_exact_out_partial | refuted on a reachable state (delivers 999 instead of 1000); everything else proved with an exact bound on the shortfall
C15 | proved | Verif.Router.C15_routes, Verif.Router.C15_unknown_token | termination, soundness, completeness, order
C16 | proved | Verif.Router.C16_best_route |
C19 | proved | Verif.Streaming.C19_solvent | invariant over all histories
C20 | proved | Verif.Streaming.C20_conservation, Verif.Streaming.C20_events_match_ledger | totals over the event log, and the log matches every balance change
C21 | proved | Verif.Streaming.C21_live_not_ahead, Verif.Streaming.C21_withdraw_not_ahead, Verif.Streaming.C21_cancel_exact |
C22 | proved | Verif.Streaming.C22_cancel_succeeds, Verif.Streaming.C22_withdraw_succeeds, Verif.Streaming.C22_withdraw_all_after_end | success of the calls (not only of the arithmetic) in every reachable state
C23 | proved | Verif.Streaming.C23_only_parties |
C24 | proved | Verif.Streaming.C24_archive_only_finished, Verif.Streaming.C24_library_consistent |
C25 | proved | Verif.Farming.C25_total |
C26 | proved | Verif.Farming.C26_solvent, Verif.Farming.C26_redeem_succeeds, Verif.Farming.C26_claim_succeeds, Verif.Farming.C26_withdraw_succeeds | over any finite set of pools and users sharing the per-asset account
C27 | proved | Verif.Farming.C27_rewards_bounded, Verif.Farming.C27_claim_exact, Verif.Farming.C27_dispatch_exact |
C28 | proved | Verif.Farming.C28_withdraw, Verif.Farming.C28_redeem, Verif.Farming.C28_items_bounded |
C29 | proved | Verif.Farming.C29_settle_idempotent, Verif.Farming.C29_second_claim |
C30 | proved | Verif.Bridge.C30_registry_good, Verif.Bridge.C30_bridged_iff_resolved, Verif.Bridge.C30_resolve_adds_one, Verif.Bridge.C30_materialize |
C31 | proved | Verif.Bridge.C31_resolved_at_most_once, Verif.Bridge.C31_no_vote_after_resolution, Verif.Bridge.C31_vote_after_resolution_error, Verif.Bridge.C31_replay_after_reregistration | between registrations of the chain; the last theorem shows that re-registration allows a replay (finding)
C32 | proved | Verif.Bridge.C32_payout_backed |
C33 | proved | Verif.Bridge.C33_out_cap, Verif.Bridge.C33_in_cap |
C34 | proved | Verif.Bridge.C34_teleport, Verif.Bridge.C34_nonces |
C35 | partial | Verif.Bridge.C35_refuted, Verif.Bridge.C35_undecided_partial | false of the code as stated: C35_refuted proves the negation by a reachable history; the partial theorem covers votes that do not decide the wrong proposal
C50 | proved | Verif.Bridge.C50_token_registry |
C51 | proved | Verif.Bridge.C51_threshold, Verif.Bridge.C51_empty |
C52 | proved | Verif.Bridge.C52_payout | for assets other than the native one (the gift is paid in native tokens)
C53 | proved | Verif.Bridge.C53_threshold_vote_pays |
C36 | proved | Verif.Loans.C36_issuance_is_sum_of_balances, Verif.Loans.C36_supply_is_sum_of_vouchers, Verif.Loans.C36_balance_le_issuance | 
C37 | proved | Verif.Loans.C37_mint_then_redeem_no_profit | 
C38 | proved | Verif.Loans.C38_redeem_bounded, Verif.Loans.C38_redeem_all_bounded | 
C39 | proved | Verif.Loans.C39_accrual_monotone, Verif.Loans.C39_accrual_noop, Verif.Loans.C39_accrual_idempotent | 
C40 | proved | Verif.Loans.C40_debt_frame, Verif.Loans.C40_env, Verif.Loans.C40_no_interest_when_current, Verif.Loans.C40_own_borrow | 
C41 | proved | Verif.Loans.C41_borrow_needs_collateral, Verif.Loans.C41_borrow_liquidation_free, Verif.Loans.C41_dust | loans whose value rounds to zero are covered by C41_dust
C42 | proved | Verif.Loans.C42_redeem_keeps_healthy, Verif.Loans.C42_redeem_lf, Verif.Loans.C42_redeem_needs_liquidity, Verif.Loans.C42_collateral_off | up to rounding worth one token unit
C43 | proved | Verif.Loans.C43_liquidation_needs_shortfall, Verif.Loans.C43_healthy_not_liquidatable | 
C44 | proved | Verif.Loans.C44_liquidation_bounded | 
C45 | proved | Verif.Loans.C45_supply_cap, Verif.Loans.C45_borrow_cap | 
C46 | proved | Verif.Loans.C46_accepts, Verif.Loans.C46_jump_bounded, Verif.Loans.C46_jump_monotone, Verif.Loans.C46_curve, Verif.Loans.C46_supply_le_borrow, Verif.Loans.C46_utilization_le, Verif.Loans.C46_stored_rates, Verif.Loans.C46_zero_jump_blocks | the rate is undefined for jump_utilization = 0 at zero utilization; C46_zero_jump_blocks shows the consequence
C47 | proved | Verif.Loans.C47_repay_exact, Verif.Loans.C47_no_overpayment, Verif.Loans.C47_repay_all_clears | 
C48 | partial | Verif.Loans.C48_refuted, Verif.Loans.C48_partial | false of the code as stated: C48_refuted proves the negation with a reachable history containing a ptoken transfer; C48_partial proves it for all histories without ptoken transfers
C49 | partial | Verif.Loans.C49_ptoken_maps_back, Verif.Loans.C49_ptoken_unique, Verif.Loans.C49_ptoken_registered, Verif.Loans.C49_partial, Verif.Loans.C49_refuted, Verif.Loans.C49_force_breaks | the last clause (a ptoken id is never a market) is false of the code: C49_refuted; the rest is proved
C54 | proved | Verif.Loans.C54_exchange_rate_never_falls | 
C55 | proved | Verif.Loans.C55_reserves_covered | 
C56 | partial | Verif.Loans.C56_refuted, Verif.Loans.C56_partial, Verif.Loans.C56_rate_floor | false of the code as stated (C56_refuted: a gift blocks the market); C56_partial proves validity while the market owns less than one token per voucher
C57 | proved | Verif.Loans.C57_model_accepted, Verif.Loans.C57_risk_parameters, Verif.Loans.C57_threshold_above_collateral, Verif.Loans.C57_fresh_loan_safe | 
C17 | partial | Verif.Stable.C17_refuted, Verif.Stable.C17_overmint, Verif.Stable.C17_remove_partial | false of the code as stated (C17_refuted: LP tokens are minted twice); C17_remove_partial proves that removing pays at most the proportional share
C18 | proved | Verif.Stable.C18_swap_exact | 
C58 | proved | Verif.Stable.C58_solvent, Verif.Stable.C58_example | 
C59 | partial | Verif.Stable.C59_refuted, Verif.Stable.C59_drain, Verif.Stable.C59_curve_bound, Verif.Stable.C59_balanced_partial | false of the code as stated (overflowing products count as zero); C59_balanced_partial proves it below the overflow threshold
C60 | proved | Verif.Stable.C60_add_slippage | 
C61 | proved | Verif.Staking.C61_rate_monotone | 
C62 | partial | Verif.Staking.C62_refuted, Verif.Staking.C62_covered_partial | false of the code as stated (C62_refuted); proved for histories with full rebonds
C63 | partial | Verif.Staking.C63_refuted, Verif.Staking.C63_solvent_partial, Verif.Staking.C63_solvent_full_rebonds_partial | false of the code as stated (C63_refuted); proved if rewards are reported while the tokens are covered, in particular for full rebonds
C64 | proved | Verif.Staking.C64_claims_backed | 
C65 | proved | Verif.Staking.C65_pool_held | 
C66 | proved | Verif.Staking.C66_locks_exact, Verif.Staking.C66_rebond_accepted, Verif.Staking.C66_bondExtra_accepted, Verif.Staking.C66_bond_accepted, Verif.Staking.C66_unbond_accepted | 
C67 | proved | Verif.Staking.C67_failed_or_unknown, Verif.Staking.C67_once | 
C68 | proved | Verif.Staking.C68_ledger_total | 
C69 | proved | Verif.Staking.C69_claim_exact, Verif.Staking.C69_not_early, Verif.Staking.C69_due_later, Verif.Staking.C69_claim_succeeds, Verif.Staking.C69_queue_private, Verif.Staking.C69_never_more, Verif.Staking.C69_never_less | 
C70 | proved | Verif.Staking.C70_stake_exact, Verif.Staking.C70_no_profit | 
C71 | proved | Verif.Staking.C71_fast_exact, Verif.Staking.C71_fast_succeeds, Verif.Staking.C71_fast_frame | 
C72 | proved | Verif.Staking.C72_matching, Verif.Staking.C72_requests | 
C73 | partial | Verif.Staking.C73_bond, Verif.Staking.C73_bond_min, Verif.Staking.C73_unbond, Verif.Staking.C73_rebond, Verif.Staking.C73_complete, Verif.Staking.C73_bond_complete_refuted, Verif.Staking.C73_bond_complete_partial, Verif.Staking.C73_average_bond, Verif.Staking.C73_average_unbond | completeness of bonding is false of the code (C73_bond_complete_refuted), proved below the caps; everything else is proved
C74 | partial | Verif.Staking.C74_refuted, Verif.Staking.C74_market_cap_partial, Verif.Staking.C74_bond_cap_partial | false of the code as stated (C74_refuted)
C75 | partial | Verif.Staking.C75_refuted, Verif.Staking.C75_ureserves_partial | false of the code as stated (C75_refuted)
C76 | proved | Verif.Staking.C76_commission | for histories with full rebonds, as stated
C77 | proved | Verif.Amm.C77_swap_accumulates, Verif.Amm.C77_only_swaps, Verif.Amm.C77_accumulators_monotone, Verif.Amm.C77_final_price_weighs_the_past | the last theorem records the finding that the elapsed interval is weighted with the post-trade price
C78 | proved | Verif.Amm.C78_pool_permanent, Verif.Amm.C78_create_existing, Verif.Amm.C78_lp_token_unique |
C79 | proved | Verif.Amm.C79_create_exact, Verif.Amm.C79_add_exact, Verif.Amm.C79_add_slippage | pair order covered by C12
C80 | proved | Verif.Amm.C80_fee_on, Verif.Amm.C80_fee_off, Verif.Amm.C80_create_remembers |
C81 | partial | Verif.Amm.C81_refuted, Verif.Amm.C81_full_accumulator_freezes, Verif.Amm.C81_trade_goes_through_partial | false of the code as stated (C81_refuted)
C82 | proved | Verif.Router.C82_exact_in_iff, Verif.Router.C82_exact_out_iff, Verif.Router.C82_errors |
C83 | proved | Verif.Stable.C83_swap_accumulates, Verif.Stable.C83_only_swaps, Verif.Stable.C83_accumulators_monotone, Verif.Stable.C83_pool_permanent, Verif.Stable.C83_create_existing, Verif.Stable.C83_lp_token_unique |
C84 | proved | Verif.Stable.C84_invariant_iff, Verif.Stable.C84_amount_out_iff, Verif.Stable.C84_amount_in_iff, Verif.Stable.C84_quotes_pair, Verif.Stable.C84_quotes_pair_in, Verif.Stable.C84_quotes_disagree |
C85 | proved | Verif.Stable.C85_create_exact, Verif.Stable.C85_add_exact, Verif.Stable.C85_remove_exact, Verif.Stable.C85_fee_off, Verif.Stable.C85_swap_keeps_last, Verif.Stable.C85_create_remembers |
C86 | proved | Verif.Streaming.C86_create_accepted, Verif.Streaming.C86_create_only_if, Verif.Streaming.C86_trait_create_iff, Verif.Streaming.C86_create_errors, Verif.Streaming.C86_create_exact, Verif.Streaming.C86_balance_of, Verif.Streaming.C86_withdraw_exact, Verif.Streaming.C86_set_minimum | the room in the lists is a sufficient condition: the call may make room itself by archiving
C87 | proved | Verif.Streaming.C87_newest_first, Verif.Streaming.C87_nothing_missing, Verif.Streaming.C87_archives_oldest |
C88 | proved | Verif.Farming.C88_create, Verif.Farming.C88_settings, Verif.Farming.C88_settings_accepted, Verif.Farming.C88_locks_bounded, Verif.Farming.C88_errors, Verif.Farming.C88_deposit_iff, Verif.Farming.C88_dispatch_iff, Verif.Farming.C88_dispatch_exact |
C89 | proved | Verif.Farming.C89_isolated, Verif.Farming.C89_proportional, Verif.Farming.C89_equal_treatment, Verif.Farming.C89_never_shrinks, Verif.Farming.C89_no_gain_from_claiming |
C90 | partial | Verif.Prices.C90_emergency_price_wins, Verif.Prices.C90_emergency_price_rounds_down, Verif.Prices.C90_last_set_decides, Verif.Prices.C90_reset_restores, Verif.Prices.C90_other_assets, Verif.Prices.C90_no_op_ignores_emergency, Verif.Prices.C90_timestamp_zero_is_emergency, Verif.Prices.C90_refuted | Refuted as stated: an emergency price whose normalised value exceeds u128 is silently ignored. Everything else is proved.
C91 | proved | Verif.Prices.C91_normalised, Verif.Prices.C91_value_of_units, Verif.Prices.C91_no_decimals_no_price, Verif.Prices.C91_without_relay_price, Verif.Prices.C91_ordinary, Verif.Prices.C91_liquid, Verif.Prices.C91_vault, Verif.Prices.C91_auxiliary, Verif.Prices.C91_falls_back, Verif.Prices.C91_foreign, Verif.Prices.C91_foreign_liquid, Verif.Prices.C91_lp, Verif.Prices.C91_lp_depends_on_product, Verif.Prices.C91_monotone_in_relay, Verif.Prices.C91_plain_assets, Verif.Prices.C91_special_numbers, Verif.Prices.C91_last_mapping_decides, Verif.Prices.C91_mapping_frame |
C92 | partial | Verif.Prices.C92_answers_partial, Verif.Prices.C92_cycle_traps, Verif.Prices.C92_refuted | Refuted as stated: a cyclic foreign-asset mapping is accepted and makes every later request recurse without bound. Proved when the chain ends.
C93 | proved | Verif.Crowdloans.C93_books, Verif.Crowdloans.C93_backed, Verif.Crowdloans.C93_refundable |
C94 | proved | Verif.Crowdloans.C94_iff, Verif.Crowdloans.C94_effect |
C95 | proved | Verif.Crowdloans.C95_cap |
C96 | proved | Verif.Crowdloans.C96_conservation, Verif.Crowdloans.C96_balances, Verif.Crowdloans.C96_lend |
C97 | proved | Verif.Crowdloans.C97_minted |
C98 | partial | Verif.Crowdloans.C98_backing, Verif.Crowdloans.C98_only_claims, Verif.Crowdloans.C98_redeemable, Verif.Crowdloans.C98_refuted | Redemption is refuted as stated: vaults of the same lease share their derivative token, so holders from one vault can exhaust another. Backing over all vaults is proved, and redemption when no other vault with the token has anything invested.
C99 | proved | Verif.Crowdloans.C99_claim_iff, Verif.Crowdloans.C99_claim_once, Verif.Crowdloans.C99_withdraw_iff, Verif.Crowdloans.C99_withdraw_once, Verif.Crowdloans.C99_claim_phase, Verif.Crowdloans.C99_force_claim_iff |
C100 | partial | Verif.Crowdloans.C100_phase_partial, Verif.Crowdloans.C100_refuted | Refuted as stated: a late answer to a withdrawal can move a vault that has succeeded meanwhile to failed. Proved: which calls change a phase and how.
C101 | proved | Verif.Crowdloans.C101_one_vault, Verif.Crowdloans.C101_own_storage, Verif.Crowdloans.C101_isolated |
C102 | partial | Verif.Crowdloans.C102_confirm_once, Verif.Crowdloans.C102_confirmed, Verif.Crowdloans.C102_rejected, Verif.Crowdloans.C102_refuted | Refuted for rejections: the request is kept, so a second rejection of the same query pays again out of the same user's other contribution. Proved for confirmations.
C103 | proved | Verif.Crowdloans.C103_migrate, Verif.Crowdloans.C103_refund, Verif.Crowdloans.C103_refund_all |
C104 | proved | Verif.Crowdloans.C104_iff, Verif.Crowdloans.C104_settled |
C105 | proved | Verif.Crowdloans.C105_progress, Verif.Crowdloans.C105_monotone, Verif.Crowdloans.C105_when |
C106 | proved | Verif.Bridge.C106_teleport_iff |
C107 | proved | Verif.Bridge.C107_vote_iff | The bridged token is assumed not to be the native currency (for which the gift and the payout draw on the same ledger entry).
C108 | proved | Verif.Bridge.C108_register_chain, Verif.Bridge.C108_unregister_chain, Verif.Bridge.C108_settings, Verif.Bridge.C108_tokens |
C109 | proved | Verif.Bridge.C109_gift, Verif.Bridge.C109_low_gift_account_blocks | Finding: a gift account holding the gift but not the deposit blocks payouts.
C110 | proved | Verif.Bridge.C110_live, Verif.Bridge.C110_expiry, Verif.Bridge.C110_vote |
C111 | proved | Verif.Loans.C111_interest_exact, Verif.Loans.C111_first_touch, Verif.Loans.C111_interest_rounding |
C112 | proved | Verif.Loans.C112_claim_market, Verif.Loans.C112_claim_all, Verif.Loans.C112_claim_twice, Verif.Loans.C112_index_growth |
C113 | proved | Verif.Loans.C113_add_market, Verif.Loans.C113_new_market_empty, Verif.Loans.C113_activate, Verif.Loans.C113_update_rate_model, Verif.Loans.C113_update_market, Verif.Loans.C113_force_update, Verif.Loans.C113_speed_change_keeps_earnings, Verif.Loans.C113_speeds |
C114 | proved | Verif.Loans.C114_only_active_markets |
C115 | partial | Verif.Loans.C115_partial, Verif.Loans.C115_refuted | False in general: debts in suspended markets do not count. Proved for accounts owing only in active markets.
C116 | proved | Verif.Loans.C116_mint, Verif.Loans.C116_redeem, Verif.Loans.C116_redeem_all, Verif.Loans.C116_borrow, Verif.Loans.C116_repay, Verif.Loans.C116_collateral, Verif.Loans.C116_add_reserves, Verif.Loans.C116_reduce_reserves, Verif.Loans.C116_reward_funds, Verif.Loans.C116_reward_withdrawal, Verif.Loans.C116_liquidate |
C117 | proved | Verif.Loans.C117_mint_accepted, Verif.Loans.C117_redeem_accepted, Verif.Loans.C117_borrow_accepted, Verif.Loans.C117_repay_accepted, Verif.Loans.C117_collateral_on, Verif.Loans.C117_collateral_off, Verif.Loans.C117_claim_accepted |
C118 | proved | Verif.Loans.C118_settles, Verif.Loans.C118_others_keep, Verif.Loans.C118_never_falls, Verif.Loans.C118_transfer_counts_as_earned, Verif.Loans.C118_liquidation_limit | Finding: ptokens received by transfer are recorded as earned interest.
C119 | proved | Verif.Crowdloans.C119_conversion, Verif.Crowdloans.C119_conversion_answers, Verif.Crowdloans.C119_bonus_amount, Verif.Crowdloans.C119_claim_stream, Verif.Crowdloans.C119_bonus_conditions, Verif.Crowdloans.C119_small_bonus_blocks, Verif.Crowdloans.C119_no_streaming | Findings: a bonus below one unit per second of the stream blocks the claim; heiko and vanilla drop bonuses silently.
C120 | proved | Verif.Crowdloans.C120_settings |
C121 | proved | Verif.Evm.C121_writer_is_abi, Verif.Evm.C121_calldata, Verif.Evm.C121_roundtrip, Verif.Evm.C121_injective |
C122 | proved | Verif.Evm.C122_no_panic, Verif.Evm.C122_array_bounded |
C123 | partial | Verif.Evm.C123_refuted, Verif.Evm.C123_ethereum_misread, Verif.Evm.C123_fork_misread, Verif.Evm.C123_location_roundtrip_partial | False as stated (writer of ByFork/Ethereum networks); proved for all other multilocations.
C124 | partial | Verif.Evm.C124_refuted, Verif.Evm.C124_junction_no_panic_partial, Verif.Evm.C124_location_no_panic_partial | False as stated (GeneralKey with a wrong length panics); proved for all other inputs.
C125 | proved | Verif.Evm.Bal.C125_metadata, Verif.Evm.Bal.C125_balance_of, Verif.Evm.Bal.C125_allowance, Verif.Evm.Bal.C125_nonces, Verif.Evm.Bal.C125_approve, Verif.Evm.Bal.C125_transfer_when, Verif.Evm.Bal.C125_transfer_what, Verif.Evm.Bal.C125_transfer_from_when, Verif.Evm.Bal.C125_transfer_from_what |
C126 | proved | Verif.Evm.Bal.C126_consent |
C127 | proved | Verif.Evm.Bal.C127_bounded_loss |
C128 | proved | Verif.Evm.Bal.C128_permit_when, Verif.Evm.Bal.C128_permit_what, Verif.Evm.C128_digest_binds, Verif.Evm.C128_eip712, Verif.Evm.Bal.C128_nonce_monotone, Verif.Evm.Bal.C128_no_replay | keccak and ecdsa recovery are arbitrary functions; binding is up to hash collisions on explicitly listed strings.
C129 | proved | Verif.Evm.Bal.C129_fallback, Verif.Evm.Bal.C129_deposit_returns, Verif.Evm.Bal.C129_withdraw, Verif.Evm.C129_not_native |
C130 | proved | Verif.Evm.Bal.C130_conserved |
C131 | partial | Verif.Evm.Bal.C131_static_refuted, Verif.Evm.Bal.C131_payable_refuted, Verif.Evm.Bal.C131_views_partial | False as stated: the result of check_function_modifier is dropped.
C132 | proved | Verif.Evm.Ast.C132_metadata, Verif.Evm.Ast.C132_balance_of, Verif.Evm.Ast.C132_allowance, Verif.Evm.Ast.C132_nonces, Verif.Evm.Ast.C132_approve_when, Verif.Evm.Ast.C132_approve_what, Verif.Evm.Ast.C132_transfer_when, Verif.Evm.Ast.C132_transfer_what, Verif.Evm.Ast.C132_transfer_from_when, Verif.Evm.Ast.C132_transfer_from_what |
C133 | proved | Verif.Evm.Ast.C133_consent |
C134 | proved | Verif.Evm.Ast.C134_deposits_covered, Verif.Evm.Ast.C134_spent_returns, Verif.Evm.Ast.C134_revoke_keeps_deposit |
C135 | proved | Verif.Evm.Ast.C135_mint, Verif.Evm.Ast.C135_burn, Verif.Evm.Ast.C135_mint_zero |
C136 | proved | Verif.Evm.Ast.C136_permit_when, Verif.Evm.C136_name, Verif.Evm.Ast.C136_permit_what, Verif.Evm.Ast.C136_nonce_monotone, Verif.Evm.Ast.C136_no_replay, Verif.Evm.C128_digest_binds | keccak and ecdsa recovery are arbitrary functions; no replay up to hash collisions on explicitly listed strings.
C137 | proved | Verif.Evm.Ast.C137_no_delegatecall, Verif.Evm.Ast.C137_native, Verif.Evm.Ast.C137_asset, Verif.Evm.Ast.C137_roundtrip, Verif.Evm.Ast.C137_aliases, Verif.Evm.C137_is_precompile |
C138 | proved | Verif.Evm.Ast.C138_supply |
C139 | partial | Verif.Evm.Ast.C139_static_refuted, Verif.Evm.Ast.C139_static_partial, Verif.Evm.Ast.C139_no_value | The static part is false for permit; proved for every other call.
C140 | proved | Verif.Evm.Ast.C140_bounded_loss |
C141 | proved | Verif.Registry.C141_supported_iff_rate, Verif.Registry.C141_list |
C142 | partial | Verif.Registry.C142_refuted, Verif.Registry.C142_same_type_update, Verif.Registry.C142_back_partial, Verif.Registry.C142_inverse_partial | False as stated; proved one direction always and both when types in use are never reused.
C143 | proved | Verif.Registry.C143_only_authorised, Verif.Registry.C143_register_when, Verif.Registry.C143_register_what, Verif.Registry.C143_units_when, Verif.Registry.C143_units_what, Verif.Registry.C143_type_when, Verif.Registry.C143_type_what, Verif.Registry.C143_remove_fee, Verif.Registry.C143_deregister_when, Verif.Registry.C143_deregister_what |
C144 | partial | Verif.Registry.C144_refuted, Verif.Registry.C144_fee_asset_registered_partial | False after an update of an asset to its own type; proved for all other histories.
C145 | proved | Verif.Xcm.C145_buy_when, Verif.Xcm.C145_buy_what, Verif.Xcm.C145_refund, Verif.Xcm.C145_buy_weight, Verif.Xcm.C145_refund_weight, Verif.Xcm.C145_new |
C146 | partial | Verif.Xcm.C146_refuted, Verif.Xcm.C146_cross_asset, Verif.Xcm.C146_refund_panics, Verif.Xcm.C146_refund_bounded_partial | False at the trader (weight counted twice); proved when refunds do not exceed the weight of the first purchase.
C147 | partial | Verif.Xcm.C147_refuted, Verif.Xcm.C147_conserved_partial, Verif.Xcm.C147_booked | False when fees are paid in a second asset; proved for one asset.
C148 | proved | Verif.Xcm.C148_deposit_when, Verif.Xcm.C148_deposit_what, Verif.Xcm.C148_deposit_failed, Verif.Xcm.C148_withdraw_when, Verif.Xcm.C148_withdraw_what, Verif.Xcm.C148_transfer_when, Verif.Xcm.C148_transfer_what |
C149 | partial | Verif.Xcm.C149_refuted, Verif.Xcm.C149_top_up_partial, Verif.Xcm.C149_threshold, Verif.Xcm.C149_decimals_panic, Verif.Xcm.C149_gift_parallel, Verif.Xcm.C149_gift_heiko | False as stated (the gift can be earned repeatedly); proved: it is a bounded top-up with exact thresholds.
C150 | proved | Verif.Xcm.C150_supply, Verif.Xcm.C150_who_loses |
C151 | proved | Verif.Xcm.C151_local_absolute, Verif.Xcm.C151_foreign, Verif.Xcm.C151_local_registration_dead, Verif.Xcm.C151_injective |
C152 | proved | Verif.Runtime.C152_blocked, Verif.Runtime.C152_offered, Verif.Runtime.C152_events, Verif.Runtime.C152_users_cannot, Verif.Runtime.C152_no_lockout, Verif.Runtime.C152_one_pallet, Verif.Runtime.C152_open, Verif.Runtime.C152_stableswap_closed |
C153 | proved | Verif.Runtime.C153_user_calls_filtered |
C154 | partial | Verif.Runtime.C154_refuted, Verif.Runtime.C154_partial, Verif.Runtime.C154_closed | False: the outermost call inside a signature call is not filtered; proved: everything else is.
C155 | proved | Verif.Runtime.C155_control, Verif.Runtime.C155_proxy_scope, Verif.Runtime.C155_types, Verif.Runtime.C155_no_transfers, Verif.Runtime.C155_add_proxy, Verif.Runtime.C155_add_proxy_what, Verif.Runtime.C155_remove_proxy |
C156 | partial | Verif.Runtime.C156_refuted, Verif.Runtime.C156_refuted_unverified, Verif.Runtime.C156_partial, Verif.Runtime.C156_works | False on heiko and vanilla (signatures are not verified there); proved for parallel and kerria.
C157 | partial | Verif.Runtime.C157_refuted, Verif.Runtime.C157_partial | False when the account is removed in between; proved otherwise.
C158 | partial | Verif.Runtime.C158_refuted, Verif.Runtime.C158_partial, Verif.Runtime.C158_pool | False for signers without money; proved for the others.
C159 | partial | Verif.Runtime.C159_refuted, Verif.Runtime.C159_partial, Verif.Runtime.C159_signed_bytes, Verif.Runtime.C159_checked | False for the pairs of runtimes with the same number; proved between the two families.
C160 | proved | Verif.Runtime.C160_withdraw, Verif.Runtime.C160_withdraw_works |
C161 | proved | C161_request, C161_refused, C161_history, C161_queries, C161_pay_in | Exact acceptance condition and effects of a request; issuance and freshness of queries over all histories (freshness while the 64-bit counter has not run out).
C162 | proved | C162_fees, C162_setting, C162_default | Invariant over all histories.
C163 | partial | C163_refuted, C163_report_partial, C163_never_failure | False: the report comes from a ReportError instruction after the calls, and a failed Transact is not an error of the message, so the report always says success, also when every call failed; and if the message itself fails, no report is sent at all. Proved: exactly when a report is sent, and what was done then.
C164 | partial | C164_refuted, C164_two_calls_partial | False: the calls are separate instructions, each of which may fail alone. Proved: the four possible outcomes.
C165 | proved | C165_unambiguous, C165_readable, C165_tag, C165_bytes | Induction on nested calls.
C166 | partial | C166_refuted, C166_lock_partial | False: a lock set on an account whose total is below the existential deposit is registered, but the frozen amount is dropped with the account data, so it is not in force when the account is funded. Proved: for accounts that exist when the lock is set (and whose first lock it is, or which hold a reference for their locks, or with a lock of at least the existential deposit), over all later histories.
C167 | proved | C167_set, C167_remove, C167_native, C167_no_trace | Exact acceptance and effects.
C168 | proved | C168_transfer, C168_mint, C168_burn, C168_wf, C168_complete | Refinement of the ledger by which all other models describe the currencies.
C169 | proved | C169_transfer, C169_mint, C169_burn, C169_history, C169_mint_when | Invariant over all histories.
C170 | proved | C170_spendable, C170_absent | Equivalence, native currency and assets.
C171 | partial | C171_refuted, C171_effect, C171_harmless_partial, C171_twice_partial, C171_armed | False: the migration keeps the version at 3 and resets the amount at every upgrade while the slot is expired, so redemptions between two upgrades are undone in the books. Proved: the exact effect, exactly when it is harmless, and that repeating it at once is.
C172 | partial | C172_refuted, C172_apart_partial, C172_writes, C172_once | False: the fixed indices 9 to 13 and 25 to 30 may be in use, e.g. after the first migration with index 10, what its own check asks for. Proved: apart when the next index is at most 9 or 25; exact effects; once.
C173 | partial | C173_refuted, C173_markets_partial, C173_rest, C173_once | False: a collateral factor above 90.9090% gives a threshold of 100%. Proved: exactly which markets become valid, all settings kept, speeds copied, runs once.
C174 | partial | C174_refuted, C174_total_partial, C174_lookups_partial, C174_payment_partial, convKey_inj, convKey_mono | False: the list of accepted assets is converted in place, but v3 orders keys by length first; with keys of different lengths of one parachain the bisection misses assets. Proved: exactly when the migration goes through; all lookups carry over; payment does if the order stays (for example keys of one length).
C175 | proved | C175_codes, C175_once | Induction over the address list.
C176 | proved | Verif.Staking.C176_bond, Verif.Staking.C176_bond_extra, Verif.Staking.C176_no_ledger, Verif.Staking.C176_zero, Verif.Staking.C176_unbond, Verif.Staking.C176_rebond, Verif.Staking.C176_withdraw, Verif.Staking.C176_withdraw_none, Verif.Staking.C176_nominate | Exact acceptance and effect of each request call.
C177 | proved | Verif.Staking.C177_request, Verif.Staking.C177_cancel, Verif.Staking.C177_at_once | A request through the pool books the fee share although no token is taken (see C75).
C178 | proved | Verif.Staking.C178_advance, Verif.Staking.C178_advance_zero, Verif.Staking.C178_set_era, Verif.Staking.C178_set_era_known, Verif.Staking.C178_force, Verif.Staking.C178_offset, Verif.Staking.C178_offset_zero, Verif.Staking.C178_block_matched, Verif.Staking.C178_block_early, Verif.Staking.C178_block_due, Verif.Staking.C178_matched, Verif.Staking.C178_block_end | The relay chain's era and block number are inputs.
C179 | proved | Verif.Staking.C179_rate, Verif.Staking.C179_rate_kept, Verif.Staking.C179_inflate, Verif.Staking.C179_inflate_zero, Verif.Staking.C179_set_ledger, Verif.Staking.C179_force_ledger | The inflation formula is exact when all intermediate results fit u128 (they saturate otherwise).
C180 | proved | Verif.Staking.C180_settings, Verif.Staking.C180_reserves, Verif.Staking.C180_frame | Origin checks are assumed (any caller of a governance call is governance).
C181 | partial | C181_refuted, C181_partial, C181_uncovered | False as stated: the transfer converts at the exchange rate recorded at the last accrual and does not accrue; a gift to the pallet makes it stale and all pledged vouchers can leave (C181_refuted). Proved whenever the recorded rate is not below the actual one.
C182 | partial | C182_refuted, C182_partial, C182_not_seized, C182_seizable, C182_set_class | False as stated: the transfer ignores the liquidation-free class, so an ordinary debt can end up backed only by collateral that cannot be seized (C182_refuted). Proved for accounts without such collateral; seizure and setting of the class are exact.
C183 | partial | C183_refuted, C183_free, C183_none, C183_pledged, C183_transfer, C183_partial | False for can_withdraw, which ignores debts (C183_refuted). Reports, exact transfer and acceptance of free amounts are proved (acceptance relative to the reward records not overflowing).
C184 | proved | C184_accepted, C184_as_sent, C184_refused, C184_weight, C184_weight_sum | Exact characterisation of the barrier tuple and the weigher.
C185 | partial | C185_refuted, C185_partial, C185_paid | False as stated: after the response to an expected query the rest of the message runs unpaid, because the repository's own copy of AllowKnownQueryResponses drops the check for a single instruction (C185_refuted). Proved for all other messages.
C186 | proved | C186_origins, C186_sibling, C186_root, C186_convert, C186_transact, C186_descend | Induction over executions of arbitrary nested messages.
C187 | proved | C187_payers, C187_sibling, C187_relay | Induction over executions; the gift account appears because deposits of the relay chain's asset can pay a gift.
C188 | partial | C188_refuted, C188_partial, C188_sibling_partial, C188_history_partial, C188_no_teleport, C188_leave, C188_sending | False as stated: a response to an expected query can buy a small weight, which the trader records twice, and be refunded more than it paid (C188_refuted). Proved for all messages that are not such responses, and for histories of them.
C189 | proved | C189_each_pallet, C189_solvent, C189_nothing_promised_twice | Rely-guarantee composition: every call of every pallet is shown to be within what every other pallet assumes about the rest of the chain (Guar lemmas), then induction over interleaved histories. Assumes that PalletIds differ and that nobody has the key of a pallet account.
C190 | proved | C190_nobody_else_pays, C190_vaults_apart | Payers that governance names in a call are listed in the statement (see the findings).
C191 | proved | C191_ids_apart, C191_wrong_pallet | Invariant over interleaved histories with one shared query counter.
C192 | proved | C192_only_issuers_issue, C192_liquid | Governance is assumed not to register the liquid token or a derivative token as an LP token or external token (Call.OK): the pallets do not check it.
C193 | proved | C193_charged, C193_signed, C193_unsigned, dispatch_reach | Origin checks of all extrinsics of the nine pallets modelled in System/Origin.lean; the membership pallets' contents are a parameter.
C194 | proved | C194_terms | Over all pallets at once, with the origin checks of System/Origin.lean.
C195 | proved | C195_positions, C195_received | The account w must not be a pallet's own account; its balances are the subject of C193.
C196 | proved | C196_access, C196_users, C196_nobody_else | Origins as in System/Origin.lean; whether the call then succeeds depends on its own checks.
C197 | proved | C197_pallets, C197_siblings, C197_apart, C197_size | Addresses as numbers (32 bytes, little-endian); derived addresses that are hashes are C198's assumption.
C198 | proved | C198_deployed, C198_vaults, C198_messages, C198_transact, C198_constants | blake2_256 is an arbitrary function without the listed collisions. What a dispatched call does is the subject of C193-C196; XCM messages of pallet_xcm::execute by local users are outside.
C199 | proved | C199_arrives, C199_returns, C199_underpaid, C199_underpaid_return | xcm-executor is modelled from outside knowledge, as listed at the top of Xcm/Entry.lean.
C200 | partial | Verif.Evm.C200_refuted, Verif.Evm.C200_no_allowances_partial, Verif.Evm.C200_approve_fails_partial, Verif.Evm.C200_transfer_from_partial, Verif.Evm.C200_switched_off, Verif.Evm.others_open | The statement is false on every runtime: the call filter refuses the calls behind approve, permit and transferFrom. Proved instead: exactly what works and what does not on each runtime, and that the emergency switch stops the token contracts.
C201 | proved | Verif.Evm.C201_native_function, Verif.Evm.C201_asset_function, Verif.Evm.C201_asset_unknown, Verif.Evm.C201_no_clash, Verif.Evm.C201_modifiers, Verif.Evm.C201_typehashes, Verif.Evm.C201_topics | Keccak-256 is defined in the model (Evm/Keccak.lean) and evaluated by the kernel.
C202 | proved | Verif.Prices.C202_never_overstated, Verif.Amm.C202_share_never_falls | For LP and vault tokens priced through the relay token (no emergency price, no oracle feed of the LP token itself).
C203 | proved | Verif.System.C203_trading, Verif.System.C203_safe, Verif.System.C203_trades_lower_no_price, Verif.Prices.C203_growth_never_lowers, Verif.Loans.C203_prices_not_against, Verif.Loans.C203_safe_stays_safe | Prices are read between the extrinsics of a block: oracle values are the same before and after. Supposes that the oracle feeds no price for LP tokens or mapped assets themselves. A price that overflows u128 is no price, and nothing valued with it can be liquidated.
C204 | proved | Verif.System.C204_users_move_no_price, Verif.Prices.C204_only_lp_depends_on_pools | Covers the eight pallets and the router of the System model; the floating-point yield of crowdloan tokens is an arbitrary function of rate and term.
C205 | partial | Verif.Oracle.C205_honest_range_partial, Verif.Oracle.C205_small_minority_partial, Verif.Oracle.C205_refuted | The full statement is refuted for the deployed MinimumCount of 2 (and 1): when only two values are unexpired the larger one is the price, so one dishonest operator sets it. Proved: prices stay in the honest range while the majority of the unexpired values is honest, which is automatic if the dishonest operators are fewer than MinimumCount / 2. orml_oracle itself is modelled from outside knowledge.
C206 | partial | Verif.Oracle.C206_new_prices_fresh_partial, Verif.Oracle.C206_time_keeps_prices, Verif.Oracle.C206_refuted | The full statement is refuted: stored values never expire, and neither the price feed nor the money market look at the timestamp. Proved: every price a feed makes is from a current operator and unexpired at that time.
C207 | proved | Verif.Oracle.C207_who_feeds, Verif.Oracle.C207_what_a_feed_changes, Verif.Oracle.C207_only_feeds, Verif.Oracle.C207_once_per_block | orml_oracle itself is modelled from outside knowledge.
C208 | partial | Verif.Amm.C208_exit_partial, Verif.Amm.C208_blocked, Verif.Amm.C208_blocked_forever, Verif.Amm.C208_refuted | The full statement is refuted: with a protocol fee above 50 % every deposit and withdrawal on a pool that remembers no reserves divides by zero, for as long as the fee stays. Proved: with the fee off, or at most 50 % and the LP supply at most half of u128, every holder can leave.
C209 | partial | Verif.Stable.C209_exit_partial, Verif.Stable.C209_stuck, Verif.Stable.C209_stuck_panics, Verif.Stable.C209_stuck_until_rescued, Verif.Stable.C209_refuted | The full statement is refuted for the constants of the vanilla runtime: for lopsided reserves (10^12 against 2*10^6) the iteration for the curve invariant runs in a circle, and withdrawals panic. Proved: holders can leave when the two invariants are found, or without a protocol fee.
C210 | partial | Verif.Router.C210_tradeable_partial, Verif.Router.C210_refuted | The full statement is refuted: quotes ignore the smallest amount a pool accepts (and the longest allowed route, the native unit that must stay, the room in the price accumulators). Proved: when these are in order in the state of the recommendation, the trade is carried out and yields exactly the recommended amount.
C211 | partial | Verif.Farming.C211_refuted, Verif.Farming.C211_withdraw_partial, Verif.Farming.C211_exit_partial, Verif.Farming.C211_claim_partial, Verif.Farming.C211_frozen_forever | false of the code as stated (C211_refuted: one unit of stake and 10^27 units of reward freeze the pool; C211_frozen_forever: nothing unfreezes it); the _partial theorems prove exact acceptance and full payout while at most 2^128/10^12 units of reward were ever dispatched to the pool
C212 | proved | Verif.Staking.C212_stake_iff, Verif.Staking.C212_unstake_iff, Verif.Staking.C212_claim_iff | exact acceptance conditions (both directions) in every reachable state
C213 | proved | Verif.Evm.Bal.C213_native_exact, Verif.Evm.Bal.C213_native_enough, Verif.Evm.Bal.C213_native_fails, Verif.Evm.Ast.C213_asset_exact, Verif.Evm.Ast.C213_asset_enough, Verif.Evm.Ast.C213_asset_fails, Verif.Evm.C213_log_price, Verif.Evm.C213_deployed_prices | metered versions of all functions of both contracts; the threshold is proved for calls that report no actual weight, as those dispatched here
C214 | partial | Verif.Evm.Bal.C214_refuted, Verif.Evm.Bal.C214_permit_price, Verif.Evm.Bal.C214_native_partial, Verif.Evm.Ast.C214_asset_partial | The full statement is refuted by permit; proved for every other function of both contracts. Storage reads are not counted (withdraw reads a balance without paying for it)
C215 | proved | Verif.System.C215_who, Verif.System.C215_any_decimals, Verif.System.C215_same, Verif.System.C215_bridge | The gift rule of the four runtimes in tokens.
C216 | partial | Verif.System.C216_refuted, Verif.System.C216_life_partial | False as documented: 2592000 blocks are 360 days. Proved: the exact lifetime on every runtime.
C217 | proved | Verif.System.C217_stake, Verif.System.C217_unstake, Verif.System.C217_contribute, Verif.System.C217_lease, Verif.System.C217_bonus, Verif.System.C217_own_chain, Verif.System.C217_currencies | Parameters of the four runtimes in units a user knows.
C218 | proved | Verif.System.C218_relay, Verif.System.C218_liquid, Verif.System.C218_collateral, Verif.System.C218_order | Through the wiring of the runtime.
C219 | proved | Verif.System.C219_lend_for | In the model of all pallets over one ledger.
C220 | proved | Verif.Runtime.Fee.C220_proportional, Verif.Runtime.Fee.C220_base, Verif.Runtime.Fee.C220_monotone, Verif.Runtime.Fee.C220_positive, Verif.Runtime.Fee.C220_minimum, Verif.Runtime.Fee.C220_fee_monotone, Verif.Runtime.Fee.C220_deposit | base weight as a parameter (at most 5*10^8 where it matters); compute_fee of pallet_transaction_payment from outside knowledge
C221 | partial | Verif.Runtime.Genesis.C221_accumulate, Verif.Runtime.Genesis.C221_accumulate_ok, Verif.Runtime.Genesis.C221_partial, Verif.Runtime.Genesis.C221_accepts, Verif.Runtime.Genesis.C221_vanilla, Verif.Runtime.Genesis.C221_refuted | full statement refuted for vanilla, proved for the three other chains; exact shortfall on vanilla
C222 | partial | Verif.Runtime.Genesis.C222_partial, Verif.Runtime.Genesis.C222_refuted | full statement refuted (assets' token contracts have no code); exact set of addresses with code
C223 | proved | Verif.System.C223_paid | 
C224 | partial | Verif.System.C224_partial, Verif.System.C224_refuted, Verif.System.C224_stolen | full statement refuted (a Streaming proxy opens a stream to itself and empties the account); proved for all other pallet types
C225 | partial | Verif.Bridge.C225_sides_partial, Verif.Bridge.C225_refuted, Verif.Bridge.C225_against_pays, Verif.Bridge.C225_for_rejects | False as stated: after the committee has shrunk a vote against can pay a transfer out and a vote for can reject it, because both counts are compared with the new threshold when the next vote arrives; proved for every history in which the committee does not change after the proposal's first vote.
C226 | partial | Verif.System.C226_noPanic_partial, Verif.System.C226_refuted | proved for every transaction of a user except those of stableswap pools, for which it is refuted: a pool of assets with 12 and 6 decimals whose invariant the solver does not find makes every deposit panic
C227 | proved | Verif.System.C227_hooks | for every configuration and state, reachable or not
C228 | partial | Verif.Staking.C228_answers_partial, Verif.Staking.C228_patient_partial, Verif.Staking.C228_patient_noPanic_partial, Verif.Staking.C228_refuted, Verif.System.C228_crowdloans_partial | refuted for liquid staking by a reachable history with two overlapping unbonding requests; proved for crowdloans, and for liquid staking whenever the unbonded amount is at most the noted active stake, which holds in every history in which no derivative account has two unbonding requests under way at the same time (patient histories; answers are then even accepted)
C229 | partial | Verif.Loans.C229_status_partial, Verif.Loans.C229_status_accrues_partial, Verif.Loans.C229_liquidity_partial, Verif.Loans.C229_shortfall_partial, Verif.Loans.C229_refuted, Verif.Loans.C229_status_refuted, Verif.Loans.C229_liquidity_refuted, Verif.Loans.C229_shortfall_refuted | each part is refuted for markets whose interest has not been accrued (or, for the status, never) and proved otherwise
C230 | partial | Verif.Loans.C230_interest_partial, Verif.Loans.C230_fresh_partial, Verif.Loans.C230_refuted | full statement refuted by a year-old debt in another market; proved up to the interest not yet accrued, and exactly if the other markets were accrued in this block
C231 | proved | Verif.Amm.C231_same, Verif.Amm.C231_pools, Verif.Amm.C231_amounts, Verif.Amm.C231_facts, Verif.Amm.C231_every | the model with events agrees with the model without them; events of `pallet_assets` are not modelled
C232 | partial | Verif.Loans.C232_same, Verif.Loans.C232_amounts, Verif.Loans.C232_named_partial, Verif.Loans.C232_debts, Verif.Loans.C232_facts, Verif.Loans.C232_markets, Verif.Loans.C232_refuted | amounts and debts proved for all calls; that everybody concerned is named is refuted by transfers of ptokens and proved for all other calls
C233 | partial | Verif.Loans.C233_suppliers, Verif.Loans.C233_claimable_partial, Verif.Loans.C233_refuted | proved for rewards on deposits and every call; for rewards on debts refuted by a liquidation and proved for every other call in states whose markets were accrued in this block
C234 | proved | Verif.Bridge.C234_paid_le_sent, Verif.Bridge.C234_backed, Verif.Bridge.C234_payable, Verif.Bridge.C234_payouts | Several instances of the pallet with relayers in between; one token, home on one chain, minted and burned on the others. Assumptions on governance (no unregister_chain, the token registered as what it is), on relayers (fewer dishonest ones than the threshold) and on the rest of each chain (does not mint the token abroad, takes nothing from the bridge account at home) are the predicates Fair and Quiet. C31_replay_after_reregistration shows why unregister_chain is excluded.
C235 | partial | Verif.Loans.C235_debts_le_total_partial, Verif.Loans.C235_total_le_debts_partial, Verif.Loans.C235_owed_of_exact, Verif.Loans.C235_every_history_is_counted, Verif.Loans.C235_refuted | that debts never exceed the recorded total is refuted (interest on a small total rounds to nothing while the index grows); proved: a two-sided bound on the difference over every history, in rational arithmetic, as long as the clock fits 64 bits
C236 | partial | Verif.Loans.C236_rewards_partial, Verif.Loans.C236_refuted | that borrow rewards never exceed the emission is refuted (7246 credited, 7210 emitted, because debts exceed the recorded total); proved: a bound on the excess factor for every history, as long as the clock fits 64 bits and the index stays below 10^36
C237 | partial | Verif.Staking.C237_same, Verif.Staking.C237_settings, Verif.Staking.C237_ledgers, Verif.Staking.C237_era, Verif.Staking.C237_requests, Verif.Staking.C237_amounts, Verif.Staking.C237_staked, Verif.Staking.C237_claimed, Verif.Staking.C237_pool, Verif.Staking.C237_refuted | the full statement is refuted in three places (force_set_current_era has no event, the ledger of a first bond is stored without one, UnstakeCancelled announces whatever amount its caller names) and Staked/Unstaked are silent on the fee and on immediate payments; proved: everything else, for all calls and histories, and exactly what is missing
C238 | partial | Verif.Crowdloans.C238_same, Verif.Crowdloans.C238_call, Verif.Crowdloans.C238_settings, Verif.Crowdloans.C238_requests, Verif.Crowdloans.C238_facts, Verif.Crowdloans.C238_every, Verif.Crowdloans.C238_refuted | the full statement is refuted in three places (refund names nobody it pays, a contribution to a pending vault deposits no event, a forced claim announces the phase Succeeded whatever the phase is); proved: (1) and (2) in full, (3) but for the phase of a claim, (4) with exactly the exception of contributions to pending vaults; events of other pallets and the responder's location are not modelled
C239 | proved | Verif.Stable.C239_same, Verif.Stable.C239_pools, Verif.Stable.C239_amounts, Verif.Stable.C239_facts, Verif.Stable.C239_every | the model with events agrees with the model without them; events of `pallet_assets` are not modelled; `DeltaCalculated` belongs to a function nothing calls
C240 | proved | Verif.Farming.C240_same, Verif.Farming.C240_notes, Verif.Farming.C240_amounts, Verif.Farming.C240_cooling, Verif.Farming.C240_facts, Verif.Farming.C240_every, Verif.Farming.C240_cooldown_untold, Verif.Farming.C240_dispatch_untold | the model with events agrees with the model without them; the two last theorems show by pairs of executions what cannot be inferred from the events; events of `pallet_assets` are not modelled
C241 | partial | Verif.Streaming.C241_same, Verif.Streaming.C241_notes, Verif.Streaming.C241_amounts, Verif.Streaming.C241_facts, Verif.Streaming.C241_every, Verif.Streaming.C241_refuted | everything but "whether it can be cancelled" is proved; that part is refuted (C241_refuted): StreamCreated reports the constant true; the model with events agrees with the model without them; events of `pallet_assets` are not modelled
C242 | proved | Verif.Bridge.C242_same, Verif.Bridge.C242_notes, Verif.Bridge.C242_amounts, Verif.Bridge.C242_facts, Verif.Bridge.C242_every, Verif.Bridge.C242_expiry_untold | the model with events agrees with the model without them; the gift itself is C109; events of `pallet_assets` are not modelled
C243 | partial | Verif.Router.C243_same, Verif.Router.C243_exact_in, Verif.Router.C243_pools, Verif.Router.C243_exact_out_partial, Verif.Router.C243_refuted | proved in full for exact-in trades of every state; for exact-out trades the announced output is the number asked for and can exceed what was received (C243_refuted), all else is proved; events of `pallet_assets` are not modelled
C244 | proved | Verif.Registry.C244_same, Verif.Registry.C244_notes, Verif.Registry.C244_facts, Verif.Registry.C244_every | the model with events agrees with the model without them; the asset announced with a new type leads back from the type unless it had that type already (C142)
C245 | proved | Verif.Prices.C245_same, Verif.Prices.C245_notes, Verif.Prices.C245_answers, Verif.Prices.C245_foreign_untold | set_foreign_asset deposits no event (C245_foreign_untold)
C246 | partial | Verif.Runtime.C246_same, Verif.Runtime.C246_flags, Verif.Runtime.C246_numbers_partial, Verif.Runtime.C246_refuted | the announced flag is right, and the numbers of pallets and calls switched off follow from the events (C246_numbers_partial); which ones they are does not, as the events name neither pallet nor call (C246_refuted)
C247 | partial | Verif.Helper.C247_same, Verif.Helper.C247_setting, Verif.Helper.C247_announced_partial, Verif.Helper.C247_every, Verif.Helper.C247_refuted | the announced setting is right, and every setting in force has been announced or is the initial one; for which kind of request does not follow from the events, which do not name it (C247_refuted)
C248 | partial | Verif.Runtime.C248_same, Verif.Runtime.C248_signer, Verif.Runtime.C248_failed, Verif.Runtime.C248_succeeded, Verif.Runtime.C248_transfers_partial, Verif.Runtime.C248_refuted | one event naming the signer; an announced failure means only fee and nonce are gone; an announced success means the call was carried out, and with it all transfers asked for but those inside `batch`, which reports success when an item fails (C248_refuted)
C249 | proved | Verif.Loans.C249_claimable, Verif.Loans.C249_call, Verif.Loans.C249_bound, Verif.Loans.C249_determined, Verif.Loans.C249_claim, Verif.Loans.C249_hist | claimable = announced as settled - announced as paid, per call and along all histories
C250 | proved | Verif.Loans.C250_pot, Verif.Loans.C250_call, Verif.Loans.C250_bound | balance of the pot = added - withdrawn - paid + sent directly, per call and along all histories
C251 | proved | Verif.Amm.C251_unique, Verif.Amm.C251_byLp, Verif.Amm.C251_order, Verif.Amm.C251_listing, Verif.Amm.C251_byPair, Verif.Amm.C251_stable | a pool token belongs to one pool, so the lookups do not depend on the order of the iteration, find exactly the pools there are, and keep finding them
C252 | proved | Verif.Loans.C252_shown, Verif.Loans.C252_rates, Verif.Loans.C252_interest, Verif.Loans.C252_changes | shown exactly for jump models; the shown rate is bounded by the shown full rate and the interest by it; changed by parameter calls only. In a market never accrued the time counts from 1970 (C229)
