{
 "claims": [
  {
   "property": "C01",
   "status": "proved",
   "theorems": [
    "Verif.Amm.C01_swap_product"
   ],
   "note": "product of reserves never falls, also net of the fee; strictly grows for non-empty pools"
  },
  {
   "property": "C02",
   "status": "proved",
   "theorems": [
    "Verif.Amm.C02_reserves_backed"
   ],
   "note": "invariant over every history, incl. arbitrary other-pallet steps that take nothing from the AMM account"
  },
  {
   "property": "C03",
   "status": "proved",
   "theorems": [
    "Verif.Amm.C03_swap_exact"
   ],
   "note": ""
  },
  {
   "property": "C04",
   "status": "proved",
   "theorems": [
    "Verif.Amm.C04_out_lt_reserve",
    "Verif.Amm.C04_out_mono",
    "Verif.Amm.C04_reserves_positive"
   ],
   "note": ""
  },
  {
   "property": "C05",
   "status": "partial",
   "theorems": [
    "Verif.Amm.C05_quote_in_insufficient",
    "Verif.Amm.C05_refuted",
    "Verif.Amm.C05_partial_shortfall",
    "Verif.Amm.C05_partial_plus_one"
   ],
   "note": "the full claim is false of the code (refuted with a witness); proved: shortfall bound and that one unit more suffices"
  },
  {
   "property": "C06",
   "status": "proved",
   "theorems": [
    "Verif.Amm.C06_round_trip"
   ],
   "note": ""
  },
  {
   "property": "C07",
   "status": "proved",
   "theorems": [
    "Verif.Amm.C07_add_no_dilution"
   ],
   "note": ""
  },
  {
   "property": "C08",
   "status": "proved",
   "theorems": [
    "Verif.Amm.C08_remove_pro_rata"
   ],
   "note": ""
  },
  {
   "property": "C09",
   "status": "proved",
   "theorems": [
    "Verif.Amm.C09_add_remove"
   ],
   "note": ""
  },
  {
   "property": "C10",
   "status": "proved",
   "theorems": [
    "Verif.Amm.C10_min_liquidity",
    "Verif.Amm.C10_lock_monotone"
   ],
   "note": ""
  },
  {
   "property": "C100",
   "status": "partial",
   "theorems": [
    "Verif.Crowdloans.C100_phase_partial",
    "Verif.Crowdloans.C100_refuted"
   ],
   "note": "Refuted as stated: a late answer to a withdrawal can move a vault that has succeeded meanwhile to failed. Proved: which calls change a phase and how."
  },
  {
   "property": "C101",
   "status": "proved",
   "theorems": [
    "Verif.Crowdloans.C101_one_vault",
    "Verif.Crowdloans.C101_own_storage",
    "Verif.Crowdloans.C101_isolated"
   ],
   "note": ""
  },
  {
   "property": "C102",
   "status": "partial",
   "theorems": [
    "Verif.Crowdloans.C102_confirm_once",
    "Verif.Crowdloans.C102_confirmed",
    "Verif.Crowdloans.C102_rejected",
    "Verif.Crowdloans.C102_refuted"
   ],
   "note": "Refuted for rejections: the request is kept, so a second rejection of the same query pays again out of the same user's other contribution. Proved for confirmations."
  },
  {
   "property": "C103",
   "status": "proved",
   "theorems": [
    "Verif.Crowdloans.C103_migrate",
    "Verif.Crowdloans.C103_refund",
    "Verif.Crowdloans.C103_refund_all"
   ],
   "note": ""
  },
  {
   "property": "C104",
   "status": "proved",
   "theorems": [
    "Verif.Crowdloans.C104_iff",
    "Verif.Crowdloans.C104_settled"
   ],
   "note": ""
  },
  {
   "property": "C105",
   "status": "proved",
   "theorems": [
    "Verif.Crowdloans.C105_progress",
    "Verif.Crowdloans.C105_monotone",
    "Verif.Crowdloans.C105_when"
   ],
   "note": ""
  },
  {
   "property": "C106",
   "status": "proved",
   "theorems": [
    "Verif.Bridge.C106_teleport_iff"
   ],
   "note": ""
  },
  {
   "property": "C107",
   "status": "proved",
   "theorems": [
    "Verif.Bridge.C107_vote_iff"
   ],
   "note": "The bridged token is assumed not to be the native currency (for which the gift and the payout draw on the same ledger entry)."
  },
  {
   "property": "C108",
   "status": "proved",
   "theorems": [
    "Verif.Bridge.C108_register_chain",
    "Verif.Bridge.C108_unregister_chain",
    "Verif.Bridge.C108_settings",
    "Verif.Bridge.C108_tokens"
   ],
   "note": ""
  },
  {
   "property": "C109",
   "status": "proved",
   "theorems": [
    "Verif.Bridge.C109_gift",
    "Verif.Bridge.C109_low_gift_account_blocks"
   ],
   "note": "Finding: a gift account holding the gift but not the deposit blocks payouts."
  },
  {
   "property": "C11",
   "status": "partial",
   "theorems": [
    "Verif.Amm.C11_fee_without_growth",
    "Verif.Amm.C11_fee_of_growth_partial"
   ],
   "note": "refuted: enabling the fee mints without growth; partial: fee bounded by growth once reserves were remembered"
  },
  {
   "property": "C110",
   "status": "proved",
   "theorems": [
    "Verif.Bridge.C110_live",
    "Verif.Bridge.C110_expiry",
    "Verif.Bridge.C110_vote"
   ],
   "note": ""
  },
  {
   "property": "C111",
   "status": "proved",
   "theorems": [
    "Verif.Loans.C111_interest_exact",
    "Verif.Loans.C111_first_touch",
    "Verif.Loans.C111_interest_rounding"
   ],
   "note": ""
  },
  {
   "property": "C112",
   "status": "proved",
   "theorems": [
    "Verif.Loans.C112_claim_market",
    "Verif.Loans.C112_claim_all",
    "Verif.Loans.C112_claim_twice",
    "Verif.Loans.C112_index_growth"
   ],
   "note": ""
  },
  {
   "property": "C113",
   "status": "proved",
   "theorems": [
    "Verif.Loans.C113_add_market",
    "Verif.Loans.C113_new_market_empty",
    "Verif.Loans.C113_activate",
    "Verif.Loans.C113_update_rate_model",
    "Verif.Loans.C113_update_market",
    "Verif.Loans.C113_force_update",
    "Verif.Loans.C113_speed_change_keeps_earnings",
    "Verif.Loans.C113_speeds"
   ],
   "note": ""
  },
  {
   "property": "C114",
   "status": "proved",
   "theorems": [
    "Verif.Loans.C114_only_active_markets"
   ],
   "note": ""
  },
  {
   "property": "C115",
   "status": "partial",
   "theorems": [
    "Verif.Loans.C115_partial",
    "Verif.Loans.C115_refuted"
   ],
   "note": "False in general: debts in suspended markets do not count. Proved for accounts owing only in active markets."
  },
  {
   "property": "C116",
   "status": "proved",
   "theorems": [
    "Verif.Loans.C116_mint",
    "Verif.Loans.C116_redeem",
    "Verif.Loans.C116_redeem_all",
    "Verif.Loans.C116_borrow",
    "Verif.Loans.C116_repay",
    "Verif.Loans.C116_collateral",
    "Verif.Loans.C116_add_reserves",
    "Verif.Loans.C116_reduce_reserves",
    "Verif.Loans.C116_reward_funds",
    "Verif.Loans.C116_reward_withdrawal",
    "Verif.Loans.C116_liquidate"
   ],
   "note": ""
  },
  {
   "property": "C117",
   "status": "proved",
   "theorems": [
    "Verif.Loans.C117_mint_accepted",
    "Verif.Loans.C117_redeem_accepted",
    "Verif.Loans.C117_borrow_accepted",
    "Verif.Loans.C117_repay_accepted",
    "Verif.Loans.C117_collateral_on",
    "Verif.Loans.C117_collateral_off",
    "Verif.Loans.C117_claim_accepted"
   ],
   "note": ""
  },
  {
   "property": "C118",
   "status": "proved",
   "theorems": [
    "Verif.Loans.C118_settles",
    "Verif.Loans.C118_others_keep",
    "Verif.Loans.C118_never_falls",
    "Verif.Loans.C118_transfer_counts_as_earned",
    "Verif.Loans.C118_liquidation_limit"
   ],
   "note": "Finding: ptokens received by transfer are recorded as earned interest."
  },
  {
   "property": "C119",
   "status": "proved",
   "theorems": [
    "Verif.Crowdloans.C119_conversion",
    "Verif.Crowdloans.C119_conversion_answers",
    "Verif.Crowdloans.C119_bonus_amount",
    "Verif.Crowdloans.C119_claim_stream",
    "Verif.Crowdloans.C119_bonus_conditions",
    "Verif.Crowdloans.C119_small_bonus_blocks",
    "Verif.Crowdloans.C119_no_streaming"
   ],
   "note": "Findings: a bonus below one unit per second of the stream blocks the claim; heiko and vanilla drop bonuses silently."
  },
  {
   "property": "C12",
   "status": "proved",
   "theorems": [
    "Verif.Amm.C12_add_order",
    "Verif.Amm.C12_remove_order",
    "Verif.Amm.C12_create_order",
    "Verif.Amm.C12_identical"
   ],
   "note": ""
  },
  {
   "property": "C120",
   "status": "proved",
   "theorems": [
    "Verif.Crowdloans.C120_settings"
   ],
   "note": ""
  },
  {
   "property": "C121",
   "status": "proved",
   "theorems": [
    "Verif.Evm.C121_writer_is_abi",
    "Verif.Evm.C121_calldata",
    "Verif.Evm.C121_roundtrip",
    "Verif.Evm.C121_injective"
   ],
   "note": ""
  },
  {
   "property": "C122",
   "status": "proved",
   "theorems": [
    "Verif.Evm.C122_no_panic",
    "Verif.Evm.C122_array_bounded"
   ],
   "note": ""
  },
  {
   "property": "C123",
   "status": "partial",
   "theorems": [
    "Verif.Evm.C123_refuted",
    "Verif.Evm.C123_ethereum_misread",
    "Verif.Evm.C123_fork_misread",
    "Verif.Evm.C123_location_roundtrip_partial"
   ],
   "note": "False as stated (writer of ByFork/Ethereum networks); proved for all other multilocations."
  },
  {
   "property": "C124",
   "status": "partial",
   "theorems": [
    "Verif.Evm.C124_refuted",
    "Verif.Evm.C124_junction_no_panic_partial",
    "Verif.Evm.C124_location_no_panic_partial"
   ],
   "note": "False as stated (GeneralKey with a wrong length panics); proved for all other inputs."
  },
  {
   "property": "C125",
   "status": "proved",
   "theorems": [
    "Verif.Evm.Bal.C125_metadata",
    "Verif.Evm.Bal.C125_balance_of",
    "Verif.Evm.Bal.C125_allowance",
    "Verif.Evm.Bal.C125_nonces",
    "Verif.Evm.Bal.C125_approve",
    "Verif.Evm.Bal.C125_transfer_when",
    "Verif.Evm.Bal.C125_transfer_what",
    "Verif.Evm.Bal.C125_transfer_from_when",
    "Verif.Evm.Bal.C125_transfer_from_what"
   ],
   "note": ""
  },
  {
   "property": "C126",
   "status": "proved",
   "theorems": [
    "Verif.Evm.Bal.C126_consent"
   ],
   "note": ""
  },
  {
   "property": "C127",
   "status": "proved",
   "theorems": [
    "Verif.Evm.Bal.C127_bounded_loss"
   ],
   "note": ""
  },
  {
   "property": "C128",
   "status": "proved",
   "theorems": [
    "Verif.Evm.Bal.C128_permit_when",
    "Verif.Evm.Bal.C128_permit_what",
    "Verif.Evm.C128_digest_binds",
    "Verif.Evm.C128_eip712",
    "Verif.Evm.Bal.C128_nonce_monotone",
    "Verif.Evm.Bal.C128_no_replay"
   ],
   "note": "keccak and ecdsa recovery are arbitrary functions; binding is up to hash collisions on explicitly listed strings."
  },
  {
   "property": "C129",
   "status": "proved",
   "theorems": [
    "Verif.Evm.Bal.C129_fallback",
    "Verif.Evm.Bal.C129_deposit_returns",
    "Verif.Evm.Bal.C129_withdraw",
    "Verif.Evm.C129_not_native"
   ],
   "note": ""
  },
  {
   "property": "C13",
   "status": "proved",
   "theorems": [
    "Verif.Router.C13_exact_in"
   ],
   "note": ""
  },
  {
   "property": "C130",
   "status": "proved",
   "theorems": [
    "Verif.Evm.Bal.C130_conserved"
   ],
   "note": ""
  },
  {
   "property": "C131",
   "status": "partial",
   "theorems": [
    "Verif.Evm.Bal.C131_static_refuted",
    "Verif.Evm.Bal.C131_payable_refuted",
    "Verif.Evm.Bal.C131_views_partial"
   ],
   "note": "False as stated: the result of check_function_modifier is dropped."
  },
  {
   "property": "C132",
   "status": "proved",
   "theorems": [
    "Verif.Evm.Ast.C132_metadata",
    "Verif.Evm.Ast.C132_balance_of",
    "Verif.Evm.Ast.C132_allowance",
    "Verif.Evm.Ast.C132_nonces",
    "Verif.Evm.Ast.C132_approve_when",
    "Verif.Evm.Ast.C132_approve_what",
    "Verif.Evm.Ast.C132_transfer_when",
    "Verif.Evm.Ast.C132_transfer_what",
    "Verif.Evm.Ast.C132_transfer_from_when",
    "Verif.Evm.Ast.C132_transfer_from_what"
   ],
   "note": ""
  },
  {
   "property": "C133",
   "status": "proved",
   "theorems": [
    "Verif.Evm.Ast.C133_consent"
   ],
   "note": ""
  },
  {
   "property": "C134",
   "status": "proved",
   "theorems": [
    "Verif.Evm.Ast.C134_deposits_covered",
    "Verif.Evm.Ast.C134_spent_returns",
    "Verif.Evm.Ast.C134_revoke_keeps_deposit"
   ],
   "note": ""
  },
  {
   "property": "C135",
   "status": "proved",
   "theorems": [
    "Verif.Evm.Ast.C135_mint",
    "Verif.Evm.Ast.C135_burn",
    "Verif.Evm.Ast.C135_mint_zero"
   ],
   "note": ""
  },
  {
   "property": "C136",
   "status": "proved",
   "theorems": [
    "Verif.Evm.Ast.C136_permit_when",
    "Verif.Evm.C136_name",
    "Verif.Evm.Ast.C136_permit_what",
    "Verif.Evm.Ast.C136_nonce_monotone",
    "Verif.Evm.Ast.C136_no_replay",
    "Verif.Evm.C128_digest_binds"
   ],
   "note": "keccak and ecdsa recovery are arbitrary functions; no replay up to hash collisions on explicitly listed strings."
  },
  {
   "property": "C137",
   "status": "proved",
   "theorems": [
    "Verif.Evm.Ast.C137_no_delegatecall",
    "Verif.Evm.Ast.C137_native",
    "Verif.Evm.Ast.C137_asset",
    "Verif.Evm.Ast.C137_roundtrip",
    "Verif.Evm.Ast.C137_aliases",
    "Verif.Evm.C137_is_precompile"
   ],
   "note": ""
  },
  {
   "property": "C138",
   "status": "proved",
   "theorems": [
    "Verif.Evm.Ast.C138_supply"
   ],
   "note": ""
  },
  {
   "property": "C139",
   "status": "partial",
   "theorems": [
    "Verif.Evm.Ast.C139_static_refuted",
    "Verif.Evm.Ast.C139_static_partial",
    "Verif.Evm.Ast.C139_no_value"
   ],
   "note": "The static part is false for permit; proved for every other call."
  },
  {
   "property": "C14",
   "status": "partial",
   "theorems": [
    "Verif.Router.C14_refuted",
    "Verif.Router.C14_exact_out_partial"
   ],
   "note": "refuted on a reachable state (delivers 999 instead of 1000); everything else proved with an exact bound on the shortfall"
  },
  {
   "property": "C140",
   "status": "proved",
   "theorems": [
    "Verif.Evm.Ast.C140_bounded_loss"
   ],
   "note": ""
  },
  {
   "property": "C141",
   "status": "proved",
   "theorems": [
    "Verif.Registry.C141_supported_iff_rate",
    "Verif.Registry.C141_list"
   ],
   "note": ""
  },
  {
   "property": "C142",
   "status": "partial",
   "theorems": [
    "Verif.Registry.C142_refuted",
    "Verif.Registry.C142_same_type_update",
    "Verif.Registry.C142_back_partial",
    "Verif.Registry.C142_inverse_partial"
   ],
   "note": "False as stated; proved one direction always and both when types in use are never reused."
  },
  {
   "property": "C143",
   "status": "proved",
   "theorems": [
    "Verif.Registry.C143_only_authorised",
    "Verif.Registry.C143_register_when",
    "Verif.Registry.C143_register_what",
    "Verif.Registry.C143_units_when",
    "Verif.Registry.C143_units_what",
    "Verif.Registry.C143_type_when",
    "Verif.Registry.C143_type_what",
    "Verif.Registry.C143_remove_fee",
    "Verif.Registry.C143_deregister_when",
    "Verif.Registry.C143_deregister_what"
   ],
   "note": ""
  },
  {
   "property": "C144",
   "status": "partial",
   "theorems": [
    "Verif.Registry.C144_refuted",
    "Verif.Registry.C144_fee_asset_registered_partial"
   ],
   "note": "False after an update of an asset to its own type; proved for all other histories."
  },
  {
   "property": "C145",
   "status": "proved",
   "theorems": [
    "Verif.Xcm.C145_buy_when",
    "Verif.Xcm.C145_buy_what",
    "Verif.Xcm.C145_refund",
    "Verif.Xcm.C145_buy_weight",
    "Verif.Xcm.C145_refund_weight",
    "Verif.Xcm.C145_new"
   ],
   "note": ""
  },
  {
   "property": "C146",
   "status": "partial",
   "theorems": [
    "Verif.Xcm.C146_refuted",
    "Verif.Xcm.C146_cross_asset",
    "Verif.Xcm.C146_refund_panics",
    "Verif.Xcm.C146_refund_bounded_partial"
   ],
   "note": "False at the trader (weight counted twice); proved when refunds do not exceed the weight of the first purchase."
  },
  {
   "property": "C147",
   "status": "partial",
   "theorems": [
    "Verif.Xcm.C147_refuted",
    "Verif.Xcm.C147_conserved_partial",
    "Verif.Xcm.C147_booked"
   ],
   "note": "False when fees are paid in a second asset; proved for one asset."
  },
  {
   "property": "C148",
   "status": "proved",
   "theorems": [
    "Verif.Xcm.C148_deposit_when",
    "Verif.Xcm.C148_deposit_what",
    "Verif.Xcm.C148_deposit_failed",
    "Verif.Xcm.C148_withdraw_when",
    "Verif.Xcm.C148_withdraw_what",
    "Verif.Xcm.C148_transfer_when",
    "Verif.Xcm.C148_transfer_what"
   ],
   "note": ""
  },
  {
   "property": "C149",
   "status": "partial",
   "theorems": [
    "Verif.Xcm.C149_refuted",
    "Verif.Xcm.C149_top_up_partial",
    "Verif.Xcm.C149_threshold",
    "Verif.Xcm.C149_decimals_panic",
    "Verif.Xcm.C149_gift_parallel",
    "Verif.Xcm.C149_gift_heiko"
   ],
   "note": "False as stated (the gift can be earned repeatedly); proved: it is a bounded top-up with exact thresholds."
  },
  {
   "property": "C15",
   "status": "proved",
   "theorems": [
    "Verif.Router.C15_routes",
    "Verif.Router.C15_unknown_token"
   ],
   "note": "termination, soundness, completeness, order"
  },
  {
   "property": "C150",
   "status": "proved",
   "theorems": [
    "Verif.Xcm.C150_supply",
    "Verif.Xcm.C150_who_loses"
   ],
   "note": ""
  },
  {
   "property": "C151",
   "status": "proved",
   "theorems": [
    "Verif.Xcm.C151_local_absolute",
    "Verif.Xcm.C151_foreign",
    "Verif.Xcm.C151_local_registration_dead",
    "Verif.Xcm.C151_injective"
   ],
   "note": ""
  },
  {
   "property": "C152",
   "status": "proved",
   "theorems": [
    "Verif.Runtime.C152_blocked",
    "Verif.Runtime.C152_offered",
    "Verif.Runtime.C152_events",
    "Verif.Runtime.C152_users_cannot",
    "Verif.Runtime.C152_no_lockout",
    "Verif.Runtime.C152_one_pallet",
    "Verif.Runtime.C152_open",
    "Verif.Runtime.C152_stableswap_closed"
   ],
   "note": ""
  },
  {
   "property": "C153",
   "status": "proved",
   "theorems": [
    "Verif.Runtime.C153_user_calls_filtered"
   ],
   "note": ""
  },
  {
   "property": "C154",
   "status": "partial",
   "theorems": [
    "Verif.Runtime.C154_refuted",
    "Verif.Runtime.C154_partial",
    "Verif.Runtime.C154_closed"
   ],
   "note": "False: the outermost call inside a signature call is not filtered; proved: everything else is."
  },
  {
   "property": "C155",
   "status": "proved",
   "theorems": [
    "Verif.Runtime.C155_control",
    "Verif.Runtime.C155_proxy_scope",
    "Verif.Runtime.C155_types",
    "Verif.Runtime.C155_no_transfers",
    "Verif.Runtime.C155_add_proxy",
    "Verif.Runtime.C155_add_proxy_what",
    "Verif.Runtime.C155_remove_proxy"
   ],
   "note": ""
  },
  {
   "property": "C156",
   "status": "partial",
   "theorems": [
    "Verif.Runtime.C156_refuted",
    "Verif.Runtime.C156_refuted_unverified",
    "Verif.Runtime.C156_partial",
    "Verif.Runtime.C156_works"
   ],
   "note": "False on heiko and vanilla (signatures are not verified there); proved for parallel and kerria."
  },
  {
   "property": "C157",
   "status": "partial",
   "theorems": [
    "Verif.Runtime.C157_refuted",
    "Verif.Runtime.C157_partial"
   ],
   "note": "False when the account is removed in between; proved otherwise."
  },
  {
   "property": "C158",
   "status": "partial",
   "theorems": [
    "Verif.Runtime.C158_refuted",
    "Verif.Runtime.C158_partial",
    "Verif.Runtime.C158_pool"
   ],
   "note": "False for signers without money; proved for the others."
  },
  {
   "property": "C159",
   "status": "partial",
   "theorems": [
    "Verif.Runtime.C159_refuted",
    "Verif.Runtime.C159_partial",
    "Verif.Runtime.C159_signed_bytes",
    "Verif.Runtime.C159_checked"
   ],
   "note": "False for the pairs of runtimes with the same number; proved between the two families."
  },
  {
   "property": "C16",
   "status": "proved",
   "theorems": [
    "Verif.Router.C16_best_route"
   ],
   "note": ""
  },
  {
   "property": "C160",
   "status": "proved",
   "theorems": [
    "Verif.Runtime.C160_withdraw",
    "Verif.Runtime.C160_withdraw_works"
   ],
   "note": ""
  },
  {
   "property": "C161",
   "status": "proved",
   "theorems": [
    "Verif.Helper.C161_request",
    "Verif.Helper.C161_refused",
    "Verif.Helper.C161_history",
    "Verif.Helper.C161_queries",
    "Verif.Helper.C161_pay_in"
   ],
   "note": "Exact acceptance condition and effects of a request; issuance and freshness of queries over all histories (freshness while the 64-bit counter has not run out)."
  },
  {
   "property": "C162",
   "status": "proved",
   "theorems": [
    "Verif.Helper.C162_fees",
    "Verif.Helper.C162_setting",
    "Verif.Helper.C162_default"
   ],
   "note": "Invariant over all histories."
  },
  {
   "property": "C163",
   "status": "partial",
   "theorems": [
    "Verif.Helper.C163_refuted",
    "Verif.Helper.C163_report_partial",
    "Verif.Helper.C163_never_failure"
   ],
   "note": "False: the report comes from a ReportError instruction after the calls, and a failed Transact is not an error of the message, so the report always says success, also when every call failed; and if the message itself fails, no report is sent at all. Proved: exactly when a report is sent, and what was done then."
  },
  {
   "property": "C164",
   "status": "partial",
   "theorems": [
    "Verif.Helper.C164_refuted",
    "Verif.Helper.C164_two_calls_partial"
   ],
   "note": "False: the calls are separate instructions, each of which may fail alone. Proved: the four possible outcomes."
  },
  {
   "property": "C165",
   "status": "proved",
   "theorems": [
    "Verif.Helper.C165_unambiguous",
    "Verif.Helper.C165_readable",
    "Verif.Helper.C165_tag",
    "Verif.Helper.C165_bytes"
   ],
   "note": "Induction on nested calls."
  },
  {
   "property": "C166",
   "status": "partial",
   "theorems": [
    "Verif.Currency.C166_refuted",
    "Verif.Currency.C166_lock_partial"
   ],
   "note": "False: a lock set on an account whose total is below the existential deposit is registered, but the frozen amount is dropped with the account data, so it is not in force when the account is funded. Proved: for accounts that exist when the lock is set (and whose first lock it is, or which hold a reference for their locks, or with a lock of at least the existential deposit), over all later histories."
  },
  {
   "property": "C167",
   "status": "proved",
   "theorems": [
    "Verif.Currency.C167_set",
    "Verif.Currency.C167_remove",
    "Verif.Currency.C167_native",
    "Verif.Currency.C167_no_trace"
   ],
   "note": "Exact acceptance and effects."
  },
  {
   "property": "C168",
   "status": "proved",
   "theorems": [
    "Verif.Currency.C168_transfer",
    "Verif.Currency.C168_mint",
    "Verif.Currency.C168_burn",
    "Verif.Currency.C168_wf",
    "Verif.Currency.C168_complete"
   ],
   "note": "Refinement of the ledger by which all other models describe the currencies."
  },
  {
   "property": "C169",
   "status": "proved",
   "theorems": [
    "Verif.Currency.C169_transfer",
    "Verif.Currency.C169_mint",
    "Verif.Currency.C169_burn",
    "Verif.Currency.C169_history",
    "Verif.Currency.C169_mint_when"
   ],
   "note": "Invariant over all histories."
  },
  {
   "property": "C17",
   "status": "partial",
   "theorems": [
    "Verif.Stable.C17_refuted",
    "Verif.Stable.C17_overmint",
    "Verif.Stable.C17_remove_partial"
   ],
   "note": "false of the code as stated (C17_refuted: LP tokens are minted twice); C17_remove_partial proves that removing pays at most the proportional share"
  },
  {
   "property": "C170",
   "status": "proved",
   "theorems": [
    "Verif.Currency.C170_spendable",
    "Verif.Currency.C170_absent"
   ],
   "note": "Equivalence, native currency and assets."
  },
  {
   "property": "C171",
   "status": "partial",
   "theorems": [
    "Verif.Migrations.C171_refuted",
    "Verif.Migrations.C171_effect",
    "Verif.Migrations.C171_harmless_partial",
    "Verif.Migrations.C171_twice_partial",
    "Verif.Migrations.C171_armed"
   ],
   "note": "False: the migration keeps the version at 3 and resets the amount at every upgrade while the slot is expired, so redemptions between two upgrades are undone in the books. Proved: the exact effect, exactly when it is harmless, and that repeating it at once is."
  },
  {
   "property": "C172",
   "status": "partial",
   "theorems": [
    "Verif.Migrations.C172_refuted",
    "Verif.Migrations.C172_apart_partial",
    "Verif.Migrations.C172_writes",
    "Verif.Migrations.C172_once"
   ],
   "note": "False: the fixed indices 9 to 13 and 25 to 30 may be in use, e.g. after the first migration with index 10, what its own check asks for. Proved: apart when the next index is at most 9 or 25; exact effects; once."
  },
  {
   "property": "C173",
   "status": "partial",
   "theorems": [
    "Verif.Migrations.C173_refuted",
    "Verif.Migrations.C173_markets_partial",
    "Verif.Migrations.C173_rest",
    "Verif.Migrations.C173_once"
   ],
   "note": "False: a collateral factor above 90.9090% gives a threshold of 100%. Proved: exactly which markets become valid, all settings kept, speeds copied, runs once."
  },
  {
   "property": "C174",
   "status": "partial",
   "theorems": [
    "Verif.Migrations.C174_refuted",
    "Verif.Migrations.C174_total_partial",
    "Verif.Migrations.C174_lookups_partial",
    "Verif.Migrations.C174_payment_partial",
    "Verif.Migrations.convKey_inj",
    "Verif.Migrations.convKey_mono"
   ],
   "note": "False: the list of accepted assets is converted in place, but v3 orders keys by length first; with keys of different lengths of one parachain the bisection misses assets. Proved: exactly when the migration goes through; all lookups carry over; payment does if the order stays (for example keys of one length)."
  },
  {
   "property": "C175",
   "status": "proved",
   "theorems": [
    "Verif.Migrations.C175_codes",
    "Verif.Migrations.C175_once"
   ],
   "note": "Induction over the address list."
  },
  {
   "property": "C176",
   "status": "proved",
   "theorems": [
    "Verif.Staking.C176_bond",
    "Verif.Staking.C176_bond_extra",
    "Verif.Staking.C176_no_ledger",
    "Verif.Staking.C176_zero",
    "Verif.Staking.C176_unbond",
    "Verif.Staking.C176_rebond",
    "Verif.Staking.C176_withdraw",
    "Verif.Staking.C176_withdraw_none",
    "Verif.Staking.C176_nominate"
   ],
   "note": "Exact acceptance and effect of each request call."
  },
  {
   "property": "C177",
   "status": "proved",
   "theorems": [
    "Verif.Staking.C177_request",
    "Verif.Staking.C177_cancel",
    "Verif.Staking.C177_at_once"
   ],
   "note": "A request through the pool books the fee share although no token is taken (see C75)."
  },
  {
   "property": "C178",
   "status": "proved",
   "theorems": [
    "Verif.Staking.C178_advance",
    "Verif.Staking.C178_advance_zero",
    "Verif.Staking.C178_set_era",
    "Verif.Staking.C178_set_era_known",
    "Verif.Staking.C178_force",
    "Verif.Staking.C178_offset",
    "Verif.Staking.C178_offset_zero",
    "Verif.Staking.C178_block_matched",
    "Verif.Staking.C178_block_early",
    "Verif.Staking.C178_block_due",
    "Verif.Staking.C178_matched",
    "Verif.Staking.C178_block_end"
   ],
   "note": "The relay chain's era and block number are inputs."
  },
  {
   "property": "C179",
   "status": "proved",
   "theorems": [
    "Verif.Staking.C179_rate",
    "Verif.Staking.C179_rate_kept",
    "Verif.Staking.C179_inflate",
    "Verif.Staking.C179_inflate_zero",
    "Verif.Staking.C179_set_ledger",
    "Verif.Staking.C179_force_ledger"
   ],
   "note": "The inflation formula is exact when all intermediate results fit u128 (they saturate otherwise)."
  },
  {
   "property": "C18",
   "status": "proved",
   "theorems": [
    "Verif.Stable.C18_swap_exact"
   ],
   "note": ""
  },
  {
   "property": "C180",
   "status": "proved",
   "theorems": [
    "Verif.Staking.C180_settings",
    "Verif.Staking.C180_reserves",
    "Verif.Staking.C180_frame"
   ],
   "note": "Origin checks are assumed (any caller of a governance call is governance)."
  },
  {
   "property": "C181",
   "status": "partial",
   "theorems": [
    "Verif.Loans.C181_refuted",
    "Verif.Loans.C181_partial",
    "Verif.Loans.C181_uncovered"
   ],
   "note": "False as stated: the transfer converts at the exchange rate recorded at the last accrual and does not accrue; a gift to the pallet makes it stale and all pledged vouchers can leave (C181_refuted). Proved whenever the recorded rate is not below the actual one."
  },
  {
   "property": "C182",
   "status": "partial",
   "theorems": [
    "Verif.Loans.C182_refuted",
    "Verif.Loans.C182_partial",
    "Verif.Loans.C182_not_seized",
    "Verif.Loans.C182_seizable",
    "Verif.Loans.C182_set_class"
   ],
   "note": "False as stated: the transfer ignores the liquidation-free class, so an ordinary debt can end up backed only by collateral that cannot be seized (C182_refuted). Proved for accounts without such collateral; seizure and setting of the class are exact."
  },
  {
   "property": "C183",
   "status": "partial",
   "theorems": [
    "Verif.Loans.C183_refuted",
    "Verif.Loans.C183_free",
    "Verif.Loans.C183_none",
    "Verif.Loans.C183_pledged",
    "Verif.Loans.C183_transfer",
    "Verif.Loans.C183_partial"
   ],
   "note": "False for can_withdraw, which ignores debts (C183_refuted). Reports, exact transfer and acceptance of free amounts are proved (acceptance relative to the reward records not overflowing)."
  },
  {
   "property": "C184",
   "status": "proved",
   "theorems": [
    "Verif.Xcm.C184_accepted",
    "Verif.Xcm.C184_as_sent",
    "Verif.Xcm.C184_refused",
    "Verif.Xcm.C184_weight",
    "Verif.Xcm.C184_weight_sum"
   ],
   "note": "Exact characterisation of the barrier tuple and the weigher."
  },
  {
   "property": "C185",
   "status": "partial",
   "theorems": [
    "Verif.Xcm.C185_refuted",
    "Verif.Xcm.C185_partial",
    "Verif.Xcm.C185_paid"
   ],
   "note": "False as stated: after the response to an expected query the rest of the message runs unpaid, because the repository's own copy of AllowKnownQueryResponses drops the check for a single instruction (C185_refuted). Proved for all other messages."
  },
  {
   "property": "C186",
   "status": "proved",
   "theorems": [
    "Verif.Xcm.C186_origins",
    "Verif.Xcm.C186_sibling",
    "Verif.Xcm.C186_root",
    "Verif.Xcm.C186_convert",
    "Verif.Xcm.C186_transact",
    "Verif.Xcm.C186_descend"
   ],
   "note": "Induction over executions of arbitrary nested messages."
  },
  {
   "property": "C187",
   "status": "proved",
   "theorems": [
    "Verif.Xcm.C187_payers",
    "Verif.Xcm.C187_sibling",
    "Verif.Xcm.C187_relay"
   ],
   "note": "Induction over executions; the gift account appears because deposits of the relay chain's asset can pay a gift."
  },
  {
   "property": "C188",
   "status": "partial",
   "theorems": [
    "Verif.Xcm.C188_refuted",
    "Verif.Xcm.C188_partial",
    "Verif.Xcm.C188_sibling_partial",
    "Verif.Xcm.C188_history_partial",
    "Verif.Xcm.C188_no_teleport",
    "Verif.Xcm.C188_leave",
    "Verif.Xcm.C188_sending"
   ],
   "note": "False as stated: a response to an expected query can buy a small weight, which the trader records twice, and be refunded more than it paid (C188_refuted). Proved for all messages that are not such responses, and for histories of them."
  },
  {
   "property": "C189",
   "status": "proved",
   "theorems": [
    "Verif.System.C189_each_pallet",
    "Verif.System.C189_solvent",
    "Verif.System.C189_nothing_promised_twice"
   ],
   "note": "Rely-guarantee composition: every call of every pallet is shown to be within what every other pallet assumes about the rest of the chain (Guar lemmas), then induction over interleaved histories. Assumes that PalletIds differ and that nobody has the key of a pallet account."
  },
  {
   "property": "C19",
   "status": "proved",
   "theorems": [
    "Verif.Streaming.C19_solvent"
   ],
   "note": "invariant over all histories"
  },
  {
   "property": "C190",
   "status": "proved",
   "theorems": [
    "Verif.System.C190_nobody_else_pays",
    "Verif.System.C190_vaults_apart"
   ],
   "note": "Payers that governance names in a call are listed in the statement (see the findings)."
  },
  {
   "property": "C191",
   "status": "proved",
   "theorems": [
    "Verif.System.C191_ids_apart",
    "Verif.System.C191_wrong_pallet"
   ],
   "note": "Invariant over interleaved histories with one shared query counter."
  },
  {
   "property": "C192",
   "status": "proved",
   "theorems": [
    "Verif.System.C192_only_issuers_issue",
    "Verif.System.C192_liquid"
   ],
   "note": "Governance is assumed not to register the liquid token or a derivative token as an LP token or external token (Call.OK): the pallets do not check it."
  },
  {
   "property": "C193",
   "status": "proved",
   "theorems": [
    "Verif.System.C193_charged",
    "Verif.System.C193_signed",
    "Verif.System.C193_unsigned",
    "Verif.System.dispatch_reach"
   ],
   "note": "Origin checks of all extrinsics of the nine pallets modelled in System/Origin.lean; the membership pallets' contents are a parameter."
  },
  {
   "property": "C194",
   "status": "proved",
   "theorems": [
    "Verif.System.C194_terms"
   ],
   "note": "Over all pallets at once, with the origin checks of System/Origin.lean."
  },
  {
   "property": "C195",
   "status": "proved",
   "theorems": [
    "Verif.System.C195_positions",
    "Verif.System.C195_received"
   ],
   "note": "The account w must not be a pallet's own account; its balances are the subject of C193."
  },
  {
   "property": "C196",
   "status": "proved",
   "theorems": [
    "Verif.System.C196_access",
    "Verif.System.C196_users",
    "Verif.System.C196_nobody_else"
   ],
   "note": "Origins as in System/Origin.lean; whether the call then succeeds depends on its own checks."
  },
  {
   "property": "C197",
   "status": "proved",
   "theorems": [
    "Verif.Accounts.C197_pallets",
    "Verif.Accounts.C197_siblings",
    "Verif.Accounts.C197_apart",
    "Verif.Accounts.C197_size"
   ],
   "note": "Addresses as numbers (32 bytes, little-endian); derived addresses that are hashes are C198's assumption."
  },
  {
   "property": "C198",
   "status": "proved",
   "theorems": [
    "Verif.System.C198_deployed",
    "Verif.System.C198_vaults",
    "Verif.System.C198_messages",
    "Verif.System.C198_transact",
    "Verif.System.C198_constants"
   ],
   "note": "blake2_256 is an arbitrary function without the listed collisions. What a dispatched call does is the subject of C193-C196; XCM messages of pallet_xcm::execute by local users are outside."
  },
  {
   "property": "C199",
   "status": "proved",
   "theorems": [
    "Verif.Xcm.C199_arrives",
    "Verif.Xcm.C199_returns",
    "Verif.Xcm.C199_underpaid",
    "Verif.Xcm.C199_underpaid_return"
   ],
   "note": "xcm-executor is modelled from outside knowledge, as listed at the top of Xcm/Entry.lean."
  },
  {
   "property": "C20",
   "status": "proved",
   "theorems": [
    "Verif.Streaming.C20_conservation",
    "Verif.Streaming.C20_events_match_ledger"
   ],
   "note": "totals over the event log, and the log matches every balance change"
  },
  {
   "property": "C200",
   "status": "partial",
   "theorems": [
    "Verif.Evm.C200_refuted",
    "Verif.Evm.C200_no_allowances_partial",
    "Verif.Evm.C200_approve_fails_partial",
    "Verif.Evm.C200_transfer_from_partial",
    "Verif.Evm.C200_switched_off",
    "Verif.Evm.others_open"
   ],
   "note": "The statement is false on every runtime: the call filter refuses the calls behind approve, permit and transferFrom. Proved instead: exactly what works and what does not on each runtime, and that the emergency switch stops the token contracts."
  },
  {
   "property": "C201",
   "status": "proved",
   "theorems": [
    "Verif.Evm.C201_native_function",
    "Verif.Evm.C201_asset_function",
    "Verif.Evm.C201_asset_unknown",
    "Verif.Evm.C201_no_clash",
    "Verif.Evm.C201_modifiers",
    "Verif.Evm.C201_typehashes",
    "Verif.Evm.C201_topics"
   ],
   "note": "Keccak-256 is defined in the model (Evm/Keccak.lean) and evaluated by the kernel."
  },
  {
   "property": "C202",
   "status": "proved",
   "theorems": [
    "Verif.Prices.C202_never_overstated",
    "Verif.Amm.C202_share_never_falls"
   ],
   "note": "For LP and vault tokens priced through the relay token (no emergency price, no oracle feed of the LP token itself)."
  },
  {
   "property": "C203",
   "status": "proved",
   "theorems": [
    "Verif.System.C203_trading",
    "Verif.System.C203_safe",
    "Verif.System.C203_trades_lower_no_price",
    "Verif.Prices.C203_growth_never_lowers",
    "Verif.Loans.C203_prices_not_against",
    "Verif.Loans.C203_safe_stays_safe"
   ],
   "note": "Prices are read between the extrinsics of a block: oracle values are the same before and after. Supposes that the oracle feeds no price for LP tokens or mapped assets themselves. A price that overflows u128 is no price, and nothing valued with it can be liquidated."
  },
  {
   "property": "C204",
   "status": "proved",
   "theorems": [
    "Verif.System.C204_users_move_no_price",
    "Verif.Prices.C204_only_lp_depends_on_pools"
   ],
   "note": "Covers the eight pallets and the router of the System model; the floating-point yield of crowdloan tokens is an arbitrary function of rate and term."
  },
  {
   "property": "C205",
   "status": "partial",
   "theorems": [
    "Verif.Oracle.C205_honest_range_partial",
    "Verif.Oracle.C205_small_minority_partial",
    "Verif.Oracle.C205_refuted"
   ],
   "note": "The full statement is refuted for the deployed MinimumCount of 2 (and 1): when only two values are unexpired the larger one is the price, so one dishonest operator sets it. Proved: prices stay in the honest range while the majority of the unexpired values is honest, which is automatic if the dishonest operators are fewer than MinimumCount / 2. orml_oracle itself is modelled from outside knowledge."
  },
  {
   "property": "C206",
   "status": "partial",
   "theorems": [
    "Verif.Oracle.C206_new_prices_fresh_partial",
    "Verif.Oracle.C206_time_keeps_prices",
    "Verif.Oracle.C206_refuted"
   ],
   "note": "The full statement is refuted: stored values never expire, and neither the price feed nor the money market look at the timestamp. Proved: every price a feed makes is from a current operator and unexpired at that time."
  },
  {
   "property": "C207",
   "status": "proved",
   "theorems": [
    "Verif.Oracle.C207_who_feeds",
    "Verif.Oracle.C207_what_a_feed_changes",
    "Verif.Oracle.C207_only_feeds",
    "Verif.Oracle.C207_once_per_block"
   ],
   "note": "orml_oracle itself is modelled from outside knowledge."
  },
  {
   "property": "C208",
   "status": "partial",
   "theorems": [
    "Verif.Amm.C208_exit_partial",
    "Verif.Amm.C208_blocked",
    "Verif.Amm.C208_blocked_forever",
    "Verif.Amm.C208_refuted"
   ],
   "note": "The full statement is refuted: with a protocol fee above 50 % every deposit and withdrawal on a pool that remembers no reserves divides by zero, for as long as the fee stays. Proved: with the fee off, or at most 50 % and the LP supply at most half of u128, every holder can leave."
  },
  {
   "property": "C209",
   "status": "partial",
   "theorems": [
    "Verif.Stable.C209_exit_partial",
    "Verif.Stable.C209_stuck",
    "Verif.Stable.C209_stuck_panics",
    "Verif.Stable.C209_stuck_until_rescued",
    "Verif.Stable.C209_refuted"
   ],
   "note": "The full statement is refuted for the constants of the vanilla runtime: for lopsided reserves (10^12 against 2*10^6) the iteration for the curve invariant runs in a circle, and withdrawals panic. Proved: holders can leave when the two invariants are found, or without a protocol fee."
  },
  {
   "property": "C21",
   "status": "proved",
   "theorems": [
    "Verif.Streaming.C21_live_not_ahead",
    "Verif.Streaming.C21_withdraw_not_ahead",
    "Verif.Streaming.C21_cancel_exact"
   ],
   "note": ""
  },
  {
   "property": "C210",
   "status": "partial",
   "theorems": [
    "Verif.Router.C210_tradeable_partial",
    "Verif.Router.C210_refuted"
   ],
   "note": "The full statement is refuted: quotes ignore the smallest amount a pool accepts (and the longest allowed route, the native unit that must stay, the room in the price accumulators). Proved: when these are in order in the state of the recommendation, the trade is carried out and yields exactly the recommended amount."
  },
  {
   "property": "C211",
   "status": "partial",
   "theorems": [
    "Verif.Farming.C211_refuted",
    "Verif.Farming.C211_withdraw_partial",
    "Verif.Farming.C211_exit_partial",
    "Verif.Farming.C211_claim_partial",
    "Verif.Farming.C211_frozen_forever"
   ],
   "note": "false of the code as stated (C211_refuted: one unit of stake and 10^27 units of reward freeze the pool; C211_frozen_forever: nothing unfreezes it); the _partial theorems prove exact acceptance and full payout while at most 2^128/10^12 units of reward were ever dispatched to the pool"
  },
  {
   "property": "C212",
   "status": "proved",
   "theorems": [
    "Verif.Staking.C212_stake_iff",
    "Verif.Staking.C212_unstake_iff",
    "Verif.Staking.C212_claim_iff"
   ],
   "note": "exact acceptance conditions (both directions) in every reachable state"
  },
  {
   "property": "C213",
   "status": "proved",
   "theorems": [
    "Verif.Evm.Bal.C213_native_exact",
    "Verif.Evm.Bal.C213_native_enough",
    "Verif.Evm.Bal.C213_native_fails",
    "Verif.Evm.Ast.C213_asset_exact",
    "Verif.Evm.Ast.C213_asset_enough",
    "Verif.Evm.Ast.C213_asset_fails",
    "Verif.Evm.C213_log_price",
    "Verif.Evm.C213_deployed_prices"
   ],
   "note": "metered versions of all functions of both contracts; the threshold is proved for calls that report no actual weight, as those dispatched here"
  },
  {
   "property": "C214",
   "status": "partial",
   "theorems": [
    "Verif.Evm.Bal.C214_refuted",
    "Verif.Evm.Bal.C214_permit_price",
    "Verif.Evm.Bal.C214_native_partial",
    "Verif.Evm.Ast.C214_asset_partial"
   ],
   "note": "The full statement is refuted by permit; proved for every other function of both contracts. Storage reads are not counted (withdraw reads a balance without paying for it)"
  },
  {
   "property": "C215",
   "status": "proved",
   "theorems": [
    "Verif.System.C215_who",
    "Verif.System.C215_any_decimals",
    "Verif.System.C215_same",
    "Verif.System.C215_bridge"
   ],
   "note": "The gift rule of the four runtimes in tokens."
  },
  {
   "property": "C216",
   "status": "partial",
   "theorems": [
    "Verif.System.C216_refuted",
    "Verif.System.C216_life_partial"
   ],
   "note": "False as documented: 2592000 blocks are 360 days. Proved: the exact lifetime on every runtime."
  },
  {
   "property": "C217",
   "status": "proved",
   "theorems": [
    "Verif.System.C217_stake",
    "Verif.System.C217_unstake",
    "Verif.System.C217_contribute",
    "Verif.System.C217_lease",
    "Verif.System.C217_bonus",
    "Verif.System.C217_own_chain",
    "Verif.System.C217_currencies"
   ],
   "note": "Parameters of the four runtimes in units a user knows."
  },
  {
   "property": "C218",
   "status": "proved",
   "theorems": [
    "Verif.System.C218_relay",
    "Verif.System.C218_liquid",
    "Verif.System.C218_collateral",
    "Verif.System.C218_order"
   ],
   "note": "Through the wiring of the runtime."
  },
  {
   "property": "C219",
   "status": "proved",
   "theorems": [
    "Verif.System.C219_lend_for"
   ],
   "note": "In the model of all pallets over one ledger."
  },
  {
   "property": "C22",
   "status": "proved",
   "theorems": [
    "Verif.Streaming.C22_cancel_succeeds",
    "Verif.Streaming.C22_withdraw_succeeds",
    "Verif.Streaming.C22_withdraw_all_after_end"
   ],
   "note": "success of the calls (not only of the arithmetic) in every reachable state"
  },
  {
   "property": "C220",
   "status": "proved",
   "theorems": [
    "Verif.Runtime.Fee.C220_proportional",
    "Verif.Runtime.Fee.C220_base",
    "Verif.Runtime.Fee.C220_monotone",
    "Verif.Runtime.Fee.C220_positive",
    "Verif.Runtime.Fee.C220_minimum",
    "Verif.Runtime.Fee.C220_fee_monotone",
    "Verif.Runtime.Fee.C220_deposit"
   ],
   "note": "base weight as a parameter (at most 5*10^8 where it matters); compute_fee of pallet_transaction_payment from outside knowledge"
  },
  {
   "property": "C221",
   "status": "partial",
   "theorems": [
    "Verif.Runtime.Genesis.C221_accumulate",
    "Verif.Runtime.Genesis.C221_accumulate_ok",
    "Verif.Runtime.Genesis.C221_partial",
    "Verif.Runtime.Genesis.C221_accepts",
    "Verif.Runtime.Genesis.C221_vanilla",
    "Verif.Runtime.Genesis.C221_refuted"
   ],
   "note": "full statement refuted for vanilla, proved for the three other chains; exact shortfall on vanilla"
  },
  {
   "property": "C222",
   "status": "partial",
   "theorems": [
    "Verif.Runtime.Genesis.C222_partial",
    "Verif.Runtime.Genesis.C222_refuted"
   ],
   "note": "full statement refuted (assets' token contracts have no code); exact set of addresses with code"
  },
  {
   "property": "C223",
   "status": "proved",
   "theorems": [
    "Verif.System.C223_paid"
   ],
   "note": ""
  },
  {
   "property": "C224",
   "status": "partial",
   "theorems": [
    "Verif.System.C224_partial",
    "Verif.System.C224_refuted",
    "Verif.System.C224_stolen"
   ],
   "note": "full statement refuted (a Streaming proxy opens a stream to itself and empties the account); proved for all other pallet types"
  },
  {
   "property": "C225",
   "status": "partial",
   "theorems": [
    "Verif.Bridge.C225_sides_partial",
    "Verif.Bridge.C225_refuted",
    "Verif.Bridge.C225_against_pays",
    "Verif.Bridge.C225_for_rejects"
   ],
   "note": "False as stated: after the committee has shrunk a vote against can pay a transfer out and a vote for can reject it, because both counts are compared with the new threshold when the next vote arrives; proved for every history in which the committee does not change after the proposal's first vote."
  },
  {
   "property": "C226",
   "status": "partial",
   "theorems": [
    "Verif.System.C226_noPanic_partial",
    "Verif.System.C226_refuted"
   ],
   "note": "proved for every transaction of a user except those of stableswap pools, for which it is refuted: a pool of assets with 12 and 6 decimals whose invariant the solver does not find makes every deposit panic"
  },
  {
   "property": "C227",
   "status": "proved",
   "theorems": [
    "Verif.System.C227_hooks"
   ],
   "note": "for every configuration and state, reachable or not"
  },
  {
   "property": "C228",
   "status": "partial",
   "theorems": [
    "Verif.Staking.C228_answers_partial",
    "Verif.Staking.C228_patient_partial",
    "Verif.Staking.C228_patient_noPanic_partial",
    "Verif.Staking.C228_refuted",
    "Verif.System.C228_crowdloans_partial"
   ],
   "note": "refuted for liquid staking by a reachable history with two overlapping unbonding requests; proved for crowdloans, and for liquid staking whenever the unbonded amount is at most the noted active stake, which holds in every history in which no derivative account has two unbonding requests under way at the same time (patient histories; answers are then even accepted)"
  },
  {
   "property": "C229",
   "status": "partial",
   "theorems": [
    "Verif.Loans.C229_status_partial",
    "Verif.Loans.C229_status_accrues_partial",
    "Verif.Loans.C229_liquidity_partial",
    "Verif.Loans.C229_shortfall_partial",
    "Verif.Loans.C229_refuted",
    "Verif.Loans.C229_status_refuted",
    "Verif.Loans.C229_liquidity_refuted",
    "Verif.Loans.C229_shortfall_refuted"
   ],
   "note": "each part is refuted for markets whose interest has not been accrued (or, for the status, never) and proved otherwise"
  },
  {
   "property": "C23",
   "status": "proved",
   "theorems": [
    "Verif.Streaming.C23_only_parties"
   ],
   "note": ""
  },
  {
   "property": "C230",
   "status": "partial",
   "theorems": [
    "Verif.Loans.C230_interest_partial",
    "Verif.Loans.C230_fresh_partial",
    "Verif.Loans.C230_refuted"
   ],
   "note": "full statement refuted by a year-old debt in another market; proved up to the interest not yet accrued, and exactly if the other markets were accrued in this block"
  },
  {
   "property": "C231",
   "status": "proved",
   "theorems": [
    "Verif.Amm.C231_same",
    "Verif.Amm.C231_pools",
    "Verif.Amm.C231_amounts",
    "Verif.Amm.C231_facts",
    "Verif.Amm.C231_every"
   ],
   "note": "the model with events agrees with the model without them; events of `pallet_assets` are not modelled"
  },
  {
   "property": "C232",
   "status": "partial",
   "theorems": [
    "Verif.Loans.C232_same",
    "Verif.Loans.C232_amounts",
    "Verif.Loans.C232_named_partial",
    "Verif.Loans.C232_debts",
    "Verif.Loans.C232_facts",
    "Verif.Loans.C232_markets",
    "Verif.Loans.C232_refuted"
   ],
   "note": "amounts and debts proved for all calls; that everybody concerned is named is refuted by transfers of ptokens and proved for all other calls"
  },
  {
   "property": "C233",
   "status": "partial",
   "theorems": [
    "Verif.Loans.C233_suppliers",
    "Verif.Loans.C233_claimable_partial",
    "Verif.Loans.C233_refuted"
   ],
   "note": "proved for rewards on deposits and every call; for rewards on debts refuted by a liquidation and proved for every other call in states whose markets were accrued in this block"
  },
  {
   "property": "C234",
   "status": "proved",
   "theorems": [
    "Verif.Bridge.C234_paid_le_sent",
    "Verif.Bridge.C234_backed",
    "Verif.Bridge.C234_payable",
    "Verif.Bridge.C234_payouts"
   ],
   "note": "Several instances of the pallet with relayers in between; one token, home on one chain, minted and burned on the others. Assumptions on governance (no unregister_chain, the token registered as what it is), on relayers (fewer dishonest ones than the threshold) and on the rest of each chain (does not mint the token abroad, takes nothing from the bridge account at home) are the predicates Fair and Quiet. C31_replay_after_reregistration shows why unregister_chain is excluded."
  },
  {
   "property": "C235",
   "status": "partial",
   "theorems": [
    "Verif.Loans.C235_debts_le_total_partial",
    "Verif.Loans.C235_total_le_debts_partial",
    "Verif.Loans.C235_owed_of_exact",
    "Verif.Loans.C235_every_history_is_counted",
    "Verif.Loans.C235_refuted"
   ],
   "note": "that debts never exceed the recorded total is refuted (interest on a small total rounds to nothing while the index grows); proved: a two-sided bound on the difference over every history, in rational arithmetic, as long as the clock fits 64 bits"
  },
  {
   "property": "C236",
   "status": "partial",
   "theorems": [
    "Verif.Loans.C236_rewards_partial",
    "Verif.Loans.C236_refuted"
   ],
   "note": "that borrow rewards never exceed the emission is refuted (7246 credited, 7210 emitted, because debts exceed the recorded total); proved: a bound on the excess factor for every history, as long as the clock fits 64 bits and the index stays below 10^36"
  },
  {
   "property": "C237",
   "status": "partial",
   "theorems": [
    "Verif.Staking.C237_same",
    "Verif.Staking.C237_settings",
    "Verif.Staking.C237_ledgers",
    "Verif.Staking.C237_era",
    "Verif.Staking.C237_requests",
    "Verif.Staking.C237_amounts",
    "Verif.Staking.C237_staked",
    "Verif.Staking.C237_claimed",
    "Verif.Staking.C237_pool",
    "Verif.Staking.C237_refuted"
   ],
   "note": "the full statement is refuted in three places (force_set_current_era has no event, the ledger of a first bond is stored without one, UnstakeCancelled announces whatever amount its caller names) and Staked/Unstaked are silent on the fee and on immediate payments; proved: everything else, for all calls and histories, and exactly what is missing"
  },
  {
   "property": "C238",
   "status": "partial",
   "theorems": [
    "Verif.Crowdloans.C238_same",
    "Verif.Crowdloans.C238_call",
    "Verif.Crowdloans.C238_settings",
    "Verif.Crowdloans.C238_requests",
    "Verif.Crowdloans.C238_facts",
    "Verif.Crowdloans.C238_every",
    "Verif.Crowdloans.C238_refuted"
   ],
   "note": "the full statement is refuted in three places (refund names nobody it pays, a contribution to a pending vault deposits no event, a forced claim announces the phase Succeeded whatever the phase is); proved: (1) and (2) in full, (3) but for the phase of a claim, (4) with exactly the exception of contributions to pending vaults; events of other pallets and the responder's location are not modelled"
  },
  {
   "property": "C239",
   "status": "proved",
   "theorems": [
    "Verif.Stable.C239_same",
    "Verif.Stable.C239_pools",
    "Verif.Stable.C239_amounts",
    "Verif.Stable.C239_facts",
    "Verif.Stable.C239_every"
   ],
   "note": "the model with events agrees with the model without them; events of `pallet_assets` are not modelled; `DeltaCalculated` belongs to a function nothing calls"
  },
  {
   "property": "C24",
   "status": "proved",
   "theorems": [
    "Verif.Streaming.C24_archive_only_finished",
    "Verif.Streaming.C24_library_consistent"
   ],
   "note": ""
  },
  {
   "property": "C240",
   "status": "proved",
   "theorems": [
    "Verif.Farming.C240_same",
    "Verif.Farming.C240_notes",
    "Verif.Farming.C240_amounts",
    "Verif.Farming.C240_cooling",
    "Verif.Farming.C240_facts",
    "Verif.Farming.C240_every",
    "Verif.Farming.C240_cooldown_untold",
    "Verif.Farming.C240_dispatch_untold"
   ],
   "note": "the model with events agrees with the model without them; the two last theorems show by pairs of executions what cannot be inferred from the events; events of `pallet_assets` are not modelled"
  },
  {
   "property": "C241",
   "status": "partial",
   "theorems": [
    "Verif.Streaming.C241_same",
    "Verif.Streaming.C241_notes",
    "Verif.Streaming.C241_amounts",
    "Verif.Streaming.C241_facts",
    "Verif.Streaming.C241_every",
    "Verif.Streaming.C241_refuted"
   ],
   "note": "everything but \"whether it can be cancelled\" is proved; that part is refuted (C241_refuted): StreamCreated reports the constant true; the model with events agrees with the model without them; events of `pallet_assets` are not modelled"
  },
  {
   "property": "C242",
   "status": "proved",
   "theorems": [
    "Verif.Bridge.C242_same",
    "Verif.Bridge.C242_notes",
    "Verif.Bridge.C242_amounts",
    "Verif.Bridge.C242_facts",
    "Verif.Bridge.C242_every",
    "Verif.Bridge.C242_expiry_untold"
   ],
   "note": "the model with events agrees with the model without them; the gift itself is C109; events of `pallet_assets` are not modelled"
  },
  {
   "property": "C243",
   "status": "partial",
   "theorems": [
    "Verif.Router.C243_same",
    "Verif.Router.C243_exact_in",
    "Verif.Router.C243_pools",
    "Verif.Router.C243_exact_out_partial",
    "Verif.Router.C243_refuted"
   ],
   "note": "proved in full for exact-in trades of every state; for exact-out trades the announced output is the number asked for and can exceed what was received (C243_refuted), all else is proved; events of `pallet_assets` are not modelled"
  },
  {
   "property": "C244",
   "status": "proved",
   "theorems": [
    "Verif.Registry.C244_same",
    "Verif.Registry.C244_notes",
    "Verif.Registry.C244_facts",
    "Verif.Registry.C244_every"
   ],
   "note": "the model with events agrees with the model without them; the asset announced with a new type leads back from the type unless it had that type already (C142)"
  },
  {
   "property": "C245",
   "status": "proved",
   "theorems": [
    "Verif.Prices.C245_same",
    "Verif.Prices.C245_notes",
    "Verif.Prices.C245_answers",
    "Verif.Prices.C245_foreign_untold"
   ],
   "note": "set_foreign_asset deposits no event (C245_foreign_untold)"
  },
  {
   "property": "C246",
   "status": "partial",
   "theorems": [
    "Verif.Runtime.C246_same",
    "Verif.Runtime.C246_flags",
    "Verif.Runtime.C246_numbers_partial",
    "Verif.Runtime.C246_refuted"
   ],
   "note": "the announced flag is right, and the numbers of pallets and calls switched off follow from the events (C246_numbers_partial); which ones they are does not, as the events name neither pallet nor call (C246_refuted)"
  },
  {
   "property": "C247",
   "status": "partial",
   "theorems": [
    "Verif.Helper.C247_same",
    "Verif.Helper.C247_setting",
    "Verif.Helper.C247_announced_partial",
    "Verif.Helper.C247_every",
    "Verif.Helper.C247_refuted"
   ],
   "note": "the announced setting is right, and every setting in force has been announced or is the initial one; for which kind of request does not follow from the events, which do not name it (C247_refuted)"
  },
  {
   "property": "C248",
   "status": "partial",
   "theorems": [
    "Verif.Runtime.C248_same",
    "Verif.Runtime.C248_signer",
    "Verif.Runtime.C248_failed",
    "Verif.Runtime.C248_succeeded",
    "Verif.Runtime.C248_transfers_partial",
    "Verif.Runtime.C248_refuted"
   ],
   "note": "one event naming the signer; an announced failure means only fee and nonce are gone; an announced success means the call was carried out, and with it all transfers asked for but those inside `batch`, which reports success when an item fails (C248_refuted)"
  },
  {
   "property": "C249",
   "status": "proved",
   "theorems": [
    "Verif.Loans.C249_claimable",
    "Verif.Loans.C249_call",
    "Verif.Loans.C249_bound",
    "Verif.Loans.C249_determined",
    "Verif.Loans.C249_claim",
    "Verif.Loans.C249_hist"
   ],
   "note": "claimable = announced as settled - announced as paid, per call and along all histories"
  },
  {
   "property": "C25",
   "status": "proved",
   "theorems": [
    "Verif.Farming.C25_total"
   ],
   "note": ""
  },
  {
   "property": "C250",
   "status": "proved",
   "theorems": [
    "Verif.Loans.C250_pot",
    "Verif.Loans.C250_call",
    "Verif.Loans.C250_bound"
   ],
   "note": "balance of the pot = added - withdrawn - paid + sent directly, per call and along all histories"
  },
  {
   "property": "C251",
   "status": "proved",
   "theorems": [
    "Verif.Amm.C251_unique",
    "Verif.Amm.C251_byLp",
    "Verif.Amm.C251_order",
    "Verif.Amm.C251_listing",
    "Verif.Amm.C251_byPair",
    "Verif.Amm.C251_stable"
   ],
   "note": "a pool token belongs to one pool, so the lookups do not depend on the order of the iteration, find exactly the pools there are, and keep finding them"
  },
  {
   "property": "C252",
   "status": "proved",
   "theorems": [
    "Verif.Loans.C252_shown",
    "Verif.Loans.C252_rates",
    "Verif.Loans.C252_interest",
    "Verif.Loans.C252_changes"
   ],
   "note": "shown exactly for jump models; the shown rate is bounded by the shown full rate and the interest by it; changed by parameter calls only. In a market never accrued the time counts from 1970 (C229)"
  },
  {
   "property": "C26",
   "status": "proved",
   "theorems": [
    "Verif.Farming.C26_solvent",
    "Verif.Farming.C26_redeem_succeeds",
    "Verif.Farming.C26_claim_succeeds",
    "Verif.Farming.C26_withdraw_succeeds"
   ],
   "note": "over any finite set of pools and users sharing the per-asset account"
  },
  {
   "property": "C27",
   "status": "proved",
   "theorems": [
    "Verif.Farming.C27_rewards_bounded",
    "Verif.Farming.C27_claim_exact",
    "Verif.Farming.C27_dispatch_exact"
   ],
   "note": ""
  },
  {
   "property": "C28",
   "status": "proved",
   "theorems": [
    "Verif.Farming.C28_withdraw",
    "Verif.Farming.C28_redeem",
    "Verif.Farming.C28_items_bounded"
   ],
   "note": ""
  },
  {
   "property": "C29",
   "status": "proved",
   "theorems": [
    "Verif.Farming.C29_settle_idempotent",
    "Verif.Farming.C29_second_claim"
   ],
   "note": ""
  },
  {
   "property": "C30",
   "status": "proved",
   "theorems": [
    "Verif.Bridge.C30_registry_good",
    "Verif.Bridge.C30_bridged_iff_resolved",
    "Verif.Bridge.C30_resolve_adds_one",
    "Verif.Bridge.C30_materialize"
   ],
   "note": ""
  },
  {
   "property": "C31",
   "status": "proved",
   "theorems": [
    "Verif.Bridge.C31_resolved_at_most_once",
    "Verif.Bridge.C31_no_vote_after_resolution",
    "Verif.Bridge.C31_vote_after_resolution_error",
    "Verif.Bridge.C31_replay_after_reregistration"
   ],
   "note": "between registrations of the chain; the last theorem shows that re-registration allows a replay (finding)"
  },
  {
   "property": "C32",
   "status": "proved",
   "theorems": [
    "Verif.Bridge.C32_payout_backed"
   ],
   "note": ""
  },
  {
   "property": "C33",
   "status": "proved",
   "theorems": [
    "Verif.Bridge.C33_out_cap",
    "Verif.Bridge.C33_in_cap"
   ],
   "note": ""
  },
  {
   "property": "C34",
   "status": "proved",
   "theorems": [
    "Verif.Bridge.C34_teleport",
    "Verif.Bridge.C34_nonces"
   ],
   "note": ""
  },
  {
   "property": "C35",
   "status": "partial",
   "theorems": [
    "Verif.Bridge.C35_refuted",
    "Verif.Bridge.C35_undecided_partial"
   ],
   "note": "false of the code as stated: C35_refuted proves the negation by a reachable history; the partial theorem covers votes that do not decide the wrong proposal"
  },
  {
   "property": "C36",
   "status": "proved",
   "theorems": [
    "Verif.Loans.C36_issuance_is_sum_of_balances",
    "Verif.Loans.C36_supply_is_sum_of_vouchers",
    "Verif.Loans.C36_balance_le_issuance"
   ],
   "note": ""
  },
  {
   "property": "C37",
   "status": "proved",
   "theorems": [
    "Verif.Loans.C37_mint_then_redeem_no_profit"
   ],
   "note": ""
  },
  {
   "property": "C38",
   "status": "proved",
   "theorems": [
    "Verif.Loans.C38_redeem_bounded",
    "Verif.Loans.C38_redeem_all_bounded"
   ],
   "note": ""
  },
  {
   "property": "C39",
   "status": "proved",
   "theorems": [
    "Verif.Loans.C39_accrual_monotone",
    "Verif.Loans.C39_accrual_noop",
    "Verif.Loans.C39_accrual_idempotent"
   ],
   "note": ""
  },
  {
   "property": "C40",
   "status": "proved",
   "theorems": [
    "Verif.Loans.C40_debt_frame",
    "Verif.Loans.C40_env",
    "Verif.Loans.C40_no_interest_when_current",
    "Verif.Loans.C40_own_borrow"
   ],
   "note": ""
  },
  {
   "property": "C41",
   "status": "proved",
   "theorems": [
    "Verif.Loans.C41_borrow_needs_collateral",
    "Verif.Loans.C41_borrow_liquidation_free",
    "Verif.Loans.C41_dust"
   ],
   "note": "loans whose value rounds to zero are covered by C41_dust"
  },
  {
   "property": "C42",
   "status": "proved",
   "theorems": [
    "Verif.Loans.C42_redeem_keeps_healthy",
    "Verif.Loans.C42_redeem_lf",
    "Verif.Loans.C42_redeem_needs_liquidity",
    "Verif.Loans.C42_collateral_off"
   ],
   "note": "up to rounding worth one token unit"
  },
  {
   "property": "C43",
   "status": "proved",
   "theorems": [
    "Verif.Loans.C43_liquidation_needs_shortfall",
    "Verif.Loans.C43_healthy_not_liquidatable"
   ],
   "note": ""
  },
  {
   "property": "C44",
   "status": "proved",
   "theorems": [
    "Verif.Loans.C44_liquidation_bounded"
   ],
   "note": ""
  },
  {
   "property": "C45",
   "status": "proved",
   "theorems": [
    "Verif.Loans.C45_supply_cap",
    "Verif.Loans.C45_borrow_cap"
   ],
   "note": ""
  },
  {
   "property": "C46",
   "status": "proved",
   "theorems": [
    "Verif.Loans.C46_accepts",
    "Verif.Loans.C46_jump_bounded",
    "Verif.Loans.C46_jump_monotone",
    "Verif.Loans.C46_curve",
    "Verif.Loans.C46_supply_le_borrow",
    "Verif.Loans.C46_utilization_le",
    "Verif.Loans.C46_stored_rates",
    "Verif.Loans.C46_zero_jump_blocks"
   ],
   "note": "the rate is undefined for jump_utilization = 0 at zero utilization; C46_zero_jump_blocks shows the consequence"
  },
  {
   "property": "C47",
   "status": "proved",
   "theorems": [
    "Verif.Loans.C47_repay_exact",
    "Verif.Loans.C47_no_overpayment",
    "Verif.Loans.C47_repay_all_clears"
   ],
   "note": ""
  },
  {
   "property": "C48",
   "status": "partial",
   "theorems": [
    "Verif.Loans.C48_refuted",
    "Verif.Loans.C48_partial"
   ],
   "note": "false of the code as stated: C48_refuted proves the negation with a reachable history containing a ptoken transfer; C48_partial proves it for all histories without ptoken transfers"
  },
  {
   "property": "C49",
   "status": "partial",
   "theorems": [
    "Verif.Loans.C49_ptoken_maps_back",
    "Verif.Loans.C49_ptoken_unique",
    "Verif.Loans.C49_ptoken_registered",
    "Verif.Loans.C49_partial",
    "Verif.Loans.C49_refuted",
    "Verif.Loans.C49_force_breaks"
   ],
   "note": "the last clause (a ptoken id is never a market) is false of the code: C49_refuted; the rest is proved"
  },
  {
   "property": "C50",
   "status": "proved",
   "theorems": [
    "Verif.Bridge.C50_token_registry"
   ],
   "note": ""
  },
  {
   "property": "C51",
   "status": "proved",
   "theorems": [
    "Verif.Bridge.C51_threshold",
    "Verif.Bridge.C51_empty"
   ],
   "note": ""
  },
  {
   "property": "C52",
   "status": "proved",
   "theorems": [
    "Verif.Bridge.C52_payout"
   ],
   "note": "for assets other than the native one (the gift is paid in native tokens)"
  },
  {
   "property": "C53",
   "status": "proved",
   "theorems": [
    "Verif.Bridge.C53_threshold_vote_pays"
   ],
   "note": ""
  },
  {
   "property": "C54",
   "status": "proved",
   "theorems": [
    "Verif.Loans.C54_exchange_rate_never_falls"
   ],
   "note": ""
  },
  {
   "property": "C55",
   "status": "proved",
   "theorems": [
    "Verif.Loans.C55_reserves_covered"
   ],
   "note": ""
  },
  {
   "property": "C56",
   "status": "partial",
   "theorems": [
    "Verif.Loans.C56_refuted",
    "Verif.Loans.C56_partial",
    "Verif.Loans.C56_rate_floor"
   ],
   "note": "false of the code as stated (C56_refuted: a gift blocks the market); C56_partial proves validity while the market owns less than one token per voucher"
  },
  {
   "property": "C57",
   "status": "proved",
   "theorems": [
    "Verif.Loans.C57_model_accepted",
    "Verif.Loans.C57_risk_parameters",
    "Verif.Loans.C57_threshold_above_collateral",
    "Verif.Loans.C57_fresh_loan_safe"
   ],
   "note": ""
  },
  {
   "property": "C58",
   "status": "proved",
   "theorems": [
    "Verif.Stable.C58_solvent",
    "Verif.Stable.C58_example"
   ],
   "note": ""
  },
  {
   "property": "C59",
   "status": "partial",
   "theorems": [
    "Verif.Stable.C59_refuted",
    "Verif.Stable.C59_drain",
    "Verif.Stable.C59_curve_bound",
    "Verif.Stable.C59_balanced_partial"
   ],
   "note": "false of the code as stated (overflowing products count as zero); C59_balanced_partial proves it below the overflow threshold"
  },
  {
   "property": "C60",
   "status": "proved",
   "theorems": [
    "Verif.Stable.C60_add_slippage"
   ],
   "note": ""
  },
  {
   "property": "C61",
   "status": "proved",
   "theorems": [
    "Verif.Staking.C61_rate_monotone"
   ],
   "note": ""
  },
  {
   "property": "C62",
   "status": "partial",
   "theorems": [
    "Verif.Staking.C62_refuted",
    "Verif.Staking.C62_covered_partial"
   ],
   "note": "false of the code as stated (C62_refuted); proved for histories with full rebonds"
  },
  {
   "property": "C63",
   "status": "partial",
   "theorems": [
    "Verif.Staking.C63_refuted",
    "Verif.Staking.C63_solvent_partial",
    "Verif.Staking.C63_solvent_full_rebonds_partial"
   ],
   "note": "false of the code as stated (C63_refuted); proved if rewards are reported while the tokens are covered, in particular for full rebonds"
  },
  {
   "property": "C64",
   "status": "proved",
   "theorems": [
    "Verif.Staking.C64_claims_backed"
   ],
   "note": ""
  },
  {
   "property": "C65",
   "status": "proved",
   "theorems": [
    "Verif.Staking.C65_pool_held"
   ],
   "note": ""
  },
  {
   "property": "C66",
   "status": "proved",
   "theorems": [
    "Verif.Staking.C66_locks_exact",
    "Verif.Staking.C66_rebond_accepted",
    "Verif.Staking.C66_bondExtra_accepted",
    "Verif.Staking.C66_bond_accepted",
    "Verif.Staking.C66_unbond_accepted"
   ],
   "note": ""
  },
  {
   "property": "C67",
   "status": "proved",
   "theorems": [
    "Verif.Staking.C67_failed_or_unknown",
    "Verif.Staking.C67_once"
   ],
   "note": ""
  },
  {
   "property": "C68",
   "status": "proved",
   "theorems": [
    "Verif.Staking.C68_ledger_total"
   ],
   "note": ""
  },
  {
   "property": "C69",
   "status": "proved",
   "theorems": [
    "Verif.Staking.C69_claim_exact",
    "Verif.Staking.C69_not_early",
    "Verif.Staking.C69_due_later",
    "Verif.Staking.C69_claim_succeeds",
    "Verif.Staking.C69_queue_private",
    "Verif.Staking.C69_never_more",
    "Verif.Staking.C69_never_less"
   ],
   "note": ""
  },
  {
   "property": "C70",
   "status": "proved",
   "theorems": [
    "Verif.Staking.C70_stake_exact",
    "Verif.Staking.C70_no_profit"
   ],
   "note": ""
  },
  {
   "property": "C71",
   "status": "proved",
   "theorems": [
    "Verif.Staking.C71_fast_exact",
    "Verif.Staking.C71_fast_succeeds",
    "Verif.Staking.C71_fast_frame"
   ],
   "note": ""
  },
  {
   "property": "C72",
   "status": "proved",
   "theorems": [
    "Verif.Staking.C72_matching",
    "Verif.Staking.C72_requests"
   ],
   "note": ""
  },
  {
   "property": "C73",
   "status": "partial",
   "theorems": [
    "Verif.Staking.C73_bond",
    "Verif.Staking.C73_bond_min",
    "Verif.Staking.C73_unbond",
    "Verif.Staking.C73_rebond",
    "Verif.Staking.C73_complete",
    "Verif.Staking.C73_bond_complete_refuted",
    "Verif.Staking.C73_bond_complete_partial",
    "Verif.Staking.C73_average_bond",
    "Verif.Staking.C73_average_unbond"
   ],
   "note": "completeness of bonding is false of the code (C73_bond_complete_refuted), proved below the caps; everything else is proved"
  },
  {
   "property": "C74",
   "status": "partial",
   "theorems": [
    "Verif.Staking.C74_refuted",
    "Verif.Staking.C74_market_cap_partial",
    "Verif.Staking.C74_bond_cap_partial"
   ],
   "note": "false of the code as stated (C74_refuted)"
  },
  {
   "property": "C75",
   "status": "partial",
   "theorems": [
    "Verif.Staking.C75_refuted",
    "Verif.Staking.C75_ureserves_partial"
   ],
   "note": "false of the code as stated (C75_refuted)"
  },
  {
   "property": "C76",
   "status": "proved",
   "theorems": [
    "Verif.Staking.C76_commission"
   ],
   "note": "for histories with full rebonds, as stated"
  },
  {
   "property": "C77",
   "status": "proved",
   "theorems": [
    "Verif.Amm.C77_swap_accumulates",
    "Verif.Amm.C77_only_swaps",
    "Verif.Amm.C77_accumulators_monotone",
    "Verif.Amm.C77_final_price_weighs_the_past"
   ],
   "note": "the last theorem records the finding that the elapsed interval is weighted with the post-trade price"
  },
  {
   "property": "C78",
   "status": "proved",
   "theorems": [
    "Verif.Amm.C78_pool_permanent",
    "Verif.Amm.C78_create_existing",
    "Verif.Amm.C78_lp_token_unique"
   ],
   "note": ""
  },
  {
   "property": "C79",
   "status": "proved",
   "theorems": [
    "Verif.Amm.C79_create_exact",
    "Verif.Amm.C79_add_exact",
    "Verif.Amm.C79_add_slippage"
   ],
   "note": "pair order covered by C12"
  },
  {
   "property": "C80",
   "status": "proved",
   "theorems": [
    "Verif.Amm.C80_fee_on",
    "Verif.Amm.C80_fee_off",
    "Verif.Amm.C80_create_remembers"
   ],
   "note": ""
  },
  {
   "property": "C81",
   "status": "partial",
   "theorems": [
    "Verif.Amm.C81_refuted",
    "Verif.Amm.C81_full_accumulator_freezes",
    "Verif.Amm.C81_trade_goes_through_partial"
   ],
   "note": "false of the code as stated (C81_refuted)"
  },
  {
   "property": "C82",
   "status": "proved",
   "theorems": [
    "Verif.Router.C82_exact_in_iff",
    "Verif.Router.C82_exact_out_iff",
    "Verif.Router.C82_errors"
   ],
   "note": ""
  },
  {
   "property": "C83",
   "status": "proved",
   "theorems": [
    "Verif.Stable.C83_swap_accumulates",
    "Verif.Stable.C83_only_swaps",
    "Verif.Stable.C83_accumulators_monotone",
    "Verif.Stable.C83_pool_permanent",
    "Verif.Stable.C83_create_existing",
    "Verif.Stable.C83_lp_token_unique"
   ],
   "note": ""
  },
  {
   "property": "C84",
   "status": "proved",
   "theorems": [
    "Verif.Stable.C84_invariant_iff",
    "Verif.Stable.C84_amount_out_iff",
    "Verif.Stable.C84_amount_in_iff",
    "Verif.Stable.C84_quotes_pair",
    "Verif.Stable.C84_quotes_pair_in",
    "Verif.Stable.C84_quotes_disagree"
   ],
   "note": ""
  },
  {
   "property": "C85",
   "status": "proved",
   "theorems": [
    "Verif.Stable.C85_create_exact",
    "Verif.Stable.C85_add_exact",
    "Verif.Stable.C85_remove_exact",
    "Verif.Stable.C85_fee_off",
    "Verif.Stable.C85_swap_keeps_last",
    "Verif.Stable.C85_create_remembers"
   ],
   "note": ""
  },
  {
   "property": "C86",
   "status": "proved",
   "theorems": [
    "Verif.Streaming.C86_create_accepted",
    "Verif.Streaming.C86_create_only_if",
    "Verif.Streaming.C86_trait_create_iff",
    "Verif.Streaming.C86_create_errors",
    "Verif.Streaming.C86_create_exact",
    "Verif.Streaming.C86_balance_of",
    "Verif.Streaming.C86_withdraw_exact",
    "Verif.Streaming.C86_set_minimum"
   ],
   "note": "the room in the lists is a sufficient condition: the call may make room itself by archiving"
  },
  {
   "property": "C87",
   "status": "proved",
   "theorems": [
    "Verif.Streaming.C87_newest_first",
    "Verif.Streaming.C87_nothing_missing",
    "Verif.Streaming.C87_archives_oldest"
   ],
   "note": ""
  },
  {
   "property": "C88",
   "status": "proved",
   "theorems": [
    "Verif.Farming.C88_create",
    "Verif.Farming.C88_settings",
    "Verif.Farming.C88_settings_accepted",
    "Verif.Farming.C88_locks_bounded",
    "Verif.Farming.C88_errors",
    "Verif.Farming.C88_deposit_iff",
    "Verif.Farming.C88_dispatch_iff",
    "Verif.Farming.C88_dispatch_exact"
   ],
   "note": ""
  },
  {
   "property": "C89",
   "status": "proved",
   "theorems": [
    "Verif.Farming.C89_isolated",
    "Verif.Farming.C89_proportional",
    "Verif.Farming.C89_equal_treatment",
    "Verif.Farming.C89_never_shrinks",
    "Verif.Farming.C89_no_gain_from_claiming"
   ],
   "note": ""
  },
  {
   "property": "C90",
   "status": "partial",
   "theorems": [
    "Verif.Prices.C90_emergency_price_wins",
    "Verif.Prices.C90_emergency_price_rounds_down",
    "Verif.Prices.C90_last_set_decides",
    "Verif.Prices.C90_reset_restores",
    "Verif.Prices.C90_other_assets",
    "Verif.Prices.C90_no_op_ignores_emergency",
    "Verif.Prices.C90_timestamp_zero_is_emergency",
    "Verif.Prices.C90_refuted"
   ],
   "note": "Refuted as stated: an emergency price whose normalised value exceeds u128 is silently ignored. Everything else is proved."
  },
  {
   "property": "C91",
   "status": "proved",
   "theorems": [
    "Verif.Prices.C91_normalised",
    "Verif.Prices.C91_value_of_units",
    "Verif.Prices.C91_no_decimals_no_price",
    "Verif.Prices.C91_without_relay_price",
    "Verif.Prices.C91_ordinary",
    "Verif.Prices.C91_liquid",
    "Verif.Prices.C91_vault",
    "Verif.Prices.C91_auxiliary",
    "Verif.Prices.C91_falls_back",
    "Verif.Prices.C91_foreign",
    "Verif.Prices.C91_foreign_liquid",
    "Verif.Prices.C91_lp",
    "Verif.Prices.C91_lp_depends_on_product",
    "Verif.Prices.C91_monotone_in_relay",
    "Verif.Prices.C91_plain_assets",
    "Verif.Prices.C91_special_numbers",
    "Verif.Prices.C91_last_mapping_decides",
    "Verif.Prices.C91_mapping_frame"
   ],
   "note": ""
  },
  {
   "property": "C92",
   "status": "partial",
   "theorems": [
    "Verif.Prices.C92_answers_partial",
    "Verif.Prices.C92_cycle_traps",
    "Verif.Prices.C92_refuted"
   ],
   "note": "Refuted as stated: a cyclic foreign-asset mapping is accepted and makes every later request recurse without bound. Proved when the chain ends."
  },
  {
   "property": "C93",
   "status": "proved",
   "theorems": [
    "Verif.Crowdloans.C93_books",
    "Verif.Crowdloans.C93_backed",
    "Verif.Crowdloans.C93_refundable"
   ],
   "note": ""
  },
  {
   "property": "C94",
   "status": "proved",
   "theorems": [
    "Verif.Crowdloans.C94_iff",
    "Verif.Crowdloans.C94_effect"
   ],
   "note": ""
  },
  {
   "property": "C95",
   "status": "proved",
   "theorems": [
    "Verif.Crowdloans.C95_cap"
   ],
   "note": ""
  },
  {
   "property": "C96",
   "status": "proved",
   "theorems": [
    "Verif.Crowdloans.C96_conservation",
    "Verif.Crowdloans.C96_balances",
    "Verif.Crowdloans.C96_lend"
   ],
   "note": ""
  },
  {
   "property": "C97",
   "status": "proved",
   "theorems": [
    "Verif.Crowdloans.C97_minted"
   ],
   "note": ""
  },
  {
   "property": "C98",
   "status": "partial",
   "theorems": [
    "Verif.Crowdloans.C98_backing",
    "Verif.Crowdloans.C98_only_claims",
    "Verif.Crowdloans.C98_redeemable",
    "Verif.Crowdloans.C98_refuted"
   ],
   "note": "Redemption is refuted as stated: vaults of the same lease share their derivative token, so holders from one vault can exhaust another. Backing over all vaults is proved, and redemption when no other vault with the token has anything invested."
  },
  {
   "property": "C99",
   "status": "proved",
   "theorems": [
    "Verif.Crowdloans.C99_claim_iff",
    "Verif.Crowdloans.C99_claim_once",
    "Verif.Crowdloans.C99_withdraw_iff",
    "Verif.Crowdloans.C99_withdraw_once",
    "Verif.Crowdloans.C99_claim_phase",
    "Verif.Crowdloans.C99_force_claim_iff"
   ],
   "note": ""
  }
 ]
}