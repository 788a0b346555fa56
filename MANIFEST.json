{
 "claims": [
  {
   "property": "C01",
   "status": "proved",
   "theorems": [
    "Verif.C01_swap_product",
    "Verif.C01_swap_by_output_product",
    "Verif.C01_trades_product"
   ],
   "note": "simple pool swaps in both directions and any sequence of them"
  },
  {
   "property": "C02",
   "status": "proved",
   "theorems": [
    "Verif.C02_swap_output_optimal"
   ],
   "note": ""
  },
  {
   "property": "C03",
   "status": "proved",
   "theorems": [
    "Verif.C03_swap_by_output_tight"
   ],
   "note": ""
  },
  {
   "property": "C04",
   "status": "proved",
   "theorems": [
    "Verif.C04_round_trip"
   ],
   "note": ""
  },
  {
   "property": "C05",
   "status": "proved",
   "theorems": [
    "Verif.C05_split"
   ],
   "note": ""
  },
  {
   "property": "C06",
   "status": "proved",
   "theorems": [
    "Verif.C06_add_liquidity",
    "Verif.C06_first_deposit"
   ],
   "note": ""
  },
  {
   "property": "C08",
   "status": "proved",
   "theorems": [
    "Verif.C08_add_remove"
   ],
   "note": ""
  },
  {
   "property": "C10",
   "status": "proved",
   "theorems": [
    "Verif.C10_fee_minting",
    "Verif.C10_fee_minting_by_output"
   ],
   "note": ""
  },
  {
   "property": "C11",
   "status": "proved",
   "theorems": [
    "Verif.C11_integer_sqrt_exact",
    "Verif.C11_integer_sqrt_max",
    "Verif.C11_range"
   ],
   "note": ""
  },
  {
   "property": "C07",
   "status": "proved",
   "theorems": [
    "Verif.C07_remove_liquidity_simple",
    "Verif.C07_remove_by_shares_curve"
   ],
   "note": ""
  },
  {
   "property": "C09",
   "status": "proved",
   "theorems": [
    "Verif.C09_simple_supply",
    "Verif.C09_curve_supply",
    "Verif.Contract.C09_reachable"
   ],
   "note": "every pool kind, over all histories of the contract"
  },
  {
   "property": "C31",
   "status": "proved",
   "theorems": [
    "Verif.C31_amp_between",
    "Verif.C31_amp_monotone",
    "Verif.C31_amp_endpoints",
    "Verif.C31_ramp",
    "Verif.C31_stop",
    "Verif.C31_amp_history"
   ],
   "note": ""
  },
  {
   "property": "C32",
   "status": "proved",
   "theorems": [
    "Verif.C32_swap_keeps_curve"
   ],
   "note": "curve equation in exact integers, with the rounding slack of the chained divisions stated explicitly"
  },
  {
   "property": "C33",
   "status": "proved",
   "theorems": [
    "Verif.C33_balanced_invariant",
    "Verif.C33_empty_invariant"
   ],
   "note": ""
  },
  {
   "property": "C34",
   "status": "proved",
   "theorems": [
    "Verif.C34_swap_min_reserve",
    "Verif.C34_remove_shares_min_reserve",
    "Verif.C34_remove_tokens_min_reserve"
   ],
   "note": ""
  },
  {
   "property": "C35",
   "status": "proved",
   "theorems": [
    "Verif.C35_swap_fee_split"
   ],
   "note": ""
  },
  {
   "property": "C36",
   "status": "partial",
   "theorems": [
    "Verif.C36_round_trip",
    "Verif.C36_round_trip_internal",
    "Verif.C36_add_credits",
    "Verif.C36_remove_shares_covered",
    "Verif.C36_remove_tokens_covered_partial",
    "Verif.C36_remove_tokens_covered_rated",
    "Verif.C36_remove_tokens_leak"
   ],
   "note": "false as stated: C36_remove_tokens_leak is a witness that a stable pool pays up to 10^(d-18)-1 units of a token with d>18 decimals without reducing its reserve; everything else is proved"
  },
  {
   "property": "C37",
   "status": "proved",
   "theorems": [
    "Verif.C37_stale_rates_block",
    "Verif.C37_first_deposit_blocked",
    "Verif.C37_later_deposit_not_blocked",
    "Verif.C37_remove_by_shares_always_possible",
    "Verif.Contract.C37_swaps_need_fresh_rates",
    "Verif.Contract.C37_removal_needs_fresh_rates"
   ],
   "note": "Deposits after the first one are not blocked by stale rates (C37_later_deposit_not_blocked)."
  },
  {
   "property": "C51",
   "status": "proved",
   "theorems": [
    "Verif.C51_add_not_dilutive",
    "Verif.C51_remove_tokens_not_dilutive"
   ],
   "note": ""
  },
  {
   "property": "C39",
   "status": "proved",
   "theorems": [
    "Verif.C39_average",
    "Verif.C39_between",
    "Verif.C39_records",
    "Verif.C39_update_total",
    "Verif.C39_recorded"
   ],
   "note": "For every sequence of observations with non-decreasing times and any recording intervals."
  },
  {
   "property": "C41",
   "status": "proved",
   "theorems": [
    "Verif.C41_lp_id",
    "Verif.C41_lp_id_injective",
    "Verif.C41_token_id",
    "Verif.C41_pool_id_range",
    "Verif.C41_shadow_id",
    "Verif.C41_shadow_id_injective",
    "Verif.C41_price_pair",
    "Verif.Contract.C41_other_names"
   ],
   "note": "All 64-bit pool ids, all payloads; the word size of usize is a parameter."
  },
  {
   "property": "C42",
   "status": "proved",
   "theorems": [
    "Verif.C42_whitelist",
    "Verif.C42_plain",
    "Verif.C42_wildcard",
    "Verif.C42_echo",
    "Verif.C42_checked_lists",
    "Verif.C42_sender_list_open",
    "Verif.Contract.C42_reported",
    "Verif.Contract.C42_call",
    "Verif.Contract.C42_unchanged"
   ],
   "note": "The sender list accepts a bare * (witness C42_sender_list_open), the other two lists do not."
  },
  {
   "property": "C19",
   "status": "proved",
   "theorems": [
    "Verif.Contract.C19_paused_refuses",
    "Verif.Contract.C19_paused_funds",
    "Verif.Contract.C19_liquidation_while_paused"
   ],
   "note": "the witness shows that the exception for liquidations is real"
  },
  {
   "property": "C21",
   "status": "proved",
   "theorems": [
    "Verif.Contract.C21_roles",
    "Verif.Contract.C21_owner_part",
    "Verif.Contract.C21_config",
    "Verif.Contract.C21_history",
    "Verif.Contract.C21_guardian_unfreezes",
    "Verif.Contract.C15_guardian_seizes"
   ],
   "note": "the witnesses show that guardians may also unfreeze tokens and take the place of the lending contract"
  },
  {
   "property": "C22",
   "status": "proved",
   "theorems": [
    "Verif.Contract.C22_fees",
    "Verif.Contract.C22_admin_fee",
    "Verif.Contract.C22_admin_fee_set",
    "Verif.Contract.C22_constructor_unbounded"
   ],
   "note": "the witness shows that the constructor accepts any admin fee"
  },
  {
   "property": "C52",
   "status": "proved",
   "theorems": [
    "Verif.Contract.C52_pool_identity"
   ],
   "note": ""
  },
  {
   "property": "C14",
   "status": "proved",
   "theorems": [
    "Verif.Contract.C14_deposits_safe"
   ],
   "note": ""
  },
  {
   "property": "C15",
   "status": "proved",
   "theorems": [
    "Verif.Contract.C15_shares_safe",
    "Verif.Contract.C15_guardian_seizes"
   ],
   "note": "The account of the lending contract is a setting that every guardian can change; C15_guardian_seizes shows what follows."
  },
  {
   "property": "C16",
   "status": "proved",
   "theorems": [
    "Verif.Contract.C16_swaps",
    "Verif.Contract.C16_add_liquidity",
    "Verif.Contract.C16_add_stable",
    "Verif.Contract.C16_remove_liquidity",
    "Verif.Contract.C16_remove_by_tokens",
    "Verif.Contract.C16_hot_zap",
    "Verif.Contract.C16_short_minimum_list"
   ],
   "note": "Every swap of every call, every addition and removal respects the limits the caller gave; C16_short_minimum_list shows that a list of minimum amounts shorter than the tokens of the pool limits only the first ones."
  },
  {
   "property": "C17",
   "status": "proved",
   "theorems": [
    "Verif.Contract.C17_execute_actions",
    "Verif.Contract.C17_execute_in_va",
    "Verif.Contract.C17_atomic"
   ],
   "note": "A successful list of actions changes the caller's deposits by exactly the sum of its swaps, each taking the result of the previous one; a failing one changes nothing."
  },
  {
   "property": "C27",
   "status": "proved",
   "theorems": [
    "Verif.Contract.C27_transfer",
    "Verif.Contract.C27_transfer_call",
    "Verif.Contract.C27_resolve",
    "Verif.Contract.C27_reported_refund"
   ],
   "note": "The refund of an unused amount is limited by what the receiver still holds; the value the callback reports is not (C27_reported_refund)."
  },
  {
   "property": "C28",
   "status": "proved",
   "theorems": [
    "Verif.Contract.C28_lost_safe",
    "Verif.Contract.C28_claim_succeeds",
    "Verif.Contract.C28_claim_once"
   ],
   "note": ""
  },
  {
   "property": "C29",
   "status": "proved",
   "theorems": [
    "Verif.Contract.C29_deposit",
    "Verif.Contract.C29_refused",
    "Verif.Contract.C29_accepted",
    "Verif.Contract.C29_hot_zap",
    "Verif.Contract.C29_unlisted_credit"
   ],
   "note": "Exact for plain deposits. What a hot zap leaves of the token that arrived is credited without the check; C29_unlisted_credit is a reachable case."
  },
  {
   "property": "C30",
   "status": "proved",
   "theorems": [
    "Verif.Contract.C30_instant_swap",
    "Verif.Contract.C30_last_result"
   ],
   "note": ""
  },
  {
   "property": "C23",
   "status": "proved",
   "theorems": [
    "Verif.Contract.C23_call",
    "Verif.Contract.C23_history",
    "Verif.Contract.C23_withdraw",
    "Verif.Contract.C23_withdraw_succeeds",
    "Verif.Contract.C23_owner_unpaid"
   ],
   "note": "For every account except one that was ever the owner's: donations, the owner's withdrawals and the fallback of a failed transfer save the owner's account without the storage check."
  },
  {
   "property": "C24",
   "status": "proved",
   "theorems": [
    "Verif.Contract.C24_unregister",
    "Verif.Contract.C24_succeeds",
    "Verif.Contract.C24_no_account"
   ],
   "note": ""
  },
  {
   "property": "C25",
   "status": "partial",
   "theorems": [
    "Verif.Contract.C25_step",
    "Verif.Contract.C25_backed_partial",
    "Verif.Contract.C25_locked",
    "Verif.Contract.C25_pledges_safe",
    "Verif.Contract.C25_donation"
   ],
   "note": "Holds for every history without a donation of pledged shares; donation_share ignores the pledges, and C25_donation is a reachable state in which the claim is false."
  },
  {
   "property": "C26",
   "status": "proved",
   "theorems": [
    "Verif.Contract.C26_cast",
    "Verif.Contract.C26_failed_cast",
    "Verif.Contract.C26_failed_cast_succeeds",
    "Verif.Contract.C26_roundtrip",
    "Verif.Contract.C26_accepted_cast",
    "Verif.Contract.C26_release",
    "Verif.Contract.C26_released"
   ],
   "note": "The callback panics, and so changes nothing, if the account is gone or less than the cast amount is left in the record."
  },
  {
   "property": "C20",
   "status": "proved",
   "theorems": [
    "Verif.Contract.C20_frozen",
    "Verif.Contract.C20_refused",
    "Verif.Contract.C20_moves_inside",
    "Verif.Contract.C20_owner_withdraws"
   ],
   "note": "Holds for every call but the owner's collection of fees and withdrawals, which do not look at the list; transfers between deposits (mft_transfer, donations) do not either. Both exceptions are shown by concrete reachable states."
  },
  {
   "property": "C38",
   "status": "proved",
   "theorems": [
    "Verif.Contract.C38_limit",
    "Verif.Contract.C38_limit_needs_prices"
   ],
   "note": ""
  },
  {
   "property": "C12",
   "status": "partial",
   "theorems": [
    "Verif.C12_solvent_partial",
    "Verif.C12_reported_partial",
    "Verif.C12_transfer_covered_partial",
    "Verif.C12_listed_partial",
    "Verif.C12_retrieve_unchecked"
   ],
   "note": "Invariant over every interleaving of calls, arriving tokens, refunds, outgoing transfers and callbacks, for each token. Missing: histories in which a stable pool lists the token with more than 18 decimals (see C36), the owner retrieves more than the surplus (C12_retrieve_unchecked: the code does not check), or the wrapped NEAR token is replaced during an unwrapping (C13_wnear_replaced). In each of them the claim is false."
  },
  {
   "property": "C13",
   "status": "partial",
   "theorems": [
    "Verif.C13_never_lost_partial",
    "Verif.Contract.C13_failed_transfer",
    "Verif.Contract.C13_successful_transfer",
    "Verif.C13_wnear_replaced",
    "Verif.Contract.C13_near_lost",
    "Verif.Contract.C13_echo_return"
   ],
   "note": "C13_failed_transfer holds in every state in which the callback completes; C13_never_lost_partial shows that it always completes in the histories of C12. If the owner replaces the wrapped NEAR token during an unwrapping, the callback credits the new token instead (witness)."
  },
  {
   "property": "C43",
   "status": "proved",
   "theorems": [
    "Verif.Farming.Contract.C43_conserved"
   ],
   "note": ""
  },
  {
   "property": "C44",
   "status": "proved",
   "theorems": [
    "Verif.Farming.Contract.C44_reported",
    "Verif.Farming.Contract.C44_covered",
    "Verif.Farming.Contract.C44_never_short"
   ],
   "note": "The sum over all farmers is covered by the pot, and no call or callback fails for lack of reward. Rewards of farmers who stopped claiming before force_clean_farm go to the beneficiary (C43 counts them as claimed)."
  },
  {
   "property": "C45",
   "status": "proved",
   "theorems": [
    "Verif.Farming.Contract.C45_share",
    "Verif.Farming.Contract.C45_caught_up_by_farm",
    "Verif.Farming.Contract.C45_caught_up_by_seed",
    "Verif.Farming.Contract.C45_caught_up_by_stake"
   ],
   "note": "With the rounding loss stated explicitly: less than 1 + (number of events + 1) * stake / 10^24 units."
  },
  {
   "property": "C46",
   "status": "proved",
   "theorems": [
    "Verif.Farming.Contract.C46_total",
    "Verif.Farming.Contract.C46_ledger",
    "Verif.Farming.Contract.C46_withdraw"
   ],
   "note": ""
  },
  {
   "property": "C47",
   "status": "partial",
   "theorems": [
    "Verif.Farming.Contract.C47_reward_partial",
    "Verif.Farming.Contract.C47_seed_partial",
    "Verif.Farming.Contract.C47_lost"
   ],
   "note": "Holds while the farmer is registered (and, for seeds, is not locked out, see C49). C47_lost is a reachable case in which the farmer unregisters first and the callbacks panic: the claim is false there."
  },
  {
   "property": "C48",
   "status": "proved",
   "theorems": [
    "Verif.Farming.Contract.C48_step",
    "Verif.Farming.Contract.C48_forward",
    "Verif.Farming.Contract.C48_ended",
    "Verif.Farming.Contract.C48_exhausted",
    "Verif.Farming.Contract.C48_pace"
   ],
   "note": "C48_pace assumes a clock that does not run backwards and fits 32 bits of seconds."
  },
  {
   "property": "C49",
   "status": "partial",
   "theorems": [
    "Verif.Farming.Contract.C49_claim_partial",
    "Verif.Farming.Contract.C49_stake_partial",
    "Verif.Farming.Contract.C49_withdraw_partial",
    "Verif.Farming.Contract.rated_le",
    "Verif.Farming.Contract.C49_locked_out",
    "Verif.Farming.Contract.C49_stuck",
    "Verif.Farming.Contract.C49_zero_interval",
    "Verif.Farming.Contract.C49_overflow"
   ],
   "note": "False as stated: four reachable lock-outs are given as witnesses. The _partial theorems show that claims, stakes and withdrawals succeed outside these cases."
  },
  {
   "property": "C50",
   "status": "proved",
   "theorems": [
    "Verif.Farming.C50_solvent",
    "Verif.Farming.C50_transfers_covered",
    "Verif.Farming.C50_everyone",
    "Verif.Farming.C50_exact"
   ],
   "note": "The world of Farming/World.lean holds the farming contract, its balance of one asset (a token or the shares of a pool of an exchange) and the receipts under way in any order. Assumed: the contract of the asset is honest (it announces only what it has moved) and account names contain no @."
  },
  {
   "property": "C53",
   "status": "proved",
   "theorems": [
    "Verif.Farming.Contract.C53_view_is_paid",
    "Verif.Farming.Contract.C53_seed"
   ],
   "note": "C53_seed covers the calls that claim from all farms of a seed."
  },
  {
   "property": "C54",
   "status": "proved",
   "theorems": [
    "Verif.Farming.Contract.C54_own_account"
   ],
   "note": ""
  },
  {
   "property": "C55",
   "status": "proved",
   "theorems": [
    "Verif.Contract.C55_call_exact",
    "Verif.Contract.C55_callback_exact",
    "Verif.Contract.C55_history_exact"
   ],
   "note": "For tokens that no curve pool lists; there the contract keeps rounding dust (see C12, C36)."
  },
  {
   "property": "C56",
   "status": "proved",
   "theorems": [
    "Verif.Contract.C56_call_exact",
    "Verif.Contract.C56_paid_to_caller",
    "Verif.Contract.C56_protected",
    "Verif.Contract.C56_callback_exact"
   ],
   "note": ""
  },
  {
   "property": "C57",
   "status": "proved",
   "theorems": [
    "Verif.C57_swap",
    "Verif.C57_swap_by_output",
    "Verif.C57_add_stable",
    "Verif.C57_remove_by_tokens",
    "Verif.Contract.C57_others_untouched"
   ],
   "note": ""
  },
  {
   "property": "C58",
   "status": "proved",
   "theorems": [
    "Verif.Contract.C58_reserves",
    "Verif.Contract.C58_first_deposit"
   ],
   "note": "For rated and degen pools only the first deposit and the minimum reserves of C34 are claimed: there the balance of the incoming token is recomputed from the rate at every swap and loses rounding dust."
  },
  {
   "property": "C59",
   "status": "proved",
   "theorems": [
    "Verif.Farming.Contract.C59_account",
    "Verif.Farming.Contract.C59_total",
    "Verif.Farming.Contract.C59_receiver",
    "Verif.Farming.Contract.C59_withdraw",
    "Verif.Farming.Contract.C59_claim",
    "Verif.Farming.Contract.C59_leave",
    "Verif.Farming.Contract.C63_minimum"
   ],
   "note": "The bytes by which creating a farm grows the storage are an arbitrary input of the call. Withdrawing a stake and callbacks of failed transfers do not check the storage deposit; the property does not claim they do."
  },
  {
   "property": "C60",
   "status": "proved",
   "theorems": [
    "Verif.Farming.Contract.C60_owner_only",
    "Verif.Farming.Contract.C60_refused"
   ],
   "note": "The start of a farm is set by its first funding if the owner left it open. Upgrades are not modelled."
  },
  {
   "property": "C61",
   "status": "proved",
   "theorems": [
    "Verif.Farming.Contract.C61_paused",
    "Verif.Farming.Contract.C61_accounts"
   ],
   "note": "Callbacks of transfers that failed still book the amount back while the contract is paused."
  },
  {
   "property": "C62",
   "status": "proved",
   "theorems": [
    "Verif.Farming.Contract.C62_reward_info",
    "Verif.Farming.Contract.C62_farmer_count"
   ],
   "note": ""
  },
  {
   "property": "C63",
   "status": "proved",
   "theorems": [
    "Verif.Farming.Contract.C63_minimum"
   ],
   "note": ""
  },
  {
   "property": "C18",
   "status": "proved",
   "theorems": [
    "Verif.Contract.C18_get_return",
    "Verif.Contract.C18_get_return_by_output",
    "Verif.Contract.C18_execute_actions",
    "Verif.Contract.C18_execute_in_va",
    "Verif.Contract.C18_instant_swap",
    "Verif.Contract.C18_add_liquidity",
    "Verif.Contract.C18_add_stable",
    "Verif.Contract.C18_remove_liquidity",
    "Verif.Contract.C18_remove_by_tokens",
    "Verif.Contract.C18_hot_zap",
    "Verif.Contract.C18_rated_return",
    "Verif.Contract.C18_add_rated",
    "Verif.Contract.C18_remove_rated"
   ],
   "note": "Whenever the call succeeds, the view on the state before it succeeds with the amounts the call then moves, for any referral. The stored run can fail where the view answers (price sample, storage, minimum amounts), so the converse is not claimed. For the views that take supposed rates, the state asked and the state of the call agree in the pool, the protocol's part of the fee and the time."
  },
  {
   "property": "C40",
   "status": "proved",
   "theorems": [
    "Verif.Contract.C40_event",
    "Verif.Contract.C40_exact",
    "Verif.Contract.C40_lengths",
    "Verif.Contract.C40_wraps"
   ],
   "note": "For every history, as long as at most 2^32 pools exist. Volumes are stored under the pool id cut to 32 bits; C40_wraps shows that the pool with id 2^32 resets the volume of pool 0."
  },
  {
   "property": "C64",
   "status": "proved",
   "theorems": [
    "Verif.C64_computed",
    "Verif.C64_swap",
    "Verif.C64_share_value",
    "Verif.C64_trades",
    "Verif.C64_rated_swap",
    "Verif.C64_rated_trades",
    "Verif.C64_rated_share_value"
   ],
   "note": "The loss of a swap is at most c^(n-1) units of the invariant, where n is the number of tokens and no balance exceeds c times the invariant (c = 1 in a balanced pool). In rated and degen pools up to 2*g*c further units are lost to the conversion through the rates, where no rate exceeds g and the balances are at least 1/c of the invariant. The amplification is the same throughout."
  },
  {
   "property": "C65",
   "status": "proved",
   "theorems": [
    "Verif.Farming.Contract.C65_listed",
    "Verif.Farming.Contract.C65_archived",
    "Verif.Farming.Contract.C65_books",
    "Verif.Farming.Contract.C65_status",
    "Verif.Farming.Contract.C65_kept",
    "Verif.Farming.Contract.C65_list_farms",
    "Verif.Farming.Contract.C65_list_outdated",
    "Verif.Farming.Contract.C65_list_seeds",
    "Verif.Farming.Contract.C65_list_rewards",
    "Verif.Farming.Contract.C65_list_farmer"
   ],
   "note": "The views can fail where the arithmetic of a claim would overflow (see C49)."
  },
  {
   "property": "C66",
   "status": "proved",
   "theorems": [
    "Verif.Contract.C66_reply",
    "Verif.Contract.C66_failed",
    "Verif.Contract.C66_price_accepted",
    "Verif.Contract.C66_pyth_accepted",
    "Verif.Contract.C66_batch_prices",
    "Verif.Contract.C66_batch_pyth",
    "Verif.Contract.C66_request",
    "Verif.Contract.C66_all_asked",
    "Verif.OracleWorld.C66_reachable",
    "Verif.OracleWorld.C66_prices_reported",
    "Verif.OracleWorld.C66_rates_reported",
    "Verif.OracleWorld.C66_sources",
    "Verif.OracleWorld.C66_swaps_use_reported_prices",
    "Verif.OracleWorld.C66_swaps_use_reported_rates",
    "Verif.Contract.C66_one_bad_price_blocks_all",
    "Verif.OracleWorld.C66_small_price_is_stored_as_zero",
    "Verif.OracleWorld.C66_future_price_is_accepted",
    "Verif.OracleWorld.C66_stale_decimals"
   ],
   "note": "The model starts from the decoded reply. Requests for several tokens use the decimals and feeds registered when they were made, so a reply can undo a correction (C66_stale_decimals); positive Pyth prices below 10^-24 are stored as 0 and prices published in the future count as fresh (witnesses). A batch fails as a whole if one quote has fewer decimals than registered, contrary to the comment in the code. Rates other than Sfrax are whatever the token contract replies."
  },
  {
   "property": "C67",
   "status": "proved",
   "theorems": [
    "Verif.C67_upgrade",
    "Verif.C67_disjoint",
    "Verif.C67_represented",
    "Verif.C67_operation",
    "Verif.C67_history",
    "Verif.C67_exit",
    "Verif.C67_deposits_listed",
    "Verif.C67_paged_view_omits",
    "Verif.C67_partial_withdrawal_blocked"
   ],
   "note": "Assumes that no token is in both maps of a stored account; every operation preserves this and accounts of the first version and new accounts meet it. Witnesses: get_tokens_paged omits the old balances, and a holder whose storage deposit just covers an old account cannot withdraw a part of a balance."
  },
  {
   "property": "C68",
   "status": "proved",
   "theorems": [
    "Verif.Contract.C68_get_pools",
    "Verif.Contract.C68_get_details",
    "Verif.Contract.C68_list_volumes",
    "Verif.Contract.C68_volumes_listed",
    "Verif.Contract.C68_pools_listed",
    "Verif.Contract.C68_list_referrals",
    "Verif.Contract.C68_list_limits",
    "Verif.Contract.C68_identity",
    "Verif.Contract.C68_supply",
    "Verif.Contract.C68_limit",
    "Verif.Contract.C68_page_blocked",
    "Verif.Contract.C68_batch",
    "Verif.Contract.C68_all",
    "Verif.Contract.C68_rates",
    "Verif.Contract.C68_volumes"
   ],
   "note": "The order in which a map keeps its keys is arbitrary. Witness: once the owner removes the price of a degen token, every page with a pool of this token fails."
  },
  {
   "property": "C69",
   "status": "proved",
   "theorems": [
    "Verif.Contract.C69_reported",
    "Verif.Contract.C69_assets",
    "Verif.Contract.C69_same_block",
    "Verif.Contract.C69_unit",
    "Verif.Contract.C69_hot_zap_moves_average"
   ],
   "note": "Times up to 2^32 seconds. Witness for the exception: a hot zap of one token moves the reported average by 18 percent within a block."
  },
  {
   "property": "C70",
   "status": "proved",
   "theorems": [
    "Verif.Contract.C70_withdraw",
    "Verif.Contract.C70_withdraw_part",
    "Verif.Contract.C70_withdraw_always",
    "Verif.Contract.C70_remove",
    "Verif.Contract.C70_simple",
    "Verif.Contract.C70_curve",
    "Verif.Contract.C70_leave",
    "Verif.Contract.C70_sampling",
    "Verif.Contract.C70_leave_simple",
    "Verif.Contract.C70_sampling_blocks"
   ],
   "note": "The promises of the withdrawals are modelled up to their creation; what happens when a token contract refuses them is in C13/C27. Witness: a stable pool with a record and 1.001 shares left is stopped by its sample."
  },
  {
   "property": "C71",
   "status": "proved",
   "theorems": [
    "Verif.C71_invariant",
    "Verif.C71_swap"
   ],
   "note": "Upper bounds; the matching lower bounds are C64_computed (also part of C71_invariant) and C32_swap_keeps_curve."
  },
  {
   "property": "C72",
   "status": "proved",
   "theorems": [
    "Verif.Contract.C72_storage_withdraw",
    "Verif.Contract.C72_storage_deposit",
    "Verif.Contract.C72_registration_only",
    "Verif.Contract.C72_deposit",
    "Verif.Contract.C72_withdraw",
    "Verif.Contract.C72_deposits",
    "Verif.Contract.C72_tokens_paged",
    "Verif.Contract.C72_claim",
    "Verif.Contract.C72_lostfound_paged",
    "Verif.Contract.C72_unpaged",
    "Verif.Contract.C72_mft_views",
    "Verif.Contract.C72_shadow_records",
    "Verif.Contract.C72_transfer_shares",
    "Verif.Contract.C72_transfer_token",
    "Verif.Contract.C72_register",
    "Verif.Contract.C72_pledge",
    "Verif.Contract.C72_close"
   ],
   "note": "PaysRecord and recordOf in AccountRuns state what a token record costs in the two formats of an account. The order of the keys in a paged listing is a parameter."
  },
  {
   "property": "C73",
   "status": "proved",
   "theorems": [
    "Verif.Contract.C73_execute_actions",
    "Verif.Contract.C73_instant_swap",
    "Verif.Contract.C73_get_return",
    "Verif.Contract.C73_add_liquidity",
    "Verif.Contract.C73_add_stable",
    "Verif.Contract.C73_remove_by_tokens",
    "Verif.Contract.C73_hot_zap"
   ],
   "note": "The converse of C18. Covered states which pools are covered: a sampled curve pool can be stopped by its sample (C70_sampling_blocks), and in a stable pool with tokens of more than 18 decimals the amounts of the fee log could overflow. Volumes must be 2^128 per action below their 256-bit limit."
  },
  {
   "property": "C74",
   "status": "proved",
   "theorems": [
    "Verif.C74_trades",
    "Verif.C74_trades_balanced",
    "Verif.C74_swap",
    "Verif.C74_balanced",
    "Verif.C74_rated_trades",
    "Verif.C74_unbalanced_pays_more"
   ],
   "note": "The rounding per swap is that of C64. C74_unbalanced_pays_more shows that the bound has to depend on the balance of the pool."
  },
  {
   "property": "C75",
   "status": "proved",
   "theorems": [
    "Verif.C75_stable",
    "Verif.C75_rated",
    "Verif.C75_floor",
    "Verif.C75_redeem",
    "Verif.C75_removal_keeps",
    "Verif.C75_swap",
    "Verif.C75_rated_swap",
    "Verif.C75_trade_lowers",
    "Verif.Contract.C75_view"
   ],
   "note": "C75_trade_lowers is a trade that lowers the reported price of an unbalanced stable pool: the view sums the balances, it does not use the invariant."
  },
  {
   "property": "C76",
   "status": "proved",
   "theorems": [
    "Verif.Farming.Contract.C76_storage_withdraw",
    "Verif.Farming.Contract.C76_storage_deposit",
    "Verif.Farming.Contract.C76_reward_views",
    "Verif.Farming.Contract.C76_withdraw_reward",
    "Verif.Farming.Contract.C76_unregister",
    "Verif.Farming.Contract.C76_claim",
    "Verif.Farming.Contract.C76_user_rps",
    "Verif.Farming.Contract.C76_list_seeds_info",
    "Verif.Farming.Contract.C76_metadata"
   ],
   "note": "The storage condition of C76_claim covers one more reward token and one more farm; the other conditions keep the counters of the farmer within their types."
  },
  {
   "property": "C77",
   "status": "partial",
   "theorems": [
    "Verif.Farming.Contract.C77_leave_partial",
    "Verif.Farming.Contract.C77_stuck",
    "Verif.Farming.Contract.C77_zero_blocks"
   ],
   "note": "The code violates the claim (C77_stuck, C77_zero_blocks): a withdrawal that names the whole amount leaves a reward of zero on record, which keeps the farmer from unregistering. C77_leave_partial proves it for withdrawals without an amount."
  },
  {
   "property": "C78",
   "status": "proved",
   "theorems": [
    "Verif.Contract.C78_local",
    "Verif.Contract.C78_frame",
    "Verif.Contract.C78_commute",
    "Verif.Contract.C78_same",
    "Verif.Contract.C78_create",
    "Verif.Contract.C78_schedule"
   ],
   "note": "The bytes of storage a call grows or frees are inputs of the model, so they are the same in both orders by assumption. Volumes are keyed by the pool id modulo 2^32, so pools whose ids agree modulo 2^32 count as common."
  },
  {
   "property": "C79",
   "status": "proved",
   "theorems": [
    "Verif.Farming.Contract.C79_not_diluted",
    "Verif.Farming.Contract.C79_claim",
    "Verif.Farming.Contract.C79_order",
    "Verif.Farming.Contract.C79_clearing_takes"
   ],
   "note": "C79_clearing_takes shows that the exception is needed: clearing a farm takes what has been earned and not claimed."
  },
  {
   "property": "C80",
   "status": "proved",
   "theorems": [
    "Verif.Contract.C80_stop",
    "Verif.Contract.C80_start",
    "Verif.Contract.C80_stays_stopped",
    "Verif.Contract.C80_freeze",
    "Verif.Contract.C80_unfreeze",
    "Verif.Contract.C80_reported",
    "Verif.Contract.C80_unchanged",
    "Verif.Contract.C80_unlisted",
    "Verif.Contract.C80_listed",
    "Verif.Contract.C80_rates",
    "Verif.Contract.C80_rates_decide",
    "Verif.Contract.C80_degen_readable",
    "Verif.Contract.C80_degen_blocked",
    "Verif.Contract.C80_prices",
    "Verif.Contract.C80_prices_decide",
    "Verif.Contract.C80_oracles"
   ],
   "note": "C80_degen_blocked shows a gap: the list of degen tokens cannot be read while a registered token has no price yet."
  },
  {
   "property": "C81",
   "status": "partial",
   "theorems": [
    "Verif.PledgeWorld.C81_histories",
    "Verif.PledgeWorld.C81_books",
    "Verif.PledgeWorld.C81_lender",
    "Verif.PledgeWorld.C81_farm_partial",
    "Verif.PledgeWorld.C81_settled",
    "Verif.PledgeWorld.C81_booked",
    "Verif.PledgeWorld.C81_backed",
    "Verif.PledgeWorld.C81_stuck",
    "Verif.PledgeWorld.C81_overtaken",
    "Verif.PledgeWorld.C81_refused"
   ],
   "note": "Proved for the lending contract, with liquidations in any order, and for the farm as long as the account is not liquidated. With liquidations the claim is false of the farm: C81_overtaken and C81_refused are witnesses, C81_stuck shows that the damage is permanent."
  },
  {
   "property": "C82",
   "status": "proved",
   "theorems": [
    "Verif.StakeWorld.C82_histories",
    "Verif.StakeWorld.C82_backed",
    "Verif.StakeWorld.C82_withdraw",
    "Verif.StakeWorld.C82_refund",
    "Verif.StakeWorld.C82_refund_succeeds",
    "Verif.StakeWorld.C82_owner",
    "Verif.StakeWorld.C82_kept",
    "Verif.StakeWorld.C82_settled",
    "Verif.StakeWorld.C82_homeless"
   ],
   "note": "Both contracts as modelled, composed; messages may fail for want of gas, all other accounts call as they like. C82_homeless is a witness for the exception the claim names."
  },
  {
   "property": "C83",
   "status": "proved",
   "theorems": [
    "Verif.Contract.C83_worth",
    "Verif.Contract.C83_redeem",
    "Verif.Contract.C83_same_price",
    "Verif.Contract.C83_rounding"
   ],
   "note": "For contracts whose protocol fee is at most 10000 basis points at the start; later settings are at most 8000 (C22). C83_rounding shows that the unit per swap is needed. Stated with real square roots."
  },
  {
   "property": "C84",
   "status": "proved",
   "theorems": [
    "Verif.Contract.C84_worth",
    "Verif.Contract.C84_path",
    "Verif.CurvePool.C84_pool",
    "Verif.CurvePool.C84_balanced",
    "Verif.CurvePool.C84_rising_pool",
    "Verif.Contract.C84_rising"
   ],
   "note": "For stable pools (not rated or degen) while the amplification is constant (C84_worth) or rises (C84_rising), and the pool stays within the stated size and unevenness (Tame, Room); C71 shows why such a condition is needed. The protocol fee is at most 10000 basis points at the start; later settings are at most 8000 (C22)."
  },
  {
   "property": "C85",
   "status": "proved",
   "theorems": [
    "Verif.Contract.C85_worth",
    "Verif.CurvePool.C85_pool",
    "Verif.CurvePool.C85_balanced",
    "Verif.CurvePool.C85_rates_rise",
    "Verif.CurvePool.C85_rising_pool",
    "Verif.Contract.C85_rising"
   ],
   "note": "For rated and degen pools while neither the rates or prices nor the amplification fall and the pool stays within the stated size and shape (RatedTame, RatedRoom). The protocol fee is at most 8000 basis points, the most the owner can set (C22)."
  },
  {
   "property": "C86",
   "status": "proved",
   "theorems": [
    "Verif.Contract.C86_cycle",
    "Verif.Contract.C86_rated_cycle",
    "Verif.Contract.C86_simple_cycle",
    "Verif.CurvePool.C86_pool",
    "Verif.CurvePool.C86_rated_pool",
    "Verif.CurvePool.C86_round_trip",
    "Verif.CurvePool.C86_rated_round_trip"
   ],
   "note": "While the amplification (and for rated and degen pools the rates or prices) is constant and the pool stays within the stated size and shape (Tame, Room, RatedTame, RatedRoom). The bound grows with the number of operations and with the inverse of the part of the shares that others keep."
  },
  {
   "property": "C87",
   "status": "proved",
   "theorems": [
    "Verif.Contract.C87_add",
    "Verif.Contract.C87_add_proportional",
    "Verif.Contract.C87_remove",
    "Verif.Contract.C87_rated_add",
    "Verif.Contract.C87_rated_remove",
    "Verif.CurvePool.C87_deposit",
    "Verif.CurvePool.C87_proportional",
    "Verif.CurvePool.C87_withdrawal",
    "Verif.CurvePool.C87_rated_deposit",
    "Verif.CurvePool.C87_rated_withdrawal"
   ],
   "note": "For pools within the stated size and shape (Tame, Room, RatedTame, RatedRoom). AfterFee specifies the reserves left after the fee on the distance from proportion. The scale of proportion uses the computed invariants, within dError of the exact ones."
  },
  {
   "property": "C88",
   "status": "proved",
   "theorems": [
    "Verif.Contract.C88_get_return",
    "Verif.Contract.C88_get_return_by_output",
    "Verif.Contract.C88_route",
    "Verif.C88_pool",
    "Verif.C88_simple",
    "Verif.C88_simple_by_output",
    "Verif.C88_curve",
    "Verif.computeY_mono"
   ],
   "note": "Exact, with no tolerance: the solver ends above the root of the curve only where its margin is exactly one unit."
  },
  {
   "property": "C89",
   "status": "proved",
   "theorems": [
    "Verif.Contract.C89_kind",
    "Verif.Contract.C89_fee",
    "Verif.Contract.C89_by_ids",
    "Verif.Contract.C89_batch_predict",
    "Verif.Contract.C89_batch_predict_iff",
    "Verif.Contract.C89_assets",
    "Verif.Contract.C89_batch_views",
    "Verif.Contract.C89_metadata",
    "Verif.Contract.C89_twaps",
    "Verif.Contract.C89_basic_info"
   ],
   "note": "Pool ids are u64. The counter storage_used of an account, which no code changes, is not modelled."
  },
  {
   "property": "C90",
   "status": "proved",
   "theorems": [
    "Verif.C90_simple",
    "Verif.C90_curve",
    "Verif.C90_stable",
    "Verif.Contract.C90_get_return_simple",
    "Verif.Contract.C90_get_return_stable"
   ],
   "note": "For rated and degen pools the amounts paid in are counted in units of the curve (after the rate), because the rounding of the rate can be worth more than a unit of the other token in a very unbalanced pool. No claim is made that splitting a swap of a curve pool into consecutive ones gains nothing."
  },
  {
   "property": "C91",
   "status": "proved",
   "theorems": [
    "Verif.SimplePool.C91_swap",
    "Verif.SimplePool.C91_swap_by_output",
    "Verif.SimplePool.C91_add",
    "Verif.Contract.C91_get_return_simple",
    "Verif.Contract.C91_get_return_by_output",
    "Verif.Contract.C91_predict_add",
    "Verif.computeD_runs",
    "Verif.computeY_runs",
    "Verif.CurvePool.C91_swap_stable",
    "Verif.Contract.C91_get_return_stable",
    "Verif.Contract.C91_small_refused",
    "Verif.Contract.C91_swap_call",
    "Verif.Contract.C91_add_call"
   ],
   "note": "C91_swap_call and C91_add_call combine the answers with C73 for constant-product pools; the swaps of stable pools succeed by C73_get_return. For rated and degen pools only the arithmetic of the curve (computeD_runs, computeY_runs) is covered. The refusal of some small swaps is a witness (C91_small_refused)."
  },
  {
   "property": "C92",
   "status": "proved",
   "theorems": [
    "Verif.Contract.C92_remove_more",
    "Verif.Contract.C92_remove_parts",
    "Verif.Contract.C92_remove_parts_loss",
    "Verif.Contract.C92_add_more",
    "Verif.Contract.C92_add_parts"
   ],
   "note": "The parts are compared with what the views predict for the whole on the state before the first part; by C18 that is what the call would pay or credit."
  },
  {
   "property": "C93",
   "status": "proved",
   "theorems": [
    "Verif.Farming.Contract.C93_never_more",
    "Verif.Farming.Contract.C93_hardly_less",
    "Verif.Farming.Contract.C93_credited"
   ],
   "note": "The exact share is a rational number defined by recursion on the history from the views get_farm, list_user_seeds and list_seeds alone; what is paid is the growth of claimed_reward less beneficiary_reward of get_farm in the events about the farmer. Generalises C45, where the total stake stays the same."
  },
  {
   "property": "C94",
   "status": "proved",
   "theorems": [
    "Verif.Farming.Contract.C94_nothing_stuck",
    "Verif.Farming.Contract.C94_where_it_went"
   ],
   "note": "The converse of C44, where what farmers can claim is covered by unclaimed_reward."
  },
  {
   "property": "C95",
   "status": "proved",
   "theorems": [
    "Verif.Contract.C95_call_dust",
    "Verif.Contract.C95_history_dust"
   ],
   "note": "Complements C12 (the books never exceed the holdings) and C55 (exact for tokens that no curve pool lists)."
  },
  {
   "property": "C96",
   "status": "proved",
   "theorems": [
    "Verif.Boost.Contract.C96_seed_totals",
    "Verif.Boost.Contract.C96_all_accounted"
   ],
   "note": ""
  },
  {
   "property": "C97",
   "status": "proved",
   "theorems": [
    "Verif.Boost.Contract.C97_others_cannot",
    "Verif.Boost.Contract.C97_stake_free",
    "Verif.Boost.Contract.C97_stake_lock",
    "Verif.Boost.Contract.C97_lock_free",
    "Verif.Boost.Contract.C97_force_unlock",
    "Verif.Boost.Contract.C97_no_loss",
    "Verif.Boost.Contract.C97_power",
    "Verif.Boost.Contract.C97_expired_stays"
   ],
   "note": "C97_expired_stays records a finding: a lock that has run out cannot be undone by any call."
  },
  {
   "property": "C98",
   "status": "proved",
   "theorems": [
    "Verif.Boost.Contract.C98_covered",
    "Verif.Boost.Contract.C98_each_farm",
    "Verif.Boost.Contract.C98_rewards_kept"
   ],
   "note": ""
  },
  {
   "property": "C99",
   "status": "proved",
   "theorems": [
    "Verif.Boost.Contract.C99_claim",
    "Verif.Boost.Contract.C99_nothing_left",
    "Verif.Boost.Contract.C99_share"
   ],
   "note": ""
  },
  {
   "property": "C100",
   "status": "proved",
   "theorems": [
    "Verif.Boost.Contract.C100_owner",
    "Verif.Boost.Contract.C100_manager",
    "Verif.Boost.Contract.C100_paused",
    "Verif.Boost.Contract.C100_registered",
    "Verif.Boost.Contract.C100_register",
    "Verif.Boost.Contract.C100_unregister",
    "Verif.Boost.Contract.C100_covered",
    "Verif.Boost.Contract.C100_sponsor"
   ],
   "note": ""
  },
  {
   "property": "C101",
   "status": "proved",
   "theorems": [
    "Verif.Boost.Contract.C101_boosts"
   ],
   "note": ""
  },
  {
   "property": "C102",
   "status": "proved",
   "theorems": [
    "Verif.Boost.Contract.C102_lock_worth",
    "Verif.Boost.Contract.C102_min_deposit",
    "Verif.Boost.Contract.C102_unlock_worth",
    "Verif.Boost.Contract.C102_release",
    "Verif.Boost.Contract.C102_deposit",
    "Verif.Boost.Contract.C102_farm_ends",
    "Verif.Boost.Contract.C102_retroactive"
   ],
   "note": "C102_retroactive records a finding: a farm whose start has passed releases at once when it gets its reward."
  },
  {
   "property": "C103",
   "status": "proved",
   "theorems": [
    "Verif.Boost.Contract.C103_users",
    "Verif.Boost.Contract.C103_setting",
    "Verif.Boost.Contract.C103_create",
    "Verif.Boost.Contract.C103_roles",
    "Verif.Boost.Contract.C103_limits"
   ],
   "note": ""
  },
  {
   "property": "C104",
   "status": "proved",
   "theorems": [
    "Verif.Boost.Contract.C104_never_more",
    "Verif.Boost.Contract.C104_hardly_less",
    "Verif.Boost.Contract.C104_claim_pays_up",
    "Verif.Boost.Contract.C104_credited"
   ],
   "note": ""
  },
  {
   "property": "C105",
   "status": "proved",
   "theorems": [
    "Verif.Boost.Contract.C105_nothing_stuck",
    "Verif.Boost.Contract.C105_where_it_went"
   ],
   "note": ""
  },
  {
   "property": "C106",
   "status": "proved",
   "theorems": [
    "Verif.Boost.Contract.C106_farm_pays_same",
    "Verif.Boost.Contract.C106_no_less",
    "Verif.Boost.Contract.C106_same",
    "Verif.Boost.Contract.C106_order"
   ],
   "note": ""
  },
  {
   "property": "C107",
   "status": "proved",
   "theorems": [
    "Verif.Boost.Contract.C107_claim",
    "Verif.Boost.Contract.C107_view",
    "Verif.Boost.Contract.C107_too_large"
   ],
   "note": ""
  },
  {
   "property": "C108",
   "status": "proved",
   "theorems": [
    "Verif.Boost.Contract.C108_seed_farms",
    "Verif.Boost.Contract.C108_seeds",
    "Verif.Boost.Contract.C108_outdated",
    "Verif.Boost.Contract.C108_slashed",
    "Verif.Boost.Contract.C108_farmer_seeds",
    "Verif.Boost.Contract.C108_farmer_rewards",
    "Verif.Boost.Contract.C108_readable",
    "Verif.Boost.Contract.C108_metadata",
    "Verif.Boost.Contract.C108_removable",
    "Verif.Boost.Contract.C108_cancellable",
    "Verif.Boost.Contract.C108_lostfound",
    "Verif.Boost.Contract.C108_defaults"
   ],
   "note": ""
  },
  {
   "property": "C109",
   "status": "proved",
   "theorems": [
    "Verif.Boost.Contract.C109_unaffected",
    "Verif.Boost.Contract.C109_outcome",
    "Verif.Boost.Contract.C109_history",
    "Verif.Boost.Contract.C109_views"
   ],
   "note": ""
  },
  {
   "property": "C110",
   "status": "proved",
   "theorems": [
    "Verif.Farming.Contract.C110_unaffected",
    "Verif.Farming.Contract.C110_outcome",
    "Verif.Farming.Contract.C110_history",
    "Verif.Farming.Contract.C110_views"
   ],
   "note": ""
  },
  {
   "property": "C111",
   "status": "proved",
   "theorems": [
    "Verif.Farming.Contract.C111_event",
    "Verif.Farming.Contract.C111_history",
    "Verif.Farming.Contract.C111_views"
   ],
   "note": ""
  },
  {
   "property": "C112",
   "status": "proved",
   "theorems": [
    "Verif.Boost.Contract.C112_call",
    "Verif.Boost.Contract.C112_history",
    "Verif.Boost.Contract.C112_views"
   ],
   "note": ""
  },
  {
   "property": "C113",
   "status": "proved",
   "theorems": [
    "Verif.Farming.Contract.C113_waiting",
    "Verif.Farming.Contract.C113_others",
    "Verif.Boost.Contract.C113_later_claim"
   ],
   "note": ""
  },
  {
   "property": "C114",
   "status": "proved",
   "theorems": [
    "Verif.Farming.Contract.C114_often",
    "Verif.Farming.Contract.C114_any_number"
   ],
   "note": ""
  }
 ]
}