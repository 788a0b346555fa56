{"id": "C01", "title": "Constant product never falls", "statement": "A successful swap on a simple pool, whether priced by input or by output, leaves the product of the two reserves at least as large as before, and always leaves at least one unit of the bought token in the pool.", "quantifier": "every simple pool with positive reserves and fee below 100%, every input or output amount, every trader and referral", "why_tests_cant": "A test fixes reserves and amounts; rounding bugs show up only at particular residues of 128-bit numbers.", "anchors": ["ref-exchange/src/simple_pool.rs: internal_get_return, internal_get_return_by_output, swap, swap_by_output"]}
{"id": "C02", "title": "Swap output is the exact fee-adjusted optimum", "statement": "The output quoted and paid by a simple pool swap is the largest integer for which the fee-adjusted constant-product inequality still holds: one unit more would violate it.", "quantifier": "all reserves, fees and input amounts for which the swap succeeds", "why_tests_cant": "Needs to hold for each of 2^128 inputs per pool; off-by-one rounding is invisible on round numbers.", "anchors": ["ref-exchange/src/simple_pool.rs: internal_get_return", "ref-exchange/src/views.rs: get_return"]}
{"id": "C03", "title": "Swap by output charges enough and barely more", "statement": "The input charged by a swap for an exact output is sufficient: swapping that input forwards yields at least the requested output; and it is at most one unit above the smallest sufficient input.", "quantifier": "all reserves, fees and requested outputs", "why_tests_cant": "Relates two separately implemented formulas over all inputs.", "anchors": ["ref-exchange/src/simple_pool.rs: internal_get_return_by_output, internal_get_return"]}
{"id": "C04", "title": "No profitable round trip", "statement": "Swapping a token into a simple pool and immediately swapping the proceeds back never returns more than was put in.", "quantifier": "all reserves, fees and amounts", "why_tests_cant": "Profit by rounding would appear only for adversarial reserves.", "anchors": ["ref-exchange/src/simple_pool.rs: swap"]}
{"id": "C05", "title": "Splitting a trade gives no advantage", "statement": "Splitting one swap into two consecutive swaps of the same total input never yields a larger total output.", "quantifier": "all reserves, fees and splits", "why_tests_cant": "Universally quantified inequality between compositions of rounded functions.", "anchors": ["ref-exchange/src/simple_pool.rs: swap, internal_get_return"]}
{"id": "C06", "title": "Adding liquidity takes no more than offered and dilutes nobody", "statement": "Adding liquidity to a simple pool takes, per token, at most the offered amount and at least one unit, mints a positive number of shares, and does not reduce the reserves per share of existing holders.", "quantifier": "all pools with positive supply, all offered amounts", "why_tests_cant": "Rounding of a min over ratios; must hold for all 128-bit values.", "anchors": ["ref-exchange/src/simple_pool.rs: add_liquidity"]}
{"id": "C07", "title": "Removing liquidity pays at most pro rata", "statement": "Removing liquidity pays each token at most the exact pro-rata part, at least that part rounded down, burns exactly the stated shares, and does not reduce the reserves per share of remaining holders.", "quantifier": "all pools, holders, share amounts (simple, stable, rated and degen pools)", "why_tests_cant": "Same rounding argument, for all values and all pool kinds.", "anchors": ["ref-exchange/src/simple_pool.rs: remove_liquidity", "ref-exchange/src/stable_swap/mod.rs: remove_liquidity_by_shares", "ref-exchange/src/rated_swap/mod.rs: remove_liquidity_by_shares", "ref-exchange/src/degen_swap/mod.rs: remove_liquidity_by_shares"]}
{"id": "C08", "title": "Add then remove is never profitable", "statement": "Adding liquidity to a simple pool and removing the minted shares at once returns, per token, no more than was taken.", "quantifier": "all pools and amounts", "why_tests_cant": "Composition of two rounded operations over all inputs.", "anchors": ["ref-exchange/src/simple_pool.rs: add_liquidity, remove_liquidity"]}
{"id": "C09", "title": "Share supply equals the sum of holdings", "statement": "For every pool of every kind, after any history, the reported total share supply is the sum of all accounts' share balances.", "quantifier": "every history of pool operations (adds, removes, swaps with protocol and referral fees, transfers, donations, registrations)", "why_tests_cant": "An invariant over unbounded histories and unboundedly many accounts.", "anchors": ["ref-exchange/src/simple_pool.rs: mint_shares, share_transfer, share_unregister", "ref-exchange/src/stable_swap/mod.rs: mint_shares, burn_shares, share_transfer"]}
{"id": "C10", "title": "Protocol fee never costs existing LPs principal", "statement": "The shares minted to the exchange and a referral during a simple pool swap are worth at most the fee growth: square root of the reserve product per share does not fall, when the configured admin fee is at most 100%.", "quantifier": "all pools, swaps, admin and referral fees", "why_tests_cant": "Depends on rounding in integer square roots and nested divisions.", "anchors": ["ref-exchange/src/simple_pool.rs: update_pool_and_distribute_fee", "ref-exchange/src/admin_fee.rs: calc_referral_share", "ref-exchange/src/utils.rs: u128_ratio"]}
{"id": "C11", "title": "Integer square root is exact", "statement": "The integer square root routine terminates and returns the floor of the true square root for every input.", "quantifier": "every 256-bit value below 2^256-1", "why_tests_cant": "2^256 inputs; termination of a data-dependent loop.", "anchors": ["ref-exchange/src/utils.rs: integer_sqrt"]}
{"id": "C12", "title": "Solvency of the exchange", "statement": "At every point of every history, for each token, the amount the contract really holds on the token ledger is at least the sum of users' deposits, pool reserves, lost-and-found balances and outgoing transfers still in flight.", "quantifier": "every sequence of user calls, owner calls, token receipts, and promise resolutions (success or failure) in any order", "why_tests_cant": "Asynchronous receipts interleave arbitrarily; no finite test suite covers all schedules.", "anchors": ["ref-exchange/src/lib.rs: execute_actions, swap, add_liquidity, remove_liquidity", "ref-exchange/src/account_deposit.rs: withdraw, internal_send_tokens, exchange_callback_post_withdraw, exchange_callback_post_withdraw_near", "ref-exchange/src/token_receiver.rs: ft_on_transfer", "ref-exchange/src/account_lostfound.rs: claim_lostfound"]}
{"id": "C13", "title": "A failed outgoing transfer is never lost", "statement": "When an outgoing token transfer fails, its amount is credited in full to exactly one of: the user's deposit, the user's lost-and-found entry, or the owner's deposit; when it succeeds nothing is credited.", "quantifier": "every interleaving of other calls (including unregistering the account) between the withdrawal and its callback", "why_tests_cant": "Depends on what happened between two receipts.", "anchors": ["ref-exchange/src/account_deposit.rs: exchange_callback_post_withdraw", "ref-exchange/src/account_lostfound.rs: insert_lostfound_token"]}
{"id": "C14", "title": "Nobody else can spend your deposits", "statement": "The recorded deposit of an account in a token decreases only in a call signed by that account, in the manager's payout of the owner's own deposit, or by the refund of an unused transfer-call of that token to that account (at most the unused amount).", "quantifier": "every state, every call by any other account, every callback resolution", "why_tests_cant": "Quantifies over all callers and all entry points.", "anchors": ["ref-exchange/src/lib.rs", "ref-exchange/src/account_deposit.rs", "ref-exchange/src/token_receiver.rs", "ref-exchange/src/shadow_actions.rs: on_burrow_liquidation"]}
{"id": "C15", "title": "Nobody else can spend your shares", "statement": "A holder's LP shares in a pool decrease only in a call signed by the holder, by the refund of an unused transfer-call to that holder (at most the transferred amount), by a burrowland liquidation (at most the amount the holder pledged there), or, for the exchange's own fee shares, in the manager's fee withdrawal.", "quantifier": "every state, every call and callback", "why_tests_cant": "Quantifies over all callers and histories.", "anchors": ["ref-exchange/src/multi_fungible_token.rs: mft_transfer, mft_transfer_call, mft_resolve_transfer", "ref-exchange/src/shadow_actions.rs: on_burrow_liquidation", "ref-exchange/src/donation.rs: donation_share"]}
{"id": "C16", "title": "Slippage bounds are respected", "statement": "A successful swap gives at least the requested minimum output, a swap by output charges at most the stated maximum, adding liquidity costs at most the offered amounts and at least the stated minimum shares, and removal pays at least the stated minimum amounts; otherwise nothing changes.", "quantifier": "all states and call arguments", "why_tests_cant": "Must hold in each of many code paths for all values.", "anchors": ["ref-exchange/src/lib.rs: swap, swap_by_output, add_liquidity, add_stable_liquidity, remove_liquidity, remove_liquidity_by_tokens"]}
{"id": "C17", "title": "A multi-step swap is atomic and accounts only end tokens", "statement": "execute_actions either applies all steps or none; the caller's deposits change exactly by the per-step inputs and outputs, and no other account's deposits change.", "quantifier": "every list of actions of any length", "why_tests_cant": "Unbounded action lists.", "anchors": ["ref-exchange/src/lib.rs: execute_actions, internal_execute_actions, internal_execute_action"]}
{"id": "C18", "title": "Views predict execution", "statement": "The amount reported by get_return (and by predict_swap_actions for a list of actions) equals what the corresponding call pays when executed on the same state. For rated and degen pools, the swap result and the shares that get_rated_return, get_degen_return and the predict_..._rated/degen_... views report for supposed rates are those of the call once these rates hold.", "quantifier": "all states, pool kinds, amounts and action lists, with any referral", "why_tests_cant": "Two separate code paths (cached and stored) must agree on all inputs.", "anchors": ["ref-exchange/src/views.rs: get_return, get_return_by_output, predict_swap_actions, predict_hot_zap, get_rated_return, get_degen_return, predict_add_rated_liquidity, predict_remove_rated_liquidity_by_tokens", "ref-exchange/src/lib.rs: internal_execute_actions_by_cache"]}
{"id": "C19", "title": "Paused contract refuses user operations", "statement": "While the contract is paused every user operation on deposits, pools and shares fails and leaves the state unchanged; only a liquidation by the lending contract can still move shares.", "quantifier": "all states and all user entry points", "why_tests_cant": "Quantifies over every entry point and state; a missing guard in one of them is easy to overlook.", "anchors": ["ref-exchange/src/lib.rs: assert_contract_running", "ref-exchange/src/owner.rs: change_state"]}
{"id": "C20", "title": "Frozen tokens cannot be traded or withdrawn", "statement": "While a token is frozen, no call can swap it, add or remove liquidity in a pool containing it, deposit it, or withdraw it from a deposit; exceptions are the owner's collection of exchange fees and the owner's withdrawal. Deposits of it still move between accounts.", "quantifier": "all states, lists of frozen tokens and calls", "why_tests_cant": "All entry points and histories.", "anchors": ["ref-exchange/src/lib.rs: assert_no_frozen_tokens", "ref-exchange/src/account_deposit.rs: withdraw", "ref-exchange/src/owner.rs: extend_frozenlist_tokens"]}
{"id": "C21", "title": "Access control", "statement": "Each administrative operation succeeds only for the accounts entitled to it: owner only, or owner and guardians, and the configuration of a running contract changes in no other way; guardians can pause but not resume.", "quantifier": "all callers and states, and all histories of owner and guardian changes", "why_tests_cant": "Quantifies over all callers.", "anchors": ["ref-exchange/src/owner.rs: assert_owner, is_owner_or_guardians, change_state"]}
{"id": "C22", "title": "Fees stay within bounds", "statement": "In every reachable state each pool's total fee is below 100%, referral fees are below 100%, and the admin fee is at most 80% once it has been set by the admin call.", "quantifier": "every history of configuration calls", "why_tests_cant": "Invariant over histories; the constructor is a separate path.", "anchors": ["ref-exchange/src/owner.rs: modify_admin_fee, modify_total_fee, insert_referral, update_referral", "ref-exchange/src/lib.rs: new", "ref-exchange/src/simple_pool.rs: new", "ref-exchange/src/stable_swap/mod.rs: new"]}
{"id": "C23", "title": "Storage is paid for", "statement": "After any successful user call that saves an account with the storage check, the account's NEAR storage deposit covers its recorded usage; unused storage can be withdrawn and no more.", "quantifier": "all states and account contents", "why_tests_cant": "Any number of registered tokens.", "anchors": ["ref-exchange/src/account_deposit.rs: storage_usage, internal_save_account, internal_storage_withdraw", "ref-exchange/src/storage_impl.rs"]}
{"id": "C24", "title": "Unregistering cannot strand funds", "statement": "storage_unregister succeeds only when the account has no token balance and no shadow record, and refunds exactly the account's whole storage deposit.", "quantifier": "all states and accounts", "why_tests_cant": "All account contents and histories.", "anchors": ["ref-exchange/src/storage_impl.rs: storage_unregister", "ref-exchange/src/account_deposit.rs: unregister"]}
{"id": "C25", "title": "Pledged shares stay backed", "statement": "For each account and pool the shares cast to farming and to burrowland never exceed the account's LP shares, so pledged shares cannot be transferred or removed.", "quantifier": "every history of casting, removal, transfers, liquidity operations, liquidations and callback results", "why_tests_cant": "Concurrency between external contracts and the exchange.", "anchors": ["ref-exchange/src/shadow_actions.rs: shadow_action, callback_on_shadow, on_burrow_liquidation", "ref-exchange/src/account_deposit.rs: ShadowRecord, update_shadow_record", "ref-exchange/src/donation.rs: donation_share"]}
{"id": "C26", "title": "A failed cast restores the record", "statement": "If the farming or lending contract rejects a cast, the callback restores the account's shadow record to what it was before, unless other calls changed it meanwhile, in which case it subtracts exactly the cast amount.", "quantifier": "all states, amounts, interleavings", "why_tests_cant": "Asynchronous failure handling.", "anchors": ["ref-exchange/src/shadow_actions.rs: callback_on_shadow"]}
{"id": "C27", "title": "Share transfers conserve shares and refunds are bounded", "statement": "mft_transfer moves exactly the given shares; after a transfer-call the sender is refunded at most the unused amount and at most what the receiver still has, and the total never changes.", "quantifier": "all states, receivers' answers and interleavings", "why_tests_cant": "Receiver's answer and intermediate state are arbitrary.", "anchors": ["ref-exchange/src/multi_fungible_token.rs: internal_mft_transfer, mft_resolve_transfer"]}
{"id": "C28", "title": "Lost and found can be claimed once and in full", "statement": "Claiming a lost-and-found balance sends out exactly the recorded amount and removes it; it can be claimed only for its recorded account.", "quantifier": "all states and interleavings", "why_tests_cant": "Replays and failing transfers interleave.", "anchors": ["ref-exchange/src/account_lostfound.rs: claim_lostfound, insert_lostfound_token, remove_lostfound_token"]}
{"id": "C29", "title": "Only whitelisted or registered tokens are accepted", "statement": "A plain token deposit is credited only if the token is whitelisted (globally, by postfix) or the account registered it beforehand; otherwise the deposit is refused and refunded.", "quantifier": "all states, tokens and senders", "why_tests_cant": "All whitelists and account contents.", "anchors": ["ref-exchange/src/account_deposit.rs: internal_deposit, deposit_with_storage_check", "ref-exchange/src/lib.rs: is_whitelisted_token", "ref-exchange/src/token_receiver.rs: ft_on_transfer"]}
{"id": "C30", "title": "Instant swap returns everything", "statement": "A swap performed directly on a token transfer sends out exactly the result of the last action, keeps all unrelated balances unchanged, and never touches the sender's stored deposits.", "quantifier": "all states, action lists", "why_tests_cant": "Unbounded action lists.", "anchors": ["ref-exchange/src/token_receiver.rs: internal_direct_actions, ft_on_transfer"]}
{"id": "C31", "title": "Amplification stays in its range", "statement": "At every time the effective amplification of a stable, rated or degen pool lies between the start and target values, hence in [1, 10^6]; it moves monotonically; a ramp changes it by at most 10x and lasts at least a day.", "quantifier": "all ramps, stop-ramps and block times", "why_tests_cant": "Time-dependent interpolation over all times.", "anchors": ["ref-exchange/src/stable_swap/math.rs: compute_amp_factor", "ref-exchange/src/stable_swap/mod.rs: ramp_amplification, stop_ramp_amplification", "ref-exchange/src/rated_swap/mod.rs", "ref-exchange/src/degen_swap/mod.rs"]}
{"id": "C32", "title": "Stable swap never pays more than the curve allows", "statement": "In a successful stable swap the pool keeps strictly more of the bought token than any amount compatible with the curve equation solved for the current D, and pays out no more than its reserve.", "quantifier": "all balances, amplification and trade amounts", "why_tests_cant": "Convergence of a Newton iteration with integer rounding for all inputs.", "anchors": ["ref-exchange/src/stable_swap/math.rs: compute_y, swap_to", "ref-exchange/src/rated_swap/math.rs: compute_y, swap_to", "ref-exchange/src/degen_swap/math.rs"]}
{"id": "C33", "title": "Stable invariant of balanced pools", "statement": "For a pool whose (rated) balances are all equal the computed invariant D is exactly the sum of the balances, at any amplification; for an empty pool it is zero.", "quantifier": "all pool sizes, balances and amplifications", "why_tests_cant": "Fixed point of an integer iteration for all inputs.", "anchors": ["ref-exchange/src/stable_swap/math.rs: compute_d", "ref-exchange/src/rated_swap/math.rs: compute_d", "ref-exchange/src/degen_swap/math.rs: compute_d"]}
{"id": "C34", "title": "Stable pools keep a minimum reserve", "statement": "After any successful swap out of or removal from a stable, rated or degen pool, the reserve of every token affected is at least the protocol minimum.", "quantifier": "all states and calls", "why_tests_cant": "All code paths and values.", "anchors": ["ref-exchange/src/stable_swap/mod.rs: assert_min_reserve, swap, remove_liquidity_by_shares, remove_liquidity_by_tokens"]}
{"id": "C35", "title": "Stable pool fees split correctly", "statement": "In a stable swap the trader's output plus the fee is the gross output; the admin part never exceeds the fee; and the part minted to exchange and referral is at most the admin part.", "quantifier": "all fees and amounts", "why_tests_cant": "All values of two fee ratios.", "anchors": ["ref-exchange/src/stable_swap/math.rs: Fees, swap_to", "ref-exchange/src/stable_swap/mod.rs: distribute_admin_fee"]}
{"id": "C36", "title": "Decimal conversion creates no tokens", "statement": "Converting token amounts into a stable pool's internal precision and back never increases them, and what a pool pays out is covered by what it subtracts from its reserves.", "quantifier": "all token decimals 1 to 24 and amounts", "why_tests_cant": "Depends on decimals above and below the internal precision.", "anchors": ["ref-exchange/src/stable_swap/mod.rs: amount_to_c_amount, c_amount_to_amount, remove_liquidity_by_tokens", "ref-exchange/src/rated_swap/mod.rs"]}
{"id": "C37", "title": "Stale rates block rated and degen trades", "statement": "A swap or token-denominated removal on a rated or degen pool fails if any required rate is expired, and removal by shares always stays possible.", "quantifier": "all rate states and times", "why_tests_cant": "Time-dependent; all pools and rate configurations.", "anchors": ["ref-exchange/src/rated_swap/rate.rs: is_global_rate_valid", "ref-exchange/src/rated_swap/mod.rs: assert_rates_valid", "ref-exchange/src/degen_swap/mod.rs"]}
{"id": "C38", "title": "TVL and pool limits", "statement": "Liquidity can be added to a degen pool only if the resulting TVL is within the limit configured for that pool.", "quantifier": "all pools, amounts and limits", "why_tests_cant": "All values.", "anchors": ["ref-exchange/src/pool.rs: assert_tvl_not_exceed_limit", "ref-exchange/src/pool_limit_info.rs"]}
{"id": "C39", "title": "TWAP is an average", "statement": "The time-weighted average of unit share token amounts lies between the smallest and largest sample in the window, at most 60 records are kept, and it is unaffected by wrap-around of the accumulators.", "quantifier": "all sample sequences and times", "why_tests_cant": "Unbounded histories with modular arithmetic.", "anchors": ["ref-exchange/src/unit_lpt_cumulative_infos.rs: update, twap_token_amounts"]}
{"id": "C40", "title": "Volumes are exact", "statement": "The reported swap volume of a token pair is the exact sum of all swapped amounts since pool creation.", "quantifier": "every history of swaps", "why_tests_cant": "Unbounded histories.", "anchors": ["ref-exchange/src/swap_volume.rs", "ref-exchange/src/simple_pool.rs: update_pool_and_distribute_fee"]}
{"id": "C41", "title": "Identifiers round-trip", "statement": "Parsing an LP token id or shadow id built for a pool yields that pool and nothing else, and the paired rated price encoding decodes to its two parts.", "quantifier": "all pool ids and payloads", "why_tests_cant": "All 2^64 ids; all payload lengths.", "anchors": ["ref-exchange/src/multi_fungible_token.rs: parse_token_id", "ref-exchange/src/shadow_actions.rs: pool_id_to_shadow_id, shadow_id_to_pool_id", "ref-exchange/src/utils.rs: pair_rated_price_to_vec_u8, unpair_rated_price_from_vec_u8"]}
{"id": "C42", "title": "Client echo wildcard rules", "statement": "A wildcard whitelist entry of the form *.suffix admits exactly the names ending in .suffix; an entry without wildcard admits exactly itself.", "quantifier": "all names and patterns", "why_tests_cant": "All strings.", "anchors": ["ref-exchange/src/client_echo_limit.rs: matches_wildcard_pattern, assert_client_echo_valid"]}
{"id": "C43", "title": "Farm rewards are conserved", "statement": "For every farm at all times, total reward deposited = undistributed + unclaimed + claimed (+ cleared to beneficiary).", "quantifier": "every history of deposits, distributions, claims and clears", "why_tests_cant": "Unbounded histories.", "anchors": ["ref-farming/src/simple_farm.rs: add_reward, distribute, claim_user_reward, move_to_clear"]}
{"id": "C44", "title": "Staked farmers can always be paid", "statement": "The rewards all stakers could claim never exceed the unclaimed pot, so a claim by a staker never fails for lack of reward and claims never exceed deposits.", "quantifier": "every history with any number of farmers, any timing", "why_tests_cant": "Sum over unboundedly many farmers, rounding per round.", "anchors": ["ref-farming/src/simple_farm.rs: claim_user_reward, distribute", "ref-farming/src/actions_of_reward.rs: claim_user_reward_from_farm"]}
{"id": "C45", "title": "Rewards are proportional to stake", "statement": "What a staker earns over a period with constant stakes is its stake's share of the reward distributed, up to rounding down by bounded dust.", "quantifier": "all stakes, rewards and rounds", "why_tests_cant": "All values; accumulation over many rounds.", "anchors": ["ref-farming/src/simple_farm.rs: distribute, view_farmer_unclaimed_reward"]}
{"id": "C46", "title": "Seed totals match stakes", "statement": "A seed's recorded total is the sum of all farmers' stakes in it, and a farmer can never withdraw more than their stake.", "quantifier": "every history of deposits, withdrawals and failed-withdrawal callbacks", "why_tests_cant": "Unbounded histories and farmers.", "anchors": ["ref-farming/src/actions_of_seed.rs: internal_seed_deposit, internal_seed_withdraw, callback_post_withdraw_ft_seed", "ref-farming/src/farm_seed.rs", "ref-farming/src/farmer.rs: add_seed, sub_seed"]}
{"id": "C47", "title": "Failed farm withdrawals are restored", "statement": "If the transfer of a withdrawn seed or reward fails, the farmer gets the seed or reward back in full.", "quantifier": "all interleavings between the withdrawal and its callback, including unregistering", "why_tests_cant": "Depends on intermediate calls.", "anchors": ["ref-farming/src/actions_of_seed.rs: callback_post_withdraw_ft_seed, callback_post_withdraw_mft_seed", "ref-farming/src/actions_of_reward.rs: callback_post_withdraw_reward"]}
{"id": "C48", "title": "Farm lifecycle only moves forward within a run", "statement": "A farm distributes nothing before its start, at most its deposited reward overall, and once emptied it is ended and distributes nothing further.", "quantifier": "all times and reward deposits", "why_tests_cant": "Time-dependent; all sequences.", "anchors": ["ref-farming/src/simple_farm.rs: add_reward, try_distribute, can_be_removed"]}
{"id": "C49", "title": "Claiming never locks a farmer out", "statement": "A registered farmer can always stake, claim and unstake whatever the order of earlier stakes, claims and idle periods.", "quantifier": "every history of claims and stakes", "why_tests_cant": "Needs an adversarial history with an idle farm and a reset accumulator.", "anchors": ["ref-farming/src/simple_farm.rs: distribute, view_farmer_unclaimed_reward", "ref-farming/src/actions_of_reward.rs"]}
{"id": "C50", "title": "Farming solvency", "statement": "For each reward or seed token, the farming contract holds at least the farmers' stakes and rewards, the farms' undistributed and unclaimed rewards and in-flight transfers.", "quantifier": "every history and interleaving", "why_tests_cant": "Asynchronous receipts.", "anchors": ["ref-farming/src/token_receiver.rs", "ref-farming/src/actions_of_seed.rs", "ref-farming/src/actions_of_reward.rs", "ref-farming/src/owner.rs: force_clean_farm"]}
{"id": "C51", "title": "Stable deposits and withdrawals do not dilute others", "statement": "Measured by the pool's own invariant D, a deposit into a stable, rated or degen pool with liquidity does not lower the value per share, including all shares minted as fees; a token-denominated removal lowers it by less than the value of one share unit.", "quantifier": "all pool states, amounts, fees, rates and times", "why_tests_cant": "Rounding of nested iterative computations over all values.", "anchors": ["ref-exchange/src/stable_swap/math.rs: compute_lp_amount_for_deposit, compute_lp_amount_for_withdraw", "ref-exchange/src/stable_swap/mod.rs: add_liquidity, remove_liquidity_by_tokens"]}
{"id": "C52", "title": "Pools keep their identity", "statement": "A pool id denotes the same pool for ever: its kind, tokens and decimals never change and a pool is never removed.", "quantifier": "every history of calls and callbacks", "why_tests_cant": "Unbounded histories over all entry points.", "anchors": ["ref-exchange/src/pool.rs", "ref-exchange/src/lib.rs: internal_add_pool", "ref-exchange/src/owner.rs"]}
{"id": "C53", "title": "Reported unclaimed reward is what is paid", "statement": "A successful claim from a farm credits the caller with exactly the amount that the view of unclaimed rewards reports at that moment, in the farm's reward token and in no other. Calls that claim from all farms of a seed (claiming by seed, staking, withdrawing) credit what the view reports for each of the farms.", "quantifier": "every reachable state, farmer, farm and time", "why_tests_cant": "The view and the claim are separate code paths; all states and times.", "anchors": ["ref-farming/src/view.rs: get_unclaimed_reward", "ref-farming/src/actions_of_reward.rs: claim_reward_by_farm", "ref-farming/src/simple_farm.rs: view_farmer_unclaimed_reward, claim_user_reward"]}
{"id": "C54", "title": "Only a farmer's own actions change the farmer's account", "statement": "The stakes, rewards, storage deposit and claim positions of a farmer change only in calls by that farmer, in stakes or registrations made for them, and in callbacks of their own withdrawals.", "quantifier": "every history, every call by anybody else including the owner", "why_tests_cant": "All entry points in all states.", "anchors": ["ref-farming/src/actions_of_seed.rs", "ref-farming/src/actions_of_reward.rs", "ref-farming/src/storage_impl.rs", "ref-farming/src/owner.rs"]}
{"id": "C55", "title": "Tokens are conserved to the unit", "statement": "For a token that no stable, rated or degen pool lists, the sum of all deposits, lost-and-found entries and pool reserves, plus everything the contract has sent out, always equals exactly what has arrived, including failed transfers that came back. Nothing is lost or duplicated by a swap, an addition, a removal, a fee or a failed transfer.", "quantifier": "every history of calls and callbacks in which the owner does not retrieve the token as unmanaged, any number of pools and accounts", "why_tests_cant": "Solvency only bounds the balances from above; exactness needs a sum over unboundedly many accounts, pools and steps.", "anchors": ["ref-exchange/src/simple_pool.rs: add_liquidity, remove_liquidity, swap", "ref-exchange/src/account_deposit.rs", "ref-exchange/src/lib.rs: internal_execute_actions, swap", "ref-exchange/src/token_receiver.rs", "ref-exchange/src/account_deposit.rs: exchange_callback_post_withdraw"]}
{"id": "C56", "title": "Storage deposits are accounted for to the yoctoNEAR", "statement": "Every call changes the sum of the storage deposits by exactly the payment attached plus the value of storage freed, minus what it pays out and what it charges for storage. NEAR is sent only to the caller (in a callback: to the account that made the promise), and the storage deposit of an account falls only by its own withdrawal, closing or token transfer.", "quantifier": "every state, call and callback", "why_tests_cant": "All entry points in all states; sum over unboundedly many accounts.", "anchors": ["ref-exchange/src/storage_impl.rs", "ref-exchange/src/lib.rs: add_simple_pool, add_liquidity, internal_check_storage", "ref-exchange/src/donation.rs: donation_share", "ref-exchange/src/multi_fungible_token.rs: mft_register"]}
{"id": "C57", "title": "Protocol fees go to the exchange and the listed referral only", "statement": "The only shares a swap creates are the protocol fee, which goes to the exchange, less the part of a referral that is on the owner's list and registered in the pool; with an admin fee of zero no shares are created. The same holds for the imbalance fee of stable deposits and removals. Nobody else's shares change by a swap.", "quantifier": "all pools of all kinds, amounts, fees and referrals; all lists of swaps", "why_tests_cant": "All values; nested floor divisions; chains of swaps through the same pool.", "anchors": ["ref-exchange/src/simple_pool.rs: update_pool_and_distribute_fee", "ref-exchange/src/stable_swap/mod.rs: distribute_admin_fee, add_liquidity, remove_liquidity_by_tokens, swap", "ref-exchange/src/admin_fee.rs", "ref-exchange/src/lib.rs: execute_actions"]}
{"id": "C58", "title": "Shares are always backed by every token", "statement": "A constant-product pool holds some of both tokens while shares exist and nothing when none exist; a stable pool holds some of every token while shares exist; the first deposit into any stable, rated or degen pool must bring some of every token.", "quantifier": "every reachable state and pool", "why_tests_cant": "Unbounded histories of swaps, fees and removals with rounding.", "anchors": ["ref-exchange/src/simple_pool.rs: add_liquidity, remove_liquidity", "ref-exchange/src/stable_swap/mod.rs: calc_add_liquidity, remove_liquidity_by_shares, swap", "ref-exchange/src/rated_swap/mod.rs", "ref-exchange/src/degen_swap/mod.rs"]}
{"id": "C59", "title": "Storage deposits of farmers", "statement": "NEAR attached to register or top up a farmer's account in the farming contract is added to that account's storage deposit or sent back to the payer, in full. Only the account itself can take NEAR out of its deposit, never below the cost of the storage it uses; leaving is possible only without stakes and rewards and returns the whole deposit. Claims and stakes succeed only if the account has paid for its storage afterwards.", "quantifier": "every reachable state, every call and callback, every account", "why_tests_cant": "Needs every entry point and every state; tests look at single calls.", "anchors": ["ref-farming/src/storage_impl.rs", "ref-farming/src/actions_of_farm.rs: create_simple_farm"]}
{"id": "C60", "title": "Powers of the farming owner", "statement": "Only calls by the owner of the farming contract can change its owner, pause or resume it, create or clear farms, or change a seed's minimum stake or a farm's seed, reward token, reward per session and session interval. Calls of these methods by anybody else fail without effect.", "quantifier": "every reachable state, every call and callback, every caller", "why_tests_cant": "An authorisation gap may sit in any entry point.", "anchors": ["ref-farming/src/owner.rs", "ref-farming/src/actions_of_farm.rs"]}
{"id": "C61", "title": "Pause of the farming contract", "statement": "While the farming contract is paused, every call except those of its owner's methods fails, and no call changes any farmer's account.", "quantifier": "every state, every call, every caller", "why_tests_cant": "Every entry point needs the check.", "anchors": ["ref-farming/src/owner.rs: pause_contract", "ref-farming/src/lib.rs"]}
{"id": "C62", "title": "Totals reported by the farming contract", "statement": "The total reward reported per token equals the sum of the rewards ever put into farms that pay this token, whether they are live or cleared; the reported number of farmers equals the number of registered accounts.", "quantifier": "every history", "why_tests_cant": "Totals are kept incrementally and drift with any missed update.", "anchors": ["ref-farming/src/view.rs: get_metadata, list_rewards_info", "ref-farming/src/token_receiver.rs", "ref-farming/src/storage_impl.rs"]}
{"id": "C63", "title": "Minimum stake", "statement": "The farming contract accepts staked tokens or pool shares only if farms have been created for this seed, the amount reaches the seed's minimum, and the sender is registered and has paid for the storage of their account.", "quantifier": "every state, every transfer", "why_tests_cant": "Boundary at any minimum and any state.", "anchors": ["ref-farming/src/token_receiver.rs"]}
{"id": "C64", "title": "Trading cannot drain a stable, rated or degen pool", "statement": "The invariant that such a pool computes for its balances is never below the exact solution of the pool's equation rounded down. No sequence of swaps, in any direction and with any amounts, lowers the exact invariant of a pool (while its rates stand) by more than the rounding of each swap, which is a fixed number of smallest units independent of the amounts traded. Nor does a swap of a stable pool lower the invariant per share by more than that, although it mints shares for the protocol's part of the fee.", "quantifier": "all balances, amounts, fees and amplifications; sequences of any length", "why_tests_cant": "All values; the solver is an iterative integer approximation and its rounding errors could add up.", "anchors": ["ref-exchange/src/stable_swap/math.rs: compute_d, compute_y, swap_to", "ref-exchange/src/stable_swap/mod.rs: swap, distribute_admin_fee", "ref-exchange/src/rated_swap/math.rs: swap_to, mul_rate, div_rate", "ref-exchange/src/rated_swap/mod.rs: swap", "ref-exchange/src/degen_swap/mod.rs: swap"]}
{"id": "C65", "title": "Register of farms", "statement": "The list of farms of a seed names every live farm of that seed exactly once and nothing else, and so do the lists of all live farms, archived farms, seeds and reward tokens, in whatever pages they are read; a seed is listed with the sum of what the farmers' own lists show. A farm never disappears: it is live or archived, never both, and an archived farm is cleared, has nothing left to hand out, and its record never changes again. The information reported on a live farm adds up: claimed plus unclaimed reward never exceeds what was put in, equals it once the farm is reported as ended, and reward is accepted exactly while the farm is reported as created or running.", "quantifier": "every reachable state, time, seed and farm; every later history", "why_tests_cant": "Three maps and a set per seed have to agree after any history; the view computes what is due at any time.", "anchors": ["ref-farming/src/view.rs: get_farm, get_outdated_farm, list_farms_by_seed, list_farms, list_outdated_farms, list_seeds, list_user_seeds, list_rewards_info, list_rewards, FarmInfo", "ref-farming/src/actions_of_farm.rs: internal_add_farm, internal_remove_farm_by_farm_id", "ref-farming/src/simple_farm.rs"]}
{"id": "C66", "title": "Prices and rates come from oracles", "statement": "Every price of a token and every rate the exchange holds was reported: a reply of the configured oracle (or of the token contract) arrived at exactly the time stored with the price, in answer to a request that was under way, it was fresh under the limits configured then (recency and staleness for the price oracle; positive and within its validity for Pyth), it names the token, and the stored number is the price it states, in units of 10^-24 rounded down. No call of a user, guardian or the owner sets a price or a rate; a failed request changes nothing; a reply changes nothing but prices and rates. A fresh, representable quote is accepted, and in a batch every quoted token gets its price. A swap in a degen pool succeeds only with reported prices not older than the configured expiry, in a rated pool only with rates not older than a day, and the requests it makes cannot make it fail.", "quantifier": "All configurations, requests and replies, in any interleaving with other calls, after any history.", "why_tests_cant": "A price passes through two receipts with arbitrary calls in between; that no path stores an unreported, stale or wrongly scaled price quantifies over all interleavings and all replies.", "anchors": ["ref-exchange/src/oracle.rs", "ref-exchange/src/degen_swap/price_oracle.rs", "ref-exchange/src/degen_swap/pyth_oracle.rs", "ref-exchange/src/degen_swap/degen.rs", "ref-exchange/src/rated_swap/sfrax_rate.rs", "ref-exchange/src/lib.rs: update_token_rate, update_degen_token_price, batch_update_degen_token_price"]}
{"id": "C67", "title": "Accounts of earlier versions keep their balances", "statement": "An account that an earlier version of the exchange saved keeps every token balance and its storage deposit when it is read, and afterwards every deposit, withdrawal, registration and unregistration treats it exactly like a current account with the same balances: same success or failure, same balances, same storage cost. get_deposits lists exactly its balances, and its holder can always withdraw a whole balance and unregister the token without paying for more storage.", "quantifier": "All accounts of all versions, all tokens, all series of operations.", "why_tests_cant": "Old and new balances live in two maps that every operation treats differently; that none is lost or counted twice must hold for every order of operations on every mixture of old and new entries.", "anchors": ["ref-exchange/src/legacy.rs: AccountV1, AccountV2", "ref-exchange/src/account_deposit.rs: VAccount, Account", "ref-exchange/src/views.rs: get_deposits, get_tokens_paged"]}
{"id": "C68", "title": "Pools are listed completely and keep their identity", "statement": "get_pools, get_pool_detail_infos, list_pool_volumes, list_referrals and get_pool_limit_paged, read to the end in pages of any sizes, list every entry exactly once and as the single-item view reports it. A pool id always reports the same kind of pool, the same tokens in the same order and the same decimals. The supply that get_pool reports is get_pool_total_shares and the sum of get_pool_shares over all holders. After liquidity is added to a degen pool with a limit, the reported value is within the reported limit. Pools can be listed as long as their reserves fit token units and every token of a degen pool has a price.", "quantifier": "All states, all ways of cutting the list into pages, all later histories.", "why_tests_cant": "A skipped or repeated entry depends on the page size and the number of entries; that identities stay and totals agree must hold after every history.", "anchors": ["ref-exchange/src/views.rs: get_pools, get_pool, get_pool_by_ids, get_pool_detail_info, get_pool_detail_infos, list_pool_volumes, get_pool_shares, get_pool_total_shares, list_referrals, get_degen_pool_tvl, get_pool_limit_by_pool_id, get_pool_limit_paged"]}
{"id": "C69", "title": "Reported averages are true averages over time", "statement": "Once the average of a pool is registered, what get_unit_share_twap_token_amounts (and get_unit_lpt_assets) reports is, for every token, the exact average over time of what one whole share redeemed at the end of each second, from some moment after registration until now, and it covers at least 59 recording intervals. Whatever swaps, deposits and withdrawals happen in the block in which it is asked for do not change the answer. What is averaged is what remove_liquidity of one whole share pays. Excepted are events that change a pool without sampling it: hot zaps into it, withdrawals of its exchange fees and liquidations, after which the new amounts count for all the time since the last sample.", "quantifier": "All histories of calls, callbacks and rates between registration and the question, without the excepted events on this pool, in which a whole share can be redeemed all the time; all recording intervals; all pools and tokens.", "why_tests_cant": "That every path which changes a pool samples it first, with the amounts before the change and only once per second, is a property of all interleavings; a test sees a few calls at a few times.", "anchors": ["ref-exchange/src/unit_lpt_cumulative_infos.rs: get_unit_share_twap_token_amounts, get_unit_share_token_amounts, get_pool_twap_info_view, internal_update_unit_share_cumulative_info, register_pool_twap_record, sync_pool_twap_record", "ref-exchange/src/shadow_actions.rs: get_unit_lpt_assets", "ref-exchange/src/lib.rs: internal_pool_swap, add_liquidity, add_stable_liquidity, remove_liquidity, remove_liquidity_by_tokens", "ref-exchange/src/token_receiver.rs: HotZap"]}
{"id": "C70", "title": "Holders can always leave", "statement": "As long as the contract runs and the token is not frozen, an account can take out any deposit it has, all of it at once, without anybody's help, after any history. Whoever holds shares that are not pledged can redeem them with remove_liquidity for what predict_remove_liquidity says, having paid for the storage of the tokens, and withdraw the tokens afterwards. For a pool of two tokens the prediction never fails and is the part of both reserves, rounded down, and the sample for the average that precedes each change of a registered pool never fails. For a stable, rated or degen pool the redemption succeeds if what stays of every reserve is at least the minimum. The sample can stop a stable pool: if hardly more than one share is left, it fails and nobody can swap, add or remove liquidity until the owner takes down the record.", "quantifier": "All histories in which time does not run backwards, all accounts, tokens, pools and amounts; the account must not have been the owner for the statement about deposits over histories (the owner can be left without storage).", "why_tests_cant": "That no combination of records, roundings, limits and storage makes a withdrawal panic is a liveness property over all reachable states; a test shows single successful withdrawals.", "anchors": ["ref-exchange/src/lib.rs: remove_liquidity, internal_pool_swap", "ref-exchange/src/account_deposit.rs: withdraw, internal_save_account", "ref-exchange/src/storage_impl.rs: storage_deposit", "ref-exchange/src/simple_pool.rs: remove_liquidity", "ref-exchange/src/stable_swap/mod.rs: remove_liquidity_by_shares, remove_liquidity_by_tokens", "ref-exchange/src/views.rs: predict_remove_liquidity", "ref-exchange/src/unit_lpt_cumulative_infos.rs: internal_update_unit_share_cumulative_info, get_unit_share_token_amounts"]}
{"id": "C71", "title": "Curve pools are accurate", "statement": "The invariant that a stable, rated or degen pool computes for its reserves is the exact StableSwap invariant up to a few units: never less than its integer part, and if no reserve is more than c times its even share at most 2*n*c^n + n + 4 units more (n tokens), although the code does not check that its iteration converged. In a swap the trader is paid all that the curve of the pool's invariant allows, up to three units before the fee; the fee is the pool's rate of it, and the conversions to token units lose less than one unit each.", "quantifier": "All pools with at least two tokens, all reserves, amplifications and rates for which the operation does not panic, all amounts; the bound on the invariant needs reserves that leave room for it (8*n^2*c^n units).", "why_tests_cant": "Convergence of two Newton iterations in integer arithmetic with truncated divisions, for all reserves. Tests compare a handful of results with a simulation that uses the same arithmetic.", "anchors": ["ref-exchange/src/stable_swap/math.rs: compute_d, compute_y, swap_to", "ref-exchange/src/rated_swap/math.rs: compute_d, compute_y, swap_to", "ref-exchange/src/degen_swap/math.rs: compute_d, compute_y, swap_to", "ref-exchange/src/stable_swap/mod.rs: internal_get_return, swap"]}
{"id": "C72", "title": "What the views report about an account can be used", "statement": "storage_withdraw succeeds exactly for amounts up to what storage_balance_of reports as available, and storage_deposit exactly if it covers storage_balance_bounds or what get_user_storage_state reports as used; both reports are up to date afterwards. get_deposits lists every token of the account once with its deposit; withdraw and mft_transfer succeed exactly up to it, if the storage of the records is paid. The listings by pages report each token once. mft_balance_of and mft_total_supply agree with the shares of the pool, and the balances of those for whom mft_has_registered holds add up to the supply. Shares can be transferred exactly up to those not pledged and to registered accounts, pledged exactly up to those held. What get_lostfound_token reports can be claimed. An account can be closed exactly if the views list no tokens and no pledges.", "quantifier": "All states and callers and amounts; the statements on shares for all reachable states.", "why_tests_cant": "The equivalence of a report with the success of an operation is a statement about all amounts and all states; tests try one amount that works and one that does not.", "anchors": ["ref-exchange/src/views.rs: get_deposits, get_user_whitelisted_tokens, get_tokens_paged, get_user_storage_state, get_shadow_records", "ref-exchange/src/account_lostfound.rs: list_lostfound_tokens", "ref-exchange/src/storage_impl.rs: storage_deposit, storage_withdraw, storage_unregister, storage_balance_of, storage_balance_bounds", "ref-exchange/src/account_deposit.rs: withdraw, internal_save_account", "ref-exchange/src/multi_fungible_token.rs: mft_transfer, mft_register, mft_balance_of, mft_total_supply, mft_has_registered", "ref-exchange/src/shadow_actions.rs: shadow_action", "ref-exchange/src/account_lostfound.rs: claim_lostfound, get_lostfound_token"]}
{"id": "C73", "title": "What a view predicts can be executed", "statement": "If predict_swap_actions gives an answer for the deposits of an account, then execute_actions with the same actions by that account, at the same time and with whatever referral, succeeds, and leaves the deposits that the view reports; if it gives an answer for an amount of a token, then a transfer of this amount with these actions is accepted and pays out what the view reports. Whoever holds the amount for which get_return reports a return, and demands at most this return, gets it. If predict_add_simple_liquidity or predict_add_stable_liquidity give an answer then the addition succeeds and mints the reported shares. If predict_remove_liquidity_by_tokens gives an answer, then whoever holds that many shares that are not pledged, and allows that many to be burnt, can take the amounts out. If predict_hot_zap gives an answer and the demands on the deposits are no higher than what it reports, then the transfer is accepted and the sender is credited with the tokens it reports as left over. This holds while the contract runs, for whitelisted tokens that are not frozen, and if the storage of at most two records per action is paid; what the calls do beyond the views (samples, volumes, fee shares, logs) never stops them.", "quantifier": "All states after a history in which time does not run backwards, all lists of actions, callers, referrals and amounts; pools that are sampled for the averages must be constant-product pools, and tokens of stable-swap pools must have at most 18 decimals.", "why_tests_cant": "The view and the call take different code paths with different checks; that no check of the call fails where the view passes is a statement about all states.", "anchors": ["ref-exchange/src/views.rs: predict_swap_actions, get_return, predict_add_simple_liquidity, predict_add_stable_liquidity, predict_remove_liquidity_by_tokens, predict_hot_zap", "ref-exchange/src/lib.rs: execute_actions, add_liquidity, add_stable_liquidity, remove_liquidity_by_tokens, internal_pool_swap, internal_pool_swap_by_output", "ref-exchange/src/token_receiver.rs: ft_on_transfer", "ref-exchange/src/unit_lpt_cumulative_infos.rs: internal_update_unit_share_cumulative_info", "ref-exchange/src/swap_volume.rs: internal_update_swap_volume_u256_vec"]}
{"id": "C74", "title": "Trades cannot carry tokens out of a curve pool beyond its exact invariant", "statement": "Whatever sequence of swaps runs through a stable-swap pool, it goes on holding at least as many tokens (all kinds counted one for one) as its exact invariant says, less the rounding of each swap; a pool that starts balanced never holds fewer tokens than at the start. A single swap pays at most what it takes in, one for one, plus what the pool held beyond its invariant; from a balanced pool it pays at most one for one. In rated and degen pools the same holds of the value of the tokens at the stored rates.", "quantifier": "All stable, rated and degen pools, all sequences of swaps with any amounts and directions, every fee, while the amplification and the rates stand.", "why_tests_cant": "The bound combines the Newton iterations, the truncations and the fees of arbitrarily many swaps.", "anchors": ["ref-exchange/src/stable_swap/mod.rs: swap, internal_get_return", "ref-exchange/src/stable_swap/math.rs: swap_to, compute_y, compute_d", "ref-exchange/src/rated_swap/mod.rs: swap", "ref-exchange/src/degen_swap/mod.rs: swap"]}
{"id": "C75", "title": "The reported share price is what a share is worth", "statement": "get_pool_share_price reports for a stable-swap pool the number of tokens per share, and for rated and degen pools the invariant per share at the stored rates, in units of 1e-8 rounded down, and answers for no other pool. Redeeming shares of a stable-swap pool takes out the reported price per share up to one unit of each token, and does not lower the price for those who stay. No trade lowers the price below the exact invariant per share before the trade, up to the rounding; between these bounds the price of a stable-swap pool can fall through trades.", "quantifier": "All pools, times, rates, redemptions and swaps.", "why_tests_cant": "The price relates sums over all balances to the supply and the effect of removals and swaps; the bounds are inequalities over all of them.", "anchors": ["ref-exchange/src/views.rs: get_pool_share_price", "ref-exchange/src/pool.rs: get_share_price", "ref-exchange/src/stable_swap/mod.rs: get_share_price, remove_liquidity_by_shares, swap", "ref-exchange/src/rated_swap/mod.rs: get_share_price", "ref-exchange/src/degen_swap/mod.rs: get_share_price"]}
{"id": "C76", "title": "What the farming views report about a farmer can be used", "statement": "On the farming contract: the available storage deposit can be withdrawn, and nothing beyond it; a deposit registers an unknown account exactly if it reaches the reported minimum, and raises the reported deposit of a known one; exactly the listed rewards can be withdrawn, up to the listed amount, and without an amount the whole reward is paid; a farmer can unregister exactly if no reward and no stake is listed and gets back the reported deposit; if an unclaimed reward is reported, the farmer can claim it, provided that the storage deposit covers the records, and the reported reward rises by that amount. The paged list of seeds is complete, and the reported counts are those of the accounts, farms and seeds.", "quantifier": "All reachable states, all accounts, tokens, farms, amounts, times and page sizes.", "why_tests_cant": "The views and the calls are separate code over state that any history of calls can have produced.", "anchors": ["ref-farming/src/storage_impl.rs: storage_deposit, storage_withdraw, storage_unregister, storage_balance_of", "ref-farming/src/view.rs: get_user_storage_state, get_reward, list_rewards, list_user_seeds, get_unclaimed_reward, list_seeds_info, get_metadata", "ref-farming/src/actions_of_reward.rs: withdraw_reward, claim_reward_by_farm"]}
{"id": "C77", "title": "A farmer who has taken out everything can leave the farming contract", "statement": "A farmer who has no stake can withdraw all rewards and then unregister, and gets back the whole storage deposit, in whatever order and amounts the rewards are withdrawn.", "quantifier": "All reachable states, all farmers, all sets of reward tokens and all orders of withdrawal.", "why_tests_cant": "Whether an account is empty depends on the history of partial withdrawals and failed transfers.", "anchors": ["ref-farming/src/farmer.rs: sub_reward, add_reward", "ref-farming/src/storage_impl.rs: storage_unregister", "ref-farming/src/actions_of_reward.rs: withdraw_reward, callback_post_withdraw_reward"]}
{"id": "C78", "title": "What one user does cannot influence another who uses other pools", "statement": "A call or callback of the exchange sees and changes only the settings and what is stored for the accounts and the pools it names (and the owner's account for donations, exchange fees and tokens that cannot be given back). So two of them that name no common account and no common pool commute: each panics or succeeds alike and creates the same promises whichever comes first, and the final states hold the same and cannot be told apart later. Whatever other users do in between, in any order and number, as long as it concerns other accounts and pools or creates new pools, a user's own calls have the same outcomes and leave the same balances, shares, records and price averages as if nobody else were there.", "quantifier": "All calls and callbacks except settings, all states, all interleavings of any length.", "why_tests_cant": "It compares all interleavings of two families of calls; a test runs one schedule.", "anchors": ["ref-exchange/src/lib.rs: execute_actions, execute_actions_in_va, add_liquidity, remove_liquidity, internal_pool_swap", "ref-exchange/src/account_deposit.rs: withdraw, internal_save_account", "ref-exchange/src/multi_fungible_token.rs", "ref-exchange/src/storage_impl.rs", "ref-exchange/src/shadow_actions.rs", "ref-exchange/src/token_receiver.rs: ft_on_transfer", "ref-exchange/src/swap_volume.rs", "ref-exchange/src/unit_lpt_cumulative_infos.rs"]}
{"id": "C79", "title": "Nobody can dilute or take an earned farming reward by acting just before the claim", "statement": "What a farmer can claim from a farm that has received reward, at a given time, does not change through anything others do at that time: staking any amount, withdrawing, claiming, depositing more reward, creating farms or clearing other farms, in any number and order. A claim that follows credits exactly what get_unclaimed_reward reported before the others acted, and two farmers who claim at the same time get the same amounts in either order. The only exception is the owner's force_clean_farm of that very farm.", "quantifier": "All reachable states, all farmers and farms, all sequences of events of others with the same timestamp.", "why_tests_cant": "It must hold for every amount staked by others and for every order of the receipts of a block; a test fixes one order and a few amounts.", "anchors": ["ref-farming/src/simple_farm.rs: try_distribute, distribute, add_reward, claim_user_reward", "ref-farming/src/actions_of_seed.rs: internal_seed_deposit, internal_seed_withdraw", "ref-farming/src/actions_of_reward.rs: internal_claim_user_reward_by_farm_id, internal_claim_user_reward_by_seed_id", "ref-farming/src/view.rs: get_unclaimed_reward"]}
{"id": "C80", "title": "What the settings views report is what calls obey, and the emergency controls always work", "statement": "In every state the owner and each guardian named by the views can stop the contract and freeze any tokens with one yoctoNEAR; the views then say so, nothing else changes and every user operation, or every trade, deposit and withdrawal of such a token, fails. Only the owner can start the contract again, and always can. After each configuration method metadata, get_guardians, get_frozenlist_tokens and get_whitelisted_tokens report exactly what was asked for, and they never change unless the owner or a guardian signs a call. A deposit is accepted exactly for the tokens these views name. list_rated_tokens and list_degen_tokens report the rates and prices pools use, and their validity flags decide whether swaps are refused.", "quantifier": "All states, all callers, all lists of tokens and accounts, all times, all histories.", "why_tests_cant": "The emergency controls must work in every state, in particular those nobody foresaw; a test pauses and freezes in a few.", "anchors": ["ref-exchange/src/views.rs: metadata, get_guardians, get_frozenlist_tokens, get_whitelisted_tokens, list_rated_tokens, batch_get_degen_tokens, list_degen_tokens, list_degen_oracle_configs", "ref-exchange/src/owner.rs: change_state, extend_frozenlist_tokens, remove_frozenlist_tokens, extend_whitelisted_tokens, extend_guardians"]}
{"id": "C81", "title": "The exchange's pledge records agree with the books of the farm and of the lending contract under every interleaving", "statement": "Whatever the order in which calls, promises, answers and callbacks run, the number of shares the exchange records as pledged to the farm or to the lending contract and the number that contract has in its own books differ exactly by the pledges and returns under way. When nothing is under way they are equal, every answer of the other contract can be booked, and what the other contract counts is covered by shares the account has.", "quantifier": "All interleavings of calls, promises and callbacks of the exchange, the farm and the lending contract, all accounts, pools and amounts, all answers.", "why_tests_cant": "Three contracts exchange asynchronous messages; a test runs one order, and shares that one contract believes pledged and the other does not are locked or lent out twice.", "anchors": ["ref-exchange/src/shadow_actions.rs: shadow_action, on_burrow_liquidation, callback_on_shadow, callback_on_burrow_liquidation", "ref-exchange/src/account_deposit.rs: update_shadow_record"]}
{"id": "C82", "title": "Pool shares staked in the farming contract are backed by shares in the exchange, and nobody loses shares by staking", "statement": "Whatever the order in which calls, messages, transfers and callbacks of the two contracts run: the farming contract always holds, in the exchange, at least the shares its farmers have staked together with those on their way in and out. A withdrawal therefore never fails for want of shares. Shares the farming contract does not accept are given back in full. What an account has of a pool, counting shares at the exchange, stake and shares under way, never falls by what others do or by staking and withdrawing; apart from the account's own other calls, liquidations of pledged shares and failed callbacks, the only exception is an account that is not registered at the exchange, whose refused shares go to the exchange.", "quantifier": "All interleavings of calls, promises and callbacks of the exchange and the farming contract, all accounts, pools, amounts and failures.", "why_tests_cant": "Two contracts keep books about the same shares and exchange asynchronous messages; tests run each against a mock of the other, in one order.", "anchors": ["ref-exchange/src/multi_fungible_token.rs: mft_transfer_call, mft_resolve_transfer, mft_transfer", "ref-farming/src/token_receiver.rs: mft_on_transfer", "ref-farming/src/actions_of_seed.rs: withdraw_seed, callback_post_withdraw_mft_seed"]}
{"id": "C83", "title": "What shares of a constant-product pool are worth never falls, except by a unit of rounding per swap", "statement": "Someone who keeps a number of shares of a constant-product pool while anybody does anything (swaps, deposits and withdrawals of liquidity, donations, fee changes, owner calls) is never diluted: the geometric mean of the two amounts the shares stand for falls by at most one smallest unit per swap made in the pool, and by nothing in any other way. In particular, when the price is back where it was, both amounts are, up to that rounding, at least what they were. What remove_liquidity would pay is within one unit of each of these amounts.", "quantifier": "All histories of the contract, all pools, fees and amounts, all numbers of shares held.", "why_tests_cant": "Each operation rounds on its own; that rounding never adds up against those who do nothing has to be shown for every sequence of operations.", "anchors": ["ref-exchange/src/simple_pool.rs: add_liquidity, remove_liquidity, swap, swap_by_output, internal_get_return", "ref-exchange/src/views.rs: predict_remove_liquidity"]}
{"id": "C84", "title": "Shares of a stable-swap pool keep their part of the pool's invariant, up to fixed rounding per operation", "statement": "Someone who keeps a number of shares of a stable-swap pool while anybody does anything (swaps, deposits, withdrawals by shares or by tokens, liquidations, owner calls) is not diluted: their part of the pool's exact invariant falls by at most a fixed number of units for each swap in the pool and each request to change its liquidity, and by nothing in any other way. The number depends only on how many tokens the pool has and how uneven it gets (46 units of 10^-18 of a token for two tokens and an unevenness of two). If the pool was balanced at the start, the shares stand for at least as many tokens in total as then, up to that rounding. This also holds while the owner has the amplification rise, gradually or not.", "quantifier": "All histories of the contract, all stable-swap pools, fees, amounts and numbers of shares, as long as the pool stays of ordinary size and its amplification does not fall.", "why_tests_cant": "The invariant is found by Newton's method in integers and every operation rounds several times; a test sees a few sequences, not that errors can never pile up beyond the bound.", "anchors": ["ref-exchange/src/stable_swap/mod.rs: swap, add_liquidity, remove_liquidity_by_shares, remove_liquidity_by_tokens", "ref-exchange/src/stable_swap/math.rs: compute_d, compute_y, compute_lp_amount_for_deposit, compute_lp_amount_for_withdraw"]}
{"id": "C85", "title": "Shares of a rated or degen pool keep their part of the pool's invariant while the rates do not fall, up to fixed rounding per operation", "statement": "Someone who keeps a number of shares of a rated or degen pool while anybody does anything is not diluted: as long as the rates or prices of the pool's tokens stay the same or rise, their part of the pool's exact invariant, at the rates of the time, falls by at most a fixed number of units for each swap in the pool and each request to change its liquidity, and by nothing in any other way. If the rates stay and the pool was balanced at the start (at these rates), what the shares stand for has at least the same total price as then, up to that rounding (2172 units of 10^-24 of a token per operation for two tokens in the demo).", "quantifier": "All histories of the contract, all rated and degen pools, fees, amounts, rates and numbers of shares, as long as neither the rates nor the amplification fall and the pool stays of ordinary size and shape.", "why_tests_cant": "Reserves are multiplied by rates and divided again, with a rounding each time, before and after Newton's method; a test sees a few sequences, not that errors can never pile up beyond the bound.", "anchors": ["ref-exchange/src/rated_swap/mod.rs: swap, add_liquidity, remove_liquidity_by_shares, remove_liquidity_by_tokens", "ref-exchange/src/rated_swap/math.rs: compute_d, compute_y, mul_rate, div_rate", "ref-exchange/src/degen_swap/mod.rs: swap, add_liquidity, remove_liquidity_by_shares, remove_liquidity_by_tokens"]}
{"id": "C86", "title": "Nobody gains tokens from a pool by trading in circles", "statement": "Whoever swaps an amount of a token in a stable, rated or degen pool and swaps all they received back to the first token ends with at most what they put in plus a fixed number of the pool's smallest internal units (372 units of 10^-18 of a token for two tokens in the demo), whatever the amounts and fees. More generally, after any sequence of swaps, deposits and withdrawals by anybody, if the pool has no fewer shares than at the start and no more of any token but one, then of this one it has at most a fixed number of units less than at the start for each swap and each request to change liquidity: no cycle of operations drains a pool. For rated and degen pools this holds while the rates or prices stay the same; for constant-product pools it holds without any assumption about size or shape, with at most a few units (at the price of the start) per swap.", "quantifier": "All histories of the contract, all pools, fees and amounts, as long as others keep a part of the shares; for stable, rated and degen pools, as long as the pool stays of ordinary size and shape and the amplification is the same throughout.", "why_tests_cant": "Exploits of curve pools come from rounding and from iterations that do not quite converge, in cycles of operations that nobody thought of testing; the claim is about all cycles.", "anchors": ["ref-exchange/src/stable_swap/mod.rs: swap, add_liquidity, remove_liquidity_by_shares, remove_liquidity_by_tokens", "ref-exchange/src/stable_swap/math.rs: compute_d, compute_y, swap_to", "ref-exchange/src/rated_swap/mod.rs: swap", "ref-exchange/src/rated_swap/math.rs: compute_d, compute_y, swap_to", "ref-exchange/src/degen_swap/mod.rs: swap"]}
{"id": "C87", "title": "Providers of curve pools are credited and charged fairly", "statement": "Whoever adds liquidity to a stable, rated or degen pool gets shares that are worth at least the gain in the pool's exact invariant, less only the fee on the distance of the new reserves from proportion to the old ones and a fixed number of the pool's internal units. Whoever deposits into a stable pool in the proportions of its reserves pays no such fee: their shares are worth the whole gain up to a fixed number of units. Whoever withdraws given amounts loses shares that were worth at most the fall of the exact invariant and the same fee, up to a fixed number of units.", "quantifier": "All reachable states, all stable, rated and degen pools of ordinary size and shape, all fees, amounts, amplifications and rates.", "why_tests_cant": "The invariant is found by Newton's method in integers and the shares by rounded ratios of three of its results; tests compare a few deposits with expected numbers, and cannot exclude that some deposit into some pool is credited much less than it is worth.", "anchors": ["ref-exchange/src/stable_swap/math.rs: compute_lp_amount_for_deposit, compute_lp_amount_for_withdraw, normalized_trade_fee, compute_d", "ref-exchange/src/stable_swap/mod.rs: add_liquidity, remove_liquidity_by_tokens", "ref-exchange/src/rated_swap/math.rs: compute_lp_amount_for_deposit, compute_lp_amount_for_withdraw", "ref-exchange/src/degen_swap/math.rs: compute_lp_amount_for_deposit, compute_lp_amount_for_withdraw", "ref-exchange/src/lib.rs: add_stable_liquidity, remove_liquidity_by_tokens"]}
{"id": "C88", "title": "Whoever pays more gets no less", "statement": "Of two swaps on the same pool in the same state, the one that pays more of the same token gets at least as much of the other, exactly, in constant-product, stable, rated and degen pools alike; so a quote for a larger amount is never smaller. The same holds for what is paid when an exact output is asked for, and for the result of a route of swaps through different pools. In a constant-product pool the larger swap also gets no better price, up to one unit of the output.", "quantifier": "All reachable states, all pools of all kinds, all reserves, fees, amplifications and rates, all pairs of amounts, all routes of any length through different pools.", "why_tests_cant": "The output of a curve pool comes from Newton's method that stops when two rounded iterates are within one unit of each other, so it might depend on the amount in an irregular way; whether it ever falls by a unit between two neighbouring amounts can only be settled for all of them.", "anchors": ["ref-exchange/src/stable_swap/math.rs: compute_y, swap_to", "ref-exchange/src/rated_swap/math.rs: compute_y, swap_to", "ref-exchange/src/degen_swap/math.rs: compute_y, swap_to", "ref-exchange/src/simple_pool.rs: internal_get_return, internal_get_return_by_output", "ref-exchange/src/views.rs: get_return, get_return_by_output", "ref-exchange/src/lib.rs: execute_actions, internal_execute_actions"]}
{"id": "C89", "title": "Views that answer several questions say what the single views say", "statement": "The views that answer several questions at once (details, volumes, shares and unit assets of many pools, batches of predictions, the combined view) give, for each question and in its place, exactly the answer of the single view in the same state, whatever else is asked; a batch of details, volumes or predictions is answered exactly if every single question is. The views on stable, rated and degen pools answer exactly about pools of their kind and agree with the general ones. The unit assets come under the shadow id of the very pool asked for. The metadata of pool shares have different names and symbols for different pools, and decimals for which one whole share is what the unit view reports.", "quantifier": "All states, all lists of ids, accounts, deposits and actions, of any length and with repetitions.", "why_tests_cant": "Tests ask for one or two pools; that answers do not shift, leak into each other or collide for any list of questions is a statement about all lists.", "anchors": ["ref-exchange/src/views.rs: get_stable_pool, get_rated_pool, get_degen_pool, get_pool_fee, get_pool_detail_info_by_ids, get_pool_volumes_by_ids, batch_predict_swap_actions, batch_views, get_account_basic_info", "ref-exchange/src/shadow_actions.rs: get_unit_lpt_assets", "ref-exchange/src/multi_fungible_token.rs: mft_metadata", "ref-exchange/src/unit_lpt_cumulative_infos.rs: list_pool_twap_info_view"]}
{"id": "C90", "title": "Every further part of a swap is paid no better than the part before", "statement": "For three amounts a1 <= a2 <= a3 quoted or swapped in the same state, what the third gets beyond the second is paid no better, per unit paid in, than what the second gets beyond the first, up to rounding: (out3 - out2) * (a2 - a1) <= (out2 - out1) * (a3 - a2) + (a3 - a1) * T. In constant-product pools T is one unit of output; in stable, rated and degen pools it is a few units of the curve, given by how far the largest balance is above the pool's invariant, plus the rounding of the conversions.", "quantifier": "All pools of each kind in all reachable states, all triples of amounts, fees and rates; for the curves all numbers of tokens.", "why_tests_cant": "That the price only worsens with the amount is a statement about the shape of the whole curve, for every state; tests compare quotes at a handful of points.", "anchors": ["ref-exchange/src/simple_pool.rs: internal_get_return", "ref-exchange/src/stable_swap/math.rs: compute_y, swap_to", "ref-exchange/src/rated_swap/math.rs: compute_y, swap_to", "ref-exchange/src/views.rs: get_return"]}
{"id": "C91", "title": "Pools of ordinary size answer and do not refuse swaps or deposits", "statement": "In a pool whose balances, shares and amplification are of ordinary size no arithmetic overflows, no denominator becomes zero and no iteration gets stuck: get_return of a constant-product pool answers for every positive amount up to what the pool has of the token, get_return_by_output for every positive output below what doubling the other token would pay, predict_add_simple_liquidity for every first deposit and for every later one that is worth a share; the invariant and the new balance of a curve can always be computed; and get_return of a stable pool answers for every swap for which the exact curve lets go of at least two units, keeps the required reserve and whose fee part for the protocol is nothing or above a stated floor. Below that floor the pool can refuse a swap although it accepts a smaller and a larger one. The calls of a user who has the deposits and the storage for them, while the contract runs and the tokens are not frozen, then succeed and do what the view says.", "quantifier": "All reachable states, all pools and amounts within the stated size bounds, any number of tokens and any amplification.", "why_tests_cant": "Whether an iteration over big integers ever overflows or divides by zero depends on all combinations of balances; tests run it for a few pools.", "anchors": ["ref-exchange/src/simple_pool.rs: swap, swap_by_output, add_liquidity", "ref-exchange/src/stable_swap/math.rs: compute_d, compute_y, swap_to, compute_lp_amount_for_deposit", "ref-exchange/src/stable_swap/mod.rs: swap, distribute_admin_fee", "ref-exchange/src/views.rs: get_return, get_return_by_output, predict_add_simple_liquidity"]}
{"id": "C92", "title": "Larger deposits and withdrawals get no less, and none gets more by being made in parts", "statement": "In the same state, a withdrawal of more shares pays no less of any token, in every kind of pool, and a deposit in a constant-product pool that offers no less of either token is credited no fewer shares. Any number of withdrawals one after the other, by whomever, together pay no more of any token than one withdrawal of all their shares would have paid, and at most one unit of the token less for every part after the first (for tokens whose units are not finer than those of the curve). Any number of deposits one after the other in a constant-product pool are together credited no more shares than one deposit of all they offer.", "quantifier": "All states, all pools, all share numbers and offers, any number of parts by any accounts.", "why_tests_cant": "A rounding gain would show only for particular combinations of reserves, supply and sequences of parts.", "anchors": ["ref-exchange/src/simple_pool.rs: add_liquidity, remove_liquidity", "ref-exchange/src/stable_swap/mod.rs: remove_liquidity_by_shares", "ref-exchange/src/rated_swap/mod.rs: remove_liquidity_by_shares", "ref-exchange/src/views.rs: predict_remove_liquidity, predict_add_simple_liquidity"]}
{"id": "C93", "title": "A farmer is paid the share of their stake in every release, whatever they and others stake in between", "statement": "Take a farmer who has claimed everything a farm has released, or has no stake yet. Whatever happens after that - others and the farmer stake, withdraw, claim any number of times, funds arrive - as long as the farm is not cleared, what the farm pays to the farmer is never more than the sum, over all releases, of the part the farmer's stake was of the total stake at the time. Once the farmer has claimed again or has withdrawn the whole stake, it is less by at most one unit for each of the farmer's own calls and 10^-24 of their stake for each event. What the farm pays in a claim is credited to the caller's rewards.", "quantifier": "All reachable states, all farms and farmers, all histories of events by anyone with any timing, changing stakes included.", "why_tests_cant": "The amount depends on the whole history of stakes and claims of everyone; tests look at a few fixed schedules.", "anchors": ["ref-farming/src/simple_farm.rs: SimpleFarm::distribute, try_distribute, view_farmer_unclaimed_reward, claim_user_reward", "ref-farming/src/actions_of_seed.rs: internal_seed_deposit, internal_seed_withdraw", "ref-farming/src/actions_of_reward.rs: internal_claim_user_reward_by_seed_id, internal_claim_user_reward_by_farm_id"]}
{"id": "C94", "title": "Released reward does not get stuck in a farm", "statement": "What a farm has released was paid to farmers, was left to the beneficiary while nobody staked, or is shown as unclaimed_reward, and the deposited reward is what was released and what is still undistributed. Whatever happens from any state on, once every farmer with a stake has claimed, the unclaimed_reward has grown by at most one unit for each call about a farmer's account and 10^-24 of the total stake for each event: everything else released in the meantime has been paid out.", "quantifier": "All reachable states, all farms that are not cleared, all histories of events by anyone.", "why_tests_cant": "Rounding loss or a forgotten release would accumulate over histories of arbitrary length and many farmers.", "anchors": ["ref-farming/src/simple_farm.rs: SimpleFarm::distribute, try_distribute, claim_user_reward", "ref-farming/src/view.rs: get_farm", "ref-farming/src/actions_of_seed.rs: internal_seed_deposit, internal_seed_withdraw"]}
{"id": "C95", "title": "Rounding takes at most a few units for each swap and redemption", "statement": "For a token that stable, rated or degen pools list with no more decimals than the pool computes with, what the exchange has on its books (deposits, lost-and-found and reserves) plus all it sent away is what it had before plus all that arrived, up to rounding. The rounding never favours the books, and it takes at most one unit for each swap from or to the token and one unit for each redemption of shares; if rated or degen pools list the token, at most 3g+1 units for each swap, where 1/g is the smallest rate or price of the token in use.", "quantifier": "All reachable states, all calls and callbacks, all histories, all tokens meeting the condition.", "why_tests_cant": "Dust is lost in every conversion between precisions and rates, and tests look at a few conversions; a systematic loss of a share of the amount would look the same on small numbers.", "anchors": ["ref-exchange/src/stable_swap/mod.rs: StableSwapPool::swap, remove_liquidity_by_shares, amount_to_c_amount, c_amount_to_amount", "ref-exchange/src/rated_swap/math.rs: RatedSwap::swap_to, mul_rate, div_rate", "ref-exchange/src/degen_swap/math.rs: DegenSwap::swap_to"]}
{"id": "C96", "title": "Boost farming: stakes and powers add up", "statement": "In the boost farming contract the total amount and the total power of a seed are the sums of the stakes and of the boosted powers of all farmers. Everything ever staked in a seed is in the farmers' stakes or has been slashed.", "quantifier": "All reachable states, all histories of calls, all seeds, all booster settings and logarithm roundings.", "why_tests_cant": "Power depends on locks, boosters and stakes in other seeds, and each call updates several seeds; a missed update shows only in particular orders of calls.", "anchors": ["mock-boost-farming/src/farmer_seed.rs: get_seed_power, add_free, add_lock, free_to_lock, unlock_to_free_with_slashed", "mock-boost-farming/src/booster.rs: update_impacted_seeds", "mock-boost-farming/src/farmer.rs: internal_do_farmer_claim"]}
{"id": "C97", "title": "Boost farming: stakes are safe", "statement": "In the boost farming contract nobody else's call changes an account's stake in a seed, except by adding to it. Staking adds the amount to what is free or locked, and locking runs for the given time and never ends before a lock that is still running. A forced unlock works only while the lock runs; it slashes the seed's rate in proportion to the time left, frees the rest and leaves the lock of what stays locked. Only that makes a stake smaller, and a stake's power is never below its amount.", "quantifier": "All reachable states, all calls by anyone, all seeds and accounts.", "why_tests_cant": "Tests follow a few locks through a few calls; the statement is about every call by anyone in every state.", "anchors": ["mock-boost-farming/src/actions_of_farmer_seed.rs: lock_free_seed, force_unlock", "mock-boost-farming/src/farmer_seed.rs: add_lock, unlock_to_free_with_slashed", "mock-boost-farming/src/token_receiver.rs: ft_on_transfer, mft_on_transfer, stake_free_seed, stake_lock_seed"]}
{"id": "C98", "title": "Boost farming: rewards are covered by deposits", "statement": "In the boost farming contract, in each reward token, what all farmers have been credited, what they have earned and not yet claimed and what belongs to the beneficiary is together at most what has been deposited as reward, for each farm and in total. A farmer's credited reward never becomes less, and only the farmer's own calls and stakes change it.", "quantifier": "All reachable states, all histories of calls, all farms and tokens.", "why_tests_cant": "Rounding, boosts that change power between claims and removed farms each can make a farm promise more than it has; this must hold for all interleavings of all farmers.", "anchors": ["mock-boost-farming/src/seed_farm.rs: update, add_reward, finalize", "mock-boost-farming/src/farmer.rs: internal_calc_farmer_claim, internal_do_farmer_claim", "mock-boost-farming/src/actions_of_seed.rs: remove_farm_from_seed, cancel_farm"]}
{"id": "C99", "title": "Boost farming: a claim pays what the view shows, by share of power", "statement": "A claim in the boost farming contract credits exactly what the view of unclaimed rewards shows at that time, and leaves nothing to claim. What a farm releases between two claims of a farmer is paid in the share of the farmer's power in the seed's power, rounded down by less than two units.", "quantifier": "All reachable states, all farmers, seeds, farms and times.", "why_tests_cant": "View and call are separate code paths over a state that is updated when read; rounding depends on powers and times.", "anchors": ["mock-boost-farming/src/actions_of_farmer_reward.rs: claim_reward_by_seed", "mock-boost-farming/src/view.rs: get_unclaimed_rewards", "mock-boost-farming/src/seed_farm.rs: update"]}
{"id": "C100", "title": "Boost farming: access, pause and registration", "statement": "In the boost farming contract only the owner removes farms, pauses, and names owner and operators; only owner and operators create seeds and farms, cancel farms and change parameters. While paused, nothing else works than the owner's calls on ownership, operators and pausing. Only registered accounts can stake, lock, unlock and claim. A registration costs a tenth of a NEAR, the rest of the deposit is returned; unregistering needs an account without stakes and rewards and pays the tenth back to who paid it, who is the farmer's sponsor shown all the while, and the contract has always kept enough NEAR for that.", "quantifier": "All states and callers; all histories for the NEAR kept and the number of farmers shown.", "why_tests_cant": "A guard missing on one of the methods is not seen by tests of the others, and the NEAR kept is a sum over all histories.", "anchors": ["mock-boost-farming/src/owner.rs: assert_owner, set_owner, pause_contract, extend_operators", "mock-boost-farming/src/management.rs: modify_daily_reward, modify_locking_policy", "mock-boost-farming/src/storage_impl.rs: storage_deposit, storage_unregister", "mock-boost-farming/src/lib.rs: is_owner_or_operators", "mock-boost-farming/src/actions_of_seed.rs: create_seed, create_farm"]}
{"id": "C101", "title": "Boost farming: boosts follow the stakes", "statement": "In the boost farming contract, after an account claims in a seed, stakes in it, locks or unlocks there, its stake in that seed and its stakes in all seeds this seed boosts are boosted exactly as the current settings and its current stakes in the boosters say.", "quantifier": "All reachable states, all claims, stakes, locks and unlocks, all booster settings.", "why_tests_cant": "A stake in one seed changes the power of stakes in others; tests look at a few pairs of seeds, not at every setting and order of calls.", "anchors": ["mock-boost-farming/src/booster.rs: gen_booster_ratios, update_impacted_seeds", "mock-boost-farming/src/farmer.rs: internal_do_farmer_claim", "mock-boost-farming/src/token_receiver.rs: stake_free_seed, stake_lock_seed"]}
{"id": "C102", "title": "Boost farming: terms of locks and farms", "statement": "In the boost farming contract a lock's duration is within the limits, and what is locked counts for more in proportion to the duration, up to the maximal multiplier; a lock still running does not lose what it counts for, and after a forced unlock the rest counts for its part. A stake is at least the seed's minimum. A farm releases nothing before its start or without reward, then its daily reward in proportion to time until the reward is used up, to the farmers if there are any stakes. A reward deposit adds to the named farm in its token only. Only a farm without reward can be cancelled and only one that has released everything can be removed.", "quantifier": "All reachable states, all calls, durations, amounts and times.", "why_tests_cant": "The terms are formulas over all amounts, durations and times, with cases at each limit.", "anchors": ["mock-boost-farming/src/farmer_seed.rs: add_lock, free_to_lock, compute_x_amount, unlock_to_free_with_slashed", "mock-boost-farming/src/seed_farm.rs: update, internal_update_status, add_reward, finalize", "mock-boost-farming/src/actions_of_seed.rs: cancel_farm, remove_farm_from_seed", "mock-boost-farming/src/actions_of_farmer_seed.rs: lock_free_seed", "mock-boost-farming/src/token_receiver.rs: stake_free_seed, stake_lock_seed"]}
{"id": "C103", "title": "Boost farming: settings do what they name, within limits", "statement": "In the boost farming contract nothing users do changes the parameters, the roles, the seeds' terms or the farms' terms, except that a reward deposit adds to the farm it names. Each setting changes the one thing it names and keeps within its limits. A new seed or farm has the given terms, and a farm's id is never used again. Naming and removing operators adds and removes exactly those named. In every state a booster boosts at most 16 seeds with together at most 64 farms and never itself, and the number of farms shown is right.", "quantifier": "All reachable states, all calls; all histories for the limits.", "why_tests_cant": "That nothing else changes is a statement about all calls in all states, and the bound on boosted farms must survive every order of creating farms and setting boosters.", "anchors": ["mock-boost-farming/src/management.rs: modify_daily_reward, modify_locking_policy, modify_max_farm_num_per_seed, modify_seed_min_deposit, modify_seed_slash_rate", "mock-boost-farming/src/booster.rs: modify_booster, assert_booster_affected_farm_num", "mock-boost-farming/src/owner.rs: set_owner, extend_operators, remove_operators", "mock-boost-farming/src/actions_of_seed.rs: create_seed, create_farm"]}
{"id": "C104", "title": "Boost farming: a farmer gets a fair share of what is released", "statement": "In the boost farming contract, take a farmer who has no power yet or has been paid all that a farm released for them. Over any history that follows, the farmer's exact share is what the farm releases in each call times the farmer's part of the seed's power at that time. The farm never pays the farmer more than that. Whenever they have been paid up again, as every claim does, they have got all of it but at most one unit for each of their own calls and a 10^-27 part of their power for every call. All that farms pay in a call is credited to the reward balances of the farmer who calls.", "quantifier": "All reachable states, all farms and farmers, all histories of any length by any users.", "why_tests_cant": "The share changes with every stake, lock, boost and claim of anybody, and rounding could build up over an unbounded history.", "anchors": ["mock-boost-farming/src/farmer.rs: internal_calc_farmer_claim, internal_do_farmer_claim", "mock-boost-farming/src/seed_farm.rs: update", "mock-boost-farming/src/booster.rs: update_impacted_seeds"]}
{"id": "C105", "title": "Boost farming: what is released does not get stuck", "statement": "In the boost farming contract, over any history, once every farmer with power has been paid up, what a farm has released and neither paid to farmers nor put aside for the beneficiary has grown by at most one unit for every call by which a farmer stakes, locks, unlocks or claims, and a 10^-27 part of the seed's power for every call. What a farm has received is always what it paid, what belongs to the beneficiary, what is open and what it has not released yet.", "quantifier": "All reachable states, all farms, all histories of any length by any users.", "why_tests_cant": "The loss is the sum of the rounding of all farmers over an unbounded history in which farmers come and go.", "anchors": ["mock-boost-farming/src/seed_farm.rs: update", "mock-boost-farming/src/farmer.rs: internal_calc_farmer_claim, internal_do_farmer_claim"]}
{"id": "C106", "title": "Boost farming: nobody can dilute or take an earned reward by acting just before the claim", "statement": "In the boost farming contract, if others act at the moment of a farmer's claim but before it (they stake any amount, lock, unlock, claim, deposit reward, change the daily reward or the boosts), every farm that has reward and is not removed pays the farmer the same. If no farm with reward is removed, the farmer is credited no less in any token, and exactly the same if no farm of the seed gets its first reward in between. Two farmers who claim at the same moment are credited the same whoever comes first.", "quantifier": "All reachable states, all claims, all histories of others' calls at that moment.", "why_tests_cant": "The order of transactions in a block is up to others; every sequence of calls by them has to be considered.", "anchors": ["mock-boost-farming/src/seed_farm.rs: update, add_reward", "mock-boost-farming/src/seed.rs: update", "mock-boost-farming/src/farmer.rs: internal_calc_farmer_claim", "mock-boost-farming/src/actions_of_farmer_reward.rs: claim_reward_by_seed"]}
{"id": "C107", "title": "Boost farming: a farmer can always claim", "statement": "In the boost farming contract, whatever happened before, a registered farmer's claim from an existing seed succeeds while the contract is running, and the view of the unclaimed rewards answers, as long as the numbers stay within their ranges: what a farm is due since its last update, the deposited rewards of each token, the power of each seed and the farmer's new power fit 128 bits and boosters have at most 38 decimals. If what a running farm is due does not fit 128 bits, its seed can never be touched again by anybody.", "quantifier": "All reachable states, farmers, seeds and times; for the second part all later histories.", "why_tests_cant": "A claim runs over all farms and boosters with checked arithmetic; that no reachable state makes one of the checks fail needs the invariant.", "anchors": ["mock-boost-farming/src/actions_of_farmer_reward.rs: claim_reward_by_seed", "mock-boost-farming/src/farmer.rs: internal_do_farmer_claim, internal_calc_farmer_claim", "mock-boost-farming/src/seed.rs: update, update_claimed", "mock-boost-farming/src/seed_farm.rs: update", "mock-boost-farming/src/booster.rs: gen_booster_ratios", "mock-boost-farming/src/view.rs: get_unclaimed_rewards"]}
{"id": "C108", "title": "Boost farming: lists and counts are complete and agree with the single views", "statement": "In the boost farming contract, the paged lists of seeds, removed farms, slashed stakes and a farmer's stakes, read to the end in pages of any sizes, show every entry exactly once and as the view of the single entry shows it; the farms listed for a seed are exactly those that the view of a farm finds, and every live farm can be found by its id. Removed farms are not found as live ones. Without arguments these lists show everything, and the list of lost and found stakes is always empty. The seed amounts shown are the sums of the farmers' stakes, and together with the slashed amounts all that was ever staked. The counts of farmers, seeds, live and removed farms are the numbers of what is there. While the contract runs, the owner can remove exactly the farms that are shown as ended, and cancel exactly those shown without reward.", "quantifier": "All reachable states, times, page sizes and orders in which the maps keep their keys.", "why_tests_cant": "Front ends and the owner's tools read these lists; that they miss or repeat nothing must hold for every state and page size.", "anchors": ["mock-boost-farming/src/view.rs: get_metadata, list_outdated_farms, get_outdated_farm, list_slashed, list_seeds_info, get_seed, list_seed_farms, get_farm, list_farmer_seeds, get_farmer_seed, list_farmer_rewards, get_farmer_reward, get_farmer_sponsor, list_lostfound", "mock-boost-farming/src/actions_of_seed.rs: remove_farm_from_seed, cancel_farm", "mock-boost-farming/src/utils.rs: parse_farm_id, gen_farm_id"]}
{"id": "C109", "title": "Boost farming: farmers who use different seeds do not influence each other", "statement": "Divide accounts and seeds of the boost farming contract into two sides such that every farmer has stakes only in seeds of the own side. Whatever users do within one side - staking, locking, unlocking with slashing, claiming, adding rewards, registering and unregistering - the stakes, powers, rewards, seeds and farms of the other side end up exactly as if none of it had been done; every call of the other side succeeds or fails alike and sends the same NEAR, and all views of that side answer the same. Only a farmer with stakes on both sides links them, through boosts.", "quantifier": "All reachable states with two such sides, and all histories of user calls each within one side, in any interleaving; below 2^64 registrations.", "why_tests_cant": "Shared totals and the update of boosted seeds could carry the effect of one user's call into seeds the user has nothing to do with; this must be excluded for every interleaving.", "anchors": ["mock-boost-farming/src/booster.rs: update_impacted_seeds", "mock-boost-farming/src/token_receiver.rs: ft_on_transfer, mft_on_transfer", "mock-boost-farming/src/actions_of_farmer_seed.rs: lock_free_seed, force_unlock", "mock-boost-farming/src/actions_of_farmer_reward.rs: claim_reward_by_seed", "mock-boost-farming/src/storage_impl.rs: storage_deposit, storage_unregister"]}
{"id": "C110", "title": "Farming: farmers who use different seeds do not influence each other", "statement": "Divide the accounts and the seeds of the farming contract into two sides in any way. Whatever users do within one side - staking, withdrawing, claiming, adding rewards, registering and unregistering, and the callbacks of their transfers - the stakes, rewards, seeds and farms of the other side end up exactly as if none of it had been done; every call of the other side succeeds or fails alike and makes the same transfers, and the views of that side answer the same.", "quantifier": "All reachable states, all divisions into two sides and all histories of user calls and callbacks each within one side, in any interleaving; below 2^64 registrations and 2^128 units of every reward token deposited.", "why_tests_cant": "All farmers share one contract, one list of farms and one table of reward rates; that no call leaks into seeds or accounts it does not name must hold for every interleaving.", "anchors": ["ref-farming/src/actions_of_farm.rs: internal_add_farm", "ref-farming/src/actions_of_reward.rs: claim_reward_by_farm, claim_reward_by_seed, withdraw_reward, remove_user_rps_by_farm", "ref-farming/src/actions_of_seed.rs: withdraw_seed, internal_seed_deposit, internal_seed_withdraw", "ref-farming/src/token_receiver.rs: ft_on_transfer, mft_on_transfer", "ref-farming/src/storage_impl.rs: storage_deposit, storage_withdraw, storage_unregister"]}
{"id": "C111", "title": "Farming: the order in which a call visits the farms of a seed does not matter", "statement": "The farming contract keeps the farms of a seed in a hash set and visits them in whatever order the set yields when a farmer stakes, withdraws or claims by seed. Take any history and any other order for each of its calls: each call succeeds in one run exactly when it does in the other and makes the same transfers, and after both runs every stake, reward, seed, farm, storage balance and unclaimed amount is the same.", "quantifier": "All reachable states, all histories of calls and callbacks, and for each call any two orders.", "why_tests_cant": "The order of a hash set is not specified and a test sees one order; that no rounding, overflow or partial update depends on it must hold for every order and every number of farms.", "anchors": ["ref-farming/src/actions_of_reward.rs: internal_claim_user_reward_by_seed_id, claim_reward_by_seed", "ref-farming/src/actions_of_seed.rs: withdraw_seed, internal_seed_deposit, internal_seed_withdraw", "ref-farming/src/farm_seed.rs: FarmSeed"]}
{"id": "C112", "title": "Boost farming: the order in which the hash maps are visited does not matter", "statement": "The boost farming contract keeps farms, boosters, the seeds a booster affects, stakes and rewards in hash maps and visits their entries in whatever order the maps yield when a farmer stakes, locks, unlocks or claims and when the limits on farms are checked. Bring the entries of any of these maps into any other order before each call of a history: each call succeeds in one run exactly when it does in the other and makes the same transfers, and after both runs every stake, lock, reward, booster, seed and farm is the same, and so is what the views show.", "quantifier": "All reachable states, all calls, all histories, and before each call any order of the entries of every map.", "why_tests_cant": "The order of a hash map is not specified and a test sees one order; that no rounding, overflow or update of one seed by another depends on it must hold for every order and any number of farms and boosters.", "anchors": ["mock-boost-farming/src/booster.rs: update_impacted_seeds, affected_farm_count, assert_booster_affected_farm_num", "mock-boost-farming/src/farmer.rs: internal_do_farmer_claim, internal_calc_farmer_claim", "mock-boost-farming/src/farmer_seed.rs: FarmerSeed", "mock-boost-farming/src/seed.rs: Seed"]}
{"id": "C113", "title": "Waiting never lowers an unclaimed farming reward", "statement": "What a farmer can claim from a farm of the farming contract at some moment is at most what they can claim at any later moment, if they do nothing in between, whatever others stake, withdraw, claim or deposit in the meantime, as long as the farm is not cleared. In the boost farming contract a claim that is made later credits no less in any token than a claim made now, whatever others do in the meantime, as long as no farm of the seed that has reward is removed.", "quantifier": "All reachable states, farmers, farms and seeds, all pairs of moments (in the farming contract before its 32-bit clock wraps in 2106), and all histories of calls by others in between.", "why_tests_cant": "Releases are computed from the time that has passed, in rounds with a special last round or capped by what is left, and divided by the total stake; that no combination of moments, round lengths and stakes lets the result fall needs all of them.", "anchors": ["ref-farming/src/simple_farm.rs: try_distribute, view_farmer_unclaimed_reward, claim_user_reward", "ref-farming/src/view.rs: get_unclaimed_reward", "mock-boost-farming/src/seed_farm.rs: update", "mock-boost-farming/src/farmer.rs: internal_calc_farmer_claim"]}
{"id": "C114", "title": "Claiming from a farm more often does not earn more", "statement": "A farmer of the farming contract who claims from a farm any number of times, with no other call in between, ends up with at most the reward, in every token, that a single claim at the last of these moments would have given them.", "quantifier": "All reachable states, farmers, farms and tokens, and all lists of moments before the 32-bit clock wraps in 2106, provided that the claims succeed and that the last of them would also have succeeded earlier in the list.", "why_tests_cant": "Each claim settles the rounds passed so far, may trigger the special last round of the farm and rounds twice, in the rate and in the payout; that splitting a claim never turns this to the farmer's profit needs every state and every pair of moments.", "anchors": ["ref-farming/src/simple_farm.rs: try_distribute, distribute, claim_user_reward", "ref-farming/src/actions_of_reward.rs: claim_reward_by_farm, internal_claim_user_reward_by_farm_id"]}
