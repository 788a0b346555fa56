# Formal model of ref-finance/ref-contracts in Lean 4

## 1. Trusted base

* Lean 4.33.0's kernel. Every property theorem depends on at most the standard
  axioms `propext`, `Classical.choice` and `Quot.sound`. No axiom is added, and
  no `sorry`, `admit`, `native_decide` or `bv_decide` is used. `lake build`
  prints nothing about axioms; section 6 records how they are checked.
* The reading of the Rust source. The code is not built or run here. Each Lean
  definition cites the file and lines it models. A simplification is stated in
  the same comment.
* Assumptions about the platform, all of which are built into the model and not
  hidden as hypotheses:
  - a panic aborts the receipt and rolls back every state change it made, and
    removes the promises it scheduled (`step` keeps the old state on error);
  - receipts run one at a time; promises and callbacks are later receipts that
    may be separated by any other receipts;
  - `overflow-checks = true` in the release profile (`/repo/Cargo.toml`), so
    `u128`/`u64` overflow panics; `construct_uint!` arithmetic panics on overflow
    and on division by zero;
  - an honest NEP-141 token: `ft_on_transfer` is called by the token contract
    after it moved the amount to the exchange, it takes back exactly what
    `ft_on_transfer` returns, and `ft_transfer` either moves the amount and
    succeeds or moves nothing and fails. Account ids are compared as strings.
  - Borsh/JSON (de)serialisation, gas, log output and NEAR storage trie costs
    are outside the model, except where section 3 says otherwise.

## 2. Conventions of the model

* A Rust function that can panic becomes a function into `Except Err α`; each
  assertion gives its own error value. `&mut self` becomes a returned new value.
* `u128`, `u64`, `U256`, `U384` are `Nat` with explicit range checks (`Num.lean`):
  an operation that would overflow in Rust returns an error in the model.
* Maps (`LookupMap`, `UnorderedMap`, `HashMap`) are finite association lists with
  distinct keys (`FMap.lean`), so sums over all accounts are real finite sums.
* Account ids are `List Char`. Only equality and the suffix/prefix tests the
  code performs are ever used.
* Loops are recursions; the fixed 256-round Newton loops keep their bound;
  `integer_sqrt`'s `while` is a well-founded recursion.

## 3. What is modelled

| Part | Lean files | Rust |
|---|---|---|
| numbers, maps | `Num`, `FMap` | `utils.rs`, near_sdk collections |
| simple pool | `Simple/*` | `simple_pool.rs`, `admin_fee.rs`, `utils.rs` |
| stable / rated / degen pools | `Curve/*` | `stable_swap/*`, `rated_swap/*`, `degen_swap/*` |
| pool dispatch and contract | `Exchange/*` | `pool.rs`, `lib.rs`, `action.rs`, `account_deposit.rs`, `account_lostfound.rs`, `token_receiver.rs`, `multi_fungible_token.rs`, `storage_impl.rs`, `shadow_actions.rs`, `donation.rs`, `owner.rs`, `views.rs` |
| TWAP, volumes, identifiers, echo rules | `Exchange/Twap*`, `Swap`, `Ids`, `Echo` | `unit_lpt_cumulative_infos.rs`, `swap_volume.rs`, `utils.rs`, `client_echo_limit.rs` |
| calls, callbacks, histories | `Exchange/Step`, `Spec` | every public method that changes state |
| paged and account views | `Paging`, `Exchange/PoolView*`, `Exchange/AccountView*`, `Exchange/SettingView*`, `Exchange/MoreView*`, `Farming/List*` | `views.rs`, `shadow_actions.rs`, `multi_fungible_token.rs`, `client_echo_limit.rs`, `ref-farming/src/view.rs` |
| accounts of earlier versions | `Exchange/Legacy*` | `legacy.rs`, `account_deposit.rs` |
| oracle requests and replies | `Exchange/Oracle*` | `oracle.rs`, `degen_swap/{degen,price_oracle,pyth_oracle}.rs`, `rated_swap/*_rate.rs` |
| token ledger, receipts under way | `Exchange/World` | the NEP-141 contracts around the exchange |
| pledges, receipts under way | `Exchange/PledgeWorld` | the farm and the lending contract as keepers of pledges |
| exchange and farming contract composed | `Joint/StakeWorld` | messages between the two contracts and all other accounts |
| farming | `Farming/*` | `ref-farming/src/*` |
| boost farming | `Boost/*` | `mock-boost-farming/src/*`; the logarithm of the booster is an arbitrary function of amount and ratio that is zero at zero |

Not modelled: log events, metadata strings other than those of pool shares, gas amounts, `upgrade`/`migrate`,
binary decoding of stored state, the decoding of oracle replies (C66 starts from the
decoded reply; all other properties hold for arbitrary prices and rates), and the
mock/test crates other than `mock-boost-farming`. Of that crate the callbacks of the
withdrawals are left out: the methods that would schedule them are commented out, so
no call reaches them.

`Vectors.lean` replays expected values from the repository's own Rust tests on
the model (curve pools), as a check that the model computes what the code
computes. They are tests of the model, not proofs.

## 4. Plan per property

The statement of each property lives in a property file (`Simple/Props`,
`Curve/Props`, `Exchange/*Props`, `Access`, `Ownership`, `Solvency`), apart from
the lemmas. Each theorem there has an `example` next to it showing that its
hypotheses hold in a concrete case.

| Id | Model | Shape of proof |
|---|---|---|
| C01 | simple swap, both directions | algebraic inequality over floor division |
| C02 | `internal_get_return` | optimality of a floor quotient |
| C03 | both return formulas | ceiling division bounds |
| C04 | two swaps composed | from C01 by monotonicity |
| C05 | two swaps against one | from C02 and an inequality between products |
| C06 | `add_liquidity` | minimum of floor quotients |
| C07 | `remove_liquidity` in all pool kinds | floor quotient, per-share reserves cross-multiplied |
| C08 | add followed by remove | from C06 and C07 |
| C09 | share map of every pool kind | invariant by induction over operations |
| C10 | fee minting | bound on nested floor divisions; monotone isqrt |
| C11 | `integer_sqrt` | well-founded recursion with Newton invariant |
| C12 | whole contract with token ledger and promise queue | invariant by induction over receipts |
| C13 | withdrawal callbacks | case analysis on resolution, from any intermediate state |
| C14, C15 | all entry points | one-step frame theorem by cases on the operation |
| C16 | swap/add/remove entry points | success implies bound; failure implies unchanged state |
| C17 | action lists | induction over the list; frame on other accounts |
| C18 | cached and stored execution, all quotes and predictions, also those at supposed rates | simulation: whenever the stored run succeeds the view run succeeds with related results |
| C19, C20, C21 | guards | decision logic over all operations |
| C22 | fee settings | invariant by induction over operations |
| C23, C24 | storage accounting | success implies coverage; refund equality |
| C25, C26 | shadow records | invariant by induction over receipts including callbacks; witness where false |
| C27 | MFT transfer and resolve | conservation and bounds |
| C28 | lost-and-found | one-step effect plus invariant |
| C29 | deposits | decision logic |
| C30 | direct actions | effect on accounts and outgoing transfers |
| C31 | amplification | interpolation bounds, invariant over ramps |
| C32 | `compute_y`, `swap_to` | Newton iterates stay above every feasible value |
| C33 | `compute_d` | fixed point |
| C34, C35 | stable pools | success implies bound |
| C36 | decimals | floor/scale round trip; witness where false |
| C37, C38 | rates, limits | decision logic |
| C39, C40 | TWAP, volumes | induction over samples/histories |
| C41, C42 | strings | round trips, characterisation |
| C43-C49 | farming | invariant by induction over operations; witness where false |
| C50 | farming contract with the balance of one asset and a promise queue | exact ledger equation per call and callback, invariant by induction over receipts |
| C51 | curve deposits/withdrawals | nested floor quotients against D |
| C52 | pool list | invariant by induction over histories |
| C53 | farm view and claim | equality of two computations in every reachable state |
| C54 | farming entry points | one-step frame theorem by cases on the event |
| C55 | whole contract, tokens outside curve pools | exact ledger equation per call and callback, summed over histories |
| C56 | storage deposits and NEAR payments | exact ledger equation per call and callback |
| C57 | fee minting in all pool kinds | exact effect on every share balance |
| C58 | pools | invariant by induction over histories |
| C59 | farming, storage deposits | exact equation per event, from a classification of events |
| C60, C61 | farming guards | decision logic over all events |
| C62 | farming totals | invariant by induction over histories |
| C63 | farming stakes | success implies the checks |
| C64 | stable, rated and degen pools | tangent inequality for the Newton iterates, the curve is the same at every scale, induction over the swaps |
| C65 | farming views | from the invariant; induction over later histories |
| C66 | oracle requests and replies as separate receipts; decoded quotes as data, stated prices as rationals | what one reply may store, by cases; induction over histories of calls, requests and replies |
| C67 | stored accounts with two token maps | refinement by the one-map account of the rest of the model, induction over operations |
| C68 | views of pools, cut into pages | tiling of an interval by pages; C41 and the invariant for identities and supplies |
| C69 | averages of pools over histories of the contract | every change is preceded by a sample; invariant: the samples integrate what a share redeemed second by second; then C39 |
| C70 | success of withdrawals and of removals of liquidity | run lemmas for every operation involved (the converse of the inversion lemmas); invariant that records of averages are current, so that samples succeed |
| C71 | accuracy of the two Newton iterations | distance to the exact root after each round: it shrinks by n/(n+1) and, close to the root, quadratically, up to the rounding of the chained divisions; 248 + 8 rounds suffice for every number of tokens that fits |
| C72 | views of accounts against the guards of the operations | success of each operation as an equivalence in terms of the views (inversion lemma one way, run lemma the other) |
| C73 | view runs against stored runs of swaps, additions, withdrawals of given amounts and hot zaps | the stored run follows the view run: simulation in the other direction than C18, with an invariant that samples, volumes and fee shares cannot fail |
| C74 | stable, rated and degen pools | the sum of the balances is never below a point of the curve (the curve lies above the plane of constant sum); C64 for the trades |
| C75 | `get_share_price` of the pools and its view | rounding of one division; proportional parts of the redemption summed over the tokens; C64 with minted fee shares for the trades |
| C76 | the farmer, seed and storage views of the farming contract and the calls they announce | both directions of each success condition from the guards; registered farmers have a deposit (invariant); C53, C62 |
| C77 | `withdraw_reward`, its callback and `storage_unregister` of the farming contract | induction over the listed rewards; a zero record is kept by every refused transfer |
| C78 | all calls and callbacks except settings and rate updates | two runs side by side: a relation between the states that every step of every call preserves (agreement on the named accounts and pools, no change elsewhere); commutation and all schedules follow |
| C79 | `getUnclaimedReward`, `distribute`, all farming events | every change of the total stake is preceded by a distribution at the old total, and distributing again at the same time adds nothing; induction on the events of others |
| C80 | the settings views and all configuration methods | the methods are run symbolically from an arbitrary state; effects through C19, C20, C29, C37; histories through C21 |
| C81 | the exchange with the farm's and the lending contract's books and a queue of receipts in any order (`Exchange/PledgeWorld`) | an equation between record, books and receipts under way, by induction over the steps; witnesses for the farm after a liquidation |
| C82 | the models of the exchange and of the farming contract composed, with a queue of receipts in any order (`Joint/StakeWorld`) | an inequality between shares held, stakes and receipts under way, and one per account, by induction over the steps; witness for holders without an account |
| C83 | the constant-product pool (`Simple/Worth`) and the histories of the exchange (`Exchange/Worth`) | the product of the reserves per squared share after each operation, in the reals; then induction over the history with the swaps made in it |
| C84 | the stable pool (`Curve/Worth`) and the paths its states take in the histories of the exchange (`Exchange/CurvePath`) | the exact invariant per share after each operation, from the bounds on Newton's method (C71) and the non-dilution of each operation (C51, C64); then induction over the history; with a higher amplification the same reserves are worth no less, and histories in which it rises are cut where it does |
| C85 | rated and degen pools at given rates (`Curve/RatedWorth`), with the paths of C84, which record the rates that each operation used | as C84, with the rounding of the products with the rates (C64 for rated pools); histories in which the rates or the amplification rise are cut where they do |
| C86 | the histories of C83, the paths of C84 and C85 | the invariant has not fallen by more than the losses of C84/C85; the slope of the curve (`Curve/Slope`: the tangent to the power of the invariant in the curve, as in C64) turns this into a bound on one reserve |
| C87 | `addLiquidity`, `removeByTokens` of curve pools with the three computed invariants | the exact invariant is at most the computed one (C64) and within `dError` below it (C71); ratios of these give the worth of the shares; in proportion the curve scales (`OnOrAboveCurve.ratio`), so each distance and fee is a fixed number of units |
| C88 | `computeY`, `swap` of all pools, `getReturn`, routes of `executeActions` | each Newton step of `compute_y` and its stopping rule are compared for two inputs: the result is the floor of the root or one more, and one more only if that is where the step is stationary; so the result is antitone in the input; routes by induction over the pools |
| C89 | `MoreView.lean`: the remaining views of `views.rs`, `get_unit_lpt_assets` of many pools, `mft_metadata`, the echo lists | `mapM` lemmas for the batches; induction over the ids for the map of unit assets, whose keys differ by C41; C69 for the unit share |
| C90 | `compute_y`, `swap`, `get_return` as modelled | the region on or above the exact curve is convex (a product of three mixed factors is at least the product of either end, by the inequality of means over the rationals); the solver stays within a few units of its border (C32, C71); fees and conversions lose a unit each |
| C91 | `swap`, `swap_by_output`, `add_liquidity` of simple pools, `compute_d`, `compute_y`, `swap` of stable pools as modelled | every step of the functions shown to have a result: the iterates of `compute_d` stay between 1 and twice the sum, those of `compute_y` never climb above the first one by more than a unit and their denominators stay positive; the exact curve (C32, C71) gives room for the payment, and the slope of the invariant shows that the protocol's part of the fee is worth shares |
| C92 | `remove_liquidity` of all pools, `add_liquidity` of simple pools as modelled | what is paid is the floor of a share of the reserve; rounding leaves the remaining shares no poorer and the parts' floors add up to no more than the floor of the whole; induction over the list of parts |
| C93 | all farming events | every event leaves the sum of what was paid and what is pending at the current rate equal to the exact share, up to one rounding of the rate and one of the amount; induction on the history |
| C94 | all farming events | the event account of C93 summed over all accounts (stakes add up to the total, C46) against the flow of the farm's books; induction on the history |
| C95 | all exchange calls and callbacks | lower bounds for what a swap leaves in the reserves after converting with precision and rates and back, then the ledger of C55 as an inequality, with the swaps of the history (as in C40) and the redemptions counted; induction on the history |
| C96 | the boost farming contract (`Boost/State`, `Boost/Calls`) | invariant of all calls: seed totals are sums over the farmers, of amounts and of powers; a claim re-reads the boosters, so the proof follows every seed a call touches; induction on the history for what was staked |
| C97 | staking, locking and unlocking; all other calls | the effect of each call on one stake, then case analysis over the calls for everyone else's |
| C98 | rewards, farms, removal | invariant: claimed + beneficiary + Σ pending ≤ distributed ≤ deposited for each farm, credited = claimed over all farms; induction on the history |
| C99 | claim and view | the claim loop computes the view's result; the share from the release since the last update |
| C100 | guards of all calls, registration | case analysis over the calls; induction on the history for the NEAR kept |
| C101 | `internal_do_farmer_claim`, `update_impacted_seeds` | every entry a call touches gets the ratios of the farmer's final stakes; the loop over impacted seeds leaves the booster's own stake as it is |
| C102 | locks, seed limits, release, deposits, end of farms | each method unfolded on reachable states; the release by cases on the farm's status |
| C103 | settings, roles, creation, all other calls | the terms of seeds and farms before and after each call; invariant with induction on the history for the limits |
| C104 | every call that moves a farm or a stake | each call's effect on a farm and on every farmer's power; induction on the history for paid plus open against the fair share |
| C105 | the same | the account of C104 added up over all registered accounts, whose powers add up to the seed's |
| C106 | all calls at one time | every call updates a seed before it changes anything in it, and a second update at the same time changes no rate; induction on the calls |
| C107 | claims and their view, all histories | every check on the way of a claim passes, from the invariant and a bound on the rates; a farm whose update fails keeps every call from changing its seed |
| C108 | list, single and counting views of the boost farming contract, all states and page sizes | the lemmas on pages, the counts from C100 and C103, and an invariant on the farm ids, so that every live farm can be named |
| C109 | all calls of users of the boost farming contract, interleaved histories | what a call changes and what it depends on, as a relation between two runs, by induction on the history |
| C110 | all calls of users of the farming contract and the callbacks, interleaved histories | as C109; the seed of a farm is read off its id, by the injectivity of `gen_farm_id` |
| C111 | the loops over the farms of a seed, with the order an arbitrary input of each call | exchanging two neighbouring farms leaves outcome and contents of the maps unchanged, then induction over the permutation; relation between the states of two runs; that both fail is proved, not that they fail with the same message |
| C112 | all calls of the boost farming contract on two states whose maps have the same entries in any order | exchanging two neighbouring steps of a loop (farm paid, booster counted, boosted seed claimed) leaves outcome and contents unchanged, then induction over the permutation; relation between two states kept by every call; that both fail is proved, not that they fail with the same message |
| C113 | the views and claims of both farming contracts as modelled | the release is the smaller of what is left and what the time calls for, both monotone; with the lemmas of C79 and C106 for calls of others; the farm or seed must be readable at the moments of these calls (C49 and C107 say when it is) |
| C114 | `claim_reward_by_farm` as modelled | the amounts that two distributions release add up to at most what the later one alone would release; the floors of the parts add up to at most the floor of the whole; then induction on the claims |

## 5. Findings: claims the code does not meet

Each is confirmed by a theorem with a concrete witness where one is named; the part
that does hold is proved separately.

* C12: `retrieve_unmanaged_token` checks nothing, so the owner can take tokens that
  belong to depositors (`C12_retrieve_unchecked`).
* C13: replacing the wrapped NEAR token while an unwrapping is under way makes the
  callback credit the new token (`C13_wnear_replaced`). A NEAR transfer that fails
  after a successful unwrapping is not tracked (`C13_near_lost`), and what the receiver
  of a client echo returns is not credited to anybody (`C13_echo_return`).
* C15, C21: every guardian may name another account as the lending contract, so a single
  guardian can liquidate all shares that are pledged for loans into their own account
  (`C15_guardian_seizes`).
* C16: a list of minimum amounts that is too short limits only the first tokens
  (`C16_short_minimum_list`).
* C19: liquidations run while the contract is paused (`C19_liquidation_while_paused`).
* C20: the owner's withdrawals ignore frozen tokens (`C20_owner_withdraws`).
* C21: guardians may unfreeze tokens (`C21_guardian_unfreezes`).
* C22: the constructor accepts any admin fee (`C22_constructor_unbounded`).
* C23: the owner's account may fall below its storage cost (`C23_owner_unpaid`); deposits for
  it then fail.
* C25: `donation_share` moves shares without looking at shadow records (`C25_donation`).
* C27: the value that `mft_resolve_transfer` reports may exceed the refund
  (`C27_reported_refund`).
* C29: a hot zap credits what is left without the whitelist check
  (`C29_unlisted_credit`).
* C36: in a stable pool, a token with more than 18 decimals is paid out in full
  by `remove_liquidity_by_tokens` while the truncated amount is subtracted
  (`C36_remove_tokens_leak`).
* C40: pool ids are cut to 32 bits where volumes are kept: with 2³² pools the next one
  takes over the volumes of pool 0 (`C40_wraps`).
* C41: other ways to write the number of a pool, such as `:+007`, are accepted as ids of its
  shares (`C41_other_names`).
* C42: sender whitelist entries are not checked for form, so `*` admits all
  (`C42_sender_list_open`).
* C47: unregistering between a withdrawal and its failure loses the amount: the
  callback panics (`C47_lost`).
* C49: a farmer without stake who claims records the current rate and is locked out
  once the farm has been idle and the rate starts again from zero (`C49_locked_out`).
  Recorded rates outlive an account, its counter of them does not, so after
  unregistering and coming back the full stake cannot be withdrawn (`C49_stuck`).
  Farm terms are not checked: a session length of zero and a huge reward per session
  block all claims, stakes and withdrawals of the seed (`C49_zero_interval`,
  `C49_overflow`).
* C66: a reply to an older request for several tokens stores a price computed with the
  decimals registered when the request was made, even if the owner has corrected them
  (`C66_stale_decimals`). A positive Pyth price can be stored as 0
  (`C66_small_price_is_stored_as_zero`) and one published in the future is accepted
  (`C66_future_price_is_accepted`). One quote with too few decimals blocks a whole
  batch, contrary to the comment in the code (`C66_one_bad_price_blocks_all`).
* C67: `get_tokens_paged` omits balances kept in the form of the first version
  (`C67_paged_view_omits`). Withdrawing a part of such a balance converts it to a form
  that costs more storage, so it fails if the deposit just covered the old one
  (`C67_partial_withdrawal_blocked`).
* C68: a degen pool reads prices to report its amplification, so once the owner removes the
  price of one of its tokens `get_pool` fails for it and `get_pools` for every page with
  it (`C68_page_blocked`).
* C69: hot zaps (and withdrawals of exchange fees and liquidations) change a pool without
  sampling it first, so that the amounts after the change count for all the time since the last
  sample. One deposit of a single token moves the reported average by 18 percent in a block
  (`C69_hot_zap_moves_average`).
* C70: the sample before every change of a registered pool redeems a whole share on paper. In a
  stable pool with hardly more than one share left this fails because less than the minimum
  reserve would remain, and with it fail all swaps, deposits and withdrawals of the pool, until the
  owner takes down the record (`C70_sampling_blocks`).
* C72: get_tokens_paged leaves out the tokens that an account still keeps in the old format;
  get_deposits lists them (`C72_tokens_paged` speaks of the keys in the new format only).
* C75: `get_share_price` of a stable pool sums the balances instead of computing the invariant, unlike
  its counterpart in rated and degen pools: a trade towards balance lowers it (`C75_trade_lowers`:
  3.00000000 to 2.99986368 in the example), although the invariant per share does not fall (C64).
- **C77.** `withdraw_reward` of the farming contract removes the record of a reward only if no amount is
  named. Naming the whole amount leaves a record of zero, and `storage_unregister` fails with ERR12
  (`C77_stuck`). Withdrawing the zero asks the token for a transfer of zero, which the token standard
  refuses, and the callback puts the zero back (`C77_zero_blocks`): the storage deposit is stuck until a
  new reward in that token is earned and withdrawn without an amount.
- **C79.** `force_clean_farm` gives what farmers have earned and not claimed to the beneficiary as soon as
  all reward has been released; the witness is `C79_clearing_takes`.
- **C80.** `list_degen_tokens` panics as soon as one registered token has no price yet or the configuration
  of its oracle is missing, and so does `batch_get_degen_tokens` for a list with such a token; proved for
  every freshly registered token as `C80_degen_blocked`.
- **C81.** A liquidation lowers the exchange's record of what is pledged to the farm at once and tells the
  farm later, without retrying. If the farm has just given shares back and `callback_on_shadow` has not
  run yet, that callback panics, the farm has nothing in its books, and the exchange goes on counting
  shares as pledged to the farm; they can never be taken back (`C81_overtaken`, `C81_stuck`). If the farm
  refuses the notice, its books stay above the record for good (`C81_refused`). The world of C81 assumes
  that the two contracts keep books as the interface asks, that the lending contract liquidates no more
  than it has in its books, and that the owner does not replace them.
- **C82.** Shares can be held without an account at the exchange: somebody else may register the holder in
  the pool and transfer shares. If such a holder stakes and the farming contract refuses (for example
  because the holder is not registered there), `mft_resolve_transfer` does not give the shares back to
  the holder, who is still registered in the pool, but to the exchange itself, whose owner and guardians
  can withdraw them (`C82_homeless`). A refused stake is also lost if the one who gets the shares has left
  the pool in the meantime, as the callback then panics (`C82_refund_succeeds`).
- **C83.** The shares minted for the protocol fee are computed from floors of square roots, so a swap can
  lower what a share is worth by a fraction of a unit. In a pool with reserves 2 and 4 a single swap does
  so (`C83_rounding`); in pools of ordinary size the loss is far below the trading fee.

- **C38.** Setting or changing the limit of a degen pool reads the pool through `get_pool`, which computes its
  amplification from the stored prices; without a price for one of its tokens no limit can be set or changed
  (`C38_limit_needs_prices`).
- **C91.** Small swaps in an unbalanced curve pool can fail with `ERR67`: the protocol's part of the fee is
  deposited through `compute_lp_amount_for_deposit`, which requires the computed invariant to rise, and
  a unit or two of the abundant token may not raise it. The pool then accepts a smaller and a larger
  swap but not the one between (`C91_small_refused`).
- **C97.** A lock that has run out cannot be undone. `force_unlock`
  refuses it, and the methods that unlock and withdraw are commented out (`C97_expired_stays`). `modify_seed_slash_rate`
  has no upper bound: with a rate above 10000 forcing the unlock of a fresh lock always panics; locking again for a shorter
  time after a lock has run out panics if the power would become less (examples in `Boost/StakeProps`).
- **C99.** Removing an ended farm gives the beneficiary what
  farmers of the boost contract had earned and not claimed (example in `Boost/RewardProps`).
- **C100.** In the boost contract a claim without a stake leaves an empty entry, after which the account
  cannot unregister (example in `Boost/AccessProps`).
- **C102.** In the boost contract a farm whose start has passed before it gets its first reward releases
  at once what it would have released since the start (`C102_retroactive`), to whoever is staked then.
- **C107.** In the boost contract a daily reward is not bounded. When what a running farm is due since
  its last update reaches `2^128`, every call that reads its seed panics for good, the owner's repair
  included (`C107_too_large`).

## 6. Checking

`lake build` in `/verif/lean` from a clean checkout. Axioms are checked with
`#print axioms` on each theorem named in `MANIFEST.json`.
