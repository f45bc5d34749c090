{"id": "C01", "title": "Poll tally equals the sum of recorded votes", "statement": "After any history of governance messages, for every poll and every vote option, the count reported in the poll results equals the sum of the amounts of the votes currently recorded on that poll for that option, modulo 2^128; and it equals that sum exactly whenever the sum of all the recorded votes of the poll fits in 128 bits.", "quantifier": "every finite sequence of CreatePoll / CastVote / UpdateVotes / EndPoll messages with any senders, times, voters, options and amounts; every poll; every option", "why_tests_cant": "re-votes, option switches and weight updates interleave in unboundedly many ways and each must keep an incremental counter in step with a separate vote table", "anchors": ["packages/poll-engine/src/execute.rs: cast_vote", "packages/poll-engine/src/state.rs: increase_results, decrease_results", "contracts/enterprise-governance/src/contract.rs: update_votes"]}
{"id": "C02", "title": "One vote per voter per poll; the latest replaces the former", "statement": "A successful CastVote leaves exactly one vote recorded for that voter on that poll, carrying the option and amount of that message; every other (voter, poll) vote is left unchanged.", "quantifier": "every reachable governance state, every CastVote message", "why_tests_cant": "frame condition over all other voters and polls in an arbitrary state", "anchors": ["packages/poll-engine/src/execute.rs: cast_vote", "packages/poll-engine/src/query.rs: query_poll_voter"]}
{"id": "C03", "title": "Votes are accepted exactly during the voting window of a live poll", "statement": "CastVote sent by the admin succeeds if and only if the poll exists, has not been ended, and the block time lies in [started_at, ends_at); when it fails nothing changes.", "quantifier": "every reachable governance state, every block time, every CastVote message", "why_tests_cant": "boundary of a time interval quantified over all timestamps and all reachable states", "anchors": ["packages/poll-engine/src/execute.rs: cast_vote", "packages/poll-engine/src/validate.rs: validate_within_voting_period, validate_not_already_ended"]}
{"id": "C04", "title": "Poll identifiers are consecutive and poll terms are immutable", "statement": "Poll ids are 1, 2, 3, ... in creation order with none missing (while fewer than 2^64 polls were created), and the proposer, deposit amount, times, quorum, threshold and veto threshold of a poll never change after creation, and a poll is never removed.", "quantifier": "every finite sequence of governance messages, every poll", "why_tests_cant": "an invariant over whole histories", "anchors": ["packages/poll-engine/src/state.rs: increment_poll_id, new_poll", "packages/poll-engine/src/execute.rs: create_poll, cast_vote, end_poll"]}
{"id": "C05", "title": "The final status follows the published rule", "statement": "Ending a poll with a given number of available votes yields: rejected for quorum if cast/available < quorum; otherwise rejected by veto if veto/(cast minus abstain) reaches the veto threshold (or the threshold when no veto threshold is set); otherwise passed if yes reaches the threshold and either no does not or yes > no; rejected by no in the mirror case; a draw when both reach and are equal; and threshold-not-reached otherwise. Ratios are compared exactly to 18 decimals rounded down and an undefined ratio counts as zero.", "quantifier": "every tally of the four options whose total fits 128 bits, every quorum, threshold and veto threshold, every number of available votes", "why_tests_cant": "four 128-bit counts and three 128-bit ratios; the arithmetic of rounding and of division by zero needs a proof for all values", "anchors": ["packages/poll-engine/src/state.rs: final_status, most_voted_over_threshold, ge_threshold, quorum_reached"]}
{"id": "C06", "title": "Veto takes precedence", "statement": "A poll in which the veto share of the non-abstaining cast votes reaches the effective veto threshold never passes, whatever the other counts are; and adding yes, no or abstain weight that leaves the veto share reached does not change this.", "quantifier": "every tally, every configuration of quorum and thresholds, every number of available votes", "why_tests_cant": "holds for all tallies, including those where yes also reaches its threshold", "anchors": ["packages/poll-engine/src/state.rs: most_voted_over_threshold, final_status"]}
{"id": "C07", "title": "Simulated end status equals the status obtained by ending", "statement": "If an EndPoll succeeds, the status then stored is exactly the one that the SimulateEndPollStatus query returned just before for the same number of available votes, and nothing else in the governance state changes.", "quantifier": "every reachable governance state, every EndPoll message that succeeds", "why_tests_cant": "agreement of two code paths on all states", "anchors": ["packages/poll-engine/src/query.rs: query_simulate_end_poll_status", "packages/poll-engine/src/execute.rs: end_poll"]}
{"id": "C08", "title": "When a poll can be ended", "statement": "EndPoll by the admin succeeds if and only if the poll exists and either the voting period is over, or early ending was allowed, quorum is reached and some non-abstain option (or a yes/no draw) reaches its threshold; and, if requested, the poll was not ended before.", "quantifier": "every reachable governance state, every block time, every EndPoll message", "why_tests_cant": "decision logic over the full product of times, tallies and flags", "anchors": ["packages/poll-engine/src/execute.rs: end_poll", "packages/poll-engine/src/validate.rs: validate_can_end_early, validate_voting_period_ended"]}
{"id": "C09", "title": "Only the admin can change governance state", "statement": "Any message from a sender other than the configured admin is refused and leaves polls, votes and the admin unchanged.", "quantifier": "every governance state, every sender, every message", "why_tests_cant": "all message kinds and all states", "anchors": ["contracts/enterprise-governance/src/contract.rs: execute"]}
{"id": "C10", "title": "UpdateVotes rewrites exactly the live votes of one voter", "statement": "After UpdateVotes(voter, w) every vote of that voter on a poll that is in progress and not past its end carries amount w with the option unchanged; the voter's other votes and every vote of every other voter are unchanged; the message never fails for the admin; no poll status changes.", "quantifier": "every reachable governance state, block time, voter and amount", "why_tests_cant": "a loop over an unbounded number of polls, with a frame condition on everything else", "anchors": ["contracts/enterprise-governance/src/contract.rs: update_votes", "packages/poll-engine/src/query.rs: query_voter"]}
{"id": "C11", "title": "Results freeze when voting closes", "statement": "Once the block time has reached the end time of a poll, or the poll was ended, no later message can change its tally or the votes recorded on it.", "quantifier": "every reachable state, every later sequence of messages at non-decreasing times", "why_tests_cant": "a safety property over all continuations", "anchors": ["packages/poll-engine/src/execute.rs: cast_vote, end_poll", "contracts/enterprise-governance/src/contract.rs: update_votes"]}
{"id": "C12", "title": "Passed implies quorum, threshold and strictly more yes than no", "statement": "If ending a poll that has a positive threshold gives Passed, then yes > 0, yes is strictly more than no unless no is below threshold (hence yes >= no and yes > no always when both reach), yes/(cast minus abstain) >= threshold, and cast >= quorum * available when available > 0.", "quantifier": "every tally fitting 128 bits and every poll configuration", "why_tests_cant": "real-number consequences of rounded fixed point comparisons, for all values", "anchors": ["packages/poll-engine/src/state.rs: final_status"]}
{"id": "C13", "title": "Order of different voters' votes is irrelevant", "statement": "CastVote messages from different voters or on different polls commute, whether accepted or not: any batch of votes with no two of the same voter on the same poll gives the same polls, tallies and votes in every order.", "quantifier": "every reachable state, every finite batch of such messages, every permutation of it", "why_tests_cant": "all interleavings", "anchors": ["packages/poll-engine/src/execute.rs: cast_vote"]}
{"id": "C14", "title": "Paging through polls or votes loses and repeats nothing", "statement": "Fetching ascending pages of any positive size, each starting after the last item of the previous page, returns every poll (matching the status filter) exactly once in id order; the same for the votes of a poll and the votes of a voter.", "quantifier": "every stored set of polls or votes, every page size from 1 to 2^32 - 1 (larger limits are cut to 32 bits)", "why_tests_cant": "unbounded collections and page counts", "anchors": ["packages/poll-engine/src/query.rs: query_polls, query_poll_voters, query_voter"]}
{"id": "C15", "title": "An ended poll keeps its status when re-ended past its end", "statement": "Once ended, a poll can be ended again only when the caller clears the already-ended flag, and such a second EndPoll with the same number of available votes gives the same status.", "quantifier": "every reachable state and EndPoll pair", "why_tests_cant": "idempotence over all tallies and flags", "anchors": ["packages/poll-engine/src/execute.rs: end_poll"]}
{"id": "C16", "title": "Total weight equals the sum of member weights (token and denom staking)", "statement": "After any history of a token or denom staking contract the reported total weight equals the sum of the weights of all the members.", "quantifier": "every finite sequence of stake, unstake, claim, import and configuration messages by any senders at any heights and times", "why_tests_cant": "global sum invariant over unbounded histories and members", "anchors": ["packages/token-staking-impl/src/execute.rs: stake_token, add_stakes, unstake", "packages/denom-staking-impl/src/execute.rs: stake_denom, unstake", "packages/membership-common/src/total_weight.rs", "packages/membership-common/src/member_weights.rs"]}
{"id": "C17", "title": "The staking contract can always pay every stake and claim", "statement": "For token and denom staking, tokens received through accepted messages minus tokens paid out equals the sum of all member weights plus the sum of all outstanding claims, after every history; hence with no outside debits the contract balance always covers all stakes and claims.", "quantifier": "every finite history of messages", "why_tests_cant": "conservation law over unbounded histories", "anchors": ["packages/token-staking-impl/src/execute.rs: receive_cw20, unstake, claim", "packages/token-staking-impl/src/claims.rs"]}
{"id": "C18", "title": "Unstaking is bounded by the stake and creates one matching claim", "statement": "Unstake(amount) succeeds exactly when the sender's weight is at least the amount; it lowers the sender's weight and the total by the amount, adds one claim of that amount for the sender, and changes no other member's weight or claims.", "quantifier": "every reachable state, sender, amount, height and time", "why_tests_cant": "all amounts around the balance and a frame condition on all other members", "anchors": ["packages/token-staking-impl/src/execute.rs: unstake", "packages/denom-staking-impl/src/execute.rs: unstake"]}
{"id": "C19", "title": "Claims are paid to their owner, after release, at most once", "statement": "A Claim message pays exactly the sum of the sender's claims whose release time or height has been reached and deletes exactly those; nobody else's claims are affected; claiming for another user is refused.", "quantifier": "every reachable state, sender, named user, height and time", "why_tests_cant": "exactly-once over arbitrary histories and any number of claims", "anchors": ["packages/token-staking-impl/src/execute.rs: claim", "packages/token-staking-impl/src/claims.rs: get_releasable_claims", "packages/denom-staking-impl/src/execute.rs: claim"]}
{"id": "C20", "title": "Claim identifiers are never reused", "statement": "No two claims ever created by a staking contract share an id, including claims that were already paid, so a new claim never overwrites an outstanding one.", "quantifier": "every finite history with fewer than 2^64 claims", "why_tests_cant": "freshness over whole histories", "anchors": ["packages/token-staking-impl/src/claims.rs: add_claim", "packages/denom-staking-impl/src/claims.rs", "packages/nft-staking-impl/src/claims.rs"]}
{"id": "C21", "title": "Only a transfer of the DAO token creates stake", "statement": "A member's weight in a token (denom) staking contract can increase only through a cw20 Send from the configured token contract (a payment of exactly one coin of the configured denom), and by no more than the amount transferred in total.", "quantifier": "every state and message", "why_tests_cant": "all senders, payloads and coin lists", "anchors": ["packages/token-staking-impl/src/execute.rs: receive_cw20", "packages/denom-staking-impl/src/execute.rs: stake_denom"]}
{"id": "C22", "title": "Imported stakes and claims match the transferred amount", "statement": "AddStakes and AddClaims succeed only if the listed amounts sum exactly to the amount of tokens transferred; otherwise the state is unchanged.", "quantifier": "every state, every list of any length with repeated users and zero entries", "why_tests_cant": "lists of arbitrary length with duplicates", "anchors": ["packages/token-staking-impl/src/execute.rs: add_stakes, add_token_claims"]}
{"id": "C23", "title": "Past total weights are immutable and correct", "statement": "The total weight reported for a past height (second) equals the total weight at the start of that block (second) and never changes through later messages.", "quantifier": "every history with non-decreasing heights and times, every past height or second", "why_tests_cant": "snapshot log over unbounded histories", "anchors": ["packages/membership-common/src/total_weight.rs: load_total_weight_at_height, load_total_weight_at_time"]}
{"id": "C24", "title": "Every weight change is reported to every hook", "statement": "A successful stake, AddStakes or unstake sends each registered hook exactly one notification listing the changed member with its old and new weight, in which the new weight is the stored one.", "quantifier": "every state, any number of hooks, every message", "why_tests_cant": "unbounded sets of hooks and members", "anchors": ["packages/membership-common/src/weight_change_hooks.rs: report_weight_change_submsgs", "packages/token-staking-impl/src/execute.rs", "packages/denom-staking-impl/src/execute.rs"]}
{"id": "C25", "title": "Restricted users cannot stake", "statement": "A user the DAO reports as restricted never gains weight through stake or AddStakes; such messages are refused.", "quantifier": "every state, message and restriction oracle", "why_tests_cant": "all message variants including batched imports", "anchors": ["packages/membership-common/src/validate.rs: validate_user_not_restricted", "packages/token-staking-impl/src/execute.rs: stake_token, add_stakes", "packages/denom-staking-impl/src/execute.rs: stake_denom", "packages/nft-staking-impl/src/execute.rs: stake_nft"]}
{"id": "C26", "title": "A claim waits at least the unlocking period", "statement": "A claim created by unstaking cannot be paid before the unlocking period in force at that moment has elapsed since the unstake, provided the release time or height fits 64 bits.", "quantifier": "every state, unlocking period, unstake block and later block", "why_tests_cant": "arithmetic over all 64-bit times, including the wrap-around of unchecked addition", "anchors": ["packages/token-staking-impl/src/execute.rs: calculate_release_at, claim", "packages/denom-staking-impl/src/execute.rs", "packages/nft-staking-impl/src/execute.rs"]}
{"id": "C27", "title": "Changing the unlocking period does not affect existing claims", "statement": "UpdateUnlockingPeriod is accepted only from the DAO's governance controller, and changes neither weights nor the amount, owner or release of an existing claim.", "quantifier": "every state and message", "why_tests_cant": "frame condition over all the claims", "anchors": ["packages/token-staking-impl/src/execute.rs: update_unlocking_period", "packages/denom-staking-impl/src/execute.rs", "packages/nft-staking-impl/src/execute.rs"]}
{"id": "C28", "title": "Each staked NFT has one staker and weight counts NFTs", "statement": "In an NFT staking contract a token id has at most one staker, each member's weight equals the number of NFTs they have staked, and the total weight equals the number of staked NFTs.", "quantifier": "every finite history of messages", "why_tests_cant": "cardinality invariant over unbounded histories", "anchors": ["packages/nft-staking-impl/src/execute.rs: stake_nft, unstake", "packages/nft-staking-impl/src/nft_staking.rs"]}
{"id": "C29", "title": "Every NFT in custody is owed to exactly one user", "statement": "Assuming NFT transfers follow ownership, every NFT the contract accepted and has not sent back is either staked by exactly one user or in exactly one outstanding claim, never both and never twice.", "quantifier": "every finite history", "why_tests_cant": "disjointness of unbounded sets over all histories", "anchors": ["packages/nft-staking-impl/src/execute.rs", "packages/nft-staking-impl/src/claims.rs"]}
{"id": "C30", "title": "NFTs are unstaked only by their staker and returned only to them", "statement": "Unstake fails unless every listed NFT is currently staked by the sender (a repeated id is refused); claimed NFTs go to the user who unstaked them, once, after release.", "quantifier": "every reachable state and message", "why_tests_cant": "lists with repetitions and arbitrary ownership", "anchors": ["packages/nft-staking-impl/src/execute.rs: unstake, claim"]}
{"id": "C31", "title": "Multisig total weight equals the sum of member weights", "statement": "After any history of UpdateMembers and SetMembers the reported total equals the sum of the members' weights.", "quantifier": "every finite history of messages, lists of any length", "why_tests_cant": "sum invariant maintained by in-loop subtraction and addition", "anchors": ["packages/multisig-membership-impl/src/execute.rs: update_members, set_members", "packages/multisig-membership-impl/src/instantiate.rs"]}
{"id": "C32", "title": "Only the controller edits the multisig, and duplicates are refused", "statement": "UpdateMembers and SetMembers from anyone but the governance controller, or listing a member twice, are refused without effect; otherwise listed members get exactly the listed weights, and SetMembers leaves no other member.", "quantifier": "every state, sender and member list", "why_tests_cant": "lists of any length", "anchors": ["packages/multisig-membership-impl/src/execute.rs", "packages/multisig-membership-impl/src/validate.rs"]}
{"id": "C33", "title": "Hooks are told about every multisig weight change", "statement": "After UpdateMembers or SetMembers the notification sent to hooks lists every member whose weight changed.", "quantifier": "every state and member list", "why_tests_cant": "unbounded member sets", "anchors": ["packages/multisig-membership-impl/src/execute.rs: update_members, set_members"]}
{"id": "C34", "title": "The funds distributor is solvent", "statement": "For each asset, the sum over all users of what they have already claimed and what they could claim now never exceeds the total distributed of that asset.", "quantifier": "every finite history of distributions, weight updates, minimum-weight changes and claims; every asset", "why_tests_cant": "an inequality between rounded accumulators that must hold for all histories", "anchors": ["contracts/funds-distributor/src/native_distributions.rs", "contracts/funds-distributor/src/cw20_distributions.rs", "contracts/funds-distributor/src/claim.rs", "contracts/funds-distributor/src/rewards.rs", "contracts/funds-distributor/src/user_weights.rs"]}
{"id": "C35", "title": "Rewards are claimed once", "statement": "Immediately after a successful claim of an asset the user's claimable amount of that asset is zero, so claiming again pays nothing until new rewards arrive; an asset listed twice in one claim is paid once.", "quantifier": "every reachable state, user and list of assets", "why_tests_cant": "lists with repetition, all states", "anchors": ["contracts/funds-distributor/src/claim.rs: claim_rewards"]}
{"id": "C36", "title": "Weight updates never change rewards already accrued", "statement": "A weight update leaves every user's claimable amount of every asset unchanged at the moment it is applied.", "quantifier": "every reachable state, every update list (with repeated users), every user and asset", "why_tests_cant": "rounding may differ between before and after for all values", "anchors": ["contracts/funds-distributor/src/user_weights.rs: update_user_weights", "contracts/funds-distributor/src/rewards.rs"]}
{"id": "C37", "title": "A distribution is shared pro rata", "statement": "Distributing an amount raises a user's claimable amount by less than amount * weight / total effective weight + 1 unit, and by more than that share minus 1 unit minus weight/10^18 (per coin of the denom); other assets are unaffected.", "quantifier": "every reachable state with positive total weight, every amount and user", "why_tests_cant": "two-sided bound over all 128-bit values under floor rounding", "anchors": ["contracts/funds-distributor/src/distributing.rs: distribute_native, distribute_cw20", "contracts/funds-distributor/src/rewards.rs: calculate_user_reward"]}
{"id": "C38", "title": "Users under the minimum weight accrue nothing, and the total counts effective weights only", "statement": "The total weight used in distributions always equals the sum over users of their effective weight, which is their weight if it reaches the minimum and zero otherwise; a user with zero effective weight gains nothing from a distribution.", "quantifier": "every finite history", "why_tests_cant": "sum invariant over unbounded users and threshold changes", "anchors": ["contracts/funds-distributor/src/user_weights.rs", "contracts/funds-distributor/src/eligibility.rs", "contracts/funds-distributor/src/distributing.rs"]}
{"id": "C39", "title": "Changing the minimum weight preserves accrued rewards", "statement": "Executing a change of the minimum eligible weight leaves every user's claimable amounts unchanged and makes exactly the users at or above the new minimum eligible from then on.", "quantifier": "every reachable state, new minimum, user and asset", "why_tests_cant": "a scan of all the users; rounding", "anchors": ["contracts/funds-distributor/src/eligibility.rs: execute_update_minimum_eligible_weight"]}
{"id": "C40", "title": "Nothing can be distributed to nobody", "statement": "A distribution is refused when the total effective weight is zero, so no funds are silently lost.", "quantifier": "every state and amount", "why_tests_cant": "all states", "anchors": ["contracts/funds-distributor/src/distributing.rs"]}
{"id": "C41", "title": "Rewards are claimed only by their owner and never by a restricted user", "statement": "ClaimRewards for a user succeeds only if sent by that user and the user is not restricted, and it pays that user only; the user's rewards are otherwise untouched.", "quantifier": "every state, sender, user", "why_tests_cant": "all combinations", "anchors": ["contracts/funds-distributor/src/claim.rs: claim_rewards"]}
{"id": "C42", "title": "Only the admin can alter weights in the distributor", "statement": "UpdateUserWeights and minimum-weight changes from senders other than the authorised ones are refused without effect.", "quantifier": "every state, sender and message", "why_tests_cant": "all messages", "anchors": ["contracts/funds-distributor/src/user_weights.rs", "contracts/funds-distributor/src/eligibility.rs"]}
{"id": "C43", "title": "Only whitelisted assets are distributed", "statement": "A distribution of an asset is refused without effect unless the DAO's treasury whitelist or the factory's global whitelist contains it, however long the whitelists are.", "quantifier": "every state, coin list and whitelist", "why_tests_cant": "coin lists of any length", "anchors": ["contracts/funds-distributor/src/distributing.rs"]}
{"id": "C44", "title": "A proposal is executed at most once", "statement": "In any history, the action batch of a given proposal is dispatched at most once, and never after the proposal was resolved as rejected.", "quantifier": "every history of controller messages, with every outcome of the sub-messages", "why_tests_cant": "all interleavings of execute, votes and replies", "anchors": ["contracts/enterprise-governance-controller/src/contract.rs: execute_proposal, end_proposal, resolve_ended_proposal, reply"]}
{"id": "C45", "title": "A proposal deposit leaves the contract exactly once and to the right party", "statement": "On resolution of a proposal its deposit is sent back to the depositor, or to the treasury when rejected for quorum or by veto; it is sent exactly once and never before resolution.", "quantifier": "every history, every deposit kind", "why_tests_cant": "exactly-once over all histories", "anchors": ["contracts/enterprise-governance-controller/src/contract.rs: resolve_ended_proposal, return_proposal_deposit, send_proposal_deposit_to"]}
{"id": "C46", "title": "Proposals execute only when allowed in time", "statement": "Executing a proposal succeeds only after its earliest execution time and either after voting ended or, when early execution is enabled, with quorum and threshold reached.", "quantifier": "every state, time and configuration", "why_tests_cant": "all times and tallies", "anchors": ["contracts/enterprise-governance-controller/src/contract.rs: execute_proposal, end_proposal, allows_early_ending", "packages/enterprise-governance-controller-api/src/api.rs: ProposalInfo.is_past_earliest_execution"]}
{"id": "C47", "title": "Actions run only for passed proposals", "statement": "Actions of a proposal are dispatched only if its poll ended as Passed under the final status rule; rejected proposals dispatch none.", "quantifier": "every history", "why_tests_cant": "all poll outcomes", "anchors": ["contracts/enterprise-governance-controller/src/contract.rs: resolve_ended_proposal, execute_proposal_actions"]}
{"id": "C48", "title": "The internal execution entry point is closed to outsiders", "statement": "ExecuteProposalActions is refused unless the sender is the controller itself.", "quantifier": "every state and sender", "why_tests_cant": "all senders", "anchors": ["contracts/enterprise-governance-controller/src/contract.rs: execute_proposal_actions"]}
{"id": "C49", "title": "Council proposals contain only allowed action types", "statement": "A council proposal is created only by a council member while a council is set, and only if each action is of a type allowed for the council; the kinds that could change governance or move funds can never be allowed.", "quantifier": "every state, sender, list of actions, every configuration accepted by validation", "why_tests_cant": "all lists of actions and all reachable configurations", "anchors": ["contracts/enterprise-governance-controller/src/contract.rs: create_council_proposal", "contracts/enterprise-governance-controller/src/validate.rs: validate_allowed_council_proposal_types, validate_dao_council"]}
{"id": "C50", "title": "Proposals hold at most ten actions", "statement": "Every stored proposal has at most ten actions.", "quantifier": "every history", "why_tests_cant": "invariant over histories", "anchors": ["contracts/enterprise-governance-controller/src/validate.rs: validate_proposal_actions"]}
{"id": "C51", "title": "The governance configuration is always valid", "statement": "In every reachable state quorum and threshold (and the veto threshold if set) are in (0, 1], and changes are applied only by a passed proposal.", "quantifier": "every history of configuration changes", "why_tests_cant": "closure of an invariant under arbitrary partial updates", "anchors": ["contracts/enterprise-governance-controller/src/validate.rs: validate_dao_gov_config, validate_update_gov_config, apply_gov_config_changes", "contracts/enterprise-governance-controller/src/contract.rs: update_gov_config"]}
{"id": "C52", "title": "A general proposal requires membership or the minimum deposit", "statement": "A general proposal is created only if its creator is a member (positive weight) or the attached deposit reaches the configured minimum; restricted users cannot create one.", "quantifier": "every state, sender and deposit", "why_tests_cant": "all combinations", "anchors": ["contracts/enterprise-governance-controller/src/contract.rs: create_proposal, assert_sufficient_deposit_or_member, determine_deposit_and_create_proposal"]}
{"id": "C53", "title": "Only membership contracts report weights", "statement": "WeightsChanged is refused unless it comes from the membership or council membership contract; when accepted, each change is forwarded to governance as UpdateVotes and (from membership) to the funds distributor.", "quantifier": "every state, sender and list of changes", "why_tests_cant": "lists of any length", "anchors": ["contracts/enterprise-governance-controller/src/contract.rs: weights_changed"]}
{"id": "C54", "title": "Votes on live general proposals track current weight", "statement": "In any history in which weights change only through the membership contract with the controller registered as a hook, the amount of every vote on a live general poll equals the voter's current weight, so the votes cast never exceed the total weight.", "quantifier": "every history of the composed membership, controller and governance contracts", "why_tests_cant": "a cross-contract invariant over all interleavings", "anchors": ["contracts/enterprise-governance-controller/src/contract.rs: cast_vote, weights_changed", "contracts/enterprise-governance/src/contract.rs: update_votes", "packages/token-staking-impl/src/execute.rs"]}
{"id": "C55", "title": "Council votes are independent of membership weight", "statement": "A vote on a council proposal always counts with the council weight of the voter, whatever happens to their DAO membership weight.", "quantifier": "every history of the composed contracts", "why_tests_cant": "cross-contract interleavings", "anchors": ["contracts/enterprise-governance-controller/src/contract.rs: cast_council_vote, weights_changed", "contracts/enterprise-governance/src/contract.rs: update_votes"]}
{"id": "C56", "title": "The cooldown restarts when the expected outcome changes", "statement": "Whenever a message changes the expected final status of a general proposal with an execution cooldown, the earliest execution time is moved to at least the cooldown after that moment.", "quantifier": "every history", "why_tests_cant": "all ways of changing a tally", "anchors": ["contracts/enterprise-governance-controller/src/contract.rs: cast_vote, weights_changed"]}
{"id": "C57", "title": "The reported status predicts executability", "statement": "If a proposal is reported as in progress (and not executable early) then ExecuteProposal fails; if reported as executable early, passed or rejected (not yet executed), ExecuteProposal succeeds once the earliest execution time has passed.", "quantifier": "every reachable state and time", "why_tests_cant": "agreement of query and execution logic for all tallies and times", "anchors": ["contracts/enterprise-governance-controller/src/contract.rs: poll_to_proposal_response, fix_poll_status, determine_final_status, execute_proposal"]}
{"id": "C58", "title": "Failing actions cannot block resolution", "statement": "If the action batch of a passed proposal fails, the proposal is still marked executed, its deposit is still returned, and no action of the batch has effect.", "quantifier": "every batch and failure point", "why_tests_cant": "every failure position in batches of any length", "anchors": ["contracts/enterprise-governance-controller/src/contract.rs: resolve_ended_proposal, reply"]}
{"id": "C59", "title": "Users without weight cannot vote", "statement": "CastVote by a user with zero weight and CastCouncilVote by a non-member of the council are refused; and restricted users cannot vote.", "quantifier": "every state and sender", "why_tests_cant": "all states", "anchors": ["contracts/enterprise-governance-controller/src/contract.rs: cast_vote, cast_council_vote"]}
{"id": "C60", "title": "Voting never outlasts the unlocking period", "statement": "In a token, denom or NFT DAO the vote duration never exceeds the unlocking period, so that weight used to vote cannot be withdrawn before the vote ends.", "quantifier": "every history of configuration changes", "why_tests_cant": "closure under partial updates", "anchors": ["contracts/enterprise-governance-controller/src/validate.rs: validate_unlocking_period, validate_update_gov_config, validate_dao_gov_config", "contracts/enterprise-governance-controller/src/contract.rs: update_gov_config"]}
{"id": "C61", "title": "Only the admin controls the treasury", "statement": "Spend, DistributeFunds, ExecuteCosmosMsgs, whitelist updates and SetAdmin are refused unless sent by the admin, and then have no effect.", "quantifier": "every state, sender and message", "why_tests_cant": "all messages", "anchors": ["contracts/enterprise-treasury/src/contract.rs", "contracts/enterprise-treasury/src/validate.rs: admin_only"]}
{"id": "C62", "title": "Treasury whitelist behaves as a set and is fully enumerable", "statement": "After an update the whitelist is (old plus added) minus removed; an asset present both in the additions and removals is absent; paging through it with any page size yields each asset exactly once.", "quantifier": "every whitelist, update and page size", "why_tests_cant": "paging across three concatenated stores", "anchors": ["contracts/enterprise-treasury/src/asset_whitelist.rs", "contracts/enterprise-treasury/src/contract.rs: query_asset_whitelist, update_asset_whitelist"]}
{"id": "C63", "title": "Migration of stakes conserves every user's weight", "statement": "During the staged cw20 migration the sum of a user's not-yet-migrated and migrated weight never changes, each batch transfers exactly the sum of the stakes it moves, and after completion every user was moved exactly once.", "quantifier": "every store of stakes, every sequence of batch limits", "why_tests_cant": "unbounded stores split at arbitrary batch boundaries", "anchors": ["contracts/enterprise-treasury/src/migration.rs"]}
{"id": "C64", "title": "DAO wiring is finalized once by its creator and then fixed", "statement": "FinalizeInstantiation succeeds at most once and only for the creator; afterwards component addresses never change, except that the attestation contract can be set or removed by the governance controller.", "quantifier": "every history", "why_tests_cant": "safety over whole histories", "anchors": ["contracts/enterprise/src/contract.rs: finalize_instantiation, set_attestation, remove_attestation"]}
{"id": "C65", "title": "DAO upgrades are monotone and complete", "statement": "UpgradeDao is refused unless sent by the governance controller and the target exceeds the current version; on success, the migrations performed are exactly those of the registered versions in (current, target], in ascending order, each once, and the DAO version becomes the target.", "quantifier": "every set of registered versions, current and target version", "why_tests_cant": "paging over unbounded version registries", "anchors": ["contracts/enterprise/src/contract.rs: upgrade_dao, get_versions_between", "contracts/enterprise-versioning/src/contract.rs: query_versions"]}
{"id": "C66", "title": "Restriction equals missing attestation", "statement": "A user is restricted if and only if an attestation contract is set and the user has not signed it; signing lifts the restriction permanently while that contract stays.", "quantifier": "every history of signatures and attestation settings", "why_tests_cant": "all histories", "anchors": ["contracts/enterprise/src/contract.rs: query_is_restricted_user", "contracts/attestation/src/contract.rs: sign_attestation, has_user_signed"]}
{"id": "C67", "title": "The version registry is append-only by its admin, ordered and enumerable", "statement": "Versions are added or edited by the admin only, adding an existing version is refused, no version is ever removed, the latest version query returns the maximum, and paging lists each version exactly once in increasing order.", "quantifier": "every history and page size", "why_tests_cant": "unbounded registry", "anchors": ["contracts/enterprise-versioning/src/contract.rs"]}
{"id": "C68", "title": "Cross-chain replies are authenticated and used once", "statement": "A reply callback is accepted only for an outstanding callback id and from the account derived for that callback's channel and proxy; it is consumed by the acceptance; a chain's proxy and treasury, once recorded, are never replaced.", "quantifier": "every history of deployments and replies", "why_tests_cant": "replay and interleaving over unbounded histories", "anchors": ["contracts/enterprise-outposts/src/contract.rs: execute_msg_reply_callback, deploy_cross_chain_treasury, add_cross_chain_proxy, add_cross_chain_treasury"]}
{"id": "C69", "title": "DAO numbers are consecutive and listed once", "statement": "DAOs created by the factory get numbers 1, 2, 3, ... and paging through AllDaos returns each created DAO exactly once.", "quantifier": "every history of creations and page size", "why_tests_cant": "unbounded histories", "anchors": ["contracts/enterprise-factory/src/contract.rs: reply, query_all_daos"]}
{"id": "C70", "title": "Initial reward weights equal initial membership", "statement": "When a DAO is created, the funds distributor starts with exactly the initial weights of the DAO's membership contract.", "quantifier": "every creation request", "why_tests_cant": "all combinations of membership kind and council", "anchors": ["contracts/enterprise-factory/src/contract.rs: reply", "contracts/enterprise-factory/src/multisig_membership.rs: instantiate_multisig_membership_contract"]}
{"id": "C71", "title": "Importing a cw3 multisig keeps every voter", "statement": "Importing an existing cw3 multisig yields each of its voters exactly once with its weight, and is refused when the total weight is zero.", "quantifier": "every cw3 voter list and page size of the remote contract", "why_tests_cant": "unbounded paging loop against an external contract", "anchors": ["contracts/enterprise-factory/src/multisig_membership.rs: import_cw3_membership"]}
{"id": "C72", "title": "Rewards never block membership changes", "statement": "As long as less than 2^128 units of each asset have been distributed and weights fit 128 bits, every weight update and every minimum-weight change sent by the admin to the funds distributor is accepted, whatever rewards are pending.", "quantifier": "every finite history, update list and new minimum", "why_tests_cant": "absence of arithmetic failure for all accumulator values reachable by any history", "anchors": ["contracts/funds-distributor/src/user_weights.rs: update_user_weights", "contracts/funds-distributor/src/eligibility.rs: execute_update_minimum_eligible_weight"]}
{"id": "C73", "title": "Reward weights follow membership weights", "statement": "In a DAO whose funds distributor starts with the weights of the membership contract, the weight of every user in the distributor equals the user's membership weight ever after.", "quantifier": "every history of the composed membership, controller, governance and distributor contracts", "why_tests_cant": "agreement of two contracts over every interleaving of stakes, unstakes, proposals and member changes", "anchors": ["contracts/enterprise-governance-controller/src/contract.rs: weights_changed", "contracts/funds-distributor/src/user_weights.rs: update_user_weights"]}
{"id": "C74", "title": "Migrating the enterprise contract migrates every component once", "statement": "When the enterprise contract is migrated, the outposts contract, the funds distributor, the membership contract (to the code for the DAO's kind) and, if present, the council membership contract each get exactly one migration, to the code recorded in version 1.2.1 of the version registry; no other contract gets one.", "quantifier": "every DAO wiring, kind and registry content", "why_tests_cant": "every combination of DAO kind, council and registry", "anchors": ["contracts/enterprise/src/contract.rs: migrate"]}
{"id": "C75", "title": "Remote treasuries obey the governance controller only", "statement": "A message to a treasury on another chain, and a deployment of one, is sent only on behalf of the governance controller; a message goes through the recorded proxy to the recorded treasury of the chain; a deployment is refused once the chain has a treasury; the treasuries are listed exactly once by paging.", "quantifier": "every state, sender, message, page size", "why_tests_cant": "all states and page sequences", "anchors": ["contracts/enterprise-outposts/src/contract.rs: deploy_cross_chain_treasury, execute_cross_chain_treasury, query_cross_chain_treasuries"]}
{"id": "C76", "title": "A creation wires every part of the DAO once", "statement": "Creating a DAO instantiates each of its contracts exactly once, from the code of the version used, with the enterprise contract as the one who may migrate it and with the governance controller as admin or hook where the code says so; exactly these addresses are reported to the enterprise contract, once; nothing of a creation is left for the next one.", "quantifier": "every factory state, creation request, version registry and order of replies", "why_tests_cant": "all kinds of membership, councils, attestations and earlier histories", "anchors": ["contracts/enterprise-factory/src/contract.rs: reply, finalize_dao_creation", "contracts/enterprise-factory/src/denom_membership.rs", "contracts/enterprise-factory/src/token_membership.rs", "contracts/enterprise-factory/src/nft_membership.rs", "contracts/enterprise-factory/src/multisig_membership.rs"]}
{"id": "C77", "title": "A creation is accepted exactly when its membership is valid", "statement": "A creation request goes through exactly if the version exists and the membership is valid: an unlocking period in seconds is not shorter than the vote duration, a new token has no zero balances and has holders or a minter, an imported token without supply has a minter, an imported NFT contract answers as one, a new multisig has members.", "quantifier": "every request, factory state and answers of other contracts", "why_tests_cant": "decision over every request and every answer of external contracts", "anchors": ["contracts/enterprise-factory/src/contract.rs: reply", "contracts/enterprise-factory/src/validate.rs", "contracts/enterprise-factory/src/token_membership.rs"]}
{"id": "C78", "title": "The factory's settings belong to its admin", "statement": "The factory's configuration changes only by a message of its admin; its global whitelists never change; only the factory itself can finish a creation.", "quantifier": "every history of the factory", "why_tests_cant": "every sender, message and history", "anchors": ["contracts/enterprise-factory/src/contract.rs: update_config, finalize_dao_creation"]}
{"id": "C79", "title": "Staking credits exactly what was transferred", "statement": "A stake succeeds exactly when it comes with a transfer of the staked asset (a cw20 Send of the DAO token, exactly one coin of the DAO denom, an NFT of the collection that is not yet staked), the credited user is not restricted and the total fits 128 bits; it raises the weight of exactly that user and the total by exactly the transferred amount, and changes no claim, setting or other member.", "quantifier": "every reachable state of the three staking contracts, every sender, amount, coin list and user", "why_tests_cant": "acceptance is decided for every state and every list of attached coins", "anchors": ["packages/token-staking-impl/src/execute.rs: receive_cw20, stake_token", "packages/denom-staking-impl/src/execute.rs: stake_denom", "packages/nft-staking-impl/src/execute.rs: stake_nft"]}
{"id": "C80", "title": "The staked asset never changes", "statement": "The token, denom or NFT collection held by a staking contract is fixed: no history of messages changes it; a collection known only by its ICS721 proxy becomes the contract named by the proxy, when that contract itself sends a token, and stays it for ever.", "quantifier": "every history of messages of the three staking contracts", "why_tests_cant": "histories of any length", "anchors": ["packages/nft-staking-impl/src/execute.rs: receive_nft", "packages/token-staking-impl/src/config.rs", "packages/denom-staking-impl/src/config.rs"]}
{"id": "C81", "title": "Claim queries are truthful", "statement": "The claims query lists exactly the outstanding claims of the user, each once; the releasable claims query exactly those of them that are due; and what it lists is exactly what the user gets by claiming in that block.", "quantifier": "every reachable state of the three staking contracts, every user and block", "why_tests_cant": "any number of claims and users", "anchors": ["packages/token-staking-impl/src/claims.rs: get_claims, get_releasable_claims", "packages/denom-staking-impl/src/claims.rs", "packages/nft-staking-impl/src/claims.rs"]}
{"id": "C82", "title": "Paging through members and staked NFTs is complete", "statement": "Fetching pages of members of any positive size lists every member once, with the weight that the weight query gives; whoever is not listed has no weight; the listed weights sum to the total weight. The same for the staked NFTs (their number is the total weight) and for the NFTs of one user (their number is the weight of the user).", "quantifier": "every reachable state of the four membership contracts, every page size", "why_tests_cant": "any number of members and any page size", "anchors": ["packages/token-staking-impl/src/query.rs: query_members", "packages/denom-staking-impl/src/query.rs: query_members", "packages/nft-staking-impl/src/query.rs: query_members, query_staked_nfts, query_user_nft_stake", "packages/multisig-membership-impl/src/query.rs: query_members"]}
{"id": "C83", "title": "Weight change hooks are edited by the controller only", "statement": "A membership contract starts with the hooks given to it; adding or removing a hook succeeds exactly when sent by the governance controller and adds or removes exactly that hook; no other message changes the hooks.", "quantifier": "every state, message and sender, for the four membership contracts", "why_tests_cant": "every message and sender", "anchors": ["packages/membership-common/src/weight_change_hooks.rs", "packages/membership-common/src/validate.rs"]}
{"id": "C84", "title": "Token and denom stakes are covered and can be withdrawn", "statement": "Next to the real balances of the staked token or denom, the staking contract always holds at least all stakes plus all outstanding claims. A claim of due funds always goes through and raises the balance of the user by exactly the sum of the user's due claims. Whoever has a stake can unstake any part of it and, once the unlocking period is over, a claim brings at least that amount, whatever others did in the meantime. A stake costs the sender exactly the weight it gives.", "quantifier": "every history of mints, burns, transfers, sends and messages by any accounts, every user and amount", "why_tests_cant": "all histories of a ledger and a contract that call each other", "anchors": ["packages/token-staking-impl/src/execute.rs", "packages/denom-staking-impl/src/execute.rs"]}
{"id": "C85", "title": "Staked NFTs are owned by the contract and can be withdrawn", "statement": "Next to the owners recorded by the cw721 contract, the NFT staking contract owns every token that is staked or in a claim and owes it once only. A token sent for staking is taken exactly when the sender owns it, the user is not restricted and the collection is known. A claim with something due always goes through and makes every due token the user's, moving no other token. Staked tokens can be unstaked and, after the unlocking period, claimed, whatever others did.", "quantifier": "every history of mints, burns, transfers, sends, callbacks and messages by any accounts", "why_tests_cant": "all histories of two contracts and an NFT ledger", "anchors": ["packages/nft-staking-impl/src/execute.rs"]}
{"id": "C86", "title": "The ICS721 callback proxy stakes whole packets, and only for its ICS721 proxy", "statement": "The callback proxy accepts callbacks from its configured ICS721 proxy only, which never changes. A stake request sends each token of the packet once, in order, to the named membership contract for the named user; other callbacks send nothing. With the NFT and the staking contract, a packet is staked as a whole or not at all, and exactly when its tokens are distinct and at the proxy, the collection is known, the user not restricted and the total fits. A token at the proxy leaves it only by a stake request for it.", "quantifier": "every sender, packet and history", "why_tests_cant": "packets of any length in any history", "anchors": ["packages/ics721-callback-proxy-impl/src/execute.rs", "packages/ics721-callback-proxy-impl/src/instantiate.rs", "packages/ics721-callback-proxy-impl/src/query.rs"]}
{"id": "C87", "title": "The funds distributor can always pay what it reports", "statement": "Next to the real balances of all assets, the distributor always holds at least what all users together can claim; the reward query always answers; the claim of an unrestricted user always goes through and pays exactly the claimable amount of each listed asset, once; weight updates by the admin are accepted however much has been distributed, as long as the weights fit; a distribution is paid in full by its sender.", "quantifier": "every history of mints, burns, transfers, sends and messages by any accounts, every set of users, every asset", "why_tests_cant": "unbounded sequences of distributions, claims and weight changes next to real balances", "anchors": ["contracts/funds-distributor/src/claim.rs", "contracts/funds-distributor/src/distributing.rs", "contracts/funds-distributor/src/user_weights.rs", "contracts/funds-distributor/src/rewards.rs"]}
{"id": "C88", "title": "Pages of list queries are bounded, and a short page is the last one", "statement": "Every list query returns at most the page size asked for (default and maximum as configured: 50/100 for members, staked NFTs, DAOs and treasuries on other chains, 30/100 for treasury whitelists, 10/50 for versions; no maximum for polls and votes, whose limits are taken below 2^32). All items returned are stored, match the filter, are past the cursor and not beyond the end asked for; and when a page has fewer items than its bound, no such item is missing from it.", "quantifier": "every state, cursor, limit, filter and order", "why_tests_cant": "unbounded collections and all cursors, stored or not", "anchors": ["packages/token-staking-impl/src/query.rs", "packages/nft-staking-impl/src/query.rs", "contracts/enterprise-treasury/src/contract.rs", "contracts/enterprise-outposts/src/contract.rs", "contracts/enterprise-versioning/src/contract.rs", "contracts/enterprise-factory/src/contract.rs", "packages/poll-engine/src/query.rs"]}
{"id": "C89", "title": "Terms of a new proposal", "statement": "A created proposal is stored under the next number with exactly the proposer, title, description and actions given, the quorum, thresholds and voting duration of the configuration (of the council, for council proposals) at that time, no votes, and a deposit of exactly what was attached, in the name of the deposit owner if one is given and of the proposer otherwise. Nothing else changes.", "quantifier": "every message that creates a proposal, in every state, with any answers of the other contracts, as long as the end of voting fits 64 bits of nanoseconds", "why_tests_cant": "all combinations of messages, configurations and DAO types", "anchors": ["contracts/enterprise-governance-controller/src/contract.rs", "packages/poll-engine/src/execute.rs"]}
{"id": "C90", "title": "When a proposal is accepted", "statement": "A general proposal is accepted exactly when it comes in the way the DAO's type asks for, on behalf of an unrestricted user who is a member or attaches the minimum deposit, whichever the configuration asks for, with at most ten actions each of which is valid (valid configuration and council after the change, whitelists without duplicates or overlaps, a newer version, well-formed custom messages, multisig changes only in multisigs, no cw1155 in local funding). A council proposal is accepted exactly when a council is set, the sender is an unrestricted council member, and its at most ten actions are valid and of allowed types.", "quantifier": "every reachable state of the controller, every message and sender, every answer of the other contracts, as long as the end of voting fits 64 bits of nanoseconds", "why_tests_cant": "an equivalence over all proposals, in both directions", "anchors": ["contracts/enterprise-governance-controller/src/contract.rs", "contracts/enterprise-governance-controller/src/validate.rs"]}
{"id": "C91", "title": "What the execution of actions does", "statement": "Executing the actions of a proposal does what each action asks for, in order and no more, sends exactly the corresponding messages, and fails as a whole if one of them fails; only the controller itself can start it. The payments that treasuries are told to make are exactly those in the proposal.", "quantifier": "every list of actions, every state", "why_tests_cant": "unbounded lists of fourteen kinds of actions, each depending on the state left by the previous ones", "anchors": ["contracts/enterprise-governance-controller/src/contract.rs"]}
{"id": "C92", "title": "Initial treasuries on other chains are deployed at most once", "statement": "The treasuries listed at the creation of a DAO are deployed at most once, all together and in order; the message is accepted exactly in blocks with the creation time and from the creator of the controller.", "quantifier": "every history of messages after instantiation", "why_tests_cant": "unbounded histories", "anchors": ["contracts/enterprise-governance-controller/src/contract.rs"]}
{"id": "C93", "title": "The lists of proposals and votes agree with the single queries", "statement": "The list of proposals always answers; each item is exactly what the query for that proposal returns; a page has at most min(limit or 50, 100) items and a short page is the last one; read page by page it gives the proposals 1 to n once each, in order. The listed votes of a proposal are those that the query for one member returns.", "quantifier": "every reachable DAO, cursor and limit", "why_tests_cant": "unbounded collections in all reachable states", "anchors": ["contracts/enterprise-governance-controller/src/contract.rs", "packages/poll-engine/src/query.rs"]}
{"id": "C94", "title": "Filtering proposals by status", "statement": "The list of proposals with a status filter contains exactly the proposals that are reported with that status.", "quantifier": "every reachable DAO, filter, cursor and limit", "why_tests_cant": "all reachable states and moments", "anchors": ["contracts/enterprise-governance-controller/src/contract.rs", "packages/enterprise-governance-controller-api/src/api.rs"]}
{"id": "C95", "title": "The facade resolves an address to the right DAO", "statement": "An address is resolved to a facade and a DAO exactly if it is a legacy DAO, a treasury whose admin belongs to a DAO, or an enterprise contract with known components; naming a DAO by its treasury or by its enterprise contract gives the same answer to every query; no other component stands for the DAO.", "quantifier": "every chain content, address, query", "why_tests_cant": "all states, addresses, amounts and histories, across several contracts", "anchors": ["contracts/enterprise-facade/src/facade.rs", "contracts/enterprise-facade/src/contract.rs"]}
{"id": "C96", "title": "The description of a DAO agrees with its contracts", "statement": "Date, metadata, version, type, governance unit, unlocking period, voting rules and addresses that the facade reports are those that the contracts hold; the reported veto threshold is the one that polls use. The description is available exactly if the version code fits and, before 1.2.0, the NFT contract is known.", "quantifier": "every DAO state, every DAO type", "why_tests_cant": "all states, addresses, amounts and histories, across several contracts", "anchors": ["contracts/enterprise-facade-v2/src/facade_v2.rs"]}
{"id": "C97", "title": "The facade reports the whole council and an unambiguous version code", "statement": "The description names all members of the council, and version codes compare like the versions.", "quantifier": "every DAO state", "why_tests_cant": "all states, addresses, amounts and histories, across several contracts", "anchors": ["contracts/enterprise-facade-v2/src/facade_v2.rs"]}
{"id": "C98", "title": "Voting power is the share of the total weight", "statement": "The voting power of a member is weight / total rounded down to 18 decimals, zero without any weight, and the query always answers; the powers of all members add up to one less rounding.", "quantifier": "every reachable DAO and user", "why_tests_cant": "all states, addresses, amounts and histories, across several contracts", "anchors": ["contracts/enterprise-facade-v2/src/facade_v2.rs"]}
{"id": "C99", "title": "Staking, unstaking and claiming through the facade", "statement": "The messages that the facade makes stake, unstake and claim exactly what was asked for, from the user who sends them, and they succeed in the token, coin and NFT contracts; after the unlocking period the user has everything back. Stake requests of the wrong kind and claims in a multisig DAO are refused; unstake requests are passed on whatever their kind.", "quantifier": "every reachable staking state with ledgers, user, amount, token list", "why_tests_cant": "all states, addresses, amounts and histories, across several contracts", "anchors": ["contracts/enterprise-facade-v2/src/facade_v2.rs"]}
{"id": "C100", "title": "Coins for messages to other chains", "statement": "The request to execute a proposal sends to the outposts contract one uluna for each message that the actions of the proposal send there, and calls the controller once.", "quantifier": "every reachable DAO and proposal", "why_tests_cant": "all states, addresses, amounts and histories, across several contracts", "anchors": ["contracts/enterprise-facade-v2/src/facade_v2.rs", "contracts/enterprise-outposts/src/contract.rs"]}
{"id": "C101", "title": "Proposals and votes through the facade", "statement": "A proposal requested through the facade, with a deposit of coins, tokens or NFTs or with none, or for the council, is one call of the controller that carries exactly the deposit; the stored proposal is the user's, as asked for, with that deposit. NFT deposits go through and end at the controller. A vote is recorded as asked for.", "quantifier": "every DAO, user, proposal, deposit and vote", "why_tests_cant": "all states, addresses, amounts and histories, across several contracts", "anchors": ["contracts/enterprise-facade-v2/src/facade_v2.rs", "contracts/enterprise-governance-controller/src/contract.rs"]}
{"id": "C102", "title": "Requests for legacy DAOs say the same", "statement": "A proposal for a DAO from before the rewrite is turned into one message with the same texts and with actions that ask for the same, in the same order; what cannot be said is refused; the actions shown for a legacy proposal are the proposed ones.", "quantifier": "every proposal, registry of versions, legacy DAO", "why_tests_cant": "all states, addresses, amounts and histories, across several contracts", "anchors": ["contracts/enterprise-facade-v1/src/facade_v1.rs", "contracts/enterprise-facade-v1/src/v1_structs.rs"]}
{"id": "C103", "title": "Statuses of legacy proposals", "statement": "A proposal of a legacy DAO that is in progress is shown with the status that the published rule gives for its votes: passed or rejected after the end of voting, and before it ready for early execution or in progress; lists and single queries agree.", "quantifier": "every legacy DAO, proposal, counts of votes and moment", "why_tests_cant": "all states, addresses, amounts and histories, across several contracts", "anchors": ["contracts/enterprise-facade-v1/src/facade_v1.rs"]}
{"id": "C104", "title": "The other queries of the facade", "statement": "Stakes, total stake, staked NFTs, claims, members, whitelists, treasuries, proposals and the state of the stake migration that the facade reports are those of the DAO's contracts; the total is the sum of the stakes; pages are full unless they have all the rest.", "quantifier": "every DAO (reachable where stated), user, cursor and limit", "why_tests_cant": "all states, addresses, amounts and histories, across several contracts", "anchors": ["contracts/enterprise-facade-v2/src/facade_v2.rs"]}
{"id": "C105", "title": "Deposits are there when they are due", "statement": "Unless the custom messages of proposals that passed spend them: the controller at all times has at least the sum, per asset, of the deposits of all unresolved proposals; every NFT deposited for an unresolved proposal belongs to the controller, is approved to nobody and is deposited for no other; the transfers that a resolution makes succeed whatever the actions do in between, and give the whole deposit to the depositor, or to the treasury if it is forfeited, and nothing to anybody else.", "quantifier": "every history of proposals, votes, executions, transfers, mints, burns and approvals, by any accounts, in any DAO type", "why_tests_cant": "all histories, interleavings, amounts and tokens, across several contracts", "anchors": ["contracts/enterprise-governance-controller/src/contract.rs: create_proposal_with_nft_deposit, determine_deposit_and_create_proposal, receive_cw20, resolve_ended_proposal, send_proposal_deposit_to"]}
{"id": "C106", "title": "The treasury pays for approved proposals and for nothing else", "statement": "A treasury balance goes down only when a proposal that passed is executed for the first time, and that proposal asks for funds or contains a custom message or an upgrade; a proposal without these moves exactly the payments it asks for, all of them or none, and the deposit, and changes no other balance; an affordable request for funds is paid in full; over any history the treasury keeps what it started with, less what the executed proposals that passed asked for, each counted once.", "quantifier": "every history of proposals, votes, executions, claims, distributions, transfers, mints and burns, by any accounts; for the bound over histories, custom messages that do not touch the treasury", "why_tests_cant": "all histories, interleavings and amounts, across controller, governance, treasury, distributor and tokens", "anchors": ["contracts/enterprise-governance-controller/src/contract.rs: execute_proposal, resolve_ended_proposal, execute_proposal_actions", "contracts/enterprise-treasury/src/contract.rs: spend, distribute_funds", "contracts/funds-distributor/src/distributing.rs"]}
{"id": "C107", "title": "A created DAO starts in the state that the theorems about DAOs assume", "statement": "When a creation succeeds, the contracts of the new DAO are on the chain in a state that the model of a DAO reaches from a new DAO; they know each other, obey the controller and report to it alone; type, voting rules, council and whitelists are those asked for; facades find the DAO with all its parts; no contract that existed before changes.", "quantifier": "every creation by the factory, of each kind of membership, with or without council, attestation and cross-chain treasuries, on any chain and at any free addresses", "why_tests_cant": "all requests, chains and addresses; it discharges the initial-state hypotheses of the other theorems", "anchors": ["contracts/enterprise-factory/src/contract.rs: create_dao_with_version_info, reply, finalize_dao_creation", "contracts/enterprise/src/contract.rs: instantiate, finalize_instantiation", "instantiate of the controller, governance, treasury, outposts, distributor and membership contracts"]}
{"id": "C108", "title": "What the query of a proposal reports", "statement": "From its creation on, the query of a proposal answers and shows the kind, proposer, title, description, actions, start and end of voting of what was proposed, the sums of the votes recorded on it, and next to them the total weight of the body that decides: the current one while voting goes on, the one at the end of voting afterwards, and for an executed proposal the one at the time of execution if that was before the end.", "quantifier": "every history of a DAO, every proposal, at every later moment", "why_tests_cant": "all histories and moments, across controller, governance and membership contracts", "anchors": ["contracts/enterprise-governance-controller/src/contract.rs: query_proposal, poll_to_proposal_response, total_available_votes"]}
{"id": "C109", "title": "The outcome is settled when voting ends", "statement": "Once voting on a proposal has ended, nothing that happens later changes its votes, the total weight they are measured against or its status, except that it becomes executed; and the result of the execution is the one that was reported when voting ended: the published rule applied to the votes and the total weight of that moment. The total weight at a moment is the weight at the last block of an earlier second.", "quantifier": "every history of a DAO, every proposal, every later history", "why_tests_cant": "all later histories: stakes, unstakes, votes, membership and council changes", "anchors": ["contracts/enterprise-governance-controller/src/contract.rs: execute_proposal, end_proposal, poll_to_proposal_response", "contracts/enterprise-governance/src/contract.rs: end_poll", "packages/membership-common/src/total_weight.rs"]}
{"id": "C110", "title": "Votes never exceed the total weight they are measured against", "statement": "The votes cast on a general proposal are at most the total weight that they are compared with for the quorum, while voting goes on and after it has ended.", "quantifier": "every history of a DAO, every general proposal", "why_tests_cant": "depends on the times of blocks within a second", "anchors": ["contracts/enterprise-governance-controller/src/contract.rs: end_proposal, poll_to_proposal_response", "packages/membership-common/src/total_weight.rs: load_total_weight_at_time"]}
{"id": "C111", "title": "The data of a DAO changes only as its controller names it", "statement": "Metadata, registry of versions, factory and version of a DAO change only by a message of its governance controller. An update changes exactly the fields that it names, to the values that it names. Custom messages are sent once each, in order, or not at all.", "quantifier": "every state, sender, message and step of a history", "why_tests_cant": "all states, senders and combinations of fields", "anchors": ["contracts/enterprise/src/contract.rs: update_metadata, update_config, upgrade_dao, execute_msgs"]}
{"id": "C112", "title": "Nothing of a distribution gets lost but for rounding", "statement": "What was distributed of an asset has been paid to the users or can be claimed by them, except for rounding losses: less than one unit for each user, each claim and each change of a user's weight or eligibility, and at most the total weight over 10^18 for each coin distributed.", "quantifier": "every finite history with less than 2^128 units distributed, every asset", "why_tests_cant": "losses accumulate over arbitrarily long histories", "anchors": ["contracts/funds-distributor/src/distributing.rs: distribute_native, distribute_cw20", "contracts/funds-distributor/src/native_distributions.rs: update_user_native_distributions", "contracts/funds-distributor/src/rewards.rs: calculate_new_user_reward", "contracts/funds-distributor/src/claim.rs: claim_rewards"]}
{"id": "C113", "title": "The factory recognises the code of every DAO it lists", "statement": "Asked whether a code is that of an enterprise contract, the factory says yes for the code of the contract that each DAO it has created is listed under; the codes it lists, page by page, are all recognised, each listed once.", "quantifier": "every factory state, creation request, version registry, list of codes known from before and page size", "why_tests_cant": "all creations, versions and registries; no test asks for codes at all", "anchors": ["contracts/enterprise-factory/src/contract.rs:833-892", "contracts/enterprise-factory/src/state.rs:21"]}
{"id": "C114", "title": "Versions and their texts", "statement": "The text of a version is read as that version, so different versions have different texts; a text is read as a version exactly if it is three numerals of digits (each possibly after a plus sign) that fit 64 bits, separated by single dots, and then as the version of their values.", "quantifier": "every string, every version of 64-bit numbers", "why_tests_cant": "all strings and all versions; the code has no test for parsing (a TODO asks for them)", "anchors": ["packages/enterprise-versioning-api/src/api.rs:6-66"]}
{"id": "C115", "title": "A completed migration has moved every stake and claim to the membership contract", "statement": "While stakes and claims of an old DAO are migrated, each staked NFT is staked by the same user in the treasury or in the staking contract, and each user's stakes and claims in the two together stay the same; once the migration says completed, the staking contract (if it was empty) has exactly the stakes, weights and claims that the treasury had; and if nobody who has staked is restricted, any sequence of steps with positive batch sizes completes once the batch sizes exceed the number of items.", "quantifier": "every store of token or NFT stakes and claims, every sequence of migration steps with any batch sizes and failures", "why_tests_cant": "unbounded stores split at arbitrary batch boundaries across two contracts", "anchors": ["contracts/enterprise-treasury/src/migration.rs:78-459", "packages/token-staking-impl/src/execute.rs", "packages/nft-staking-impl/src/execute.rs:26-123"]}
{"id": "C116", "title": "A vote counts what the members weigh when it ends", "statement": "The result of a general proposal is what the published rule gives for the weights that the members who chose each option have when it ends: at the last block before the end of voting, or when it is executed early; and for the total weight then (for the total weight recorded for the second in which voting ends, if that block lies in that second). So a proposal only passes if the members who chose yes have at least the threshold's share of the weight of those who chose yes, no or veto, and any group that includes everyone who voted has at least the quorum's share of the total weight.", "quantifier": "every general proposal of every DAO, every history of stakes, unstakes, votes and blocks before the end, and anything afterwards", "why_tests_cant": "relates weights in one contract to votes recorded in another over unbounded histories; members change their weight after voting", "anchors": ["contracts/enterprise-governance-controller/src/contract.rs", "packages/poll-engine/src/state.rs", "packages/poll-engine/src/execute.rs", "packages/membership-common/src/member_weights.rs"]}
{"id": "C117", "title": "Members can always leave", "statement": "In a token, denom or NFT DAO nothing can keep a member from unstaking: any part of the stake (any of the member's own NFTs) is accepted by the staking contract and by the controller, governance and distributor that it notifies; it becomes a claim of the member, and nobody else's weight or claim changes. Assumed: the counters of claims and proposals are not exhausted, and the rewards due of each asset fit 128 bits.", "quantifier": "every state of the DAO reachable by any history, every member, amount or set of NFTs, and any answers of other contracts", "why_tests_cant": "needs that no arithmetic check in four contracts can fail in any reachable state", "anchors": ["packages/token-staking-impl/src/execute.rs", "packages/nft-staking-impl/src/execute.rs:126-175", "contracts/enterprise-governance-controller/src/contract.rs:1293-1357", "contracts/funds-distributor/src/user_weights.rs:64-129"]}
{"id": "C118", "title": "Members can always vote", "statement": "A vote on a general proposal is accepted exactly if the proposal exists, is not executed, voting has not ended, and the sender has weight and is not restricted; for council proposals with the weight in the council, and if there is a council. The vote replaces the sender's former vote on that proposal with the current weight, and changes no other vote, no weight and no result.", "quantifier": "every reachable state of the composed contracts, every sender, proposal and option", "why_tests_cant": "an equivalence over all reachable states of several contracts", "anchors": ["contracts/enterprise-governance-controller/src/contract.rs", "packages/poll-engine/src/execute.rs"]}
{"id": "C119", "title": "Anyone who is not restricted can join", "statement": "Tokens, coins or an NFT sent to the staking contract of a DAO for a user are accepted by it and by the controller, governance and distributor that it notifies exactly if the user is not restricted (and the NFT is not staked already); the user's weight grows by exactly the amount (by one for an NFT) and nobody else's weight changes. Assumed: the total stake and the total of the weights for rewards fit 128 bits with the new stake, and so do the rewards due of each asset.", "quantifier": "every state of the DAO reachable by any history, every user, amount or NFT, and any answers of other contracts", "why_tests_cant": "needs that no check in four contracts can fail in any reachable state", "anchors": ["packages/token-staking-impl/src/execute.rs:26-69", "packages/denom-staking-impl/src/execute.rs:21-59", "packages/nft-staking-impl/src/execute.rs:26-106", "contracts/enterprise-governance-controller/src/contract.rs:1293-1357", "contracts/funds-distributor/src/user_weights.rs:64-129"]}
{"id": "C120", "title": "A proposal can be resolved after voting exactly if somebody could vote at its end", "statement": "When voting on a proposal is over and it is not resolved yet: if the total weight of its voters at the end of voting is not zero, anyone who is not restricted can execute it, and it is resolved and its deposit paid whatever happens to its actions; if that total is zero, it is never resolved, and nothing of its deposit is ever paid to anyone.", "quantifier": "every reachable state of the composed contracts, every general or council proposal, every sender, every later history", "why_tests_cant": "a liveness claim and a statement about all later histories", "anchors": ["contracts/enterprise-governance-controller/src/contract.rs:643-845", "packages/poll-engine/src/execute.rs:96"]}
{"id": "C121", "title": "Nobody can take what a member has staked, unstaked or earned", "statement": "For each user: what the user has staked, has in claims and has been paid is, after any history, exactly what the user had before plus what accepted messages brought in for the user (for NFTs: token by token). What the user can claim in rewards is later paid to the user or can still be claimed. If the user sends no message, the stake does not fall (staked NFTs stay staked for the user), every claim of the user stays as it is, nothing is paid to the user by the distributor and the claimable rewards do not fall, whatever everybody else, the DAO and the controller do. For rewards it is assumed that less than 2^128 units of the asset are distributed in all.", "quantifier": "every reachable state of the token, denom and NFT staking contracts and of the funds distributor, every user, token and asset, every later history", "why_tests_cant": "a statement about all later histories with arbitrary senders and messages", "anchors": ["packages/token-staking-impl/src/execute.rs:26-244", "packages/denom-staking-impl/src/execute.rs:21-160", "packages/nft-staking-impl/src/execute.rs:26-249", "contracts/funds-distributor/src/claim.rs:1-121", "contracts/funds-distributor/src/user_weights.rs:64-129"]}
{"id": "C122", "title": "What a group of members can decide or prevent", "statement": "Take the last block before the end of voting on a general proposal that is still open (not in the very second in which voting ends). A group of members who all chose yes, with more than half of the weight, with the shares asked for by quorum and threshold, and against whom the others lack the share for a veto, has the proposal passed: it passes whenever it is executed, and anyone who is not restricted can execute it. If all of a group chose no or veto and the others lack the threshold's share, the proposal never passes, neither then nor by an earlier execution. A group with the veto threshold's share that vetoes has it rejected with its deposit forfeited. A group that stays away and without which the others lack the quorum's share has it rejected for lack of quorum.", "quantifier": "every reachable state of the composed contracts, every general proposal, every group of accounts, whatever the others have voted, every later history", "why_tests_cant": "all distributions of votes and weights, all groups, and all later histories", "anchors": ["packages/poll-engine/src/state.rs:627-860", "packages/poll-engine/src/execute.rs:96-146", "contracts/enterprise-governance-controller/src/contract.rs:643-845"]}
{"id": "C123", "title": "A new governance controller holds what it is given", "statement": "A governance controller is set up exactly with a valid configuration (and, if there is a council, with a valid council without duplicate members). It then holds the configuration, the council's rules, the treasuries to deploy and the proposals it was given, the last of those given with the same identifier, and it is not in the middle of creating, voting on or executing a proposal.", "quantifier": "every instantiation message, any number of proposals given", "why_tests_cant": "lists of proposals of any length, with or without repeated identifiers, and all configurations", "anchors": ["contracts/enterprise-governance-controller/src/contract.rs:115-153", "contracts/enterprise-governance-controller/src/validate.rs:31-63", "contracts/enterprise-governance-controller/src/validate.rs:393-520"]}
{"id": "C124", "title": "Over any history a user gets the exact pro rata share of the rewards", "statement": "What a user has been paid of an asset and can still claim never exceeds the user's exact share: the sum, over all distributions of the asset so far, of the amount times the user's effective weight over that of all users at the time. It falls short of the exact share by less than one unit, plus one unit for each claim of the user for that asset, for each change of the user's weight and for each change of the minimum that makes the user eligible or not, plus the user's weight over 10^18 for each coin distributed. The exact shares of all users add up to what was distributed.", "quantifier": "every finite history from instantiation, every user and asset; for the lower bound less than 2^128 units distributed", "why_tests_cant": "any number of distributions, claims, weight changes and changes of the minimum in any order; the bounds are over the rationals", "anchors": ["contracts/funds-distributor/src/distributing.rs:22-86", "contracts/funds-distributor/src/claim.rs:22-110", "contracts/funds-distributor/src/user_weights.rs:64-191", "contracts/funds-distributor/src/eligibility.rs:18-116", "contracts/funds-distributor/src/rewards.rs:15-111"]}
{"id": "C125", "title": "In a DAO rewards are shared in proportion to what the members have staked", "statement": "Whatever happens in a DAO from its creation (stakes, unstakes, proposals and their actions, distributions, claims), what a user has been paid of an asset and can still claim never exceeds the sum, over all distributions of the asset, of the part of it that the user's voting weight in the membership contract was of the weight of all the members at that time (those below the minimum for rewards left out). It falls short of that by less than one unit, plus one unit for each claim of the user for that asset, for each change of the user's voting weight and for each change of the minimum that makes the user eligible or not, plus the stake over 10^18 for each coin distributed. The parts of all the members add up to what was distributed.", "quantifier": "every history of the composed contracts from a new DAO, every user and asset; the user's reward weight starts as the voting weight, and for the lower bound and the sum everybody's does; for the lower bound less than 2^128 units distributed", "why_tests_cant": "any number of transactions of any kind through several contracts; the weights come from the membership contract by way of the governance controller", "anchors": ["contracts/enterprise-governance-controller/src/contract.rs:1293-1357", "contracts/funds-distributor/src/distributing.rs:22-86", "contracts/funds-distributor/src/claim.rs:22-110", "contracts/funds-distributor/src/user_weights.rs:64-191", "packages/membership-common/src/weight_change_hooks.rs:60-75"]}
{"id": "C126", "title": "A new DAO gets the token or NFT collection that it asked for", "statement": "A creation that asks for a new token instantiates exactly one, from the factory's token code, and the membership contract accepts that token as stake. Each account gets the balances asked for it, and the treasury moreover the balance asked for the DAO; all balances are positive. The minter and the owner of the marketing information are those asked for, or else the enterprise contract, which may also migrate the token. The same holds for a new NFT collection and its minter. No other creation makes a token or a collection, and what is imported is what the membership contract accepts, with the unlocking period asked for.", "quantifier": "every successful creation, every request, any number of initial balances", "why_tests_cant": "lists of balances of any length, accounts named several times or equal to the treasury, all combinations of optional settings", "anchors": ["contracts/enterprise-factory/src/token_membership.rs:18-186", "contracts/enterprise-factory/src/nft_membership.rs:17-141", "contracts/enterprise-factory/src/denom_membership.rs:13-50", "contracts/enterprise-factory/src/multisig_membership.rs:20-123"]}
{"id": "C127", "title": "When an early result is beyond recall", "statement": "A general proposal that is executed before the end of voting gets the result that the published rule gives for the choices made so far. If it passes, this result is beyond recall (the same however those who have not voted would vote, as long as the others stand by their votes and weights stay the same) exactly if it would pass both if all the others voted no and if they all vetoed. If it does not pass, this is beyond recall exactly if it would not pass either if all the others voted yes.", "quantifier": "every reachable state of the composed contracts, every general proposal that is executed early, all choices of all members who have not voted", "why_tests_cant": "any number of members with any weights, and all combinations of their outstanding votes", "anchors": ["packages/poll-engine/src/execute.rs:95-124", "packages/poll-engine/src/validate.rs:40-94", "packages/poll-engine/src/state.rs:815-868", "contracts/enterprise-governance-controller/src/contract.rs:640-760"]}
{"id": "C128", "title": "A migration step moves no more items than its batch size", "statement": "A step of the migration of an old DAO sends and removes at most as many stakes and claims as the batch size asked for (if none is given, 100 for token DAOs and 20 for NFT DAOs), and exactly that many when it leaves the migration unfinished.", "quantifier": "every store of stakes and claims, every batch size", "why_tests_cant": "any number of users, stakes and claims; the claims are taken in nested loops that stop and resume in the middle of a user's list", "anchors": ["contracts/enterprise-treasury/src/migration.rs:164-459"]}
{"id": "C129", "title": "The migration step that anybody may send does nothing to DAOs with nothing to migrate", "statement": "The treasury of a DAO whose migration was never started, as in all DAOs made by the factory, refuses every migration step, whoever sends it. Once the migration of a token or NFT DAO says completed, it stays completed, and all further steps are refused. The steps of a multisig DAO send nothing and change nothing but the recorded stage, and those of denom DAOs are refused.", "quantifier": "every store of stakes and claims, every sequence of steps by anybody with any batch sizes", "why_tests_cant": "sequences of any length, and all contents of the stores", "anchors": ["contracts/enterprise-treasury/src/migration.rs:78-162", "contracts/enterprise-treasury/src/migration.rs:397-459", "contracts/enterprise-treasury/src/contract.rs:386-408"]}
{"id": "C130", "title": "The rules and the council of a DAO are amended by the actions of passed proposals and by nothing else", "statement": "Over any history of a DAO, its configuration, the rules for its council, its unlocking period, the minimum weight for rewards, the members of the council and, in a multisig DAO, the members and their weights are those from before, amended in order by messages that the controller sent. Each such message is the run of the actions of a proposal that passed, or is asked for by one of the actions of such a proposal, and the actions of a proposal are run at most once. As long as no proposal has its actions run, all of these rules stay as they are, whatever is staked, voted, claimed or distributed.", "quantifier": "every reachable state of the composed contracts, every history of transactions, sub-messages and blocks, every sender and message", "why_tests_cant": "it is about all messages that could bear on the rules, through any nesting of calls between five contracts, not about a given sequence", "anchors": ["contracts/enterprise-governance-controller/src/contract.rs:846-1012", "contracts/enterprise-governance-controller/src/contract.rs:1091-1194", "packages/multisig-membership-impl/src/execute.rs", "contracts/funds-distributor/src/eligibility.rs:18-52", "packages/nft-staking-impl/src/execute.rs", "packages/token-staking-impl/src/execute.rs"]}
{"id": "C131", "title": "Funds that a proposal distributes arrive with the members, in proportion to their weights", "statement": "When a passed proposal that hands out funds of the treasury is executed, what it distributes leaves the treasury for the distributor, and the rewards per unit of weight of each listed asset rise by the amount divided by the total weight, rounded down; weights, minimum and the rewards of other assets stay as they are. A member of weight e out of T can then claim A*e/T more of an asset of which A was distributed, up to rounding. If the treasury has the funds, the assets are whitelisted, there are members and nothing overflows, this does happen. If anything fails, neither the balances (but for the deposit) nor the distributor change.", "quantifier": "every reachable state of controller, governance, treasury, distributor and all balances, every proposal with any list of fundings and distributions of any native coins and tokens, every executing account", "why_tests_cant": "the whole way from a proposal through treasury, tokens and distributor to the members is only covered by tests for a few assets and members", "anchors": ["contracts/enterprise-governance-controller/src/contract.rs:1152-1172", "contracts/enterprise-treasury/src/contract.rs:175-220", "contracts/funds-distributor/src/distributing.rs:22-146", "contracts/funds-distributor/src/rewards.rs:15-111"]}
{"id": "C132", "title": "A passed proposal to amend the rules takes effect", "statement": "When the execution of a proposal is accepted, the proposal has passed and its actions are valid amendments (of the configuration with the unlocking period, of the council, of the members of a multisig DAO, of the minimum weight for rewards), then the controller carries out all of them and every message that it sends to the other contracts for them is accepted, with everything those contracts report in turn, whatever else other contracts answer. After the transaction the configuration, the rules and the seats of the council, the unlocking period, the minimum and the weights of the members are those that the proposal gives, and the rest of them as before.", "quantifier": "every reachable state of the composed system, every proposal whose actions are any list of valid amendments in any order, every executing account, all answers of other contracts; sums of weights below 2^128", "why_tests_cant": "tests amend one rule in one kind of DAO; that no report of weights, no open poll and no pending reward can make an amendment fail concerns all histories before it", "anchors": ["contracts/enterprise-governance-controller/src/contract.rs:846-1012", "contracts/enterprise-governance-controller/src/contract.rs:1132-1194", "contracts/enterprise-governance-controller/src/contract.rs:1293-1355", "packages/multisig-membership-impl/src/execute.rs:14-87", "contracts/funds-distributor/src/user_weights.rs:62-191", "contracts/funds-distributor/src/eligibility.rs:43-126"]}
{"id": "C133", "title": "Legacy proposals are shown with their content", "statement": "Apart from its status (C103), a proposal of a DAO from before the rewrite is shown through the facade, alone or in a list, exactly as the DAO reports it: kind, number, proposer, texts, start, end, counted votes, total votes, and every action in the same order, written in today's format. A proposal that the DAO knows is shown if its voting ends at a time or has been ended; one that the DAO does not know is not shown.", "quantifier": "every legacy DAO, proposal, page of proposals and moment", "why_tests_cant": "all proposals with any list of actions, all pages and all moments", "anchors": ["contracts/enterprise-facade-v1/src/facade_v1.rs", "contracts/enterprise-facade-v1/src/v1_structs.rs"]}
{"id": "C134", "title": "A large enough group of members can act alone", "statement": "Whatever the state of a DAO, members of a group who hold more than half of the weight, at least the shares that quorum and threshold ask for, and against whom the others lack the share for a veto, can make any proposal that may be made and have it passed within one voting period, without anybody else acting. If the proposal amends the rules (governance configuration, unlocking period, council, multisig members, minimum weight for rewards), they can thereby bring it about that the rules are as proposed. Nobody can block them.", "quantifier": "every reachable state of a DAO of any type, every such group, every list of at most ten proposable actions", "why_tests_cant": "all states, groups, weights and proposals; a test runs one", "anchors": ["contracts/enterprise-governance-controller/src/contract.rs", "contracts/enterprise-governance/src/contract.rs", "packages/poll-engine/src/state.rs", "contracts/attestation/src/contract.rs"]}
{"id": "C135", "title": "NFT staking contracts survive their migration", "statement": "An NFT staking contract from before version 1.2.0, whose configuration is stored in the format of that time, keeps its collection, unlocking period, stakes and claims when it is migrated to the present code, and members can go on to stake, unstake and claim.", "quantifier": "every content of such a contract and every later history of messages, senders and blocks", "why_tests_cant": "all contents and unbounded histories; the present tests never start from old storage", "anchors": ["packages/nft-staking-impl/src/migrate.rs", "packages/nft-staking-impl/src/config.rs", "contracts/nft-staking-membership/src/contract.rs:84-88", "packages/nft-staking-impl/src/execute.rs"]}
{"id": "C136", "title": "What passes, and so every change of the rules, is backed by the members", "statement": "Behind every general proposal that passed, whenever and however it was executed, there was a moment before the end of its voting at which the members backed it with what they weighed then: more weight for it than against it, at least the threshold's share of the weight that took sides, less than the share for a veto, and the quorum's share of the total weight among those who voted. So the rules of a DAO (configuration, council and its rules, unlocking period, minimum weight for rewards, multisig members) are never different from before unless in between a general proposal was run with such backing; the council, the owner of a stake, or a minority cannot change them.", "quantifier": "every reachable state of the composed contracts, every history of transactions with nested messages, sub-messages and blocks", "why_tests_cant": "needs an invariant that ties votes to weights at every moment of every unbounded history, with executions nested in other messages", "anchors": ["contracts/enterprise-governance-controller/src/contract.rs", "packages/poll-engine/src/helpers.rs", "packages/poll-engine-api/src/api.rs"]}
{"id": "C137", "title": "What the controller orders was asked for by a passed proposal, backed by the members, and is ordered once", "statement": "Whatever the governance controller orders a treasury, the enterprise contract or any other contract to do (spend, distribute, change whitelists, execute messages, change metadata, upgrade) was asked for by an action of a proposal that passed; if it is a general proposal the members backed it as in C136, and if it is a council proposal the order only changes a whitelist or the metadata or upgrades the DAO. The actions of one proposal are run at most once in any history, so no approval is used twice.", "quantifier": "every message handled in every history of transactions with nested messages and blocks, from any reachable state", "why_tests_cant": "a test sees chosen proposals; this is about every message the controller ever sends, in every interleaving", "anchors": ["contracts/enterprise-governance-controller/src/contract.rs", "contracts/enterprise-governance-controller/src/proposals.rs"]}
{"id": "C138", "title": "Every vote was cast by its voter", "statement": "Over any history of a DAO, the choice of a user on a proposal is the last one among the messages that this user sent to vote on it: nobody votes for anybody else, and no vote is lost or turned. Each vote was cast while voting was open, by a user who was not restricted and who had weight in the body that decides (the members, or the council for council proposals). Its amount is the voter's weight in that body when casting, or the weight among the members after a message to the membership contract. A proposal passes only if somebody with such weight voted for it, so a council proposal only if a council member did.", "quantifier": "every history of transactions with nested messages and blocks, every proposal and user", "why_tests_cant": "about everything that never happens to votes in any interleaving of messages, migrations of weight and executions", "anchors": ["contracts/enterprise-governance-controller/src/contract.rs", "packages/poll-engine/src/execute.rs", "packages/poll-engine/src/state.rs"]}
{"id": "C139", "title": "A quorum of the council can act alone, and at once", "statement": "In any reachable state of a DAO with a council, council members who are not restricted and who together have the share of the council's weight that its quorum asks for can have any proposal passed, and its actions executed, that has at most ten actions of kinds allowed to the council which can be proposed. Nobody else has to act, and no time has to go by: creation, votes and execution all succeed within one block.", "quantifier": "every reachable state of a DAO, every council configuration, every group of council members that has the quorum, every list of proposable actions of allowed kinds", "why_tests_cant": "for all states, weights and groups that something can be brought about by a sequence of messages, none of which can be blocked by others", "anchors": ["contracts/enterprise-governance-controller/src/contract.rs", "packages/poll-engine/src/execute.rs", "packages/poll-engine/src/state.rs", "packages/multisig-membership-impl/src/query.rs"]}
{"id": "C140", "title": "What the council passes is backed by the council", "statement": "The result of a council proposal is the one that the voting rule gives for what those who chose the options weigh in the council, and for the total weight of the council. In particular, if it passes then more of the weight of the council is for it than against it, with the threshold's share for it, less than the veto threshold's share of vetoes, and the quorum's share of the council voting.", "quantifier": "every history of a DAO, every council proposal made and resolved in it, all votes and weights", "why_tests_cant": "for all histories; the votes on the proposal and their weights can be changed by any message to the voting contracts in between", "anchors": ["contracts/enterprise-governance-controller/src/contract.rs", "packages/poll-engine/src/execute.rs", "packages/poll-engine/src/state.rs", "packages/multisig-membership-impl/src/query.rs"]}
{"id": "C141", "title": "What is left to a restricted user", "statement": "As long as a user is restricted (has not signed the attestation), nothing that the contracts of the DAO accept is a proposal, a vote or an execution of a proposal by that user; no proposal is made in the user's name and no rewards are paid to the user; what the user chose on proposals before stays and counts; and unless the members are set by proposals (multisig DAOs), neither the user's weight nor the weight of a vote of the user grows beyond what the user had.", "quantifier": "every state of the DAO reachable by any history, every further history in which the attestation query answers that the user is restricted, every user", "why_tests_cant": "for all histories with any messages of anybody, including stakes that others make for the user, deposits of tokens with proposals and executed actions", "anchors": ["contracts/enterprise-governance-controller/src/contract.rs", "contracts/funds-distributor/src/claim.rs", "packages/token-staking-impl/src/execute.rs", "packages/denom-staking-impl/src/execute.rs", "packages/nft-staking-impl/src/execute.rs", "packages/membership-common/src/validate.rs", "contracts/enterprise/src/contract.rs"]}
{"id": "C142", "title": "Whatever custom messages can say", "statement": "Proposals can carry arbitrary custom messages, which the controller sends in its own name. With nothing assumed about what they say: in every history of a DAO, until the first proposal is run whose actions forge a message that the contracts of the DAO expect from one another only, the actions of each proposal are dispatched at most once, exactly if it passed, and run at most as often; deposits are paid once to whom they are owed; members can unstake; and the rules change only by general proposals that the members backed. And that first proposal, if there is one, is a general proposal that had passed, whose actions had not been run before, and which the members backed with their weights at a moment before the end of voting. So if actions of a proposal are ever run without having been dispatched, the members once backed a proposal that forges a message.", "quantifier": "every DAO with distinct addresses, every meaning of custom messages, every history from its creation", "why_tests_cant": "for all histories and all custom messages, with an argument about states within a transaction", "anchors": ["contracts/enterprise-governance-controller/src/contract.rs", "contracts/enterprise-governance-controller/src/proposals.rs", "contracts/enterprise-governance/src/contract.rs", "contracts/funds-distributor/src/distributing.rs", "packages/membership-common/src/weight_change_hooks.rs"]}
{"id": "C143", "title": "Where execution may be early, a quorum of the members acts within the cooldown", "statement": "In any reachable state of a DAO that allows early execution, members who are not restricted and who together have the share of the weight that the quorum asks for can have any proposal of at most ten proposable actions passed, and its actions dispatched, a tenth of the voting period after creating it (in a multisig in the same block), if nobody else acts in the meantime; if its actions amend the rules, the rules are then amended. Neither a majority of the weight nor the consent of those who have not voted yet is needed. In a DAO for a native coin anybody who is not restricted gets there by staking enough coins first. (This assumes that no deposit is asked for, or one in coins, and that the dates fit 64 bits.)", "quantifier": "every reachable state of a DAO with early execution, every group of members that has the quorum, every list of proposable actions", "why_tests_cant": "for all states, groups and lists of actions, with an execution of as many transactions as the group has members", "anchors": ["contracts/enterprise-governance-controller/src/contract.rs", "packages/poll-engine/src/state.rs", "contracts/enterprise-governance/src/contract.rs"]}
{"id": "C144", "title": "A multisig DAO is locked for good once nobody has weight; the other DAOs never are", "statement": "If in a multisig DAO nobody has weight, and no unresolved general proposal is left whose voting ended while somebody had, then in every later state nobody has weight, there is no new general proposal, no general proposal is resolved or carried out, and the rules of the DAO and the members of its council are as before. In a DAO of any kind in which somebody has weight, those who have weight can, if all of them agree and none is restricted, have any proposal of at most ten proposable actions passed. In a DAO for a coin, a token or a collection of NFTs in which nobody has weight, anyone who is not restricted can stake one unit and then have any such proposal passed alone. (This assumes that no deposit is asked for, or one in coins, and that the amounts and dates fit their types.)", "quantifier": "every reachable state of the composed contracts, every later state, every list of proposable actions", "why_tests_cant": "a claim about all continuations of a state, with calls of outsiders nested in each other, and about the existence of executions of any length", "anchors": ["contracts/enterprise-governance-controller/src/contract.rs", "packages/multisig-membership-impl/src/execute.rs", "contracts/enterprise-governance-controller/src/proposals.rs"]}
{"id": "C145", "title": "How one vote can change the result", "statement": "Take a poll before and after one accepted vote which does not lower the amount of that voter, with no more votes cast than available. The vote never loses a quorum. If the vote is for yes and the poll would have passed before, it would pass after, whatever the voter had voted before. If the vote is for no and the poll would pass after it, it would have passed before, or it missed the quorum before, or it was vetoed before. If the vote is a veto in place of anything but a no and the poll would pass after it, it would have passed before or missed the quorum. An abstain of a new voter never hurts, and helps only if the quorum was missed before. Each exception occurs: a no can make a poll pass by completing the quorum or by diluting a veto, and a veto in place of a no can make a poll pass.", "quantifier": "every reachable state of the governance contract, every poll, voter, option and amount, every number of available votes", "why_tests_cant": "a relation between two results for all tallies, thresholds and previous votes; the exceptions sit at single boundaries", "anchors": ["packages/poll-engine/src/state.rs", "packages/poll-engine/src/execute.rs"]}
{"id": "C146", "title": "The cooldown can be avoided by voting before staking", "statement": "In a DAO that allows early execution, take a general proposal that is still voted on and whose cooldown is over or never started. If a member who chose yes receives more weight and the published rule then passes, the proposal can be executed in the same block and its messages are sent once: a change of weights does not start the cooldown again. In a DAO for a native coin, a member with less weight than the quorum asks for, who can reach it by staking n more coins, can make any proposal of at most ten proposable actions, vote for it, stake and execute it, all within one block. Unless the rules ask for all the weight, some amount turns the result whatever the others chose.", "quantifier": "every reachable state of the composed contracts, every such proposal, member and amount, every list of proposable actions", "why_tests_cant": "quantifies over all histories, weights, votes and thresholds, and composes five contracts over four messages", "anchors": ["contracts/enterprise-governance-controller/src/contract.rs", "packages/poll-engine/src/execute.rs", "contracts/denom-staking-membership/src/contract.rs"]}
{"id": "C147", "title": "Whether and when anybody claims does not matter for the rewards", "statement": "Leave the claims of all other users out of a history of the funds distributor: a user has been paid the same of every asset, can still claim the same, and has the same weight out of the same total. Leave all claims out: what the user could then claim is at least what the user was paid and can still claim with them, and more by at most one unit for each of the user's own claims of that asset.", "quantifier": "every finite history from instantiation with less than 2^128 units of each asset distributed, every user and asset", "why_tests_cant": "relates the results of two histories for all histories, users and assets; tests look at one history at a time", "anchors": ["contracts/funds-distributor/src/claim.rs", "contracts/funds-distributor/src/rewards.rs", "contracts/funds-distributor/src/user_weights.rs", "contracts/funds-distributor/src/eligibility.rs"]}
{"id": "C148", "title": "A stake of one block takes its full part of a distribution", "statement": "In a denom or token DAO an account that is not restricted can stake just before a distribution of rewards and unstake right after it, in the same block. All the messages are accepted, in the end all weights are as before, and the account can claim the part of the distribution that its weight with that stake was of all the stakes; the others can claim only what their stakes were of it, which is at most one unit each if the stake is large.", "quantifier": "every reachable state whose reward weights are those of the membership contract, every account, stake, coin and amount whose sums fit", "why_tests_cant": "a claim for all reachable states and amounts about what always works; the tests distribute among members that stay", "anchors": ["contracts/funds-distributor/src/distributing.rs", "contracts/funds-distributor/src/user_weights.rs", "contracts/denom-staking-membership/src/contract.rs", "contracts/token-staking-membership/src/contract.rs"]}
{"id": "C149", "title": "Polls do not influence each other", "statement": "Leave out of a history of the governance contract all votes on other polls and all their ends: a poll is the same in the end, with the same terms, results and status and the same votes, although the updates of a voter's weight run over all the polls of the voter. So histories that differ only in messages about other polls give the same poll.", "quantifier": "every finite history of typed messages by anyone, with times that do not decrease, every poll", "why_tests_cant": "compares two histories of any length for every poll; tests follow single histories", "anchors": ["contracts/enterprise-governance/src/contract.rs", "packages/poll-engine/src/execute.rs", "packages/poll-engine/src/state.rs"]}
{"id": "C150", "title": "The work that a change of weight makes for governance grows without bound", "statement": "An update of a user's weight looks up the status of every poll on which the user ever voted, voted on or long ended. That number never falls. In a denom DAO, or a DAO without a minimum deposit, a member can alone bring it above any number, with all those polls ended, so that each later change of the member's weight does all that work for nothing.", "quantifier": "every reachable state of governance, every later state of a DAO, every member with weight, every number of polls within 64 bits", "why_tests_cant": "about a number that grows over histories of any length; the tests vote on a handful of polls", "anchors": ["contracts/enterprise-governance/src/contract.rs", "packages/poll-engine/src/query.rs"]}
{"id": "C151", "title": "Splitting a weight over several accounts gains no rewards", "statement": "Take two histories of the funds distributor in which the same is distributed, but the weights of one user in the first are divided, in any way and anew at every change, among any number of accounts in the second; who claims what and when is open in both. What these accounts were paid of an asset and can still claim together is at most the exact pro rata share of the one account, so it exceeds what that account got by no more than that account's rounding losses. Without a minimum weight for rewards they get no less, but for their own rounding losses, and the exact shares of all others are the same; with a minimum the others' shares never get smaller.", "quantifier": "every pair of such histories from instantiation, without refused weight changes and distributions, every division of the weights, every asset; less than 2^128 units distributed for the bounds with rounding", "why_tests_cant": "compares pairs of executions of any length; tests run one", "anchors": ["contracts/funds-distributor/src/user_weights.rs", "contracts/funds-distributor/src/rewards.rs", "contracts/funds-distributor/src/distributing.rs"]}
{"id": "C152", "title": "A migration of governance hands it over and keeps everything else", "statement": "Migrating the governance contract makes the address that the message names its admin and changes nothing else. From then on exactly that address can do what the old admin could do, with the same effect, and the old admin can do nothing. Over any history of messages and migrations the polls and votes are those of a contract that was never migrated and got the messages that each admin sent while it was the admin, so everything proved of reachable states holds with migrations in between.", "quantifier": "every state and new admin; every finite history of messages by anyone and migrations", "why_tests_cant": "about histories of any length with migrations at any point; there is no test of this migration", "anchors": ["contracts/enterprise-governance/src/migration.rs", "contracts/enterprise-governance/src/contract.rs"]}
{"id": "C153", "title": "A DAO goes through each version once, in order, and misses those that come too late", "statement": "Over any history of messages to a DAO and to its registry of versions, the DAO migrates itself through versions in strictly ascending order, each at most once, and through exactly those versions up to its own that were registered at a moment when it was still below them. A version that is registered only when the DAO has passed its number is never gone through, in no upgrade to come. With the registry unchanged, upgrading in steps sends the same migrations in the same order as upgrading at once.", "quantifier": "every registry that any calls give, every DAO state and every finite history of messages by anyone to the two contracts that does not move the DAO to another registry", "why_tests_cant": "about histories of any length with registrations and upgrades in any order; the tests upgrade once", "anchors": ["contracts/enterprise/src/contract.rs:206", "contracts/enterprise/src/contract.rs:257", "contracts/enterprise-versioning/src/contract.rs"]}
{"id": "C154", "title": "While stakes are migrated, only those already moved have a vote, and the sender of a step chooses how many they are", "statement": "From a membership contract in which nobody has weight, whatever migration steps are sent, with whatever batch sizes and whichever of them fail: those with weight are exactly the first stakers, in the order of addresses, up to some number, each with what they had staked, and the total against which votes are measured counts nobody else. In an NFT DAO the same holds of the first NFTs in the order of their ids. For every such number a single step of anyone makes it that number. So the first staker alone can, with one step of batch size one, be the only member, and can have any proposal passed that can be made, within a voting period, or a tenth of one where execution may be early.", "quantifier": "every treasury of a token or NFT DAO, every finite history of migration steps by anyone, every number of stakers or NFTs; for the proposals (token DAOs) every reachable state of the DAO in which nobody has weight yet, and every list of up to ten actions", "why_tests_cant": "about every history of steps of every batch size; the tests migrate with one step and take no votes in between", "anchors": ["contracts/enterprise-treasury/src/contract.rs:106", "contracts/enterprise-treasury/src/migration.rs:164", "contracts/enterprise-treasury/src/migration.rs:397", "packages/token-staking-impl/src/execute.rs:73", "contracts/enterprise-governance-controller/src/contract.rs:562"]}
{"id": "C155", "title": "Splitting a weight over several accounts changes no result", "statement": "Take any history of the governance contract and let every voter be any number of accounts of its own: instead of each vote the accounts vote for the same option with weights that add up to it, and instead of each update of a weight the accounts are updated to weights that add up to the new one. Then every poll ends up the same, with the same results and the same status, each voter's vote is worth what its accounts' votes are worth together, and they are for the same option. Within a block, in any state, accounts that have not voted yet can all cast their shares exactly when one such account can cast the whole, and every attempt to end a poll afterwards is accepted or refused alike.", "quantifier": "every history of messages in which time does not run backwards, every assignment of accounts, every way of splitting each weight (also differently each time, and with zeros), every poll", "why_tests_cant": "relates two runs of different lengths for every way of splitting; a test compares one", "anchors": ["packages/poll-engine/src/execute.rs:34", "contracts/enterprise-governance/src/contract.rs:82", "packages/poll-engine/src/state.rs:506", "packages/poll-engine/src/state.rs:508"]}
{"id": "C156", "title": "Whatever is done on other chains was decided by the DAO", "statement": "The outposts contract, fed by the messages that the controller of a DAO sends in any history and by any messages of anybody else (including forged and replayed answers of proxies), sends nothing to another chain but what carries out a message of the controller: a message to the treasury recorded for the chain, through the recorded proxy, or the deployment of a proxy or of a treasury administered by the recorded proxy. That message of the controller was asked for by a proposal that passed, whose actions were run once and which, if it is a general one, was backed by the members as in C136 (a council proposal can only change whitelists or deploy), or it deploys a treasury that was listed at the creation of the DAO. And no message reaches a treasury on another chain more often than the controller sent it.", "quantifier": "every history of transactions of the DAO with nested messages, every history of messages to the outposts contract that contains the controller's messages in order and any others, every message sent out", "why_tests_cant": "about all interleavings of two contracts and all messages of outsiders; tests of the outposts contract run alone with a handful of messages", "anchors": ["contracts/enterprise-governance-controller/src/contract.rs:1045", "contracts/enterprise-governance-controller/src/contract.rs:1196", "contracts/enterprise-governance-controller/src/contract.rs:1209", "contracts/enterprise-outposts/src/contract.rs:80", "contracts/enterprise-outposts/src/contract.rs:255", "contracts/enterprise-outposts/src/contract.rs:290"]}
{"id": "C157", "title": "The rewards in one asset do not depend on the others", "statement": "Take any history of the funds distributor and leave out of its accepted messages everything about some assets: coins of these assets out of distributions, transfers of these tokens, claims of these assets. Then all that is left is accepted, and of the remaining assets the same is distributed, every user has been paid the same and can still claim the same. So two histories that say the same about an asset give every user the same of it, and a message that is accepted never needed the other assets.", "quantifier": "every initial list of weights and minimum, every history of messages (also refused ones), every set of assets, every user", "why_tests_cant": "compares every history with its reduction to every set of assets; tests distribute at most two assets in a fixed order", "anchors": ["contracts/funds-distributor/src/native_distributions.rs:55", "contracts/funds-distributor/src/distributing.rs:22", "contracts/funds-distributor/src/distributing.rs:57", "contracts/funds-distributor/src/claim.rs:22", "contracts/funds-distributor/src/user_weights.rs:77"]}
{"id": "C158", "title": "The work of a report of weights is bounded, that of a new minimum weight is not", "statement": "A report of weights to the funds distributor writes exactly one entry for each of its lines and each asset of which anything was ever distributed, and there are at most as many of these as were ever on the whitelists. A new minimum weight writes one entry per asset for each user on record between the two minimums. Users stay on record for ever, so without a minimum so far all former members count too. And in a DAO that stakes coins anybody, alone and within one block, can put as many users as wanted on record with one coin each, so that any new minimum of two or more makes the distributor go through all of them.", "quantifier": "every initial state, every history, every report and every new minimum; every reachable state of a DAO that stakes coins, every outsider and every list of users without weight", "why_tests_cant": "counts the work over unboundedly many users and assets; tests have three users", "anchors": ["contracts/funds-distributor/src/eligibility.rs:43", "contracts/funds-distributor/src/user_weights.rs:77", "contracts/funds-distributor/src/user_weights.rs:145", "contracts/funds-distributor/src/native_distributions.rs:55", "packages/denom-staking-impl/src/execute.rs:21"]}
{"id": "C159", "title": "Strangers can make the claims of a member of a token DAO as long as they like", "statement": "A claim of unstaked tokens loads every waiting claim of the user from storage, whether it is due or not. In a token DAO anybody who has one unit of the token can, with one message, give any user any number of further claims of zero tokens with a release as late as one likes; and until this release, whatever anybody does, also the user, every claim of this user loads at least this many entries. In a denom DAO this cannot happen: nobody else's message changes the number of a user's waiting claims, and one of the user adds at most one.", "quantifier": "every reachable state of a token staking contract with the balances of its token, every sender with a balance, every other user, every number (while the ids fit 64 bits) and every release, every list of later operations before the release; every reachable state and message of a denom staking contract", "why_tests_cant": "an unbounded number of claims and every continuation; tests add one or two claims that are due at once", "anchors": ["packages/token-staking-impl/src/execute.rs:119", "packages/token-staking-impl/src/execute.rs:208", "packages/token-staking-impl/src/claims.rs:74", "packages/denom-staking-impl/src/execute.rs:128"]}
{"id": "C160", "title": "In and after a migration the treasury answers the weights and totals of the old DAO", "statement": "Whatever migration steps have been made, the treasury of an old DAO answers for every user the weight that this user had there when the migration began, and as present total the sum of these weights, if the total that the old DAO saved was this sum. For a past height or time it answers the total that the old DAO saved last before this height or second, and zero if there was none.", "quantifier": "every old token, NFT or multisig DAO, every list of migration steps with any limits and outcomes, every list of users that has all with a weight; every list of saved totals whose heights and seconds never fall, every height and time asked", "why_tests_cant": "every interleaving of migration steps and every history of totals; tests run one migration to its end", "anchors": ["contracts/enterprise-treasury/src/contract.rs:338", "contracts/enterprise-treasury/src/contract.rs:355", "contracts/enterprise-treasury/src/staking.rs:19"]}
{"id": "C161", "title": "The order of messages that have nothing to do with each other does not matter to the distributor", "statement": "Claims of different users, distributions, a claim and a distribution of assets that it does not name, and a claim and a report of weights that does not name the user can be exchanged: if one order is accepted so is the other, the contract is in the same state in the end and each message pays the same. So all orders that come from exchanging such neighbours give the same state and pay every user the same. The lines of a report about different users can be in any order, and a report does the same as its parts one after the other.", "quantifier": "every state, every two such messages, every history whose messages are accepted and every reordering of it; every reachable state and every permutation of a report whose sums fit 128 bits", "why_tests_cant": "every reordering of every history; tests send one order", "anchors": ["contracts/funds-distributor/src/claim.rs:22", "contracts/funds-distributor/src/distributing.rs:22", "contracts/funds-distributor/src/distributing.rs:57", "contracts/funds-distributor/src/user_weights.rs:64"]}
{"id": "C162", "title": "The order of the messages of different users within a block does not matter to the staking contracts", "statement": "Take the stakes, unstakes and claims of one block in two orders that both keep the order of the messages of each user. If all are accepted in one order, all are accepted in the other; the same notifications and payments are sent; and afterwards all weights, the total weight now and at every past height and time, the hooks, the configuration and the claims of every user are the same, except for the ids the claims got. The ids do not matter later: states that differ only in them accept the same messages of users, and these send the same notifications and payments.", "quantifier": "every reachable state of a token or denom staking contract, every list of stakes, unstakes and claims in one block whose total stake fits 128 bits, every reordering that keeps the order of each user", "why_tests_cant": "every interleaving of every block; tests send one order", "anchors": ["packages/token-staking-impl/src/execute.rs:42", "packages/token-staking-impl/src/execute.rs:142", "packages/token-staking-impl/src/execute.rs:208", "packages/denom-staking-impl/src/execute.rs:21", "packages/denom-staking-impl/src/execute.rs:62", "packages/denom-staking-impl/src/execute.rs:128"]}
{"id": "C163", "title": "Governance does not depend on the order of messages about different voters", "statement": "Votes and updates of votes can be sent in any order that keeps the order of the messages about each voter: the polls, their tallies and all votes are the same in the end, whoever sends the messages and whether or not they are accepted.", "quantifier": "every reachable governance state, every finite list of CastVote and UpdateVotes messages, none before the start of a poll that exists, and every reordering that keeps the order for each voter", "why_tests_cant": "every interleaving of every list of votes and weight updates; tests send one order", "anchors": ["contracts/enterprise-governance/src/contract.rs:82", "packages/poll-engine/src/execute.rs:34"]}
{"id": "C164", "title": "In a token or denom DAO the order of different members' messages within a block matters only to cooldowns", "statement": "Within a block, members of a token or denom DAO vote (in general or in the council), stake, unstake, claim unstaked coins and claim rewards. If the messages are put in another order that keeps the order of the messages about each member, they are all accepted again, and polls, votes, rewards, stakes with their history, and the council are the same in the end; only ids of claims can differ and, where proposals can be executed early, from when on they can. Where proposals cannot be executed early, the governance controller is the same too. The exception is real: the order of one member's vote and another member's stake can decide whether a proposal can be executed in the same block.", "quantifier": "every reachable state of every DAO with token or denom membership, every finite list of such messages from outside accepted within a block, with every answer of the other contracts, and every reordering that keeps the order for each member; with room in 128 bits for the staked amounts", "why_tests_cant": "every interleaving of every list of messages of any number of members over five contracts; tests send one order", "anchors": ["contracts/enterprise-governance-controller/src/contract.rs:528", "contracts/enterprise-governance-controller/src/contract.rs:1293", "contracts/enterprise-governance-controller/src/contract.rs:1408", "packages/token-staking-impl/src/execute.rs:42", "contracts/funds-distributor/src/claim.rs:22"]}
{"id": "C165", "title": "The order of the messages of different users within a block does not matter to NFT staking, unless a token passes from one to another", "statement": "Within a block, users of an NFT staking contract stake, receive imported claims, unstake and claim. If the messages are put in another order that keeps the order of the messages of each user, and no token is unstaked by one user and staked for another, they are all accepted again, the contract sends the same notifications and tokens, and its state is the same but for the ids of claims; and no later message of a user can tell the difference. With a collection that announces only tokens it has transferred, and an unlocking period that does not end in the block in which it starts, no token passes from one user to another within a block, so this holds for all reorderings. Both conditions are needed, and so is that the collection is known: before the first token has been received through an ICS721 proxy, claims are refused.", "quantifier": "every reachable state of an NFT staking contract that knows its collection, every finite list of such messages accepted within a block, every reordering that keeps the order for each user; every honest history for the second part", "why_tests_cant": "every interleaving of every list of messages of any number of users in every reachable state; tests send one order", "anchors": ["packages/nft-staking-impl/src/execute.rs:26", "packages/nft-staking-impl/src/execute.rs:68", "packages/nft-staking-impl/src/execute.rs:108", "packages/nft-staking-impl/src/execute.rs:126", "packages/nft-staking-impl/src/execute.rs:208"]}
{"id": "C166", "title": "In NFT and multisig DAOs the order of different members' messages within a block matters only to cooldowns", "statement": "Within a block, members of an NFT DAO whose collection is known vote (in general or in the council), stake, unstake and claim NFTs, get claims imported and claim rewards; members of a multisig DAO vote and claim rewards. If the messages are put in another order that keeps the order of the messages about each member, they are all accepted again, and polls, votes, rewards, stakes with their history, and the council are the same in the end; only ids of claims can differ and, where proposals can be executed early, from when on they can. In an NFT DAO no NFT may be unstaked by one member and staked for another among these messages.", "quantifier": "every reachable state of every DAO with NFT membership and a known collection or with multisig membership, every finite list of such messages from outside accepted within a block, with every answer of the other contracts, and every reordering that keeps the order for each member", "why_tests_cant": "every interleaving of every list of messages of any number of members over five contracts; tests send one order", "anchors": ["contracts/enterprise-governance-controller/src/contract.rs:528", "contracts/enterprise-governance-controller/src/contract.rs:1293", "contracts/enterprise-governance-controller/src/contract.rs:1408", "packages/nft-staking-impl/src/execute.rs:35", "contracts/funds-distributor/src/claim.rs:22"]}
{"id": "C167", "title": "Lists read page by page while the data changes lose and repeat nothing", "statement": "A client reads a list page by page with any positive limit, each page after the last item received, until a page comes empty, and anything can happen between the pages. Then no item is listed twice, every item is listed as it was when its page was read, and every item that was there all the time is listed. This holds for members, staked NFTs (all or of one user), whitelisted assets and NFTs, treasuries on other chains, DAOs, versions, polls, votes, and the proposals of a DAO and the votes on them. Polls, proposals, versions, DAOs and treasuries on other chains are never removed, so all those there when the reading starts are listed.", "quantifier": "every sequence of states, one for each page (reachable ones for versions, polls, votes and proposals), every limit but 0 (below 2^32 for polls and votes), every status filter; the last sentence for every sequence of states in which each comes from the one before", "why_tests_cant": "every interleaving of reading with every history of every contract, of any length; tests read all pages in one state", "anchors": ["packages/poll-engine/src/query.rs: query_polls, query_poll_voters, query_voter", "packages/token-staking-impl/src/query.rs: query_members", "packages/nft-staking-impl/src/query.rs: query_user_nft_stake, query_staked_nfts", "contracts/enterprise-treasury/src/contract.rs: query_asset_whitelist, query_nft_whitelist", "contracts/enterprise-outposts/src/contract.rs: query_cross_chain_treasuries", "contracts/enterprise-factory/src/contract.rs: query_all_daos", "contracts/enterprise-versioning/src/contract.rs: query_versions", "contracts/enterprise-governance-controller/src/contract.rs: query_proposals, query_proposal_votes"]}
{"id": "C168", "title": "All addresses are treated alike", "statement": "No address is special to governance, to the membership contracts or to the funds distributor, and nothing depends on how addresses are ordered. If all the users in a history get other names, different ones for different users, then the same messages are accepted and refused, and everyone finds under the new name what there was under the old one: votes, weight, staked NFTs, claims, payments received and rewards to claim. Polls, results, total weights and the indices of rewards are the same.", "quantifier": "every renaming (permutation of addresses), every initial state, every history of messages of each contract; contracts that send tokens or NFTs, and hook contracts, keep their names", "why_tests_cant": "all permutations of all addresses over all histories; tests use a few fixed names, in one order", "anchors": ["contracts/enterprise-governance/src/contract.rs: update_votes", "packages/poll-engine/src/execute.rs: cast_vote", "packages/token-staking-impl/src/execute.rs: unstake, claim", "packages/nft-staking-impl/src/execute.rs: unstake, claim", "packages/multisig-membership-impl/src/execute.rs: update_members, set_members", "contracts/funds-distributor/src/eligibility.rs: update_minimum_eligible_weight", "contracts/funds-distributor/src/claim.rs: claim_rewards"]}
{"id": "C169", "title": "Only the proportions of weights matter to votes", "statement": "Governance knows no unit of weight. If the weight of every vote and every total weight in a history are multiplied by the same positive number, then the same messages are accepted and refused, with the same errors; every poll has the same terms and the same outcome, and each of its counts is multiplied by that number, as is the weight of every recorded vote. This holds as long as the multiplied votes of each poll together fit 128 bits; beyond that the outcome can change.", "quantifier": "every positive factor, every history of messages of the governance contract whose values fit their types before and after multiplication, with the votes of each poll fitting 128 bits throughout", "why_tests_cant": "all factors and all histories; a wrong rounding or a constant number of votes in a rule shows only for particular weights", "anchors": ["packages/poll-engine/src/state.rs: ge_threshold, quorum_reached, most_voted_over_threshold, final_status", "packages/poll-engine/src/execute.rs: cast_vote, end_poll", "contracts/enterprise-governance/src/contract.rs: update_votes"]}
{"id": "C170", "title": "The date does not matter", "statement": "A history of a membership contract that takes place later, by any number of blocks and any whole number of seconds, goes as it did: every message is answered as before, with the same error if it is refused, the same tokens, NFTs and notifications are sent, weights are the same, total weights of the past are the same at the moments moved by as much, and claims are the same with release dates moved by as much. For token, denom and NFT staking this holds while no release date reaches 2^64; beyond that the unlocking period is lost. Whole seconds are needed: half a second can change the total weights of the past. For governance only the order of moments matters: at any other times in the same order, with poll ends moved accordingly, messages are answered alike, polls are the same but for their times, and the votes are the same.", "quantifier": "every number of blocks and whole seconds (for governance: every strictly increasing change of times), every initial state, every history of messages of each membership contract and of the governance contract, with release dates below 2^64 before and after", "why_tests_cant": "all histories and all moves; a constant date or height in a rule shows only at particular times, long after the tests", "anchors": ["packages/token-staking-impl/src/execute.rs: calculate_release_at", "packages/nft-staking-impl/src/execute.rs: calculate_release_at", "packages/token-staking-impl/src/claims.rs: is_releasable", "packages/membership-common/src/total_weight.rs: save_total_weight", "packages/poll-engine/src/execute.rs: cast_vote", "packages/poll-engine/src/validate.rs: validate_can_end_early"]}
{"id": "C171", "title": "A DAO treats all its users alike", "statement": "Give the users of a DAO other names throughout a history of the contracts of the DAO together: in the messages, in the lists of members it began with, in the council, in the restricted list and in the custom messages of proposals. The contracts of the DAO and token contracts that send tokens keep their names. Then the history goes as before: the same messages are handled in the same order, with the new names. In the end everyone has under the new name what they had under the old one (weight, seat in the council, claims, rewards, votes), every proposal has the same status, results, proposer and actions but for the names, the deposits went to the same users, the configuration is the same, and the next message is accepted exactly if it was accepted before. In particular two users can be exchanged: whatever happens to one can happen to any other.", "quantifier": "every renaming of the users, every DAO of any kind, every initial state, every history of transactions of any length with all the messages they cause, every next message", "why_tests_cant": "all histories and all renamings; a rule that favours the proposer, the first voter, or any particular address shows only in comparison of two runs", "anchors": ["contracts/enterprise-governance-controller/src/contract.rs: create_proposal", "contracts/enterprise-governance-controller/src/contract.rs: execute_proposal_actions", "contracts/funds-distributor/src/user_weights.rs: update_user_weights", "packages/poll-engine/src/execute.rs: cast_vote"]}
{"id": "C172", "title": "Votes on a proposal matter to nothing else", "statement": "From a history of the contracts of a DAO in which a proposal is not executed, leave out every vote on this proposal cast by anyone but the controller itself. Then all the other messages are handled as before, in the same order, with all the messages they cause, and in the end everything is the same but for this one proposal: members with their stakes and claims, council, rewards, rules, transfers of deposits, the number of proposals, and every other proposal with its status, results, votes and outcome. The proposal itself still has the same type, actions and deposit. A single vote changes nothing but the proposal it is on and sends no messages.", "quantifier": "every DAO of any kind, every reachable state, every history of transactions of any length from there, every proposal not executed in it", "why_tests_cant": "compares two histories of any length; a vote on one proposal that leaks into another (a shared tally, a cooldown written to the wrong proposal, an update of votes that stops when a voter voted on several proposals) shows only when the histories are compared", "anchors": ["contracts/enterprise-governance-controller/src/contract.rs: cast_vote", "contracts/enterprise-governance-controller/src/contract.rs: weights_changed", "packages/poll-engine/src/execute.rs: cast_vote", "contracts/enterprise-governance/src/contract.rs: update_votes"]}
{"id": "C173", "title": "Distributions and claims of rewards matter to nothing else", "statement": "From a history of the contracts of a DAO leave out every distribution of rewards and every claim of rewards that anybody but the controller sends. Then all the other messages are handled as before, in the same order, with all the messages they cause, also those that token contracts make in the course of a payment left out. In the end everything is the same but for the rewards: members with their stakes and claims, council, proposals, votes, rules, transfers of deposits, and in the distributor the weights, the total weight and the minimum weight. So nobody can influence votes, stakes or proposals by paying or claiming rewards, and no such payment can block a change of weight.", "quantifier": "every DAO of any kind, every reachable state whose rewards due fit in 128 bits, every history of transactions of any length from there", "why_tests_cant": "compares two histories of any length; that an index or an amount of rewards makes a later message fail or changes a weight shows only for particular combinations of distributions, claims and changes of weight", "anchors": ["contracts/funds-distributor/src/distributing.rs: distribute_native", "contracts/funds-distributor/src/claim.rs: claim_rewards", "contracts/funds-distributor/src/user_weights.rs: update_user_weights", "contracts/funds-distributor/src/eligibility.rs: update_minimum_eligible_weight"]}
{"id": "C174", "title": "A DAO behaves among others as it does alone", "statement": "Put any number of DAOs on one chain, created at any time. Contracts of one DAO may be members of another, and messages of a proposal of one DAO may go to the contracts of another, in the middle of whatever these are doing. Then the messages that one of the DAOs handles, taken alone, are a history of this DAO on its own, from its creation. So every theorem about a DAO holds for each of the DAOs among others. A transaction that sends nothing to the contracts of a DAO does not change the DAO.", "quantifier": "any number of DAOs of any kinds, every history of the chain of any length, transactions with messages that go back and forth between the DAOs to any depth", "why_tests_cant": "any number of DAOs, calling each other to any depth; that a message from one DAO reaches another in the middle of a transaction of the latter shows only for particular proposals", "anchors": ["contracts/enterprise-factory/src/contract.rs: create_dao", "contracts/enterprise-governance-controller/src/contract.rs: execute_proposal_actions", "contracts/enterprise-governance-controller/src/contract.rs: execute_msgs"]}
{"id": "C175", "title": "New quorums, thresholds and deposits do not change running proposals; early execution and the voting period do", "statement": "Take a DAO and change the quorum, the threshold, the veto threshold, the minimum deposit or the rules of the council that are in force. Then every vote, execution, stake, claim and any other message that opens no proposal and changes no rules is answered as it would have been, with the same error or the same effects, over whole histories, and the answers about running proposals are the same. This is not so for the other two rules. When early execution is switched on, proposals opened before become executable at once, before the end of voting they were opened with and without any cooldown. And the cooldown of running proposals follows the voting period in force.", "quantifier": "every DAO of any kind in any state, all rules that agree in early execution, voting period and presence of a council, every history of any length in which no proposal is opened and none that changes the rules is executed", "why_tests_cant": "compares histories of any length under all rules; that a rule in force is read where the rule of the proposal is meant shows only when rules change while proposals run", "anchors": ["contracts/enterprise-governance-controller/src/contract.rs: update_gov_config", "contracts/enterprise-governance-controller/src/contract.rs: end_proposal", "contracts/enterprise-governance-controller/src/contract.rs: allows_early_ending", "contracts/enterprise-governance-controller/src/contract.rs: reply"]}
{"id": "C176", "title": "Within a block only where stakes end up counts", "statement": "Take stakes and unstakes that are accepted one after the other within a block, in any number and order. Governance, rewards, the membership contract with the history of its total, the controller and the council depend on them only through which members they are about and the weight each member has at the end; the claims of what was unstaked are all that differs. In particular, if everybody ends up with the weight as before, then votes on general proposals, claimable rewards and the total weight are as before, and all polls are entirely the same if no member concerned has voted on an open council proposal. With such a vote it is not so: staking and unstaking the same amount sets the council vote to the weight in the DAO.", "quantifier": "every token or coin DAO in any reachable state, any two lists of stakes and unstakes by anybody for anybody, of any length, accepted within the block", "why_tests_cant": "compares all pairs of sequences, of any length and by any members, with the same end; a test compares a few", "anchors": ["contracts/enterprise-governance-controller/src/contract.rs: weights_changed", "contracts/funds-distributor/src/user_weights.rs: update_user_weights", "contracts/enterprise-governance/src/contract.rs: update_votes"]}
{"id": "C177", "title": "Claims of what was unstaked matter to nothing else", "statement": "From a history of a DAO leave out all the messages by which others than the controller collect what they have unstaked, and let there be other claims outstanding in the beginning. Then all other messages are still accepted, with the same messages they lead to, and in the end members, weights and totals at any time, council, rules, proposals, votes, rewards and transfers of deposits are the same; only the claims outstanding differ. So what a member has unstaked and when it is collected has no influence on any decision or reward. In particular what follows on stakes and unstakes within a block depends only on where they end up.", "quantifier": "every DAO of any kind, every history of any length with messages nested to any depth, any other outstanding claims of not more ids", "why_tests_cant": "a statement about pairs of histories of any length; that nothing reads the claims but the messages that pay them can be checked by tests only for the messages tried", "anchors": ["packages/token-staking-impl/src/execute.rs: claim", "packages/denom-staking-impl/src/execute.rs: claim", "packages/nft-staking-impl/src/execute.rs: claim", "packages/token-staking-impl/src/claims.rs: add_claim"]}
{"id": "C178", "title": "Whatever a DAO can do alone it can do among others", "statement": "Other DAOs on the chain do not stand in the way. All DAOs of a chain are in the same block. A transaction that a DAO accepts alone it accepts among any others, in whatever states these are, with the same result and the same messages handled, and the others do not change. To any history of a chain a new DAO with any history of its own can be added; for the others only time passes. Together with C174: the histories of a DAO among others are exactly its histories alone.", "quantifier": "any number of DAOs of any kinds, every history of the chain of any length, every history of the DAO of any length with messages nested to any depth", "why_tests_cant": "a test runs a DAO with a few others in a few states; that nothing a DAO does depends on how many others there are or on what they are doing is a statement about all of them", "anchors": ["contracts/enterprise-governance-controller/src/contract.rs: execute", "contracts/enterprise-factory/src/contract.rs: create_dao"]}
{"id": "C179", "title": "In an NFT DAO, within a block only how many NFTs each member ends up with counts", "statement": "Take a DAO whose members stake NFTs, and two sequences of stakes and unstakes of NFTs within a block, about the same members, after which everybody has the same weight, that is, number of NFTs staked. Then nothing else tells the two apart: weights, totals at any time, votes on all polls, rewards, controller, council and transfers of deposits are the same; only which NFTs are staked and the claims of unstaked ones differ. If everybody ends with as many NFTs as before the block began, votes on general proposals, rewards, the total weight, controller and council are as if nothing had happened; so NFTs can be exchanged for others without any effect on votes or rewards.", "quantifier": "every NFT DAO with a known collection, every reachable state, sequences of any length by any members", "why_tests_cant": "a statement about pairs of sequences of any length from any reachable state, with any number of polls that the members voted on and rewards they have", "anchors": ["packages/nft-staking-impl/src/execute.rs: stake_nft", "packages/nft-staking-impl/src/execute.rs: unstake", "contracts/enterprise-governance-controller/src/contract.rs: weights_changed", "contracts/funds-distributor/src/user_weights.rs: update_user_weights", "contracts/enterprise-governance/src/contract.rs: update_votes"]}
{"id": "C180", "title": "Stricter rules let less pass, except that a raised threshold can weaken vetoes", "statement": "Take two polls with the same votes, in whatever states of governance, of which the first has a quorum, a threshold and a number of available votes at least as large as the second. If the first passes then the second passes or is vetoed; and if the share of vetoes that stops the second is not smaller than that for the first, in particular if both have the same veto threshold of their own, the second passes. Without a veto threshold of its own the threshold of a poll is also that for vetoes, so that raising it makes vetoes harder: there are votes with which a proposal is vetoed at a threshold of 30% and passes at one of 50%.", "quantifier": "every pair of reachable states of governance, every poll in each, all votes, quorums, thresholds and numbers of available votes not below the votes cast and below 2^128", "why_tests_cant": "a statement about all pairs of terms and all votes; tests compare results for a few", "anchors": ["packages/poll-engine/src/state.rs: final_status", "packages/poll-engine/src/state.rs: threshold_reached", "contracts/enterprise-governance-controller/src/validate.rs: validate_dao_gov_config"]}
{"id": "C181", "title": "What can ever be distributed of an asset per unit of weight is limited, and one member alone can use the limit up", "statement": "Over the whole life of a funds distributor, what is distributed of an asset for each unit of the weight that counts at the time adds up to less than 2^128 / 10^18 (about 3.4 * 10^20) units, but for the rounding of 10^-18 units per coin; up to that limit distributions of whitelisted assets are accepted. What is refused because of the limit is refused at any later time at which the total weight is not larger. A user of weight one, when nobody else has any weight that counts, can use up the limit of an asset with a distribution that the user can claim back entirely; after it, no distribution of as much as one unit for each unit of weight is ever accepted again, whatever happens.", "quantifier": "every initial list of weights, every history of messages, every asset, every amount and every later history", "why_tests_cant": "a statement about all histories and their sums; tests distribute small amounts a few times", "anchors": ["contracts/funds-distributor/src/distributing.rs: distribute_native", "contracts/funds-distributor/src/distributing.rs: distribute_cw20", "contracts/funds-distributor/src/state.rs: NATIVE_GLOBAL_INDICES"]}
{"id": "C182", "title": "More weight never means smaller rewards, nor larger ones for anybody else", "statement": "Take two histories of the funds distributor in which the same is distributed, and that differ in that one user is given no less weight at any time in the second one (and in who claims what and when). The exact share of that user in what is distributed of any asset is no smaller in the second history, and the exact share of every other user is no larger. What the user got is so not less, and what any other user got is not more, but for the rounding losses that C124 bounds.", "quantifier": "every pair of initial lists of weights and of histories that differ as described, with any minimum weight and changes of it, every asset and every user", "why_tests_cant": "compares all pairs of histories of any length; tests follow single scenarios", "anchors": ["contracts/funds-distributor/src/user_weights.rs: update_user_weights", "contracts/funds-distributor/src/user_weights.rs: calculate_effective_weight", "contracts/funds-distributor/src/distributing.rs: distribute_native"]}
{"id": "C183", "title": "The lifetime limit on distributions holds through everything a DAO can do", "statement": "In a DAO in which the reward weights are the stakes of the members (as in every new DAO with staking): a distribution of an allowed asset (coins or cw20 tokens) that is refused although somebody has a stake that counts is refused, as are larger ones, at every later time at which the stakes are no larger, whatever transactions, votes and proposals come between. And if one member has a stake of one unit and nobody else any that counts, there is an amount that can be distributed, of which the member can claim back all, after which no distribution of that asset of one unit or more for each unit of the stakes is ever accepted in that DAO: no message and no proposal undoes it.", "quantifier": "every DAO, every reachable state, every later state after any transactions (with all they lead to) and blocks, every coin or token, amount and sender", "why_tests_cant": "quantifies over everything that can happen in a DAO after the distribution, without a bound; no test of the suite distributes near the limit", "anchors": ["contracts/funds-distributor/src/distributing.rs: distribute_native", "contracts/funds-distributor/src/distributing.rs: distribute_cw20", "contracts/enterprise-governance-controller/src/contract.rs: weights_changed", "contracts/funds-distributor/src/state.rs: NATIVE_GLOBAL_INDICES"]}
{"id": "C184", "title": "A larger minimum weight for rewards never harms those who reach it", "statement": "Take two histories of the funds distributor in which the same is distributed and everybody is given the same weights, and in which the minimum weight for rewards is never smaller in the second one than in the first one. A user whose weight reaches the minimum at every distribution of an asset in the second history has no smaller exact share of it there than in the first history, and got no less but for the rounding losses that C124 bounds. A user whose weight never reaches the minimum when the asset is distributed gets nothing of it, whatever the history.", "quantifier": "every pair of histories of any length that differ as described, every list of weights, asset and user", "why_tests_cant": "compares all pairs of histories of any length; tests follow single scenarios", "anchors": ["contracts/funds-distributor/src/eligibility.rs: execute_update_minimum_eligible_weight", "contracts/funds-distributor/src/user_weights.rs: calculate_effective_weight", "contracts/funds-distributor/src/distributing.rs: distribute_native"]}
{"id": "C185", "title": "In an NFT DAO a claim in somebody else's name costs an NFT", "statement": "What C159 says of token DAOs is not so in NFT DAOs. A message changes the number of waiting claims of a user who did not send it only if it comes from the collection of the DAO with an NFT that was sent to be claimed by this user: then it adds one claim, of one NFT. Nobody else can take a claim off a user, and no message adds more than one. After any history the number of waiting claims of a user, which is what a claim of the user loads from storage, is at most the number of NFTs in them, plus the number of times the user unstaked an empty list.", "quantifier": "every reachable state and message of an NFT staking contract, every history of any length and every user", "why_tests_cant": "a bound over all histories of any length; tests claim one or two NFTs", "anchors": ["packages/nft-staking-impl/src/execute.rs: add_nft_claim", "packages/nft-staking-impl/src/execute.rs: unstake", "packages/nft-staking-impl/src/claims.rs: get_releasable_claims"]}
{"id": "C186", "title": "Splitting a distribution gains nothing and loses only roundings", "statement": "If a distribution of an asset is accepted by the funds distributor, it is also accepted in any number of parts. After the parts every user can claim at most what the user could claim after the whole, and less by no more than the user's effective weight over 10^18 for each part, rounded down, and one unit.", "quantifier": "every history of the distributor before, every asset and user, every list of parts of any length (while less than 2^128 units are distributed in all)", "why_tests_cant": "a bound for every list of parts after every history; tests distribute once or twice", "anchors": ["contracts/funds-distributor/src/distributing.rs: distribute_native", "contracts/funds-distributor/src/distributing.rs: distribute_cw20", "contracts/funds-distributor/src/rewards.rs: calculate_user_reward"]}
{"id": "C187", "title": "Unstaking in parts is the same as unstaking at once", "statement": "If a user can unstake an amount from token or denom staking, or a list of NFTs from NFT staking, the user can also unstake it in any number of parts within the block. Whatever messages follow, the same sub-messages are sent as after unstaking at once (NFTs come back in the same order), the same is staked, all weights and total weights (current and past) are the same, and everybody can claim the same amounts or NFTs at every time.", "quantifier": "every history before, every list of one or more parts, parts of zero units included, every history after, of the three staking contracts (while ids of claims do not run out)", "why_tests_cant": "an equivalence of two executions for every continuation of any length; tests compare single outcomes", "anchors": ["packages/token-staking-impl/src/execute.rs: unstake", "packages/denom-staking-impl/src/execute.rs: unstake", "packages/token-staking-impl/src/claims.rs: add_claim", "packages/token-staking-impl/src/execute.rs: claim", "packages/nft-staking-impl/src/execute.rs: unstake", "packages/nft-staking-impl/src/claims.rs: add_claim"]}
{"id": "C188", "title": "Staking in parts is the same as staking at once", "statement": "Staking an amount for a user in one or more parts within a block is accepted by token and denom staking exactly when staking it at once is, and then leaves exactly the same state: the same weights, the same total weights now and in the past, the same claims and settings.", "quantifier": "every history before, every list of one or more parts (parts of zero units included), every user and block, of both contracts", "why_tests_cant": "an equality of states for every list of parts after every history; tests compare single weights", "anchors": ["packages/token-staking-impl/src/execute.rs: stake_token", "packages/denom-staking-impl/src/execute.rs: stake_denom", "packages/membership-common/src/total_weight.rs: increment_total_weight"]}
{"id": "C189", "title": "Rewards can be claimed asset by asset or all at once", "statement": "Claims of rewards by a user for several lists of coins and tokens, one message after the other, are all accepted exactly when one claim for all the lists together is. They then leave exactly the same state of the funds distributor and make the same payments.", "quantifier": "every state of the distributor, every user and environment, every list of one or more lists of coins and tokens (while the transfers themselves succeed)", "why_tests_cant": "an equality of states and payments for every way of grouping any number of assets; tests claim one or two assets", "anchors": ["contracts/funds-distributor/src/claim.rs: claim_rewards", "contracts/funds-distributor/src/rewards.rs: calculate_user_reward"]}
{"id": "C190", "title": "Members of a multisig can be updated in parts or all at once", "statement": "Updates of members of a multisig by several messages in a block, with no member listed twice in all of them, are all accepted exactly when one message with the lists put together is. They then leave exactly the same state (weights, total weights now and in the past, hooks), and every hook is told about the same changes in the same order.", "quantifier": "every history before, every list of one or more lists of members and weights of any length, every block and sender", "why_tests_cant": "an equality of states and notifications for every way of splitting every list; tests send one list", "anchors": ["packages/multisig-membership-impl/src/execute.rs: update_members", "packages/multisig-membership-impl/src/validate.rs: dedup_user_weights"]}
