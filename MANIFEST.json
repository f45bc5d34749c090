{
 "claims": [
  {
   "property": "C01",
   "status": "proved",
   "theorems": [
    "Verif.Gov.C01_tally_mod",
    "Verif.Gov.C01_tally_exact",
    "Verif.Gov.C01_wrap_witness"
   ],
   "note": "Modulo 2^128 always, exact when the votes of the poll fit 128 bits; the wrap is shown to be real by C01_wrap_witness."
  },
  {
   "property": "C02",
   "status": "proved",
   "theorems": [
    "Verif.Gov.C02_one_vote_latest"
   ],
   "note": ""
  },
  {
   "property": "C03",
   "status": "proved",
   "theorems": [
    "Verif.Gov.C03_vote_window",
    "Verif.Gov.C03_refused_no_effect"
   ],
   "note": ""
  },
  {
   "property": "C04",
   "status": "proved",
   "theorems": [
    "Verif.Gov.C04_ids_consecutive",
    "Verif.Gov.C04_create",
    "Verif.Gov.C04_terms_immutable"
   ],
   "note": ""
  },
  {
   "property": "C05",
   "status": "proved",
   "theorems": [
    "Verif.Gov.C05_final_status_rule",
    "Verif.Gov.C05_quorum_overflow_witness"
   ],
   "note": "The rule is the separate spec ruleStatus; C05_quorum_overflow_witness shows the decimal overflow case named in quorumMet."
  },
  {
   "property": "C06",
   "status": "proved",
   "theorems": [
    "Verif.Gov.C06_veto_precedence",
    "Verif.Gov.C06_veto_only_if"
   ],
   "note": "For polls whose recorded votes fit 128 bits together; C01_wrap_witness shows that the tally wraps beyond."
  },
  {
   "property": "C07",
   "status": "proved",
   "theorems": [
    "Verif.Gov.C07_simulate_eq_end"
   ],
   "note": ""
  },
  {
   "property": "C08",
   "status": "proved",
   "theorems": [
    "Verif.Gov.C08_end_poll_iff"
   ],
   "note": "For polls whose recorded votes fit 128 bits together, as in C05."
  },
  {
   "property": "C09",
   "status": "proved",
   "theorems": [
    "Verif.Gov.C09_admin_only",
    "Verif.Gov.C09_outsiders_history",
    "Verif.Gov.C09_admin_fixed"
   ],
   "note": ""
  },
  {
   "property": "C10",
   "status": "proved",
   "theorems": [
    "Verif.Gov.C10_update_votes"
   ],
   "note": "Assumes block time not before the creation time of existing polls (block time is monotone)."
  },
  {
   "property": "C11",
   "status": "proved",
   "theorems": [
    "Verif.Gov.C11_results_freeze",
    "Verif.Gov.C11_ended_stays_ended"
   ],
   "note": ""
  },
  {
   "property": "C12",
   "status": "proved",
   "theorems": [
    "Verif.Gov.C12_passed_implies"
   ],
   "note": ""
  },
  {
   "property": "C13",
   "status": "proved",
   "theorems": [
    "Verif.Gov.C13_votes_commute",
    "Verif.Gov.C13_any_order"
   ],
   "note": "Any permutation of any batch of votes with different (voter, poll) pairs, accepted or not."
  },
  {
   "property": "C14",
   "status": "proved",
   "theorems": [
    "Verif.Gov.C14_polls_paging",
    "Verif.Gov.C14_poll_votes_paging",
    "Verif.Gov.C14_voter_votes_paging",
    "Verif.Gov.C14_descending_witness",
    "Verif.Gov.C14_wide_limit_witness"
   ],
   "note": "Ascending paging, as stated. C14_descending_witness records that descending pages with start_after repeat and lose polls, and C14_wide_limit_witness that limits are cut to 32 bits."
  },
  {
   "property": "C15",
   "status": "proved",
   "theorems": [
    "Verif.Gov.C15_reending_stable",
    "Verif.Gov.C15_other_total_witness"
   ],
   "note": "Same number of available votes, as stated. C15_other_total_witness records that another number can change the status."
  },
  {
   "property": "C16",
   "status": "proved",
   "theorems": [
    "Verif.Staking.C16_total_is_sum"
   ],
   "note": ""
  },
  {
   "property": "C17",
   "status": "proved",
   "theorems": [
    "Verif.Staking.C17_conservation"
   ],
   "note": ""
  },
  {
   "property": "C18",
   "status": "proved",
   "theorems": [
    "Verif.Staking.C18_unstake"
   ],
   "note": "An unstake is also refused when the 64-bit counter of claims is exhausted; the theorem says so."
  },
  {
   "property": "C19",
   "status": "proved",
   "theorems": [
    "Verif.Staking.C19_claim",
    "Verif.Staking.C19_once"
   ],
   "note": ""
  },
  {
   "property": "C20",
   "status": "proved",
   "theorems": [
    "Verif.Nft.C20_nft_ids_never_reused",
    "Verif.Staking.C20_ids_never_reused",
    "Verif.Staking.C20_unstake_fresh"
   ],
   "note": ""
  },
  {
   "property": "C21",
   "status": "proved",
   "theorems": [
    "Verif.Nft.C21_nft_only_transfer_stakes",
    "Verif.Staking.C21_only_transfer_stakes"
   ],
   "note": ""
  },
  {
   "property": "C22",
   "status": "proved",
   "theorems": [
    "Verif.Staking.C22_add_stakes",
    "Verif.Staking.C22_add_claims",
    "Verif.Staking.C22_refused"
   ],
   "note": ""
  },
  {
   "property": "C23",
   "status": "proved",
   "theorems": [
    "Verif.Multisig.C23_multisig_total_at_height",
    "Verif.Multisig.C23_multisig_total_at_time",
    "Verif.Nft.C23_nft_total_at_height",
    "Verif.Nft.C23_nft_total_at_time",
    "Verif.Staking.C23_total_at_height",
    "Verif.Staking.C23_total_at_time",
    "Verif.Staking.C23_past_immutable"
   ],
   "note": ""
  },
  {
   "property": "C24",
   "status": "proved",
   "theorems": [
    "Verif.Nft.C24_nft_hooks_notified",
    "Verif.Staking.C24_hooks_notified",
    "Verif.Staking.C24_single_change"
   ],
   "note": ""
  },
  {
   "property": "C25",
   "status": "proved",
   "theorems": [
    "Verif.Nft.C25_nft_restricted",
    "Verif.Staking.C25_restricted_gain_nothing",
    "Verif.Staking.C25_refused"
   ],
   "note": ""
  },
  {
   "property": "C26",
   "status": "proved",
   "theorems": [
    "Verif.Nft.C26_nft_waits",
    "Verif.Nft.C26_nft_not_released_before",
    "Verif.Staking.C26_waits",
    "Verif.Staking.C26_not_paid_before",
    "Verif.Staking.C26_wrap_witness"
   ],
   "note": "Under Fits (release moment below 2^64); C26_wrap_witness shows the unchecked 64-bit wrap without it."
  },
  {
   "property": "C27",
   "status": "proved",
   "theorems": [
    "Verif.Nft.C27_nft_update_unlocking",
    "Verif.Nft.C27_nft_only_controller",
    "Verif.Staking.C27_update_unlocking",
    "Verif.Staking.C27_only_controller"
   ],
   "note": ""
  },
  {
   "property": "C28",
   "status": "proved",
   "theorems": [
    "Verif.Nft.C28_weight_counts",
    "Verif.Nft.C28_staker_stable"
   ],
   "note": ""
  },
  {
   "property": "C29",
   "status": "proved",
   "theorems": [
    "Verif.Nft.C29_custody",
    "Verif.Nft.C29_disjoint",
    "Verif.Nft.C29_dishonest_witness"
   ],
   "note": "Under Honest: the NFT contract announces only tokens not already held; C29_dishonest_witness shows the need."
  },
  {
   "property": "C30",
   "status": "proved",
   "theorems": [
    "Verif.Nft.C30_unstake",
    "Verif.Nft.C30_claim"
   ],
   "note": ""
  },
  {
   "property": "C31",
   "status": "proved",
   "theorems": [
    "Verif.Multisig.C31_total_is_sum"
   ],
   "note": ""
  },
  {
   "property": "C32",
   "status": "proved",
   "theorems": [
    "Verif.Multisig.C32_update_members",
    "Verif.Multisig.C32_set_members",
    "Verif.Multisig.C32_only_controller",
    "Verif.Multisig.C32_init",
    "Verif.Multisig.C32_init_none"
   ],
   "note": ""
  },
  {
   "property": "C33",
   "status": "partial",
   "theorems": [
    "Verif.Multisig.C33_update_notified",
    "Verif.Multisig.C33_set_notified_partial",
    "Verif.Multisig.C33_set_exact_partial",
    "Verif.Multisig.C33_set_unreported_witness"
   ],
   "note": "Proved for UpdateMembers; false for SetMembers, which does not report removed members: C33_set_unreported_witness. C33_set_notified_partial states what SetMembers reports. C33_set_exact_partial: all changes are reported exactly when nobody with weight is left out."
  },
  {
   "property": "C34",
   "status": "proved",
   "theorems": [
    "Verif.Distributor.C34_solvent",
    "Verif.Distributor.C34_reported"
   ],
   "note": ""
  },
  {
   "property": "C35",
   "status": "proved",
   "theorems": [
    "Verif.Distributor.C35_claim_pays_once",
    "Verif.Distributor.C35_again"
   ],
   "note": ""
  },
  {
   "property": "C36",
   "status": "proved",
   "theorems": [
    "Verif.Distributor.C36_update_keeps_rewards",
    "Verif.Distributor.C36_update_sets_weights"
   ],
   "note": ""
  },
  {
   "property": "C37",
   "status": "proved",
   "theorems": [
    "Verif.Distributor.C37_native",
    "Verif.Distributor.C37_cw20",
    "Verif.Distributor.C37_others",
    "Verif.Distributor.C37_carry_witness"
   ],
   "note": ""
  },
  {
   "property": "C38",
   "status": "proved",
   "theorems": [
    "Verif.Distributor.C38_total_effective",
    "Verif.Distributor.C38_initial",
    "Verif.Distributor.C38_total_covers",
    "Verif.Distributor.C38_no_gain"
   ],
   "note": ""
  },
  {
   "property": "C39",
   "status": "proved",
   "theorems": [
    "Verif.Distributor.C39_keeps_rewards",
    "Verif.Distributor.C39_eligible"
   ],
   "note": ""
  },
  {
   "property": "C40",
   "status": "proved",
   "theorems": [
    "Verif.Distributor.C40_refused",
    "Verif.Distributor.C40_someone"
   ],
   "note": ""
  },
  {
   "property": "C41",
   "status": "proved",
   "theorems": [
    "Verif.Distributor.C41_owner_only",
    "Verif.Distributor.C41_only_claims_pay",
    "Verif.Distributor.C41_claim_accepted"
   ],
   "note": ""
  },
  {
   "property": "C42",
   "status": "proved",
   "theorems": [
    "Verif.Distributor.C42_refused",
    "Verif.Distributor.C42_only_admin"
   ],
   "note": ""
  },
  {
   "property": "C43",
   "status": "proved",
   "theorems": [
    "Verif.Distributor.C43_refused",
    "Verif.Distributor.C43_accepted"
   ],
   "note": ""
  },
  {
   "property": "C44",
   "status": "proved",
   "theorems": [
    "Verif.Dao.C44_at_most_once",
    "Verif.Dao.C44_dispatched_iff_passed",
    "Verif.Dao.C44_never_after_rejection",
    "Verif.Dao.C44_dispatched_once",
    "Verif.Dao.C44_never_dispatched_again",
    "Verif.Dao.C44_forged_witness"
   ],
   "note": "C44_dispatched_once and C44_never_dispatched_again assume nothing about custom messages; the theorems about the result and the running of actions assume Tame. `Tame` excludes custom messages of passed proposals by which the controller forges the messages that the contracts of the DAO send one another. C44_forged_witness shows that the running of actions needs it."
  },
  {
   "property": "C45",
   "status": "proved",
   "theorems": [
    "Verif.Dao.C45_not_before_resolution",
    "Verif.Dao.C45_paid_once",
    "Verif.Dao.C45_deposit_fixed",
    "Verif.Dao.C45_kept_until_executed",
    "Verif.Dao.C45_transferred_once",
    "Verif.Dao.C45_never_again"
   ],
   "note": "C45_kept_until_executed, C45_transferred_once and C45_never_again assume nothing about custom messages; C45_paid_once, which names the receiver by the recorded result, assumes Tame. `Tame` excludes custom messages of passed proposals by which the controller forges the messages that the contracts of the DAO send one another."
  },
  {
   "property": "C46",
   "status": "proved",
   "theorems": [
    "Verif.Controller.C46_execute_iff",
    "Verif.Dao.C46_general_execute_iff"
   ],
   "note": ""
  },
  {
   "property": "C47",
   "status": "proved",
   "theorems": [
    "Verif.Dao.C47_only_passed",
    "Verif.Dao.C47_dispatched_by_rule"
   ],
   "note": "Under Tame. `Tame` excludes custom messages of passed proposals by which the controller forges the messages that the contracts of the DAO send one another."
  },
  {
   "property": "C48",
   "status": "proved",
   "theorems": [
    "Verif.Controller.C48_internal_entry_point"
   ],
   "note": ""
  },
  {
   "property": "C49",
   "status": "proved",
   "theorems": [
    "Verif.Controller.C49_create_council",
    "Verif.Controller.C49_council_harmless",
    "Verif.Controller.C49_only_way"
   ],
   "note": ""
  },
  {
   "property": "C50",
   "status": "proved",
   "theorems": [
    "Verif.Controller.C50_ten_actions"
   ],
   "note": ""
  },
  {
   "property": "C51",
   "status": "proved",
   "theorems": [
    "Verif.Controller.C51_config_valid",
    "Verif.Controller.C51_config_change",
    "Verif.Dao.C51_changed_by_passed_proposal",
    "Verif.Dao.C51_council_changed_by_passed_proposal",
    "Verif.Dao.C51_poll_terms_valid"
   ],
   "note": "The change-by-passed-proposal theorems are under Tame. `Tame` excludes custom messages of passed proposals by which the controller forges the messages that the contracts of the DAO send one another."
  },
  {
   "property": "C52",
   "status": "proved",
   "theorems": [
    "Verif.Controller.C52_general_proposal",
    "Verif.Controller.C52_deposit_taken"
   ],
   "note": ""
  },
  {
   "property": "C53",
   "status": "proved",
   "theorems": [
    "Verif.Controller.C53_weights_changed",
    "Verif.Controller.C53_refused"
   ],
   "note": ""
  },
  {
   "property": "C54",
   "status": "proved",
   "theorems": [
    "Verif.Dao.C54_votes_track_weight",
    "Verif.Dao.C54_votes_bounded",
    "Verif.Dao.C54_tallies_exact"
   ],
   "note": "Under Wf (distinct addresses) and Tame. `Tame` excludes custom messages of passed proposals by which the controller forges the messages that the contracts of the DAO send one another."
  },
  {
   "property": "C55",
   "status": "partial",
   "theorems": [
    "Verif.Dao.C55_cast_with_council_weight_partial",
    "Verif.Dao.C55_vote_kept_partial",
    "Verif.Dao.C55_minority_witness",
    "Verif.Dao.C55_former_member_witness",
    "Verif.Dao.C55_reweighted_partial"
   ],
   "note": "False as stated: C55_minority_witness (a change of membership weight overwrites a council vote) and C55_former_member_witness. Proved: a council vote is cast with the council weight, and no message other than a weight report or a vote of the same voter alters it. C55_reweighted_partial: what a message to the membership contract does to the votes on a council proposal, in every state."
  },
  {
   "property": "C56",
   "status": "partial",
   "theorems": [
    "Verif.Controller.C56_vote_restarts_cooldown_partial",
    "Verif.Dao.C56_weights_changed_witness",
    "Verif.Dao.C56_reports_keep_cooldown_partial"
   ],
   "note": "Proved for votes cast through the controller. False for votes changed by a report of weights, which never restart the cooldown: C56_weights_changed_witness. C56_reports_keep_cooldown_partial: no such report changes an earliest execution time."
  },
  {
   "property": "C57",
   "status": "partial",
   "theorems": [
    "Verif.Dao.C57_executed_is_final",
    "Verif.Dao.C57_in_progress_partial",
    "Verif.Dao.C57_executable",
    "Verif.Dao.C57_rejected_partial",
    "Verif.Dao.C57_tie_witness",
    "Verif.Dao.C57_nobody_left_witness",
    "Verif.Dao.C57_in_progress_exact_partial",
    "Verif.Dao.C57_rejected_exact_partial"
   ],
   "note": "False for draws (C57_tie_witness) and for polls without available votes (C57_nobody_left_witness); proved outside of these. C57_in_progress_exact_partial and C57_rejected_exact_partial: exactly when such proposals can be executed."
  },
  {
   "property": "C58",
   "status": "proved",
   "theorems": [
    "Verif.Dao.C58_always_resolved",
    "Verif.Dao.C58_failed_batch_has_no_effect",
    "Verif.Dao.C58_never_blocked"
   ],
   "note": "Under Wf and Tame. `Tame` excludes custom messages of passed proposals by which the controller forges the messages that the contracts of the DAO send one another."
  },
  {
   "property": "C59",
   "status": "proved",
   "theorems": [
    "Verif.Controller.C59_who_can_vote"
   ],
   "note": ""
  },
  {
   "property": "C60",
   "status": "partial",
   "theorems": [
    "Verif.Birth.C60_created_partial",
    "Verif.Controller.C60_unlocking_checked_partial",
    "Verif.Controller.C60_vote_duration_witness",
    "Verif.Dao.C60_history_partial",
    "Verif.Dao.C60_reached_witness"
   ],
   "note": "Proved: a change that names an unlocking period in seconds is checked (C60_unlocking_checked_partial); a DAO created by the factory starts with a vote duration of at most the unlocking period and keeps it through all histories in which no proposal changes the vote duration (C60_created_partial, C60_history_partial; custom messages are Tame and do not set the period themselves). Missing: proposals that change the vote duration alone, which are not checked (C60_vote_duration_witness, C60_reached_witness in the composed system); periods in blocks are never compared."
  },
  {
   "property": "C61",
   "status": "proved",
   "theorems": [
    "Verif.Treasury.C61_only_admin",
    "Verif.Treasury.C61_history",
    "Verif.Treasury.C61_spend",
    "Verif.Treasury.C61_spend_accepted",
    "Verif.Treasury.C61_distribute",
    "Verif.Treasury.C61_distribute_accepted",
    "Verif.Treasury.C61_set_admin",
    "Verif.Treasury.C61_admin_kept",
    "Verif.Treasury.C61_cosmos_msgs"
   ],
   "note": ""
  },
  {
   "property": "C62",
   "status": "proved",
   "theorems": [
    "Verif.Treasury.C62_update",
    "Verif.Treasury.C62_update_accepted",
    "Verif.Treasury.C62_update_nfts",
    "Verif.Treasury.C62_init",
    "Verif.Treasury.C62_paging",
    "Verif.Treasury.C62_paging_nfts"
   ],
   "note": ""
  },
  {
   "property": "C63",
   "status": "proved",
   "theorems": [
    "Verif.Migration.C63_weight_constant",
    "Verif.Migration.C63_batch_amount",
    "Verif.Migration.C63_stakes_once",
    "Verif.Migration.C63_claims_once",
    "Verif.Migration.C63_nfts_once",
    "Verif.Migration.C63_nft_claims_once",
    "Verif.Migration.C63_completed_token",
    "Verif.Migration.C63_completed_nft",
    "Verif.Migration.C63_progress",
    "Verif.Migration.C63_progress_nft",
    "Verif.Migration.C63_stuck",
    "Verif.Migration.C63_nft_drops_token_claims_witness",
    "Verif.Migration.C63_system",
    "Verif.Migration.C63_blocked_by_restricted"
   ],
   "note": "Also proved with the receiving staking contract (C63_system) and for claims and NFTs. Zero amounts are dropped by the code, so the lists compare nonzero entries. Findings: C63_stuck, C63_nft_drops_token_claims_witness, C63_blocked_by_restricted."
  },
  {
   "property": "C64",
   "status": "proved",
   "theorems": [
    "Verif.Enterprise.C64_finalize_iff",
    "Verif.Enterprise.C64_once",
    "Verif.Enterprise.C64_fixed",
    "Verif.Enterprise.C64_attestation_by_controller",
    "Verif.Enterprise.C64_senders"
   ],
   "note": ""
  },
  {
   "property": "C65",
   "status": "proved",
   "theorems": [
    "Verif.Enterprise.C65_accepted_iff",
    "Verif.Enterprise.C65_effect",
    "Verif.Enterprise.C65_monotone",
    "Verif.Enterprise.C65_unregistered_witness"
   ],
   "note": "C65_unregistered_witness: a target that is not in the registry is accepted."
  },
  {
   "property": "C66",
   "status": "proved",
   "theorems": [
    "Verif.Enterprise.C66_restricted_iff",
    "Verif.Enterprise.C66_set_restricts_all",
    "Verif.Enterprise.C66_since_created",
    "Verif.Enterprise.C66_signed_for_good",
    "Verif.Enterprise.C66_none"
   ],
   "note": ""
  },
  {
   "property": "C67",
   "status": "proved",
   "theorems": [
    "Verif.Versioning.C67_admin_only",
    "Verif.Versioning.C67_history",
    "Verif.Versioning.C67_add",
    "Verif.Versioning.C67_edit",
    "Verif.Versioning.C67_never_removed",
    "Verif.Versioning.C67_latest",
    "Verif.Versioning.C67_paging"
   ],
   "note": ""
  },
  {
   "property": "C68",
   "status": "proved",
   "theorems": [
    "Verif.Outposts.C68_accepted_iff",
    "Verif.Outposts.C68_recorded",
    "Verif.Outposts.C68_used_once",
    "Verif.Outposts.C68_never_replaced",
    "Verif.Outposts.C68_authenticated"
   ],
   "note": "C68_used_once assumes fewer than 2^32 - 1 messages (callback ids are unchecked u32). derive_intermediate_sender is an arbitrary function."
  },
  {
   "property": "C69",
   "status": "proved",
   "theorems": [
    "Verif.Factory.C69_numbers",
    "Verif.Factory.C69_paging"
   ],
   "note": "Fewer than 2^64 - 1 messages (the counter is an unchecked u64)."
  },
  {
   "property": "C70",
   "status": "partial",
   "theorems": [
    "Verif.Factory.C70_multisig_partial",
    "Verif.Factory.C70_staking_partial",
    "Verif.Factory.C70_weights_partial",
    "Verif.Factory.C70_council_witness"
   ],
   "note": "Proved for multisig DAOs and for DAOs without a council. False for staking DAOs with a council: C70_council_witness."
  },
  {
   "property": "C71",
   "status": "proved",
   "theorems": [
    "Verif.Factory.C71_imported",
    "Verif.Factory.C71_accepted_iff"
   ],
   "note": "The cw3 contract answers pages of its voter list of any positive size (Answers). Acceptance assumes a total below 2^128 and gas for one query per page."
  },
  {
   "property": "C72",
   "status": "proved",
   "theorems": [
    "Verif.Distributor.C72_updates_accepted",
    "Verif.Distributor.C72_minimum_accepted"
   ],
   "note": ""
  },
  {
   "property": "C73",
   "status": "proved",
   "theorems": [
    "Verif.Dao.C73_reward_weights_track",
    "Verif.Dao.C73_reward_weight"
   ],
   "note": "Under Wf and Tame. `Tame` excludes custom messages of passed proposals by which the controller forges the messages that the contracts of the DAO send one another."
  },
  {
   "property": "C74",
   "status": "proved",
   "theorems": [
    "Verif.Enterprise.C74_migrate",
    "Verif.Enterprise.C74_target_ignored"
   ],
   "note": ""
  },
  {
   "property": "C75",
   "status": "proved",
   "theorems": [
    "Verif.Outposts.C75_execute_iff",
    "Verif.Outposts.C75_deploy",
    "Verif.Outposts.C75_all_sent",
    "Verif.Outposts.C75_paging"
   ],
   "note": ""
  },
  {
   "property": "C76",
   "status": "proved",
   "theorems": [
    "Verif.Factory.C76_wired",
    "Verif.Factory.C76_isolated"
   ],
   "note": ""
  },
  {
   "property": "C77",
   "status": "proved",
   "theorems": [
    "Verif.Factory.C77_accepted_iff",
    "Verif.Factory.C77_zero_weights_witness"
   ],
   "note": "Importing a cw3 is decided by C71_accepted_iff."
  },
  {
   "property": "C78",
   "status": "proved",
   "theorems": [
    "Verif.Factory.C78_config",
    "Verif.Factory.C78_finalize",
    "Verif.Factory.C78_whitelists"
   ],
   "note": ""
  },
  {
   "property": "C79",
   "status": "proved",
   "theorems": [
    "Verif.Nft.C79_nft_stake",
    "Verif.Staking.C79_stake_token",
    "Verif.Staking.C79_stake_denom"
   ],
   "note": ""
  },
  {
   "property": "C80",
   "status": "proved",
   "theorems": [
    "Verif.Nft.C80_nft_fixed",
    "Verif.Nft.C80_nft_resolved",
    "Verif.Staking.C80_asset_fixed"
   ],
   "note": ""
  },
  {
   "property": "C81",
   "status": "proved",
   "theorems": [
    "Verif.Nft.C81_nft_claims",
    "Verif.Staking.C81_claims"
   ],
   "note": ""
  },
  {
   "property": "C82",
   "status": "proved",
   "theorems": [
    "Verif.Multisig.C82_multisig_members",
    "Verif.Nft.C82_nft_members",
    "Verif.Nft.C82_nft_staked",
    "Verif.Nft.C82_nft_user_stake",
    "Verif.Staking.C82_members"
   ],
   "note": ""
  },
  {
   "property": "C83",
   "status": "proved",
   "theorems": [
    "Verif.Multisig.C83_multisig_init",
    "Verif.Multisig.C83_multisig_edit",
    "Verif.Multisig.C83_multisig_only_controller",
    "Verif.Nft.C83_nft_init",
    "Verif.Nft.C83_nft_edit",
    "Verif.Nft.C83_nft_only_controller",
    "Verif.Staking.C83_init",
    "Verif.Staking.C83_edit",
    "Verif.Staking.C83_only_controller"
   ],
   "note": ""
  },
  {
   "property": "C84",
   "status": "proved",
   "theorems": [
    "Verif.Custody.Token.C84_covered",
    "Verif.Custody.Token.C84_claim_paid",
    "Verif.Custody.Token.C84_withdraw",
    "Verif.Custody.Token.C84_stake_paid",
    "Verif.Custody.Token.C84_denom_stake_paid"
   ],
   "note": "The ledger is a model of cw20-base or the bank module; a claim of nothing (sum 0) fails when the ledger refuses transfers of zero."
  },
  {
   "property": "C85",
   "status": "proved",
   "theorems": [
    "Verif.Custody.Collection.C85_held",
    "Verif.Custody.Collection.C85_claim_delivered",
    "Verif.Custody.Collection.C85_withdraw",
    "Verif.Custody.Collection.C85_stake"
   ],
   "note": "The owner map is a model of cw721-base; the ICS721 proxy names the collection or nothing."
  },
  {
   "property": "C86",
   "status": "proved",
   "theorems": [
    "Verif.Custody.Collection.C86_sender",
    "Verif.Custody.Collection.C86_messages",
    "Verif.Custody.Collection.C86_config_fixed",
    "Verif.Custody.Collection.C86_packet_staked",
    "Verif.Custody.Collection.C86_stuck"
   ],
   "note": ""
  },
  {
   "property": "C87",
   "status": "proved",
   "theorems": [
    "Verif.Custody.Rewards.C87_covered",
    "Verif.Custody.Rewards.C87_reported",
    "Verif.Custody.Rewards.C87_claim_paid",
    "Verif.Custody.Rewards.C87_updates_accepted",
    "Verif.Custody.Rewards.C87_distribution_paid",
    "Verif.Custody.Rewards.C87_token_distribution_paid"
   ],
   "note": "Tokens call Receive only after a Send of the amount."
  },
  {
   "property": "C88",
   "status": "proved",
   "theorems": [
    "Verif.Pages.C88_members",
    "Verif.Pages.C88_staked_nfts",
    "Verif.Pages.C88_user_nfts",
    "Verif.Pages.C88_nft_whitelist",
    "Verif.Pages.C88_asset_whitelist",
    "Verif.Pages.C88_treasuries",
    "Verif.Pages.C88_daos",
    "Verif.Pages.C88_versions",
    "Verif.Pages.C88_polls",
    "Verif.Pages.C88_poll_votes",
    "Verif.Pages.C88_voter_votes"
   ],
   "note": ""
  },
  {
   "property": "C89",
   "status": "proved",
   "theorems": [
    "Verif.Controller.C89_general_terms",
    "Verif.Controller.C89_council_terms"
   ],
   "note": "The end of voting and the number of proposals fit 64 bits."
  },
  {
   "property": "C90",
   "status": "proved",
   "theorems": [
    "Verif.Controller.C90_general_accepted",
    "Verif.Controller.C90_council_accepted",
    "Verif.Controller.C90_frozen_witness"
   ],
   "note": "The end of voting fits 64 bits; C90_frozen_witness shows that the contracts do not ensure it."
  },
  {
   "property": "C91",
   "status": "proved",
   "theorems": [
    "Verif.Controller.C91_actions",
    "Verif.Controller.C91_payments"
   ],
   "note": ""
  },
  {
   "property": "C92",
   "status": "proved",
   "theorems": [
    "Verif.Controller.C92_at_most_once",
    "Verif.Controller.C92_when_and_who"
   ],
   "note": ""
  },
  {
   "property": "C93",
   "status": "proved",
   "theorems": [
    "Verif.Dao.C93_page",
    "Verif.Dao.C93_all_pages",
    "Verif.Dao.C93_votes"
   ],
   "note": "Under Wf and Tame. `Tame` excludes custom messages of passed proposals by which the controller forges the messages that the contracts of the DAO send one another."
  },
  {
   "property": "C94",
   "status": "partial",
   "theorems": [
    "Verif.Dao.C94_filter_partial",
    "Verif.Dao.C94_filter_witness"
   ],
   "note": "False as stated: C94_filter_witness. Proved: what the filter does select."
  },
  {
   "property": "C95",
   "status": "proved",
   "theorems": [
    "Verif.Facade.C95_routing",
    "Verif.Facade.C95_same_dao",
    "Verif.Facade.C95_legacy",
    "Verif.Facade.C95_others",
    "Verif.Facade.C95_migrate",
    "Verif.Facade.C95_history"
   ],
   "note": ""
  },
  {
   "property": "C96",
   "status": "proved",
   "theorems": [
    "Verif.Facade.C96_legacy",
    "Verif.Facade.C96_rules",
    "Verif.Facade.C96_unit",
    "Verif.Facade.C96_available"
   ],
   "note": ""
  },
  {
   "property": "C97",
   "status": "partial",
   "theorems": [
    "Verif.Facade.C97_council_partial",
    "Verif.Facade.C97_council_cut",
    "Verif.Facade.C97_code_partial",
    "Verif.Facade.C97_code_ambiguous"
   ],
   "note": "False as stated: C97_council_cut (more than 100 members), C97_code_ambiguous. Proved: up to 100 members, and minor and patch numbers below 100."
  },
  {
   "property": "C98",
   "status": "proved",
   "theorems": [
    "Verif.Facade.C98_share",
    "Verif.Facade.C98_sum"
   ],
   "note": "Under Wf and Tame. `Tame` excludes custom messages of passed proposals by which the controller forges the messages that the contracts of the DAO send one another."
  },
  {
   "property": "C99",
   "status": "proved",
   "theorems": [
    "Verif.Facade.C99_stake_token",
    "Verif.Facade.C99_stake_denom",
    "Verif.Facade.C99_withdraw",
    "Verif.Facade.C99_stake_nft",
    "Verif.Facade.C99_withdraw_nft",
    "Verif.Facade.C99_refused",
    "Verif.Facade.C99_unstake_any_kind"
   ],
   "note": "The ledgers are models of cw20-base, the bank module and cw721-base, as in C84 and C85."
  },
  {
   "property": "C100",
   "status": "proved",
   "theorems": [
    "Verif.Facade.C100_coins",
    "Verif.Facade.C100_one_each",
    "Verif.Facade.C100_rejected_witness"
   ],
   "note": "Under Wf and Tame. For a proposal that is not passed the coins are sent as well: C100_rejected_witness."
  },
  {
   "property": "C101",
   "status": "proved",
   "theorems": [
    "Verif.Facade.C101_plain",
    "Verif.Facade.C101_denom_deposit",
    "Verif.Facade.C101_token_deposit",
    "Verif.Facade.C101_nft_deposit",
    "Verif.Facade.C101_votes"
   ],
   "note": "The end of voting and the number of proposals fit 64 bits. The cw721 contract is a small model of cw721-base."
  },
  {
   "property": "C102",
   "status": "partial",
   "theorems": [
    "Verif.Facade.C102_sent_partial",
    "Verif.Facade.C102_shown_partial",
    "Verif.Facade.C102_refused",
    "Verif.Facade.C102_lost_witness",
    "Verif.Facade.C102_stake",
    "Verif.Facade.C102_asked"
   ],
   "note": "False as stated: C102_lost_witness. Proved for actions without treasuries on other chains; upgrades are sent right but shown with another version."
  },
  {
   "property": "C103",
   "status": "partial",
   "theorems": [
    "Verif.Facade.C103_status_partial",
    "Verif.Facade.C103_exact_partial",
    "Verif.Facade.C103_no_time",
    "Verif.Facade.C103_witness",
    "Verif.Facade.C103_list"
   ],
   "note": "False for draws and for council proposals: C103_witness. Proved for general proposals without a draw. C103_exact_partial: the status that is shown in every case. C103_no_time: proposals whose end is not a time."
  },
  {
   "property": "C104",
   "status": "proved",
   "theorems": [
    "Verif.Facade.C104_lists",
    "Verif.Facade.C104_stakes",
    "Verif.Facade.C104_nfts",
    "Verif.Facade.C104_claims",
    "Verif.Facade.C104_nft_claims",
    "Verif.Facade.C104_proposals",
    "Verif.Facade.C104_votes",
    "Verif.Facade.C104_treasury",
    "Verif.Facade.C104_migration"
   ],
   "note": "Stakes and proposals under Wf and Tame. `Tame` excludes custom messages of passed proposals by which the controller forges the messages that the contracts of the DAO send one another."
  },
  {
   "property": "C105",
   "status": "proved",
   "theorems": [
    "Verif.Custody.Deposits.C105_covered",
    "Verif.Custody.Deposits.C105_nfts",
    "Verif.Custody.Deposits.C105_pays",
    "Verif.Custody.Deposits.C105_resolved",
    "Verif.Custody.Deposits.C105_kept",
    "Verif.Custody.Deposits.C105_spent_witness"
   ],
   "note": "Custom messages that spend what the controller holds are excluded, as the statement says; C105_spent_witness shows what they can do."
  },
  {
   "property": "C106",
   "status": "proved",
   "theorems": [
    "Verif.Custody.Spending.C106_only",
    "Verif.Custody.Spending.C106_exact",
    "Verif.Custody.Spending.C106_pays",
    "Verif.Custody.Spending.C106_history"
   ],
   "note": "C106_only and C106_exact hold whatever custom messages do in that step; histories before it and C106_history need Tame custom messages. Treasuries on other chains are not modelled."
  },
  {
   "property": "C107",
   "status": "proved",
   "theorems": [
    "Verif.Birth.C107_genesis",
    "Verif.Birth.C107_parts",
    "Verif.Birth.C107_asked",
    "Verif.Birth.C107_members",
    "Verif.Birth.C107_others",
    "Verif.Birth.C107_custody",
    "Verif.Birth.C107_facade"
   ],
   "note": "Takes the code ids of a version to be those of the contracts they are named after. The outposts contract may do anything with the initial cross-chain treasuries."
  },
  {
   "property": "C108",
   "status": "proved",
   "theorems": [
    "Verif.Dao.C108_shown",
    "Verif.Dao.C108_tallies",
    "Verif.Dao.C108_total",
    "Verif.Dao.C108_executed"
   ],
   "note": "Under Wf and Tame. The end of voting fits 64 bits. `Tame` excludes custom messages of passed proposals by which the controller forges the messages that the contracts of the DAO send one another."
  },
  {
   "property": "C109",
   "status": "proved",
   "theorems": [
    "Verif.Dao.C109_total_at",
    "Verif.Dao.C109_settled",
    "Verif.Dao.C109_outcome"
   ],
   "note": "Under Wf and Tame. `Tame` excludes custom messages of passed proposals by which the controller forges the messages that the contracts of the DAO send one another."
  },
  {
   "property": "C110",
   "status": "partial",
   "theorems": [
    "Verif.Dao.C110_open_partial",
    "Verif.Dao.C110_whole_second_partial",
    "Verif.Dao.C110_quiet_second_partial",
    "Verif.Dao.C110_exceeds_witness",
    "Verif.Dao.C110_quorum_witness",
    "Verif.Dao.C110_early_witness"
   ],
   "note": "False as stated: C110_exceeds_witness, C110_quorum_witness, C110_early_witness. Proved: while voting goes on, for ends on whole seconds, and if no block falls between the start of the last second and the end. Under Wf and Tame."
  },
  {
   "property": "C111",
   "status": "proved",
   "theorems": [
    "Verif.Enterprise.C111_metadata_iff",
    "Verif.Enterprise.C111_settings_iff",
    "Verif.Enterprise.C111_messages_iff",
    "Verif.Enterprise.C111_by_controller"
   ],
   "note": "Values are opaque."
  },
  {
   "property": "C112",
   "status": "proved",
   "theorems": [
    "Verif.Distributor.C112_nothing_lost",
    "Verif.Distributor.C112_small_distribution"
   ],
   "note": "C112_small_distribution: the loss can be the whole of a small distribution."
  },
  {
   "property": "C113",
   "status": "partial",
   "theorems": [
    "Verif.Factory.C113_recognised_partial",
    "Verif.Factory.C113_unknown_witness",
    "Verif.Factory.C113_listed"
   ],
   "note": "False as stated: C113_unknown_witness (the list of codes is never written). Proved: when exactly the answer is yes, and yes for DAOs of version 1.0.0."
  },
  {
   "property": "C114",
   "status": "proved",
   "theorems": [
    "Verif.Versioning.C114_reads",
    "Verif.Versioning.C114_round",
    "Verif.Versioning.C114_distinct",
    "Verif.Versioning.C114_again"
   ],
   "note": ""
  },
  {
   "property": "C115",
   "status": "proved",
   "theorems": [
    "Verif.Migration.C115_system_nft",
    "Verif.Migration.C115_arrived_nft",
    "Verif.Migration.C115_blocked_by_restricted_nft",
    "Verif.Migration.C115_completes_nft",
    "Verif.Migration.C115_arrived_token",
    "Verif.Migration.C115_completes_token"
   ],
   "note": "Token DAOs: C63_system (invariant), C115_arrived_token, C115_completes_token; NFT DAOs: C115_system_nft, C115_arrived_nft, C115_completes_nft. Finding for NFT DAOs: C115_blocked_by_restricted_nft."
  },
  {
   "property": "C116",
   "status": "proved",
   "theorems": [
    "Verif.Dao.C116_votes_are_weights",
    "Verif.Dao.C116_early",
    "Verif.Dao.C116_at_end",
    "Verif.Dao.C116_passed_early",
    "Verif.Dao.C116_passed_at_end"
   ],
   "note": "If the last block before the end of voting lies in the second in which voting ends, the total is that recorded at the start of that second (see C110)."
  },
  {
   "property": "C117",
   "status": "proved",
   "theorems": [
    "Verif.Dao.C117_unstake",
    "Verif.Dao.C117_unstake_nft"
   ],
   "note": "Not for multisig DAOs, whose members are set by proposals. `RewardsFit` holds as long as less than 2^128 units of each asset are distributed and unclaimed."
  },
  {
   "property": "C118",
   "status": "proved",
   "theorems": [
    "Verif.Dao.C118_vote_accepted_iff",
    "Verif.Dao.C118_council_vote_accepted_iff",
    "Verif.Dao.C118_vote_effect"
   ],
   "note": ""
  },
  {
   "property": "C119",
   "status": "proved",
   "theorems": [
    "Verif.Dao.C119_stake_token",
    "Verif.Dao.C119_stake_denom",
    "Verif.Dao.C119_stake_nft"
   ],
   "note": "Not for multisig DAOs. An NFT DAO whose NFTs come through ICS721 is covered once the address of the NFT contract is stored."
  },
  {
   "property": "C120",
   "status": "proved",
   "theorems": [
    "Verif.Dao.C120_resolvable",
    "Verif.Dao.C120_never",
    "Verif.Dao.C120_iff"
   ],
   "note": "Under Wf and Tame. `Tame` excludes custom messages of passed proposals by which the controller forges the messages that the contracts of the DAO send one another."
  },
  {
   "property": "C121",
   "status": "proved",
   "theorems": [
    "Verif.Distributor.C121_rewards_accounted",
    "Verif.Distributor.C121_rewards_untouched",
    "Verif.Nft.C121_nft_accounted",
    "Verif.Nft.C121_nft_untouched",
    "Verif.Staking.C121_accounted",
    "Verif.Staking.C121_untouched"
   ],
   "note": "For rewards it is assumed that less than 2^128 units of the asset are distributed in all."
  },
  {
   "property": "C122",
   "status": "proved",
   "theorems": [
    "Verif.Dao.C122_group_passes",
    "Verif.Dao.C122_group_prevents",
    "Verif.Dao.C122_group_prevents_early",
    "Verif.Dao.C122_group_vetoes",
    "Verif.Dao.C122_group_stays_away"
   ],
   "note": "Under Wf and Tame. The last block before the end of voting is not in the second in which voting ends; general proposals. `Tame` excludes custom messages of passed proposals by which the controller forges the messages that the contracts of the DAO send one another."
  },
  {
   "property": "C123",
   "status": "proved",
   "theorems": [
    "Verif.Controller.C123_accepted",
    "Verif.Controller.C123_starts"
   ],
   "note": ""
  },
  {
   "property": "C124",
   "status": "proved",
   "theorems": [
    "Verif.Distributor.C124_never_more",
    "Verif.Distributor.C124_within_rounding",
    "Verif.Distributor.C124_shares_add_up"
   ],
   "note": "Lower bound: less than 2^128 units of the asset are distributed in all."
  },
  {
   "property": "C125",
   "status": "proved",
   "theorems": [
    "Verif.Dao.C125_all_staked",
    "Verif.Dao.C125_never_more",
    "Verif.Dao.C125_within_rounding",
    "Verif.Dao.C125_adds_up"
   ],
   "note": "From a new DAO in which the user starts with the voting weight as reward weight; the lower bound and the sum of the parts need this of everybody (C70 says in which DAOs: not in those with staking and a council, where the parts of the members are lower). Lower bound: less than 2^128 units of the asset are distributed in all."
  },
  {
   "property": "C126",
   "status": "proved",
   "theorems": [
    "Verif.Factory.C126_token",
    "Verif.Factory.C126_collection",
    "Verif.Factory.C126_others"
   ],
   "note": ""
  },
  {
   "property": "C127",
   "status": "proved",
   "theorems": [
    "Verif.Dao.C127_early_pass",
    "Verif.Dao.C127_early_rejection",
    "Verif.Dao.C127_turned_witness"
   ],
   "note": "Under Wf and Tame; general proposals. C127_turned_witness: an early result can be turned by outstanding votes. `Tame` excludes custom messages of passed proposals by which the controller forges the messages that the contracts of the DAO send one another."
  },
  {
   "property": "C128",
   "status": "partial",
   "theorems": [
    "Verif.Migration.C128_token_partial",
    "Verif.Migration.C128_nft_partial",
    "Verif.Migration.C128_whole_user",
    "Verif.Migration.C128_over_witness"
   ],
   "note": "False as stated for NFT DAOs: C128_whole_user, C128_over_witness (all NFTs under claim of a user are sent at once). Proved for token DAOs, and for NFT DAOs up to a factor given by the NFTs under claim of a user."
  },
  {
   "property": "C129",
   "status": "proved",
   "theorems": [
    "Verif.Migration.C129_not_started",
    "Verif.Migration.C129_completed",
    "Verif.Migration.C129_others"
   ],
   "note": ""
  },
  {
   "property": "C130",
   "status": "proved",
   "theorems": [
    "Verif.Dao.C130_config",
    "Verif.Dao.C130_council_config",
    "Verif.Dao.C130_settings",
    "Verif.Dao.C130_ordered",
    "Verif.Dao.C130_unchanged"
   ],
   "note": "Under Wf and Tame. Custom messages of passed proposals count as asked for by the proposal. `Tame` excludes custom messages of passed proposals by which the controller forges the messages that the contracts of the DAO send one another."
  },
  {
   "property": "C131",
   "status": "proved",
   "theorems": [
    "Verif.Custody.Spending.C131_exact",
    "Verif.Custody.Spending.C131_pays",
    "Verif.Custody.Spending.C131_native",
    "Verif.Custody.Spending.C131_cw20"
   ],
   "note": "In the system of C106. C131_native and C131_cw20 take the distributor in a state that a distributor can get into."
  },
  {
   "property": "C132",
   "status": "proved",
   "theorems": [
    "Verif.Dao.C132_accepted",
    "Verif.Dao.C132_takes_effect"
   ],
   "note": "Under Wf and Tame; sums of weights and rewards due below 2^128 (Room). C132_accepted does not use the rule for caught failures: every message is accepted."
  },
  {
   "property": "C133",
   "status": "proved",
   "theorems": [
    "Verif.Facade.C133_content",
    "Verif.Facade.C133_listed",
    "Verif.Facade.C133_shown"
   ],
   "note": ""
  },
  {
   "property": "C134",
   "status": "proved",
   "theorems": [
    "Verif.Dao.C134_passes",
    "Verif.Dao.C134_amends"
   ],
   "note": "Under Wf and Tame. No deposit asked for, or one in coins in a denom DAO. States that the executions exist: the attempt of the group to run amendments cannot fail by C132_accepted."
  },
  {
   "property": "C135",
   "status": "partial",
   "theorems": [
    "Verif.Nft.C135_stuck",
    "Verif.Nft.C135_converted_partial"
   ],
   "note": "False as stated: C135_stuck (after the migration as it is, nothing works ever). Proved for the conversion in the package that nothing calls."
  },
  {
   "property": "C136",
   "status": "proved",
   "theorems": [
    "Verif.Dao.C136_backed",
    "Verif.Dao.C136_amended"
   ],
   "note": "Under Wf and Tame. The total weight is the one at that moment, or, if that moment is in the very second in which voting ends, possibly the one before that second, see C110."
  },
  {
   "property": "C137",
   "status": "proved",
   "theorems": [
    "Verif.Dao.C137_orders",
    "Verif.Dao.C137_once"
   ],
   "note": "Under Wf and Tame. What the controller sent is read off the messages on record."
  },
  {
   "property": "C138",
   "status": "proved",
   "theorems": [
    "Verif.Dao.C138_choice",
    "Verif.Dao.C138_able",
    "Verif.Dao.C138_amount",
    "Verif.Dao.C138_passed"
   ],
   "note": "Under Wf and Tame. The amount of a council vote after a change of membership weight is the violation of C55."
  },
  {
   "property": "C139",
   "status": "proved",
   "theorems": [
    "Verif.Dao.C139_at_once"
   ],
   "note": "Under Wf and Tame. The dates must fit 64 bits. The messages that the actions send (to the enterprise contract, treasuries, outposts) leave the modelled contracts; if one of them fails there, the actions fail together."
  },
  {
   "property": "C140",
   "status": "partial",
   "theorems": [
    "Verif.Dao.C140_result_partial",
    "Verif.Dao.C140_backed_partial",
    "Verif.Dao.C140_minority_witness"
   ],
   "note": "False as stated: C140_minority_witness. Proved for histories in which neither the council nor the weight among the members of somebody in the council changes between the creation and the resolution of the proposal. Under Wf and Tame."
  },
  {
   "property": "C141",
   "status": "proved",
   "theorems": [
    "Verif.Dao.C141_idle",
    "Verif.Dao.C141_votes_count"
   ],
   "note": "Under Wf and Tame. C141_votes_count shows that the vote of a user who is restricted later can decide alone. That a restricted user can unstake is C117."
  },
  {
   "property": "C142",
   "status": "proved",
   "theorems": [
    "Verif.Dao.C142_first_breach",
    "Verif.Dao.C142_once",
    "Verif.Dao.C142_exit",
    "Verif.Dao.C142_rules",
    "Verif.Dao.C142_forged"
   ],
   "note": "Under Wf, without Tame. C142_once, C142_exit and C142_rules are the statements of C44/C45, C117 and C136 for histories without forged messages; by History.calm and calm_tame the other theorems that assume Tame apply to such histories in the same way. C44_forged_witness shows what a forged message can do."
  },
  {
   "property": "C143",
   "status": "proved",
   "theorems": [
    "Verif.Dao.C143_passes",
    "Verif.Dao.C143_amends",
    "Verif.Dao.C143_newcomer"
   ],
   "note": "Under Wf and Tame. C134 is the corresponding statement without early execution, where a group needs more than half of the weight; C139 that for the council."
  },
  {
   "property": "C144",
   "status": "proved",
   "theorems": [
    "Verif.Dao.C144_locked",
    "Verif.Dao.C144_unanimous",
    "Verif.Dao.C144_revived_denom",
    "Verif.Dao.C144_revived_token",
    "Verif.Dao.C144_revived_nft"
   ],
   "note": "Under Wf and Tame."
  },
  {
   "property": "C145",
   "status": "proved",
   "theorems": [
    "Verif.Gov.C145_quorum_kept",
    "Verif.Gov.C145_yes_never_hurts",
    "Verif.Gov.C145_no_never_helps",
    "Verif.Gov.C145_veto_never_helps",
    "Verif.Gov.C145_abstain",
    "Verif.Gov.C145_no_helps_witness",
    "Verif.Gov.C145_veto_helps_witness"
   ],
   "note": ""
  },
  {
   "property": "C146",
   "status": "proved",
   "theorems": [
    "Verif.Dao.C146_now",
    "Verif.Dao.C146_staked",
    "Verif.Dao.C146_denom",
    "Verif.Dao.C146_token",
    "Verif.Dao.C146_one_block",
    "Verif.Dao.C146_amount"
   ],
   "note": ""
  },
  {
   "property": "C147",
   "status": "proved",
   "theorems": [
    "Verif.Distributor.C147_others",
    "Verif.Distributor.C147_when"
   ],
   "note": ""
  },
  {
   "property": "C148",
   "status": "proved",
   "theorems": [
    "Verif.Dao.C148_denom",
    "Verif.Dao.C148_token",
    "Verif.Dao.C148_nothing_left"
   ],
   "note": ""
  },
  {
   "property": "C149",
   "status": "proved",
   "theorems": [
    "Verif.Gov.C149_alone",
    "Verif.Gov.C149_same"
   ],
   "note": ""
  },
  {
   "property": "C150",
   "status": "proved",
   "theorems": [
    "Verif.Gov.C150_looks",
    "Verif.Dao.C150_lasting",
    "Verif.Dao.C150_unbounded"
   ],
   "note": ""
  },
  {
   "property": "C151",
   "status": "proved",
   "theorems": [
    "Verif.Distributor.C151_no_gain",
    "Verif.Distributor.C151_no_loss",
    "Verif.Distributor.C151_others"
   ],
   "note": "Histories in which no weight change and no distribution is refused (refused ones change nothing). One account is split into two; repeated, into any number."
  },
  {
   "property": "C152",
   "status": "proved",
   "theorems": [
    "Verif.Gov.C152_handover",
    "Verif.Gov.C152_life",
    "Verif.Gov.C152_reachable"
   ],
   "note": ""
  },
  {
   "property": "C153",
   "status": "proved",
   "theorems": [
    "Verif.Enterprise.C153_through",
    "Verif.Enterprise.C153_missed",
    "Verif.Enterprise.C153_steps"
   ],
   "note": ""
  },
  {
   "property": "C154",
   "status": "proved",
   "theorems": [
    "Verif.Dao.C154_first_decides",
    "Verif.Dao.C154_first_decides_early",
    "Verif.Migration.C154_moved_only",
    "Verif.Migration.C154_any_number",
    "Verif.Migration.C154_moved_only_nft",
    "Verif.Migration.C154_any_number_nft"
   ],
   "note": "The DAO-level theorems take the contracts of the new version to be new, as the factory makes them; the version of the treasury that instantiates them with the old proposals is not in the repository."
  },
  {
   "property": "C155",
   "status": "proved",
   "theorems": [
    "Verif.Gov.C155_block",
    "Verif.Gov.C155_results"
   ],
   "note": ""
  },
  {
   "property": "C156",
   "status": "proved",
   "theorems": [
    "Verif.Dao.C156_decided",
    "Verif.Dao.C156_once"
   ],
   "note": "Under Wf and Tame. The controller that the enterprise contract names to the outposts contract is taken to be the controller of the DAO (C64). What the proxies on the other chains do with the messages is outside the repository."
  },
  {
   "property": "C157",
   "status": "proved",
   "theorems": [
    "Verif.Distributor.C157_alone",
    "Verif.Distributor.C157_same",
    "Verif.Distributor.C157_accepted"
   ],
   "note": "The assets left out may be any. That a message is refused because of another asset is possible (a distribution with a coin that is not allowed is refused as a whole); hence the reduction of the accepted messages."
  },
  {
   "property": "C158",
   "status": "proved",
   "theorems": [
    "Verif.Dao.C158_crowd",
    "Verif.Distributor.C158_weights",
    "Verif.Distributor.C158_minimum",
    "Verif.Distributor.C158_assets",
    "Verif.Distributor.C158_record",
    "Verif.Distributor.C158_former"
   ],
   "note": "Work is counted in entries of the distributions maps written; the weights and effective weights cost one more each per line. That the unbounded loop does exhaust the gas of a block is outside the model (recorded under Findings). C158_crowd under Wf and Tame."
  },
  {
   "property": "C159",
   "status": "proved",
   "theorems": [
    "Verif.Custody.Token.C159_looks",
    "Verif.Custody.Token.C159_flood",
    "Verif.Custody.Token.C159_denom"
   ],
   "note": "Work is counted in claims loaded from storage; that the loop does exhaust the gas of a block is outside the model (recorded under Findings)."
  },
  {
   "property": "C160",
   "status": "proved",
   "theorems": [
    "Verif.Migration.C160_shares",
    "Verif.Migration.C160_past"
   ],
   "note": "The old totals are given, since no present code writes them: that the old DAO kept the sum is a hypothesis."
  },
  {
   "property": "C161",
   "status": "proved",
   "theorems": [
    "Verif.Distributor.C161_swap",
    "Verif.Distributor.C161_order",
    "Verif.Distributor.C161_report",
    "Verif.Distributor.C161_split"
   ],
   "note": "Refused messages are left out: near 2^128 the order can decide which of two distributions overflows. The sums of a report must fit 128 bits for the same reason."
  },
  {
   "property": "C162",
   "status": "proved",
   "theorems": [
    "Verif.Staking.C162_order",
    "Verif.Staking.C162_room_witness",
    "Verif.Staking.C162_ids"
   ],
   "note": "The bound on the total stake is needed: C162_room_witness. Imports (AddStakes, AddClaims) are about several users and are left out."
  },
  {
   "property": "C163",
   "status": "proved",
   "theorems": [
    "Verif.Gov.C163_order",
    "Verif.Gov.C163_own_order_witness"
   ],
   "note": "The order of the messages about one voter matters: C163_own_order_witness. Times may differ between messages; each must not be before the start of the polls, as block time does not go back."
  },
  {
   "property": "C164",
   "status": "proved",
   "theorems": [
    "Verif.Dao.C164_order",
    "Verif.Dao.C164_transactions",
    "Verif.Dao.C164_cooldown_witness"
   ],
   "note": "Under Wf and Tame. The room must be for the reward weights before the block plus stakes, as the distributor can hold weights that the membership does not (C70)."
  },
  {
   "property": "C165",
   "status": "proved",
   "theorems": [
    "Verif.Nft.C165_order",
    "Verif.Nft.C165_honest",
    "Verif.Nft.C165_passed_on_witness",
    "Verif.Nft.C165_unknown_collection_witness",
    "Verif.Nft.C165_ids"
   ],
   "note": "The counterpart of C162 for NFTs. Sub-messages are the same up to their order."
  },
  {
   "property": "C166",
   "status": "proved",
   "theorems": [
    "Verif.Dao.C166_order",
    "Verif.Dao.C166_multisig",
    "Verif.Dao.C166_transactions"
   ],
   "note": "Under Wf and Tame. That NFTs passed on within the block make the order matter is shown for the membership contract in C165_passed_on_witness."
  },
  {
   "property": "C167",
   "status": "proved",
   "theorems": [
    "Verif.Dao.C167_proposals",
    "Verif.Dao.C167_all_proposals",
    "Verif.Dao.C167_proposal_votes",
    "Verif.Pages.C167_members",
    "Verif.Pages.C167_staked_nfts",
    "Verif.Pages.C167_whitelists",
    "Verif.Pages.C167_treasuries",
    "Verif.Pages.C167_daos",
    "Verif.Pages.C167_all_daos",
    "Verif.Pages.C167_versions",
    "Verif.Pages.C167_polls",
    "Verif.Pages.C167_all_polls",
    "Verif.Pages.C167_poll_votes",
    "Verif.Pages.C167_voter_votes"
   ],
   "note": "Descending order is not part of this: see C14_descending_witness. The filter of proposals is by the stored status, see C94."
  },
  {
   "property": "C168",
   "status": "proved",
   "theorems": [
    "Verif.Distributor.C168_distributor",
    "Verif.Gov.C168_governance",
    "Verif.Multisig.C168_multisig",
    "Verif.Nft.C168_nft",
    "Verif.Staking.C168_staking"
   ],
   "note": "For governance and membership also the same errors; for the distributor the error of a refused change of the minimum weight may be that of another user. Lists of users come in the order of addresses, which is not part of this."
  },
  {
   "property": "C169",
   "status": "proved",
   "theorems": [
    "Verif.Gov.C169_proportions",
    "Verif.Gov.C169_wrap_witness"
   ],
   "note": "The bound is needed: see C169_wrap_witness."
  },
  {
   "property": "C170",
   "status": "proved",
   "theorems": [
    "Verif.Gov.C170_governance",
    "Verif.Multisig.C170_multisig",
    "Verif.Nft.C170_nft",
    "Verif.Staking.C170_staking",
    "Verif.Staking.C170_half_second_witness",
    "Verif.Staking.C170_wrap_witness"
   ],
   "note": "The two conditions are needed: see C170_half_second_witness and C170_wrap_witness. The funds distributor uses no time."
  },
  {
   "property": "C171",
   "status": "proved",
   "theorems": [
    "Verif.Dao.C171_history",
    "Verif.Dao.C171_exchange"
   ],
   "note": "Renaming a contract of the DAO or a token contract is not covered: contracts do compare the sender with those addresses."
  },
  {
   "property": "C172",
   "status": "proved",
   "theorems": [
    "Verif.Dao.C172_vote",
    "Verif.Dao.C172_votes"
   ],
   "note": "Votes the controller itself casts through custom messages of another proposal stay in, since they are part of the execution of that proposal."
  },
  {
   "property": "C173",
   "status": "proved",
   "theorems": [
    "Verif.Dao.C173_rewards"
   ],
   "note": "Rewards that the controller itself claims or distributes through custom messages stay in. Whether the actions of a proposal fail is taken as given, as everywhere in the composed model."
  },
  {
   "property": "C174",
   "status": "proved",
   "theorems": [
    "Verif.Many.C174_alone",
    "Verif.Many.C174_reachable",
    "Verif.Many.C174_apart"
   ],
   "note": "The execution across DAOs is a model of the chain, not of code of the repository: messages depth first, as in Dao/Model. Addresses of the contracts of different DAOs are only needed to be distinct in that messages say to which DAO they go."
  },
  {
   "property": "C175",
   "status": "proved",
   "theorems": [
    "Verif.Dao.C175_message",
    "Verif.Dao.C175_running",
    "Verif.Dao.C175_query",
    "Verif.Dao.C175_early_witness",
    "Verif.Dao.C175_duration_witness"
   ],
   "note": "C175_early_witness and C175_duration_witness show that early execution and the voting period have to be the same."
  },
  {
   "property": "C176",
   "status": "proved",
   "theorems": [
    "Verif.Dao.C176_net",
    "Verif.Dao.C176_back",
    "Verif.Dao.C176_back_polls",
    "Verif.Dao.C176_council_witness"
   ],
   "note": "C176_council_witness shows that votes on open council proposals have to be excepted in C176_back_polls (the violation of C55)."
  },
  {
   "property": "C177",
   "status": "proved",
   "theorems": [
    "Verif.Dao.C177_claims",
    "Verif.Dao.C177_answers",
    "Verif.Dao.C177_after_moves"
   ],
   "note": ""
  },
  {
   "property": "C178",
   "status": "proved",
   "theorems": [
    "Verif.Many.C178_clock",
    "Verif.Many.C178_transaction",
    "Verif.Many.C178_among",
    "Verif.Many.C178_exactly"
   ],
   "note": ""
  },
  {
   "property": "C179",
   "status": "proved",
   "theorems": [
    "Verif.Dao.C179_net",
    "Verif.Dao.C179_back"
   ],
   "note": "The collection is known (a cw721 address): with an ICS721 collection not yet known on this chain every message asks the proxy for it."
  },
  {
   "property": "C180",
   "status": "proved",
   "theorems": [
    "Verif.Gov.C180_laxer",
    "Verif.Gov.C180_stricter",
    "Verif.Gov.C180_own_veto",
    "Verif.Gov.C180_raised_witness"
   ],
   "note": ""
  },
  {
   "property": "C181",
   "status": "proved",
   "theorems": [
    "Verif.Distributor.C181_limit",
    "Verif.Distributor.C181_room",
    "Verif.Distributor.C181_forever",
    "Verif.Distributor.C181_alone"
   ],
   "note": ""
  },
  {
   "property": "C182",
   "status": "proved",
   "theorems": [
    "Verif.Distributor.C182_more",
    "Verif.Distributor.C182_others"
   ],
   "note": ""
  },
  {
   "property": "C183",
   "status": "proved",
   "theorems": [
    "Verif.Dao.C183_forever",
    "Verif.Dao.C183_sabotage"
   ],
   "note": ""
  },
  {
   "property": "C184",
   "status": "proved",
   "theorems": [
    "Verif.Distributor.C184_above",
    "Verif.Distributor.C184_below"
   ],
   "note": ""
  },
  {
   "property": "C185",
   "status": "proved",
   "theorems": [
    "Verif.Nft.C185_gift",
    "Verif.Nft.C185_price"
   ],
   "note": ""
  },
  {
   "property": "C186",
   "status": "proved",
   "theorems": [
    "Verif.Distributor.C186_parts"
   ],
   "note": ""
  },
  {
   "property": "C187",
   "status": "proved",
   "theorems": [
    "Verif.Nft.C187_nfts",
    "Verif.Staking.C187_parts"
   ],
   "note": ""
  },
  {
   "property": "C188",
   "status": "proved",
   "theorems": [
    "Verif.Staking.C188_parts",
    "Verif.Staking.C188_none_witness"
   ],
   "note": ""
  },
  {
   "property": "C189",
   "status": "proved",
   "theorems": [
    "Verif.Distributor.C189_together"
   ],
   "note": ""
  },
  {
   "property": "C190",
   "status": "proved",
   "theorems": [
    "Verif.Multisig.C190_parts"
   ],
   "note": ""
  }
 ]
}