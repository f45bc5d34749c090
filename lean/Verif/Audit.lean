import Verif.Base.Asset
import Verif.Base.Except
import Verif.Base.Ledger
import Verif.Base.Map
import Verif.Base.Num
import Verif.Base.Paging
import Verif.Base.SnapSteps
import Verif.Base.Snapshot
import Verif.Birth.Lemmas
import Verif.Birth.Model
import Verif.Birth.Props
import Verif.Birth.Spec
import Verif.Callback.Model
import Verif.Controller.Lemmas
import Verif.Controller.Lemmas2
import Verif.Controller.Lemmas3
import Verif.Controller.Model
import Verif.Controller.Props
import Verif.Controller.Props2
import Verif.Controller.Props3
import Verif.Controller.Queries
import Verif.Controller.Rename
import Verif.Controller.Spec
import Verif.Controller.Spec2
import Verif.Custody.Collection
import Verif.Custody.CollectionProps
import Verif.Custody.Deposits
import Verif.Custody.DepositsProps
import Verif.Custody.Distribution
import Verif.Custody.DistributionProps
import Verif.Custody.Rewards
import Verif.Custody.Spending
import Verif.Custody.SpendingLemmas
import Verif.Custody.SpendingLemmas2
import Verif.Custody.SpendingProps
import Verif.Custody.Token
import Verif.Custody.TokenProps
import Verif.Custody.TokenProps2
import Verif.Dao.Aside
import Verif.Dao.Calm
import Verif.Dao.Effect
import Verif.Dao.Join
import Verif.Dao.Leave
import Verif.Dao.LeaveOut
import Verif.Dao.Lemmas
import Verif.Dao.Lemmas2
import Verif.Dao.Lemmas3
import Verif.Dao.Lemmas4
import Verif.Dao.Lemmas5
import Verif.Dao.Lemmas6
import Verif.Dao.Member
import Verif.Dao.Model
import Verif.Dao.Net
import Verif.Dao.Order
import Verif.Dao.Orders
import Verif.Dao.Period
import Verif.Dao.Props
import Verif.Dao.Props10
import Verif.Dao.Props11
import Verif.Dao.Props12
import Verif.Dao.Props13
import Verif.Dao.Props14
import Verif.Dao.Props15
import Verif.Dao.Props16
import Verif.Dao.Props17
import Verif.Dao.Props18
import Verif.Dao.Props19
import Verif.Dao.Props2
import Verif.Dao.Props20
import Verif.Dao.Props21
import Verif.Dao.Props22
import Verif.Dao.Props23
import Verif.Dao.Props24
import Verif.Dao.Props25
import Verif.Dao.Props26
import Verif.Dao.Props27
import Verif.Dao.Props28
import Verif.Dao.Props29
import Verif.Dao.Props3
import Verif.Dao.Props30
import Verif.Dao.Props31
import Verif.Dao.Props32
import Verif.Dao.Props33
import Verif.Dao.Props34
import Verif.Dao.Props35
import Verif.Dao.Props36
import Verif.Dao.Props37
import Verif.Dao.Props38
import Verif.Dao.Props39
import Verif.Dao.Props4
import Verif.Dao.Props40
import Verif.Dao.Props41
import Verif.Dao.Props42
import Verif.Dao.Props43
import Verif.Dao.Props5
import Verif.Dao.Props6
import Verif.Dao.Props7
import Verif.Dao.Props8
import Verif.Dao.Props9
import Verif.Dao.Rename
import Verif.Dao.Rewards
import Verif.Dao.Rules
import Verif.Dao.Sample
import Verif.Dao.Shadow
import Verif.Dao.Sim
import Verif.Dao.SimTrace
import Verif.Dao.Spec
import Verif.Dao.Totals
import Verif.Dao.Trace
import Verif.Distributor.Dust
import Verif.Distributor.Lemmas
import Verif.Distributor.Lemmas2
import Verif.Distributor.Lemmas3
import Verif.Distributor.Model
import Verif.Distributor.Props
import Verif.Distributor.Props10
import Verif.Distributor.Props11
import Verif.Distributor.Props12
import Verif.Distributor.Props13
import Verif.Distributor.Props14
import Verif.Distributor.Props15
import Verif.Distributor.Props2
import Verif.Distributor.Props3
import Verif.Distributor.Props4
import Verif.Distributor.Props5
import Verif.Distributor.Props6
import Verif.Distributor.Props7
import Verif.Distributor.Props8
import Verif.Distributor.Props9
import Verif.Distributor.Spec
import Verif.Distributor.Spec2
import Verif.Enterprise.Lemmas
import Verif.Enterprise.Model
import Verif.Enterprise.Props
import Verif.Enterprise.Props2
import Verif.Facade.Legacy
import Verif.Facade.LegacyProps
import Verif.Facade.Model
import Verif.Facade.Proposals
import Verif.Facade.Props
import Verif.Facade.Queries
import Verif.Facade.Requests
import Verif.Facade.Sample
import Verif.Facade.Spec
import Verif.Facade.V1
import Verif.Factory.Codes
import Verif.Factory.Lemmas
import Verif.Factory.Model
import Verif.Factory.Props
import Verif.Factory.Props2
import Verif.Gov.Lemmas
import Verif.Gov.Lemmas2
import Verif.Gov.Lemmas3
import Verif.Gov.Model
import Verif.Gov.Props
import Verif.Gov.Props10
import Verif.Gov.Props11
import Verif.Gov.Props2
import Verif.Gov.Props3
import Verif.Gov.Props4
import Verif.Gov.Props5
import Verif.Gov.Props6
import Verif.Gov.Props7
import Verif.Gov.Props8
import Verif.Gov.Props9
import Verif.Gov.Spec
import Verif.Many.Lemmas
import Verif.Many.Model
import Verif.Many.Props
import Verif.Many.Props2
import Verif.Many.Sim
import Verif.Membership.Clock
import Verif.Membership.Model
import Verif.Membership.Queries
import Verif.Migration.Lemmas
import Verif.Migration.Model
import Verif.Migration.NftSystem
import Verif.Migration.Props
import Verif.Migration.Props2
import Verif.Migration.Props3
import Verif.Migration.Props4
import Verif.Migration.Spec
import Verif.Migration.System
import Verif.Multisig.Lemmas
import Verif.Multisig.Model
import Verif.Multisig.Props
import Verif.Multisig.Props2
import Verif.Multisig.Props3
import Verif.Multisig.Props4
import Verif.Multisig.Props5
import Verif.Multisig.Spec
import Verif.Nft.Lemmas
import Verif.Nft.Migrate
import Verif.Nft.MigrateProps
import Verif.Nft.Model
import Verif.Nft.Props
import Verif.Nft.Props2
import Verif.Nft.Props3
import Verif.Nft.Props4
import Verif.Nft.Props5
import Verif.Nft.Props6
import Verif.Nft.Props7
import Verif.Nft.Props8
import Verif.Nft.Spec
import Verif.Outposts.Model
import Verif.Outposts.Props
import Verif.Pages.Props
import Verif.Pages.Props2
import Verif.Staking.Lemmas
import Verif.Staking.Lemmas2
import Verif.Staking.Model
import Verif.Staking.Props
import Verif.Staking.Props2
import Verif.Staking.Props3
import Verif.Staking.Props4
import Verif.Staking.Props5
import Verif.Staking.Props6
import Verif.Staking.Props7
import Verif.Staking.Props8
import Verif.Staking.Spec
import Verif.Treasury.Lemmas
import Verif.Treasury.Model
import Verif.Treasury.Props
import Verif.Treasury.Spec
import Verif.Versioning.Model
import Verif.Versioning.Props
import Verif.Versioning.TextProps

/-!
# The assumptions of every property theorem

Building this module prints what each theorem of MANIFEST.json rests on. Nothing but `propext`, `Classical.choice` and
`Quot.sound` may appear.
-/

#print axioms Verif.Gov.C01_tally_mod
#print axioms Verif.Gov.C01_tally_exact
#print axioms Verif.Gov.C01_wrap_witness
#print axioms Verif.Gov.C02_one_vote_latest
#print axioms Verif.Gov.C03_vote_window
#print axioms Verif.Gov.C03_refused_no_effect
#print axioms Verif.Gov.C04_ids_consecutive
#print axioms Verif.Gov.C04_create
#print axioms Verif.Gov.C04_terms_immutable
#print axioms Verif.Gov.C05_final_status_rule
#print axioms Verif.Gov.C05_quorum_overflow_witness
#print axioms Verif.Gov.C06_veto_precedence
#print axioms Verif.Gov.C06_veto_only_if
#print axioms Verif.Gov.C07_simulate_eq_end
#print axioms Verif.Gov.C08_end_poll_iff
#print axioms Verif.Gov.C09_admin_only
#print axioms Verif.Gov.C09_outsiders_history
#print axioms Verif.Gov.C09_admin_fixed
#print axioms Verif.Gov.C10_update_votes
#print axioms Verif.Gov.C11_results_freeze
#print axioms Verif.Gov.C11_ended_stays_ended
#print axioms Verif.Gov.C12_passed_implies
#print axioms Verif.Gov.C13_votes_commute
#print axioms Verif.Gov.C13_any_order
#print axioms Verif.Gov.C14_polls_paging
#print axioms Verif.Gov.C14_poll_votes_paging
#print axioms Verif.Gov.C14_voter_votes_paging
#print axioms Verif.Gov.C14_descending_witness
#print axioms Verif.Gov.C14_wide_limit_witness
#print axioms Verif.Gov.C15_reending_stable
#print axioms Verif.Gov.C15_other_total_witness
#print axioms Verif.Staking.C16_total_is_sum
#print axioms Verif.Staking.C17_conservation
#print axioms Verif.Staking.C18_unstake
#print axioms Verif.Staking.C19_claim
#print axioms Verif.Staking.C19_once
#print axioms Verif.Nft.C20_nft_ids_never_reused
#print axioms Verif.Staking.C20_ids_never_reused
#print axioms Verif.Staking.C20_unstake_fresh
#print axioms Verif.Nft.C21_nft_only_transfer_stakes
#print axioms Verif.Staking.C21_only_transfer_stakes
#print axioms Verif.Staking.C22_add_stakes
#print axioms Verif.Staking.C22_add_claims
#print axioms Verif.Staking.C22_refused
#print axioms Verif.Multisig.C23_multisig_total_at_height
#print axioms Verif.Multisig.C23_multisig_total_at_time
#print axioms Verif.Nft.C23_nft_total_at_height
#print axioms Verif.Nft.C23_nft_total_at_time
#print axioms Verif.Staking.C23_total_at_height
#print axioms Verif.Staking.C23_total_at_time
#print axioms Verif.Staking.C23_past_immutable
#print axioms Verif.Nft.C24_nft_hooks_notified
#print axioms Verif.Staking.C24_hooks_notified
#print axioms Verif.Staking.C24_single_change
#print axioms Verif.Nft.C25_nft_restricted
#print axioms Verif.Staking.C25_restricted_gain_nothing
#print axioms Verif.Staking.C25_refused
#print axioms Verif.Nft.C26_nft_waits
#print axioms Verif.Nft.C26_nft_not_released_before
#print axioms Verif.Staking.C26_waits
#print axioms Verif.Staking.C26_not_paid_before
#print axioms Verif.Staking.C26_wrap_witness
#print axioms Verif.Nft.C27_nft_update_unlocking
#print axioms Verif.Nft.C27_nft_only_controller
#print axioms Verif.Staking.C27_update_unlocking
#print axioms Verif.Staking.C27_only_controller
#print axioms Verif.Nft.C28_weight_counts
#print axioms Verif.Nft.C28_staker_stable
#print axioms Verif.Nft.C29_custody
#print axioms Verif.Nft.C29_disjoint
#print axioms Verif.Nft.C29_dishonest_witness
#print axioms Verif.Nft.C30_unstake
#print axioms Verif.Nft.C30_claim
#print axioms Verif.Multisig.C31_total_is_sum
#print axioms Verif.Multisig.C32_update_members
#print axioms Verif.Multisig.C32_set_members
#print axioms Verif.Multisig.C32_only_controller
#print axioms Verif.Multisig.C32_init
#print axioms Verif.Multisig.C32_init_none
#print axioms Verif.Multisig.C33_update_notified
#print axioms Verif.Multisig.C33_set_notified_partial
#print axioms Verif.Multisig.C33_set_exact_partial
#print axioms Verif.Multisig.C33_set_unreported_witness
#print axioms Verif.Distributor.C34_solvent
#print axioms Verif.Distributor.C34_reported
#print axioms Verif.Distributor.C35_claim_pays_once
#print axioms Verif.Distributor.C35_again
#print axioms Verif.Distributor.C36_update_keeps_rewards
#print axioms Verif.Distributor.C36_update_sets_weights
#print axioms Verif.Distributor.C37_native
#print axioms Verif.Distributor.C37_cw20
#print axioms Verif.Distributor.C37_others
#print axioms Verif.Distributor.C37_carry_witness
#print axioms Verif.Distributor.C38_total_effective
#print axioms Verif.Distributor.C38_initial
#print axioms Verif.Distributor.C38_total_covers
#print axioms Verif.Distributor.C38_no_gain
#print axioms Verif.Distributor.C39_keeps_rewards
#print axioms Verif.Distributor.C39_eligible
#print axioms Verif.Distributor.C40_refused
#print axioms Verif.Distributor.C40_someone
#print axioms Verif.Distributor.C41_owner_only
#print axioms Verif.Distributor.C41_only_claims_pay
#print axioms Verif.Distributor.C41_claim_accepted
#print axioms Verif.Distributor.C42_refused
#print axioms Verif.Distributor.C42_only_admin
#print axioms Verif.Distributor.C43_refused
#print axioms Verif.Distributor.C43_accepted
#print axioms Verif.Dao.C44_at_most_once
#print axioms Verif.Dao.C44_dispatched_iff_passed
#print axioms Verif.Dao.C44_never_after_rejection
#print axioms Verif.Dao.C44_dispatched_once
#print axioms Verif.Dao.C44_never_dispatched_again
#print axioms Verif.Dao.C44_forged_witness
#print axioms Verif.Dao.C45_not_before_resolution
#print axioms Verif.Dao.C45_paid_once
#print axioms Verif.Dao.C45_deposit_fixed
#print axioms Verif.Dao.C45_kept_until_executed
#print axioms Verif.Dao.C45_transferred_once
#print axioms Verif.Dao.C45_never_again
#print axioms Verif.Controller.C46_execute_iff
#print axioms Verif.Dao.C46_general_execute_iff
#print axioms Verif.Dao.C47_only_passed
#print axioms Verif.Dao.C47_dispatched_by_rule
#print axioms Verif.Controller.C48_internal_entry_point
#print axioms Verif.Controller.C49_create_council
#print axioms Verif.Controller.C49_council_harmless
#print axioms Verif.Controller.C49_only_way
#print axioms Verif.Controller.C50_ten_actions
#print axioms Verif.Controller.C51_config_valid
#print axioms Verif.Controller.C51_config_change
#print axioms Verif.Dao.C51_changed_by_passed_proposal
#print axioms Verif.Dao.C51_council_changed_by_passed_proposal
#print axioms Verif.Dao.C51_poll_terms_valid
#print axioms Verif.Controller.C52_general_proposal
#print axioms Verif.Controller.C52_deposit_taken
#print axioms Verif.Controller.C53_weights_changed
#print axioms Verif.Controller.C53_refused
#print axioms Verif.Dao.C54_votes_track_weight
#print axioms Verif.Dao.C54_votes_bounded
#print axioms Verif.Dao.C54_tallies_exact
#print axioms Verif.Dao.C55_cast_with_council_weight_partial
#print axioms Verif.Dao.C55_vote_kept_partial
#print axioms Verif.Dao.C55_minority_witness
#print axioms Verif.Dao.C55_former_member_witness
#print axioms Verif.Dao.C55_reweighted_partial
#print axioms Verif.Controller.C56_vote_restarts_cooldown_partial
#print axioms Verif.Dao.C56_weights_changed_witness
#print axioms Verif.Dao.C56_reports_keep_cooldown_partial
#print axioms Verif.Dao.C57_executed_is_final
#print axioms Verif.Dao.C57_in_progress_partial
#print axioms Verif.Dao.C57_executable
#print axioms Verif.Dao.C57_rejected_partial
#print axioms Verif.Dao.C57_tie_witness
#print axioms Verif.Dao.C57_nobody_left_witness
#print axioms Verif.Dao.C57_in_progress_exact_partial
#print axioms Verif.Dao.C57_rejected_exact_partial
#print axioms Verif.Dao.C58_always_resolved
#print axioms Verif.Dao.C58_failed_batch_has_no_effect
#print axioms Verif.Dao.C58_never_blocked
#print axioms Verif.Controller.C59_who_can_vote
#print axioms Verif.Birth.C60_created_partial
#print axioms Verif.Controller.C60_unlocking_checked_partial
#print axioms Verif.Controller.C60_vote_duration_witness
#print axioms Verif.Dao.C60_history_partial
#print axioms Verif.Dao.C60_reached_witness
#print axioms Verif.Treasury.C61_only_admin
#print axioms Verif.Treasury.C61_history
#print axioms Verif.Treasury.C61_spend
#print axioms Verif.Treasury.C61_spend_accepted
#print axioms Verif.Treasury.C61_distribute
#print axioms Verif.Treasury.C61_distribute_accepted
#print axioms Verif.Treasury.C61_set_admin
#print axioms Verif.Treasury.C61_admin_kept
#print axioms Verif.Treasury.C61_cosmos_msgs
#print axioms Verif.Treasury.C62_update
#print axioms Verif.Treasury.C62_update_accepted
#print axioms Verif.Treasury.C62_update_nfts
#print axioms Verif.Treasury.C62_init
#print axioms Verif.Treasury.C62_paging
#print axioms Verif.Treasury.C62_paging_nfts
#print axioms Verif.Migration.C63_weight_constant
#print axioms Verif.Migration.C63_batch_amount
#print axioms Verif.Migration.C63_stakes_once
#print axioms Verif.Migration.C63_claims_once
#print axioms Verif.Migration.C63_nfts_once
#print axioms Verif.Migration.C63_nft_claims_once
#print axioms Verif.Migration.C63_completed_token
#print axioms Verif.Migration.C63_completed_nft
#print axioms Verif.Migration.C63_progress
#print axioms Verif.Migration.C63_progress_nft
#print axioms Verif.Migration.C63_stuck
#print axioms Verif.Migration.C63_nft_drops_token_claims_witness
#print axioms Verif.Migration.C63_system
#print axioms Verif.Migration.C63_blocked_by_restricted
#print axioms Verif.Enterprise.C64_finalize_iff
#print axioms Verif.Enterprise.C64_once
#print axioms Verif.Enterprise.C64_fixed
#print axioms Verif.Enterprise.C64_attestation_by_controller
#print axioms Verif.Enterprise.C64_senders
#print axioms Verif.Enterprise.C65_accepted_iff
#print axioms Verif.Enterprise.C65_effect
#print axioms Verif.Enterprise.C65_monotone
#print axioms Verif.Enterprise.C65_unregistered_witness
#print axioms Verif.Enterprise.C66_restricted_iff
#print axioms Verif.Enterprise.C66_set_restricts_all
#print axioms Verif.Enterprise.C66_since_created
#print axioms Verif.Enterprise.C66_signed_for_good
#print axioms Verif.Enterprise.C66_none
#print axioms Verif.Versioning.C67_admin_only
#print axioms Verif.Versioning.C67_history
#print axioms Verif.Versioning.C67_add
#print axioms Verif.Versioning.C67_edit
#print axioms Verif.Versioning.C67_never_removed
#print axioms Verif.Versioning.C67_latest
#print axioms Verif.Versioning.C67_paging
#print axioms Verif.Outposts.C68_accepted_iff
#print axioms Verif.Outposts.C68_recorded
#print axioms Verif.Outposts.C68_used_once
#print axioms Verif.Outposts.C68_never_replaced
#print axioms Verif.Outposts.C68_authenticated
#print axioms Verif.Factory.C69_numbers
#print axioms Verif.Factory.C69_paging
#print axioms Verif.Factory.C70_multisig_partial
#print axioms Verif.Factory.C70_staking_partial
#print axioms Verif.Factory.C70_weights_partial
#print axioms Verif.Factory.C70_council_witness
#print axioms Verif.Factory.C71_imported
#print axioms Verif.Factory.C71_accepted_iff
#print axioms Verif.Distributor.C72_updates_accepted
#print axioms Verif.Distributor.C72_minimum_accepted
#print axioms Verif.Dao.C73_reward_weights_track
#print axioms Verif.Dao.C73_reward_weight
#print axioms Verif.Enterprise.C74_migrate
#print axioms Verif.Enterprise.C74_target_ignored
#print axioms Verif.Outposts.C75_execute_iff
#print axioms Verif.Outposts.C75_deploy
#print axioms Verif.Outposts.C75_all_sent
#print axioms Verif.Outposts.C75_paging
#print axioms Verif.Factory.C76_wired
#print axioms Verif.Factory.C76_isolated
#print axioms Verif.Factory.C77_accepted_iff
#print axioms Verif.Factory.C77_zero_weights_witness
#print axioms Verif.Factory.C78_config
#print axioms Verif.Factory.C78_finalize
#print axioms Verif.Factory.C78_whitelists
#print axioms Verif.Nft.C79_nft_stake
#print axioms Verif.Staking.C79_stake_token
#print axioms Verif.Staking.C79_stake_denom
#print axioms Verif.Nft.C80_nft_fixed
#print axioms Verif.Nft.C80_nft_resolved
#print axioms Verif.Staking.C80_asset_fixed
#print axioms Verif.Nft.C81_nft_claims
#print axioms Verif.Staking.C81_claims
#print axioms Verif.Multisig.C82_multisig_members
#print axioms Verif.Nft.C82_nft_members
#print axioms Verif.Nft.C82_nft_staked
#print axioms Verif.Nft.C82_nft_user_stake
#print axioms Verif.Staking.C82_members
#print axioms Verif.Multisig.C83_multisig_init
#print axioms Verif.Multisig.C83_multisig_edit
#print axioms Verif.Multisig.C83_multisig_only_controller
#print axioms Verif.Nft.C83_nft_init
#print axioms Verif.Nft.C83_nft_edit
#print axioms Verif.Nft.C83_nft_only_controller
#print axioms Verif.Staking.C83_init
#print axioms Verif.Staking.C83_edit
#print axioms Verif.Staking.C83_only_controller
#print axioms Verif.Custody.Token.C84_covered
#print axioms Verif.Custody.Token.C84_claim_paid
#print axioms Verif.Custody.Token.C84_withdraw
#print axioms Verif.Custody.Token.C84_stake_paid
#print axioms Verif.Custody.Token.C84_denom_stake_paid
#print axioms Verif.Custody.Collection.C85_held
#print axioms Verif.Custody.Collection.C85_claim_delivered
#print axioms Verif.Custody.Collection.C85_withdraw
#print axioms Verif.Custody.Collection.C85_stake
#print axioms Verif.Custody.Collection.C86_sender
#print axioms Verif.Custody.Collection.C86_messages
#print axioms Verif.Custody.Collection.C86_config_fixed
#print axioms Verif.Custody.Collection.C86_packet_staked
#print axioms Verif.Custody.Collection.C86_stuck
#print axioms Verif.Custody.Rewards.C87_covered
#print axioms Verif.Custody.Rewards.C87_reported
#print axioms Verif.Custody.Rewards.C87_claim_paid
#print axioms Verif.Custody.Rewards.C87_updates_accepted
#print axioms Verif.Custody.Rewards.C87_distribution_paid
#print axioms Verif.Custody.Rewards.C87_token_distribution_paid
#print axioms Verif.Pages.C88_members
#print axioms Verif.Pages.C88_staked_nfts
#print axioms Verif.Pages.C88_user_nfts
#print axioms Verif.Pages.C88_nft_whitelist
#print axioms Verif.Pages.C88_asset_whitelist
#print axioms Verif.Pages.C88_treasuries
#print axioms Verif.Pages.C88_daos
#print axioms Verif.Pages.C88_versions
#print axioms Verif.Pages.C88_polls
#print axioms Verif.Pages.C88_poll_votes
#print axioms Verif.Pages.C88_voter_votes
#print axioms Verif.Controller.C89_general_terms
#print axioms Verif.Controller.C89_council_terms
#print axioms Verif.Controller.C90_general_accepted
#print axioms Verif.Controller.C90_council_accepted
#print axioms Verif.Controller.C90_frozen_witness
#print axioms Verif.Controller.C91_actions
#print axioms Verif.Controller.C91_payments
#print axioms Verif.Controller.C92_at_most_once
#print axioms Verif.Controller.C92_when_and_who
#print axioms Verif.Dao.C93_page
#print axioms Verif.Dao.C93_all_pages
#print axioms Verif.Dao.C93_votes
#print axioms Verif.Dao.C94_filter_partial
#print axioms Verif.Dao.C94_filter_witness
#print axioms Verif.Facade.C95_routing
#print axioms Verif.Facade.C95_same_dao
#print axioms Verif.Facade.C95_legacy
#print axioms Verif.Facade.C95_others
#print axioms Verif.Facade.C95_migrate
#print axioms Verif.Facade.C95_history
#print axioms Verif.Facade.C96_legacy
#print axioms Verif.Facade.C96_rules
#print axioms Verif.Facade.C96_unit
#print axioms Verif.Facade.C96_available
#print axioms Verif.Facade.C97_council_partial
#print axioms Verif.Facade.C97_council_cut
#print axioms Verif.Facade.C97_code_partial
#print axioms Verif.Facade.C97_code_ambiguous
#print axioms Verif.Facade.C98_share
#print axioms Verif.Facade.C98_sum
#print axioms Verif.Facade.C99_stake_token
#print axioms Verif.Facade.C99_stake_denom
#print axioms Verif.Facade.C99_withdraw
#print axioms Verif.Facade.C99_stake_nft
#print axioms Verif.Facade.C99_withdraw_nft
#print axioms Verif.Facade.C99_refused
#print axioms Verif.Facade.C99_unstake_any_kind
#print axioms Verif.Facade.C100_coins
#print axioms Verif.Facade.C100_one_each
#print axioms Verif.Facade.C100_rejected_witness
#print axioms Verif.Facade.C101_plain
#print axioms Verif.Facade.C101_denom_deposit
#print axioms Verif.Facade.C101_token_deposit
#print axioms Verif.Facade.C101_nft_deposit
#print axioms Verif.Facade.C101_votes
#print axioms Verif.Facade.C102_sent_partial
#print axioms Verif.Facade.C102_shown_partial
#print axioms Verif.Facade.C102_refused
#print axioms Verif.Facade.C102_lost_witness
#print axioms Verif.Facade.C102_stake
#print axioms Verif.Facade.C102_asked
#print axioms Verif.Facade.C103_status_partial
#print axioms Verif.Facade.C103_exact_partial
#print axioms Verif.Facade.C103_no_time
#print axioms Verif.Facade.C103_witness
#print axioms Verif.Facade.C103_list
#print axioms Verif.Facade.C104_lists
#print axioms Verif.Facade.C104_stakes
#print axioms Verif.Facade.C104_nfts
#print axioms Verif.Facade.C104_claims
#print axioms Verif.Facade.C104_nft_claims
#print axioms Verif.Facade.C104_proposals
#print axioms Verif.Facade.C104_votes
#print axioms Verif.Facade.C104_treasury
#print axioms Verif.Facade.C104_migration
#print axioms Verif.Custody.Deposits.C105_covered
#print axioms Verif.Custody.Deposits.C105_nfts
#print axioms Verif.Custody.Deposits.C105_pays
#print axioms Verif.Custody.Deposits.C105_resolved
#print axioms Verif.Custody.Deposits.C105_kept
#print axioms Verif.Custody.Deposits.C105_spent_witness
#print axioms Verif.Custody.Spending.C106_only
#print axioms Verif.Custody.Spending.C106_exact
#print axioms Verif.Custody.Spending.C106_pays
#print axioms Verif.Custody.Spending.C106_history
#print axioms Verif.Birth.C107_genesis
#print axioms Verif.Birth.C107_parts
#print axioms Verif.Birth.C107_asked
#print axioms Verif.Birth.C107_members
#print axioms Verif.Birth.C107_others
#print axioms Verif.Birth.C107_custody
#print axioms Verif.Birth.C107_facade
#print axioms Verif.Dao.C108_shown
#print axioms Verif.Dao.C108_tallies
#print axioms Verif.Dao.C108_total
#print axioms Verif.Dao.C108_executed
#print axioms Verif.Dao.C109_total_at
#print axioms Verif.Dao.C109_settled
#print axioms Verif.Dao.C109_outcome
#print axioms Verif.Dao.C110_open_partial
#print axioms Verif.Dao.C110_whole_second_partial
#print axioms Verif.Dao.C110_quiet_second_partial
#print axioms Verif.Dao.C110_exceeds_witness
#print axioms Verif.Dao.C110_quorum_witness
#print axioms Verif.Dao.C110_early_witness
#print axioms Verif.Enterprise.C111_metadata_iff
#print axioms Verif.Enterprise.C111_settings_iff
#print axioms Verif.Enterprise.C111_messages_iff
#print axioms Verif.Enterprise.C111_by_controller
#print axioms Verif.Distributor.C112_nothing_lost
#print axioms Verif.Distributor.C112_small_distribution
#print axioms Verif.Factory.C113_recognised_partial
#print axioms Verif.Factory.C113_unknown_witness
#print axioms Verif.Factory.C113_listed
#print axioms Verif.Versioning.C114_reads
#print axioms Verif.Versioning.C114_round
#print axioms Verif.Versioning.C114_distinct
#print axioms Verif.Versioning.C114_again
#print axioms Verif.Migration.C115_system_nft
#print axioms Verif.Migration.C115_arrived_nft
#print axioms Verif.Migration.C115_blocked_by_restricted_nft
#print axioms Verif.Migration.C115_completes_nft
#print axioms Verif.Migration.C115_arrived_token
#print axioms Verif.Migration.C115_completes_token
#print axioms Verif.Dao.C116_votes_are_weights
#print axioms Verif.Dao.C116_early
#print axioms Verif.Dao.C116_at_end
#print axioms Verif.Dao.C116_passed_early
#print axioms Verif.Dao.C116_passed_at_end
#print axioms Verif.Dao.C117_unstake
#print axioms Verif.Dao.C117_unstake_nft
#print axioms Verif.Dao.C118_vote_accepted_iff
#print axioms Verif.Dao.C118_council_vote_accepted_iff
#print axioms Verif.Dao.C118_vote_effect
#print axioms Verif.Dao.C119_stake_token
#print axioms Verif.Dao.C119_stake_denom
#print axioms Verif.Dao.C119_stake_nft
#print axioms Verif.Dao.C120_resolvable
#print axioms Verif.Dao.C120_never
#print axioms Verif.Dao.C120_iff
#print axioms Verif.Distributor.C121_rewards_accounted
#print axioms Verif.Distributor.C121_rewards_untouched
#print axioms Verif.Nft.C121_nft_accounted
#print axioms Verif.Nft.C121_nft_untouched
#print axioms Verif.Staking.C121_accounted
#print axioms Verif.Staking.C121_untouched
#print axioms Verif.Dao.C122_group_passes
#print axioms Verif.Dao.C122_group_prevents
#print axioms Verif.Dao.C122_group_prevents_early
#print axioms Verif.Dao.C122_group_vetoes
#print axioms Verif.Dao.C122_group_stays_away
#print axioms Verif.Controller.C123_accepted
#print axioms Verif.Controller.C123_starts
#print axioms Verif.Distributor.C124_never_more
#print axioms Verif.Distributor.C124_within_rounding
#print axioms Verif.Distributor.C124_shares_add_up
#print axioms Verif.Dao.C125_all_staked
#print axioms Verif.Dao.C125_never_more
#print axioms Verif.Dao.C125_within_rounding
#print axioms Verif.Dao.C125_adds_up
#print axioms Verif.Factory.C126_token
#print axioms Verif.Factory.C126_collection
#print axioms Verif.Factory.C126_others
#print axioms Verif.Dao.C127_early_pass
#print axioms Verif.Dao.C127_early_rejection
#print axioms Verif.Dao.C127_turned_witness
#print axioms Verif.Migration.C128_token_partial
#print axioms Verif.Migration.C128_nft_partial
#print axioms Verif.Migration.C128_whole_user
#print axioms Verif.Migration.C128_over_witness
#print axioms Verif.Migration.C129_not_started
#print axioms Verif.Migration.C129_completed
#print axioms Verif.Migration.C129_others
#print axioms Verif.Dao.C130_config
#print axioms Verif.Dao.C130_council_config
#print axioms Verif.Dao.C130_settings
#print axioms Verif.Dao.C130_ordered
#print axioms Verif.Dao.C130_unchanged
#print axioms Verif.Custody.Spending.C131_exact
#print axioms Verif.Custody.Spending.C131_pays
#print axioms Verif.Custody.Spending.C131_native
#print axioms Verif.Custody.Spending.C131_cw20
#print axioms Verif.Dao.C132_accepted
#print axioms Verif.Dao.C132_takes_effect
#print axioms Verif.Facade.C133_content
#print axioms Verif.Facade.C133_listed
#print axioms Verif.Facade.C133_shown
#print axioms Verif.Dao.C134_passes
#print axioms Verif.Dao.C134_amends
#print axioms Verif.Nft.C135_stuck
#print axioms Verif.Nft.C135_converted_partial
#print axioms Verif.Dao.C136_backed
#print axioms Verif.Dao.C136_amended
#print axioms Verif.Dao.C137_orders
#print axioms Verif.Dao.C137_once
#print axioms Verif.Dao.C138_choice
#print axioms Verif.Dao.C138_able
#print axioms Verif.Dao.C138_amount
#print axioms Verif.Dao.C138_passed
#print axioms Verif.Dao.C139_at_once
#print axioms Verif.Dao.C140_result_partial
#print axioms Verif.Dao.C140_backed_partial
#print axioms Verif.Dao.C140_minority_witness
#print axioms Verif.Dao.C141_idle
#print axioms Verif.Dao.C141_votes_count
#print axioms Verif.Dao.C142_first_breach
#print axioms Verif.Dao.C142_once
#print axioms Verif.Dao.C142_exit
#print axioms Verif.Dao.C142_rules
#print axioms Verif.Dao.C142_forged
#print axioms Verif.Dao.C143_passes
#print axioms Verif.Dao.C143_amends
#print axioms Verif.Dao.C143_newcomer
#print axioms Verif.Dao.C144_locked
#print axioms Verif.Dao.C144_unanimous
#print axioms Verif.Dao.C144_revived_denom
#print axioms Verif.Dao.C144_revived_token
#print axioms Verif.Dao.C144_revived_nft
#print axioms Verif.Gov.C145_quorum_kept
#print axioms Verif.Gov.C145_yes_never_hurts
#print axioms Verif.Gov.C145_no_never_helps
#print axioms Verif.Gov.C145_veto_never_helps
#print axioms Verif.Gov.C145_abstain
#print axioms Verif.Gov.C145_no_helps_witness
#print axioms Verif.Gov.C145_veto_helps_witness
#print axioms Verif.Dao.C146_now
#print axioms Verif.Dao.C146_staked
#print axioms Verif.Dao.C146_denom
#print axioms Verif.Dao.C146_token
#print axioms Verif.Dao.C146_one_block
#print axioms Verif.Dao.C146_amount
#print axioms Verif.Distributor.C147_others
#print axioms Verif.Distributor.C147_when
#print axioms Verif.Dao.C148_denom
#print axioms Verif.Dao.C148_token
#print axioms Verif.Dao.C148_nothing_left
#print axioms Verif.Gov.C149_alone
#print axioms Verif.Gov.C149_same
#print axioms Verif.Gov.C150_looks
#print axioms Verif.Dao.C150_lasting
#print axioms Verif.Dao.C150_unbounded
#print axioms Verif.Distributor.C151_no_gain
#print axioms Verif.Distributor.C151_no_loss
#print axioms Verif.Distributor.C151_others
#print axioms Verif.Gov.C152_handover
#print axioms Verif.Gov.C152_life
#print axioms Verif.Gov.C152_reachable
#print axioms Verif.Enterprise.C153_through
#print axioms Verif.Enterprise.C153_missed
#print axioms Verif.Enterprise.C153_steps
#print axioms Verif.Dao.C154_first_decides
#print axioms Verif.Dao.C154_first_decides_early
#print axioms Verif.Migration.C154_moved_only
#print axioms Verif.Migration.C154_any_number
#print axioms Verif.Migration.C154_moved_only_nft
#print axioms Verif.Migration.C154_any_number_nft
#print axioms Verif.Gov.C155_block
#print axioms Verif.Gov.C155_results
#print axioms Verif.Dao.C156_decided
#print axioms Verif.Dao.C156_once
#print axioms Verif.Distributor.C157_alone
#print axioms Verif.Distributor.C157_same
#print axioms Verif.Distributor.C157_accepted
#print axioms Verif.Dao.C158_crowd
#print axioms Verif.Distributor.C158_weights
#print axioms Verif.Distributor.C158_minimum
#print axioms Verif.Distributor.C158_assets
#print axioms Verif.Distributor.C158_record
#print axioms Verif.Distributor.C158_former
#print axioms Verif.Custody.Token.C159_looks
#print axioms Verif.Custody.Token.C159_flood
#print axioms Verif.Custody.Token.C159_denom
#print axioms Verif.Migration.C160_shares
#print axioms Verif.Migration.C160_past
#print axioms Verif.Distributor.C161_swap
#print axioms Verif.Distributor.C161_order
#print axioms Verif.Distributor.C161_report
#print axioms Verif.Distributor.C161_split
#print axioms Verif.Staking.C162_order
#print axioms Verif.Staking.C162_room_witness
#print axioms Verif.Staking.C162_ids
#print axioms Verif.Gov.C163_order
#print axioms Verif.Gov.C163_own_order_witness
#print axioms Verif.Dao.C164_order
#print axioms Verif.Dao.C164_transactions
#print axioms Verif.Dao.C164_cooldown_witness
#print axioms Verif.Nft.C165_order
#print axioms Verif.Nft.C165_honest
#print axioms Verif.Nft.C165_passed_on_witness
#print axioms Verif.Nft.C165_unknown_collection_witness
#print axioms Verif.Nft.C165_ids
#print axioms Verif.Dao.C166_order
#print axioms Verif.Dao.C166_multisig
#print axioms Verif.Dao.C166_transactions
#print axioms Verif.Dao.C167_proposals
#print axioms Verif.Dao.C167_all_proposals
#print axioms Verif.Dao.C167_proposal_votes
#print axioms Verif.Pages.C167_members
#print axioms Verif.Pages.C167_staked_nfts
#print axioms Verif.Pages.C167_whitelists
#print axioms Verif.Pages.C167_treasuries
#print axioms Verif.Pages.C167_daos
#print axioms Verif.Pages.C167_all_daos
#print axioms Verif.Pages.C167_versions
#print axioms Verif.Pages.C167_polls
#print axioms Verif.Pages.C167_all_polls
#print axioms Verif.Pages.C167_poll_votes
#print axioms Verif.Pages.C167_voter_votes
#print axioms Verif.Distributor.C168_distributor
#print axioms Verif.Gov.C168_governance
#print axioms Verif.Multisig.C168_multisig
#print axioms Verif.Nft.C168_nft
#print axioms Verif.Staking.C168_staking
#print axioms Verif.Gov.C169_proportions
#print axioms Verif.Gov.C169_wrap_witness
#print axioms Verif.Gov.C170_governance
#print axioms Verif.Multisig.C170_multisig
#print axioms Verif.Nft.C170_nft
#print axioms Verif.Staking.C170_staking
#print axioms Verif.Staking.C170_half_second_witness
#print axioms Verif.Staking.C170_wrap_witness
#print axioms Verif.Dao.C171_history
#print axioms Verif.Dao.C171_exchange
#print axioms Verif.Dao.C172_vote
#print axioms Verif.Dao.C172_votes
#print axioms Verif.Dao.C173_rewards
#print axioms Verif.Many.C174_alone
#print axioms Verif.Many.C174_reachable
#print axioms Verif.Many.C174_apart
#print axioms Verif.Dao.C175_message
#print axioms Verif.Dao.C175_running
#print axioms Verif.Dao.C175_query
#print axioms Verif.Dao.C175_early_witness
#print axioms Verif.Dao.C175_duration_witness
#print axioms Verif.Dao.C176_net
#print axioms Verif.Dao.C176_back
#print axioms Verif.Dao.C176_back_polls
#print axioms Verif.Dao.C176_council_witness
#print axioms Verif.Dao.C177_claims
#print axioms Verif.Dao.C177_answers
#print axioms Verif.Dao.C177_after_moves
#print axioms Verif.Many.C178_clock
#print axioms Verif.Many.C178_transaction
#print axioms Verif.Many.C178_among
#print axioms Verif.Many.C178_exactly
#print axioms Verif.Dao.C179_net
#print axioms Verif.Dao.C179_back
#print axioms Verif.Gov.C180_laxer
#print axioms Verif.Gov.C180_stricter
#print axioms Verif.Gov.C180_own_veto
#print axioms Verif.Gov.C180_raised_witness
#print axioms Verif.Distributor.C181_limit
#print axioms Verif.Distributor.C181_room
#print axioms Verif.Distributor.C181_forever
#print axioms Verif.Distributor.C181_alone
#print axioms Verif.Distributor.C182_more
#print axioms Verif.Distributor.C182_others
#print axioms Verif.Dao.C183_forever
#print axioms Verif.Dao.C183_sabotage
#print axioms Verif.Distributor.C184_above
#print axioms Verif.Distributor.C184_below
#print axioms Verif.Nft.C185_gift
#print axioms Verif.Nft.C185_price
#print axioms Verif.Distributor.C186_parts
#print axioms Verif.Nft.C187_nfts
#print axioms Verif.Staking.C187_parts
#print axioms Verif.Staking.C188_parts
#print axioms Verif.Staking.C188_none_witness
#print axioms Verif.Distributor.C189_together
#print axioms Verif.Multisig.C190_parts
