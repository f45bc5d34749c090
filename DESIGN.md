# Formal model of the Enterprise DAO contracts

Source: `/repo` (terra-money/enterprise-contracts, Rust / CosmWasm).  Model and proofs: `/verif/lean` (Lean 4 + Mathlib).
The list of properties is `properties.jsonl`; which theorem settles which property is in `MANIFEST.json`.

## How the code is modelled

* One Lean state structure per contract, holding the contract's storage items.
* One Lean function per Rust function. `&mut` storage becomes a returned state; `Result` and panics become `Except`.
* A message that errors (or panics) leaves the state unchanged: CosmWasm reverts the transaction.
* Queries to other contracts are parameters of the function (an environment record). The `System` modules plug in the
  real answers of the other models.
* Sub-messages are recorded as output data. Where the effect of a sub-message matters to a property,
  the `System` modules execute it.
* Storage maps (`cw_storage_plus::Map`, `IndexedMap`) are sorted association lists with unique keys (`Verif/Base/Map.lean`).
* Snapshots (`SnapshotItem` with `EveryBlock`) are modelled with their changelog (`Verif/Base/Snapshot.lean`).
* `u64`/`u128` operators wrap (the workspace sets `overflow-checks = false`); `Uint64`/`Uint128` operators are
  checked and panic. Both are modelled as such (`Verif/Base/Num.lean`). `usize` has 32 bits (target wasm32).
* `Decimal` is a natural number of 10^-18 units.

## Trusted base

1. Lean's kernel. Axioms: every property theorem depends on at most `propext`, `Classical.choice`, `Quot.sound`
   (`Verif/Audit.lean` prints them). No axiom is added, there is no `sorry`, no `native_decide`, no `bv_decide`.
2. Faithful reading of the Rust code: each definition cites file and lines. The code is not executed.
3. Semantics of dependencies, which are not in the repository:
   `cw-storage-plus` (`Item`, `Map` in ascending byte order, `IndexedMap`/`MultiIndex` in step with the primary map,
   `SnapshotItem`), `cosmwasm-std` arithmetic, transaction atomicity, depth-first sub-message execution and reply modes,
   `cw20`/`cw721`/bank transfers moving what they say.
4. Addresses, denoms, token ids and other strings are natural numbers (version texts, C114, are lists of characters). Inputs on which `addr_validate`
   fails are outside the model; they only produce errors, which revert.
   Orders of keys are total orders; which concrete total order it is does not matter to any theorem.
5. JSON (de)serialization is not modelled, nor are events and attributes, schema, gas, and `set_contract_version`.
6. Of the contract code migration entry points (`migrate`) the following are modelled: the treasury's staged stake
   migration, the component migration of the enterprise contract (C74), the handover of the governance contract (C152),
   the addresses of the facades (C95), and the rewriting of the configuration of an NFT staking contract older than 1.2.0
   (nft-staking-impl/src/migrate.rs, C135). All the others only record the contract version.
7. The ledgers of `Verif/Base/Ledger.lean` and the owner map of `Verif/Custody/Collection.lean` are models of the
   environment (bank module, `cw20-base`, `cw721-base`), not of code in the repository. Only C84–C87, C99, C101, C105, C106 and C131 use such models.
8. The facades (`Verif/Facade`) are modelled as functions of the contents of a chain, which maps addresses to the models
   of the contracts; the smart queries between contracts are applications of these models. A legacy DAO is what it
   answers; its contract is not in the repository. The JSON text of legacy messages is not modelled.

## Coverage: the code, crate by crate

| crate in `/repo` | model | not modelled |
|---|---|---|
| packages/poll-engine (state, execute, validate, query) | `Gov/Model` | `helpers.rs` (mocks), the tests in the same files, and what no contract calls: `max_vote`, `poll_voters` and `destructure` of `state.rs` |
| contracts/enterprise-governance | `Gov/Model`; `migration.rs` in `Gov/Props4` | |
| contracts/enterprise-governance-controller (contract, validate, proposals, state) | `Controller/Model` | attributes of responses; `migrate` (records the version only) |
| packages/membership-common | `Membership/Model` | |
| packages/token-staking-impl, packages/denom-staking-impl; contracts/token-staking-membership, contracts/denom-staking-membership | `Staking/Model` | `migrate.rs` is empty; the config queries are fields of the state |
| packages/nft-staking-impl, contracts/nft-staking-membership | `Nft/Model`; `migrate.rs`, `config.rs` in `Nft/Migrate` | `ics721_query.rs` is an input (the class that the ICS721 proxy answers) |
| packages/multisig-membership-impl, contracts/multisig-membership | `Multisig/Model` | |
| packages/ics721-callback-proxy-impl, contracts/ics721-callback-proxy, packages/ics721-types | `Callback/Model` | base64 and JSON of packets |
| contracts/funds-distributor (all files) | `Distributor/Model` | `migration.rs` is empty |
| contracts/enterprise-treasury (contract, asset_whitelist, validate) | `Treasury/Model` | contents of cosmos messages |
| contracts/enterprise-treasury (migration, migration_stages, staking, nft_staking) | `Migration/Model`, with the membership contract in `Migration/System`, `Migration/NftSystem` | nothing (the old totals behind the query `TotalWeight` are an input, `Migration/Props4`: the present code never writes them) |
| contracts/enterprise, contracts/attestation | `Enterprise/Model` | the attestation text query; contents of cosmos messages |
| contracts/enterprise-versioning, packages/enterprise-versioning-api (order and text of versions) | `Versioning/Model`, `Versioning/Text` | the contents of a changelog are opaque |
| contracts/enterprise-outposts (contract, ibc_hooks, validate) | `Outposts/Model` | SHA-256, bech32 and the JSON of the IBC memo: the address of the sender on the other chain is a function of channel and sender |
| contracts/enterprise-factory (all files) | `Factory/Model`, `Factory/Codes`; the instantiations it causes in `Birth/Model` | JSON of instantiation messages, labels |
| contracts/enterprise-facade, contracts/enterprise-facade-v2, packages/enterprise-facade-common | `Facade/Model`, `Facade/Proposals`, `Facade/Requests` | |
| contracts/enterprise-facade-v1 | `Facade/V1`, `Facade/Legacy` | queries passed on unchanged to a legacy contract (facade_v1.rs 131-161, 220-276); JSON of legacy messages (`v1_structs.rs` gives the types) |
| packages/common | `Context` and `Pagination` are plain parameters (`Base/Paging` for page sizes) | `common/src/cw.rs` test helpers, packages/common-derive |
| packages/*-api | the types of messages and answers, in the model of the contract they belong to | error texts (errors are an enumeration, `Base/Except`), `response.rs` (attributes) |
| packages/deployment, packages/interface, scripts, tasks, tests-cradle | none | deployment scripts, generated bindings and tests; they do not run on the chain |

The composed models add no code of their own: `Dao/Model` (controller, governance, membership, council and distributor
together), `Custody/*` (a contract with the token, bank or NFT ledgers it uses), `Birth/Model` (a creation), `Migration/*System`,
`Many/Model` (many DAOs on one chain).

## Plan per property

| id | property | what is modelled, how it is proved |
|---|---|---|
| C01 | Poll tally equals the sum of recorded votes | State machine of the governance contract; invariant by induction over message histories. |
| C02 | One vote per voter per poll; the latest replaces the former | One-step theorem with a frame condition on the whole vote map. |
| C03 | Votes are accepted exactly during the voting window of a live poll | Exact success condition (iff) and no change on error. |
| C04 | Poll identifiers are consecutive and poll terms are immutable | Invariant: stored ids are exactly 1..count; terms compared along any continuation. |
| C05 | The final status follows the published rule | Model of final_status against a separate declarative rule with cross-multiplied integers. |
| C06 | Veto takes precedence | Decision theorem on final_status. |
| C07 | Simulated end status equals the status obtained by ending | EndPoll result against the simulation query. |
| C08 | When a poll can be ended | Exact success condition (iff) of EndPoll. |
| C09 | Only the admin can change governance state | Every non-admin message: error, same state. |
| C10 | UpdateVotes rewrites exactly the live votes of one voter | Loop over the voter's votes; pointwise description of the new vote map. |
| C11 | Results freeze when voting closes | Induction over continuations with monotone time. |
| C12 | Passed implies quorum, threshold and strictly more yes than no | Arithmetic consequences of the fixed-point comparisons. |
| C13 | Order of different voters' votes is irrelevant | Equality of the resulting states (maps are canonical). |
| C14 | Paging through polls or votes loses and repeats nothing | Generic paging theorem on sorted maps, instantiated; descending order examined as well. |
| C15 | An ended poll keeps its status when re-ended past its end | Two-step theorem on EndPoll. |
| C16 | Total weight equals the sum of member weights (token and denom staking) | State machines of token and denom staking; sum invariant by induction. |
| C17 | The staking contract can always pay every stake and claim | Ghost counters of received and paid amounts; conservation by induction. |
| C18 | Unstaking is bounded by the stake and creates one matching claim | Exact success condition and effect. |
| C19 | Claims are paid to their owner, after release, at most once | Exact effect of Claim; claims of others framed. |
| C20 | Claim identifiers are never reused | Invariant: every claim id is below the counter. |
| C21 | Only a transfer of the DAO token creates stake | Step theorem: weight increase implies accepted transfer; sum bounded by amount. |
| C22 | Imported stakes and claims match the transferred amount | Fold over the list, error branches explicit. |
| C23 | Past total weights are immutable and correct | SnapshotItem model; past values described by the history and immutable. |
| C24 | Every weight change is reported to every hook | Output list of hook messages described exactly. |
| C25 | Restricted users cannot stake | Restriction oracle as parameter. |
| C26 | A claim waits at least the unlocking period | release_at arithmetic with wrap; theorem under the no-wrap guard, negation witness beyond (finding). |
| C27 | Changing the unlocking period does not affect existing claims | Frame theorem. |
| C28 | Each staked NFT has one staker and weight counts NFTs | State machine of NFT staking; cardinality invariant. |
| C29 | Every NFT in custody is owed to exactly one user | Invariant on staked and claimed ids; transfers out recorded. |
| C30 | NFTs are unstaked only by their staker and returned only to them | Exact success condition and effect. |
| C31 | Multisig total weight equals the sum of member weights | State machine of the multisig; sum invariant. |
| C32 | Only the controller edits the multisig, and duplicates are refused | Exact effect theorems. |
| C33 | Hooks are told about every multisig weight change | UpdateMembers: proved. SetMembers: violated (finding), negation witness; `C33_set_exact_partial` says exactly when it holds. |
| C34 | The funds distributor is solvent | State machine of the distributor; invariant by induction over histories with rounded accumulators. |
| C35 | Rewards are claimed once | Step theorem on claim. |
| C36 | Weight updates never change rewards already accrued | Step theorem on weight update. |
| C37 | A distribution is shared pro rata | Two-sided arithmetic bound. |
| C38 | Users under the minimum weight accrue nothing, and the total counts effective weights only | Sum invariant. |
| C39 | Changing the minimum weight preserves accrued rewards | Step theorem. |
| C40 | Nothing can be distributed to nobody | Error branch theorem. |
| C41 | Rewards are claimed only by their owner and never by a restricted user | Decision theorem. |
| C42 | Only the admin can alter weights in the distributor | Decision theorem. |
| C43 | Only whitelisted assets are distributed | Decision theorem with whitelist oracle. |
| C44 | A proposal is executed at most once | Controller state machine with embedded governance; history invariant on the log of dispatches. |
| C45 | A proposal deposit leaves the contract exactly once and to the right party | Same machine; log of deposit transfers. |
| C46 | Proposals execute only when allowed in time | Decision theorem. |
| C47 | Actions run only for passed proposals | Log invariant against final_status. |
| C48 | The internal execution entry point is closed to outsiders | Decision theorem. |
| C49 | Council proposals contain only allowed action types | Decision theorem on creation and invariant on the council configuration. |
| C50 | Proposals hold at most ten actions | Invariant over histories. |
| C51 | The governance configuration is always valid | Invariant over histories of configuration changes. |
| C52 | A general proposal requires membership or the minimum deposit | Decision theorem. |
| C53 | Only membership contracts report weights | Decision and effect theorem. |
| C54 | Votes on live general proposals track current weight | Composed system of staking, controller and governance; invariant by induction. |
| C55 | Council votes are independent of membership weight | Violated (finding): negation witness in the composed system; partial theorems, of which `C55_reweighted_partial` describes for all states what happens to the votes instead. |
| C56 | The cooldown restarts when the expected outcome changes | Violated through WeightsChanged (finding): witness; partial theorem for CastVote; `C56_reports_keep_cooldown_partial` (weight reports never touch the earliest execution time). |
| C57 | The reported status predicts executability | Violated for draws and for a total of zero (finding): witnesses; partial theorems, with an exact condition for executability in both cases. |
| C58 | Failing actions cannot block resolution | Theorem over every failure of the action batch. |
| C59 | Users without weight cannot vote | Decision theorem. |
| C60 | Voting never outlasts the unlocking period | Violated (finding): witnesses, also in the composed system. Partial theorems: the check of a change that names a period; for DAOs created by the factory and all their histories, as long as no proposal changes the vote duration (`Dao/Period.lean`). |
| C61 | Only the admin controls the treasury | Decision theorem over all messages. |
| C62 | Treasury whitelist behaves as a set and is fully enumerable | Whitelist model and paging theorem. |
| C63 | Migration of stakes conserves every user's weight | Batch model; invariant over batches. |
| C64 | DAO wiring is finalized once by its creator and then fixed | History theorem. |
| C65 | DAO upgrades are monotone and complete | Paging loop of get_versions_between; exact list theorem; unregistered target recorded as finding. |
| C66 | Restriction equals missing attestation | Decision theorem and history theorem. |
| C67 | The version registry is append-only by its admin, ordered and enumerable | History theorems and paging theorem. |
| C68 | Cross-chain replies are authenticated and used once | History theorem with derived address as parameter. |
| C69 | DAO numbers are consecutive and listed once | History theorem and paging theorem. |
| C70 | Initial reward weights equal initial membership | Violated when a council is present (finding): witness; partial theorem. |
| C71 | Importing a cw3 multisig keeps every voter | Fuel-free recursion over pages; exact list theorem. |
| C72 | Rewards never block membership changes | Acceptance theorem from the solvency invariant: no checked operation can overflow. |
| C73 | Reward weights follow membership weights | Composed system; invariant over histories, from any state where the two agree. |
| C74 | Migrating the enterprise contract migrates every component once | Exact list of messages. |
| C75 | Remote treasuries obey the governance controller only | Decision theorems and paging theorem; induction over histories for all that is ever sent. |
| C76 | A creation wires every part of the DAO once | The factory with replies as a relation `Exec`; exact trace of a creation, then the wiring read off it. |
| C77 | A creation is accepted exactly when its membership is valid | Decision theorem against a separate list of demands. |
| C78 | The factory's settings belong to its admin | Decision and history theorems. |
| C79 | Staking credits exactly what was transferred | Decision theorem and effect with frame, for token, denom and NFT staking. |
| C80 | The staked asset never changes | Induction over histories; for NFTs also the one transition from the ICS721 proxy to its contract. |
| C81 | Claim queries are truthful | Membership lemmas for the filtered lists, tied to what `Claim` pays. |
| C82 | Paging through members and staked NFTs is complete | Generic paging theorem (`reads_all`) over ordered maps, instantiated for each query. |
| C83 | Weight change hooks are edited by the controller only | Decision theorems and case analysis over all messages. |
| C84 | Token and denom stakes are covered and can be withdrawn | `Custody/Token*`: the staking contract next to a ledger; invariant over histories of both; end-to-end theorem from unstake to payment. |
| C85 | Staked NFTs are owned by the contract and can be withdrawn | `Custody/Collection*`: the NFT staking contract next to the owners of the tokens; the same. |
| C86 | The ICS721 callback proxy stakes whole packets | `Callback/Model`, decision theorems; composed with C85 by induction over the packet. |
| C87 | The funds distributor can always pay what it reports | `Custody/Rewards`: the distributor next to one ledger per asset; the unrounded amount due is covered. |
| C88 | Pages of list queries are bounded, and a short page is the last one | `Pages/Props`: `Full` (what a client expects of a page) for each list query, from lemmas on `page` and `ranged`. |
| C89 | Terms of a new proposal | `Controller/Props2`: exact poll, info and frame after each creation message. |
| C90 | When a proposal is accepted | `Controller/Props2`: equivalence with `WellSent` and `Proposable` (`Controller/Spec2`); `C90_frozen_witness` shows that the bound on the voting duration is needed. |
| C91 | What the execution of actions does | `Controller/Props2`: refinement to the inductive relation `DoesAll`. |
| C92 | Initial treasuries on other chains are deployed at most once | `Controller/Props2`: invariant over all histories. |
| C93 | The lists of proposals and votes agree with the single queries | `Dao/Props4`, with the model `Controller/Queries`. |
| C94 | Filtering proposals by status | Partial: the filter looks at the stored status (`C94_filter_partial`), which differs from the reported one (`C94_filter_witness`). |
| C95 | The facade resolves an address to the right DAO | `Facade/Model` (`getFacade`) against the relation `Leads` (`Facade/Spec`), both directions. |
| C96 | The description of a DAO agrees with its contracts | `daoInfo` on any chain that holds the contracts of a DAO (`IsDao`), field by field; exact availability. |
| C97 | The facade reports the whole council and an unambiguous version code | Partial: up to 100 members, and minor and patch numbers below 100; `C97_council_cut` and `C97_code_ambiguous` show the rest false. |
| C98 | Voting power is the share of the total weight | For every world of the composed system; sums by the sum of a map over a list of keys. |
| C99 | Staking, unstaking and claiming through the facade | The messages of the facade are run in the custody worlds of C84 and C85. |
| C100 | Coins for messages to other chains | Count of sub-messages to the outposts contract against the filter of the facade; `C100_rejected_witness` for rejected proposals. |
| C101 | Proposals and votes through the facade | The messages of the facade are run in the controller (C89, C59); a small cw721 world for NFT deposits. |
| C102 | Requests for legacy DAOs say the same | Partial: relation `Asks` between actions of today and legacy actions, exact for actions without other chains; `C102_lost_witness` for the rest. Votes, executions, unstakings and claims: `C102_asked`, by what the message asks of the DAO. |
| C103 | Statuses of legacy proposals | Partial: the published rule `ruleStatus` for general proposals without a draw; `C103_witness` for draws and council proposals; `C103_exact_partial` gives the status that is shown in every case. |
| C104 | The other queries of the facade | Component theorems (C81, C88, C93) seen through the facade; sums of stakes by the invariant of the composed system. |
| C105 | Deposits are there when they are due | `Custody/Deposits`: the controller next to a ledger per asset and the owners of the NFTs of every contract; invariant: what is owed per asset and per NFT is held. Deposit transfers are separate operations, so that anything may happen before them. |
| C106 | The treasury pays for approved proposals and for nothing else | `Custody/Spending*`: controller, governance, treasury, distributor and a ledger per asset, messages run depth first with their sub-messages. Invariant: initial balance ≤ balance + sum of what executed and passed proposals ask for; `Accounts` states exactly which balances change. |
| C107 | A created DAO starts in the state that the theorems about DAOs assume | `Birth/*`: the messages of a creation (`Factory.Tx`) carried out on a chain of contract states, instantiations at free addresses; the result satisfies `Dao.Genesis`, `Dao.Reachable`, `Spending.Start`, `Deposits.Start` and `Facade.IsDao`, and the members, weights and unlocking period are those asked for (`C107_members`). |
| C108 | What the query of a proposal reports | Composed system: C89 at the creation, then invariants of all executions (`CtlStep`, `Settles` in `Dao/Totals.lean`). |
| C109 | The outcome is settled when voting ends | Composed system: every execution keeps closed polls, executed proposals and the totals of past seconds (`Settles`), by induction over executions and histories. |
| C110 | Votes never exceed the total weight they are measured against | Violated (finding): witnesses. Partial theorems: while voting goes on; ends on whole seconds (invariant `Cap`); no block between the start of the last second and the end. |
| C111 | The data of a DAO changes only as its controller names it | Decision theorems, field by field, and a theorem on every step of a history. |
| C112 | Nothing of a distribution gets lost but for rounding | The amount owed, unrounded, is bounded from below by induction over histories; C34 has the bound from above. |
| C113 | The factory recognises the code of every DAO it lists | Partial: false for DAOs of later versions than 1.0.0 (`C113_unknown_witness`); `C113_recognised_partial` says exactly when; `C113_listed` for the list. |
| C114 | Versions and their texts | Strings as lists of characters, `str::split`, `u64` parsing and printing as in the standard library; exact characterisation of what is read, and round trip. |
| C115 | A completed migration has moved every stake and claim to the membership contract | Treasury composed with the token or NFT staking contract; invariant over steps, content at completion, and progress by counting items. |
| C116 | A vote counts what the members weigh when it ends | Composed model; each tally equals the sum of the current weights over the members who chose the option (C54), the result is that of the rule for them (C47, C109); consequences for quorum and threshold from the rule. |
| C117 | Members can always leave | Composed model; invariant: the distributor knows at least the membership weight of everyone and its total fits, so a report of a lower weight passes every check (with C10). |
| C118 | Members can always vote | Composed model; decision theorems from the invariants (polls and proposal records agree, polls started before now), and the frame of a vote. |
| C119 | Anyone who is not restricted can join | Composed model; a stake and the report it causes are accepted by each contract (`Dao/Join.lean`), so the only reason left for a refusal is the restriction. |
| C120 | A proposal can be resolved after voting exactly if somebody could vote at its end | Composed model; acceptance of `ExecuteProposal` from the invariants (the earliest execution is never after the end of voting) with C58 for the rest; the negative part by the induction over later histories that gives C109. |
| C121 | Nobody can take what a member has staked, unstaked or earned | Each contract on its own; a conservation law per user by induction over histories (`Staking/Props3`, `Nft/Props3`), and for rewards from C35, C36, C37 and C39 step by step (`Distributor/Props3`). |
| C122 | What a group of members can decide or prevent | Composed model (`Dao/Props12`); the published rule is applied by C116 to what each member weighs at the end; the rest is arithmetic over the weights of the group and of the others, and C120 for the execution. |
| C123 | A new governance controller holds what it is given | `Controller/Props3`; acceptance as a decision theorem against the separate demands of C48 and C51, the proposals by induction over the list given. |
| C124 | Over any history a user gets the exact pro rata share of the rewards | `Distributor/Spec3` (exact share and rounding of one user, over the rationals), `Distributor/Shares`, `Distributor/Props4`; induction over histories with the unrounded amount due to the user as potential. |
| C125 | In a DAO rewards are shared in proportion to what the members have staked | `Dao/Trace` (histories of the composed system with a record of the messages handled), `Dao/Rewards` (exact parts in terms of the membership contract's weights), `Dao/Props13`; induction over histories: at every message the reward weights are the voting weights (C73), and the amount due to a user changes as in C124. |
| C126 | A new DAO gets the token or NFT collection that it asked for | `Factory/Props2`: the tokens and collections among the messages of a creation, read off its trace, against the request; no new model. |
| C127 | When an early result is beyond recall | Composed model; the rule for all completions of the votes, reduced by monotonicity to the extreme ones (`Dao/Props14`). `C127_turned_witness`: early results can be turned by outstanding votes. |
| C128 | A migration step moves no more items than its batch size | False for NFTs under claim (`C128_over_witness`, `C128_whole_user`). Proved for token DAOs, and for NFT DAOs with a bound on the NFTs under claim of a user (`Migration/Props2`). |
| C129 | The migration step that anybody may send does nothing to DAOs with nothing to migrate | Induction over the steps (`Migration/Props2`). It also justifies leaving the step out of `Treasury.exec` and of the composed system, whose treasury was made by the factory. |
| C130 | The rules and the council of a DAO are amended by the actions of passed proposals and by nothing else | Composed model, histories with a record of what was handled (`Dao/Trace`): the rules after a history are a fold over the record, and each message in it that bears on the rules goes back to an action of a passed proposal (`Dao/Orders`, `Dao/Props15`). Extends C51 from the controller's own configuration to what it orders the other contracts to do. |
| C131 | Funds that a proposal distributes arrive with the members, in proportion to their weights | The system of C106 (`Custody/Distribution`, `Custody/DistributionProps`): the messages of the treasury are followed into the distributor; `Shared` says which rates rise and that nothing else changes. The claims that follow are bounded as in C37; success of the payments by induction over the messages sent. |
| C132 | A passed proposal to amend the rules takes effect | Composed model (`Dao/Effect`, `Dao/Props16`): the actions are run by C91, and by induction over them each message is shown to be accepted by the contract it goes to and by those notified in turn (`Carried` is a sequence of accepted messages, so no failure is caught); what they do to the rules is C130's. The counterpart of C130: amendments do happen. Sums of weights stay below 2^128 (`Room`). The execution relation lets the caught failure of actions happen at any time, so the second theorem states that the transaction with the effect exists |
| C133 | Legacy proposals are shown with their content | `Facade/Legacy`, `Facade/V1`: relation `ShownAs` between legacy actions and the shown ones, `SameContent` field by field; single query by cases on the status, lists by induction. |
| C134 | A large enough group of members can act alone | Composed model (`Dao/Props17`): `Acting` are executions in which only the group acts. The creation is accepted (C89, C90), each vote is (C118, by induction over the group), the end passes (C122), and amendments take effect (C132). Liveness from every reachable state, against any past. No deposit may be asked for, or one in coins (the attached coins are not modelled as owned); the group is not restricted by the attestation contract; the clock and the number of proposals stay below 2^64. |
| C135 | NFT staking contracts survive their migration | `Nft/Migrate`: storage with both configuration items, each of which may be missing. False for the `migrate` entry point, which does not convert the configuration: `C135_stuck`, by induction over histories. Proved for the conversion function that the package has but nothing calls (`C135_converted_partial`): a refinement, every history equals one of the model of the present version |
| C136 | What passes, and so every change of the rules, is backed by the members | `Dao/Props18`: induction over reachable states. A proposal resolved within a transaction was resolved by an `ExecuteProposal` among the messages on record (induction over `Traced`), and the weights invariant of C54 holds at that point; one resolved after the end goes back to the last block before the end (C116). Then C130 and C49 for the rules |
| C137 | What the controller orders was asked for by a passed proposal, backed by the members, and is ordered once | `Dao/Props19`: only the run of actions sends orders, each action sends what it asks for (`Does`, C41); a run on record is counted by the log (induction over `Traced`), C44 bounds the log, C136 gives the backing, C37 the kinds of a council proposal |
| C138 | Every vote was cast by its voter | `Dao/Props20`: what each message does to each vote (`Handled.voted`), then induction over histories with a record; votes for what passed from the rule at its end, an invariant over executions |
| C139 | A quorum of the council can act alone, and at once | `Dao/Props21`: construct the sequence of messages (creation, one vote each, execution), with an invariant on the proposal while the group votes; the final status from the rule on recorded votes |
| C140 | What the council passes is backed by the council | `Dao/Props22`: false in general (`C140_minority_witness`, `C55_former_member_witness`: votes of council members are reweighed by the membership contract, and those of former members stay). Proved for histories without messages to the council's contract and in which the membership contract reports no weight of a council member, by two inductions over histories (votes keep the weight in the council; how proposals are resolved) |
| C141 | What is left to a restricted user | `Dao/Props23`: induction over histories with a record of what was handled; per message from the conditions under which each contract accepts it. That unstaking stays possible is C117, which holds for any answers of the attestation query |
| C142 | Whatever custom messages can say | `Dao/Calm`, `Dao/Props24`: a history without forged messages is also a history of the DAO in which such messages go elsewhere (`Cfg.calm`), which meets `Tame`, so that all theorems with that assumption apply; states within a transaction as a small-step relation (`Midway`), with the invariants of C44, C54 and C136 for it |
| C143 | Where execution may be early, a quorum of the members acts within the cooldown | `Dao/Props25`: the execution is built: creation, a vote of each member of the group, the block at the end of the cooldown, execution; all votes are yes votes, so the threshold is met, and C116 and the rule give the result |
| C144 | A multisig DAO is locked for good once nobody has weight; the other DAOs never are | `Dao/Props26`: an induction over executions with an invariant for the queue of pending messages (calls of outsiders, and actions of council proposals only); the members, all general proposals and the runs of their actions stay the same, C136 gives the rules. The converse is C134 with the group of all members, after C119 if there are none |
| C145 | How one vote can change the result | `Gov/Props2`: the sums before and after a vote, the rule of C05 reduced to four inequalities, monotonicity of each of them |
| C146 | The cooldown can be avoided by voting before staking | `Dao/Props27`: a message to the membership contract leaves the choices and the cooldown alone and adds to the weight for yes; a vote that does not complete the quorum starts no cooldown (C56); then C116 for the execution |
| C147 | Whether and when anybody claims does not matter for the rewards | `Distributor/Props5`: two simulations between the runs of both histories; the first relates states that agree but for the entries of other users, the second states in which the user's due amounts differ by what was paid and by rounding, at the present and at any later index |
| C148 | A stake of one block takes its full part of a distribution | `Dao/Props28`: acceptance of the three messages from C119, C117 and the distributor's own condition; the two weight updates change nobody's rewards, and the distribution raises the account's amount by its part |
| C149 | Polls do not influence each other | `Gov/Props3`: simulation between the two runs for states that agree about the poll and its votes; the loop over a voter's votes does to a poll what the update of the one vote on it does, and cannot fail when time does not run backwards |
| C150 | The work that a change of weight makes for governance grows without bound | `Dao/Props29`: the loop with a counter gives the same state, and the counter is the number of polls with a vote of the user on record; votes last (C138); induction over proposals that the member makes and votes on, all in one block |
| C151 | Splitting a weight over several accounts gains no rewards | `Distributor/Props6`: simulation between the two histories (weights of others equal, those of the group add up to that of the one account), shares of one distribution compared with the part-of-the-whole inequality, then C124 on both sides |
| C152 | A migration of governance hands it over and keeps everything else | `Gov/Props4`: every message commutes with the handover; refinement of a history with migrations to one without, by induction; a third induction moves the senders to the last admin, which gives `Reachable` |
| C153 | A DAO goes through each version once, in order, and misses those that come too late | `Enterprise/Props2`: the registry and the DAO run together; induction over the history with C65's description of one upgrade, and that the registry never forgets a version |
| C154 | While stakes are migrated, only those already moved have a vote, and the sender of a step chooses how many they are | `Migration/Props3`: by induction over the history, what was moved is a first part of the stakes; `Dao/Props30`: the message of a step with batch size one as a transaction of the composed DAO, after which C134 and C143 apply to the first staker |
| C155 | Splitting a weight over several accounts changes no result | `Gov/Props5`: simulation between the two runs for each poll (same poll, a vote there iff the accounts have voted, weights add up), by induction over the history; taking back and adding in several steps is the same as in one, also in wrapping arithmetic. `Gov/Props11`: in any state and within a block the shares are all accepted exactly when the whole is, and polls can then be ended alike (induction over the accounts). |
| C156 | Whatever is done on other chains was decided by the DAO | `Dao/Props31`: C75_all_sent of the outposts contract joined with C137 of the composed DAO over the messages between them; where deployments come from, by cases over the messages of the controller and induction over the history |
| C157 | The rewards in one asset do not depend on the others | `Distributor/Props7`: simulation between the state of a history and that of the reduced history (same weights, same indices and same shares of the assets kept, no index of another), message by message, by induction over the history |
| C158 | The work of a report of weights is bounded, that of a new minimum weight is not | `Distributor/Props8`: the functions once more with a counter of the entries written, shown to be the functions of the model plus the stated number; users on record by cases over the messages; `Dao/Props32`: one coin for each of a list of users, by induction over the list in the composed system |
| C159 | Strangers can make the claims of a member of a token DAO as long as they like | `Custody/TokenProps2`: `claim` once more with a counter of the claims loaded, shown to be the claim of the model plus the number of waiting claims; claims not yet due are kept by every operation, by induction over the operations; the attack as one operation on the contract with the ledger |
| C160 | In and after a migration the treasury answers the weights and totals of the old DAO | `Migration/Props4`: the query over the two snapshots that the old code left; weights constant by C63, their sum user by user over any covering list; the past by induction over the saves from the last one |
| C161 | The order of messages that have nothing to do with each other does not matter to the distributor | `Distributor/Props9`: a claim touches the entries of its user only, a report those of its users, a distribution the indices of its assets (`Ledger.Same`), hence each pair commutes; histories by induction over the exchanges, reports by induction over the permutation |
| C162 | The order of the messages of different users within a block does not matter to the staking contracts | `Staking/Props4`: the state without the ids of claims (claims as a multiset) is changed by each message in a way that depends on it alone (`exec_act`, `bisim_run`); acts of different users in one block commute on it (`swap_abs`); lists by moving the first message to its place (`move_back`, `order_abs`) |
| C163 | Governance does not depend on the order of messages about different voters | `Gov/Props6`: `Affects` says what a message about a voter changes (that voter's votes, nothing else but tallies), as a function of terms, status and that voter's votes; a state is determined by these (`state_ext`, from the tally invariant of C01), so messages about different voters commute (`step_comm`); lists by moving the first message to its place |
| C164 | In a token or denom DAO the order of different members' messages within a block matters only to cooldowns | `Dao/Order`, `Dao/Props33`: `Does` says what a message about a member does to each contract; what it does to the member's own part depends on that part and on what no such message changes (`Does.local`), and leaves the parts of others alone (`Does.frame`); so the parts of all members agree (`Sequel.agree`), and they determine governance (`Gov.state_ext`) and distributor (`userParts_ext`); stakes by C162; acceptance message by message, with the distributor's total bounded by its weights before plus the stakes |
| C165 | The order of the messages of different users within a block does not matter to NFT staking, unless a token passes from one to another | `Nft/Props4`: the state without ids of claims (a multiset of claims) determines acceptance, effect and sub-messages (`exec_act`); acts of different users commute on it (`swap_abs`); induction over the list; with an honest collection a token unstaked in the block stays in a claim that is not due (`no_stake`, `no_unstake`) |
| C166 | In NFT and multisig DAOs the order of different members' messages within a block matters only to cooldowns | `Dao/Props34`: as C164, but stated for any membership contract: a message changes only the member's weight, by an amount that the message determines (`Does.own`, `Does.others`); stakes by C165; in a multisig DAO no such message changes weights (`seq_still`) |
| C167 | Lists read page by page while the data changes lose and repeat nothing | `Pages/Props2`: a reading is a relation (`ReadsOver`) that gives every page its own state; a page that is in order, past the cursor, and leaves out only what comes after its last item (`Orderly`) is enough for the three claims (`faithful`), by induction over the reading; every query gives such pages; `Dao/Props35` for the lists of the controller |
| C168 | All addresses are treated alike | `Base/Rename`: a map with other names for its keys; `Gov/Props7`, `Staking/Props5`, `Nft/Props5`, `Multisig/Props3`, `Distributor/Props10`: every function commutes with the renaming of the state, so do histories, by induction; when the minimum weight changes, the distributor settles users in the order of their addresses, which changes: the order is shown not to matter (`mins_perm`) |
| C169 | Only the proportions of weights matter to votes | `Gov/Props8`: the states of the two histories have the same polls but for counts, and the same votes with weights multiplied, by induction; the counts follow as each is the exact sum of the votes (C01), and a ratio does not change when both parts are multiplied |
| C170 | The date does not matter | `Membership/Clock`, `Staking/Props6`, `Nft/Props6`, `Multisig/Props4`, `Gov/Props9`: the state of the later history is the state of the first one with its snapshots, claims and polls moved, by induction over the history; a saved total overwrites one at the same block or second exactly if it did before |
| C171 | A DAO treats all its users alike | `Controller/Rename`, `Dao/Rename`, `Dao/Props36`: every function of the controller and of the composed system commutes with renaming (the renamed state and messages give the renamed result), then induction over the messages of a transaction and over transactions; the specification `SameButNames` compares the answers to queries |
| C172 | Votes on a proposal matter to nothing else | `Dao/Aside`, `Dao/Props37`: a relation between states that differ in one proposal only; every message not about this proposal keeps it, a vote on the proposal on one side only keeps it too; induction over messages and transactions |
| C173 | Distributions and claims of rewards matter to nothing else | `Dao/Shadow`, `Dao/Props38`: a relation between states that differ in the ledgers of the distributor only; changes of weights and of the minimum succeed on one side exactly when the totals fit, which are the same; induction over messages and transactions, calls nested in a payment left out become transactions of their own |
| C174 | A DAO behaves among others as it does alone | `Many/Model` (states of all the DAOs, execution of messages across them), `Many/Lemmas`, `Many/Props`: induction over the messages of a transaction: what reaches one DAO from the others is a sequence of messages from addresses that are not its voting contracts, hence transactions of its own or calls within one |
| C175 | New quorums, thresholds and deposits do not change running proposals; early execution and the voting period do | `Dao/Rules`, `Dao/Props39`: every function of the controller but those that open proposals or change rules commutes with replacing the rules; induction over the messages of a transaction and over transactions; two witnesses for the rules that do matter |
| C176 | Within a block only where stakes end up counts | `Dao/Net`, `Dao/Props40`: for one member, an update of votes or rewards after another leaves the effect of the last only (`newVote_again`, `Brought.again`); induction over the sequence; equality of states from the parts of the members and the invariants; witness for council votes |
| C177 | Claims of what was unstaked matter to nothing else | `Dao/LeaveOut`, `Dao/Props41`: a relation between DAOs that ignores claims; each message but claims keeps it on both sides, claims keep it on one side and send nothing to the DAO; induction over the messages of a transaction and over transactions, done once for any such relation (`Spare`) |
| C178 | Whatever a DAO can do alone it can do among others | `Many/Props2`: induction over the messages of a transaction puts a run of one DAO among others (`Traced.among`); induction over histories, with the block of all DAOs the same; with C174 an equivalence |
| C179 | In an NFT DAO, within a block only how many NFTs each member ends up with counts | `Dao/Props42`: as C176, with what a message about one member does from C166: an update of votes or rewards after another leaves the effect of the later only; per member a relation between before and after, by induction over the messages; states are determined by what concerns each member |
| C180 | Stricter rules let less pass, except that a raised threshold can weaken vetoes | `Gov/Props10`: the rule for passing (C05) as four conditions, each of which is monotone; concrete polls for the exception |
| C181 | What can ever be distributed of an asset per unit of weight is limited, and one member alone can use the limit up | `Distributor/Props11`: the index of an asset is, up to rounding, 10^18 times the sum over the history of amount over total weight (induction over the history); it never falls and has to fit in 128 bits; for a single unit of weight the division is exact |
| C182 | More weight never means smaller rewards, nor larger ones for anybody else | `Distributor/Props12`: the states of both histories have the same weights but for one, which is no smaller, so neither is the effective one; a part of a whole grows with the part, and the parts of the rest shrink; induction over the pair of histories, and C124 for what is paid |
| C183 | The lifetime limit on distributions holds through everything a DAO can do | `Dao/Props43`: no message, with all it leads to, lowers an index (induction over `Exec` and `Later`), and the total weight of the distributor is all the stakes (C125); C181 for the distribution itself |
| C184 | A larger minimum weight for rewards never harms those who reach it | `Distributor/Props13`: the states of both histories have the same weights, and a minimum that is no smaller, so the total of the weights that count is no larger, and the part of one that counts in both is no smaller; induction over the pair of histories, and C124 for what is paid |
| C185 | In an NFT DAO a claim in somebody else's name costs an NFT | `Nft/Props7`: what each message does to the claims; sums over the claims of a user; induction over the history for claims of nothing |
| C186 | Splitting a distribution gains nothing and loses only roundings | `Distributor/Props14`: the parts add no more to the index than the whole, and less by no more than one for each part; induction over the parts, and the formula for what can be claimed |
| C187 | Unstaking in parts is the same as unstaking at once | `Staking/Props7`, `Nft/Props8`: a bisimulation between states whose claims hold the same for every owner and release date; induction over the parts and over the history that follows |
| C188 | Staking in parts is the same as staking at once | `Staking/Props8`: induction over the parts; two saves of a snapshot item in one block leave what the second one alone would |
| C189 | Rewards can be claimed asset by asset or all at once | `Distributor/Props15`: the loop over a list of assets started with payments made before is the loop started with none, followed by induction over the messages |
| C190 | Members of a multisig can be updated in parts or all at once | `Multisig/Props5`: the condition on running totals splits at every place in the list; induction over the messages |

### The composed system and its assumptions

`Verif/Dao/Model.lean` runs the controller, governance, membership, council membership and funds distributor contracts
together, depth first, with replies. Anything else (treasury, enterprise contract, token contracts, other contracts
called by custom messages) may answer and call back arbitrarily. A transaction comes from any address outside of the
DAO's voting contracts. Two assumptions appear as hypotheses of some theorems:

* `Cfg.Wf`: the addresses of the DAO's contracts are distinct.
* `Cfg.Tame`: custom messages of passed proposals do not forge the messages that the DAO's contracts send one another
  (`ExecuteProposalActions`, anything to the governance contract, reward weights, hooks, `SetMembers`). A passed proposal
  may do so in the code; `C44_forged_witness` shows what then happens. `Verif/Dao/Props3.lean` holds what is true without
  these assumptions. C142 weakens it to the proposals that were run: every theorem with this assumption applies to the
  histories in which none of them forged a message (`History.calm`, `calm_tame`), and the first one that forges a message
  is a general proposal backed by the members.

Also assumed: fewer than 2^64 - 1 proposals (`room` in `Exec`).

Histories start in a state that satisfies `Dao.Genesis`. For DAOs created by the factory this is not an assumption: C107
derives it from the messages of the creation.

`Verif/Many/Model.lean` puts any number of these systems on one chain, with messages going between them. C174 shows that each
of them runs as in `Dao/Model`, so the assumption there that everything outside one DAO is arbitrary covers other DAOs too.

## Findings

Places where the code differs from what one would expect; each is a proved theorem unless said otherwise.

* Poll tallies use wrapping 128-bit arithmetic (`C01_wrap_witness`); claim release moments use wrapping 64-bit
  arithmetic (`C26_wrap_witness`); a quorum ratio that overflows counts as zero (`C05_quorum_overflow_witness`).
* Descending pagination with `start_after` repeats and loses entries (`C14_descending_witness`). The `u64` limit of polls
  and votes is cast to `usize`, so that a limit of 2^32 gives an empty page (`C14_wide_limit_witness`).
* `EndPoll` can be sent again for an ended poll; with another number of available votes it changes the recorded status
  (`C15_other_total_witness`).
* `SetMembers` of the multisig does not report removed members to the hooks (`C33_set_unreported_witness`).
* NFT staking trusts the NFT contract (`C29_dishonest_witness`). `Unstake []` creates an empty claim.
* Stake migration: a token DAO with an NFT claim never finishes (`C63_stuck`), an NFT DAO drops token claims, a
  restricted staker blocks the migration (`C63_blocked_by_restricted`); anyone may send PerformNextMigrationStep.
* A distribution can raise a claimable amount by slightly more than the exact share, because fractions of earlier
  distributions are carried over (`C37_carry_witness`). C37 therefore has `+ 1` in its upper bound; solvency holds.
* A distribution loses up to the total weight over 10^18 of each coin; a coin smaller than that is accepted and nobody
  gets anything of it (`C112_small_distribution`). With 18-decimal tokens staked this is not negligible: a million
  tokens make distributions of less than a million base units disappear.
* The whitelist check of distributions also accepts the factory's global whitelist, so C43 says so.
* Changing the vote duration alone is not checked against the unlocking period, and unlocking periods in blocks are
  never checked (`C60_vote_duration_witness`, `C60_reached_witness`).
* A report of changed weights rewrites the votes of the user in *all* live polls, also those of council proposals: who
  stakes for a council member changes the weight of the member's council vote; a minority of the council can pass a
  proposal (`C55_minority_witness`). Votes of former council members stay (`C55_former_member_witness`).
* The cooldown of early execution restarts on `CastVote` only. Staking more after having voted changes the expected
  result and allows execution at once (`C56_weights_changed_witness`).
* A draw can be ended early while the status query reports the proposal as in progress (`C57_tie_witness`). With no
  available votes a proposal is reported as rejected but can never be executed, so the deposit is stuck
  (`C57_nobody_left_witness`; `C120_never` for all later histories).
* `ExecuteProposalActions` looks only at the sender, so a passed proposal can run the actions of a rejected one
  (`C44_forged_witness`).
* `upgrade_dao` accepts a target version that is not in the registry; the DAO then records a version that does not exist
  (`C65_unregistered_witness`). Migration of the enterprise contract always uses the code of version 1.2.1, whatever
  version the upgrade goes to (`C74_target_ignored`).
* Several deployments of a treasury for the same chain can be under way. Only the first reply is accepted, callbacks of
  the others stay outstanding, and so do callbacks whose remote instantiation fails. Callback ids are unchecked 32-bit
  numbers; C68 assumes fewer than 2^32 - 1 messages.
* The factory keeps the weights of the council in the same place as those of the membership, so the funds distributor of
  a token, denom or NFT DAO with a council starts with weight 1 for each council member although nobody has staked
  (`C70_council_witness`). Council members so earn rewards until their first change of stake.
* A new multisig whose members all have weight zero is accepted, though the import of one is refused
  (`C77_zero_weights_witness`). Unlocking periods in blocks are never compared with the vote duration.
* The factory means to whitelist a newly created token or NFT contract in the treasury, but creates it after the
  treasury, so the whitelist never has it (the exact trace `creation_run` shows it).
* `ENTERPRISE_CODE_IDS` is never written. `IsEnterpriseCodeId` answers "no" for DAOs of later versions, if treasuries got
  a new code since 1.0.0 (`C113_unknown_witness`).
* NFTs that reach the ICS721 callback proxy with a message it does not understand stay there: the callback succeeds, so
  the IBC transfer is not undone, and nobody can move the tokens (`C86_stuck`).
* A proposal can set the voting duration to a value whose nanoseconds wrap to zero; every later creation of a proposal
  is then refused, so that it cannot be undone (`C90_frozen_witness`).
* The status filter of the list of proposals compares the status stored by governance: "passed" and "rejected" list
  executed proposals only, "in progress" also lists proposals reported as passed or rejected (`C94_filter_witness`).
* The description of a DAO asks for 1000 council members but gets at most 100, and does not go on (`C97_council_cut`).
  The version code mixes up versions with minor or patch numbers of 100 and more (`C97_code_ambiguous`).
* The facade sends uluna to the outposts contract also for the execution of a rejected proposal; it stays there
  (`C100_rejected_witness`).
* For legacy DAOs the facade drops the target treasury of whitelist changes and of requests for funds, so a proposal about a
  treasury on another chain becomes one about the DAO's own funds; it drops the owner of a deposit and the beneficiary of a
  stake; an upgrade is shown with a version that nobody proposed (`C102_lost_witness`, `C102_stake`).
* For legacy DAOs the facade applies the general quorum and threshold to council proposals too, and shows a draw as ready for
  early execution (`C103_witness`).
* Custom messages of a proposal that passed are sent by the controller, which also holds the deposits: they can spend the
  deposits of other proposals, which can then not be executed, since a failing return of the deposit reverts the execution
  (`C105_spent_witness`). Coins attached to a proposal of a DAO that is not one of a denom stay in the controller and are
  recorded for no proposal (`C105_kept`).
* The total weight at a time is kept per second and leaves out every change within that second, while votes count up to the
  end. Who stakes and votes in the second in which voting ends counts in the votes but not in the total: votes can exceed
  the total, and a quorum can be met that is not (`C110_exceeds_witness`, `C110_quorum_witness`). After an early
  execution the query shows another total than the one that was used (`C110_early_witness`).
* Early execution only asks for the quorum and for a threshold among the votes cast so far, so a minority can decide before
  the others have voted (`C127_turned_witness`); a cooldown only delays it.
* The batch size of a migration step does not bound the NFTs under claim that it sends: all of a user's go at once, also
  with batch size one, so a user with many NFTs under claim can make the migration of an NFT DAO run out of gas
  (`C128_whole_user`, `C128_over_witness`).
* A minimum deposit of zero lets anyone who is not restricted create proposals, and with a minimum deposit members without
  one are refused (both by `C90_general_accepted`). Council proposals use the general veto threshold (C89).
* The conversion of the configuration of NFT staking contracts from before version 1.2.0 exists but is called nowhere.
  A contract with such storage that is migrated to the present code never again accepts a stake, an unstake or a claim, and
  sends no NFT (`C135_stuck`), unless a release in between has converted it.
* The migration of the enterprise contract migrates the outposts, distributor, membership and council contracts only, not
  governance, controller, treasury or attestation (enterprise/src/contract.rs 490-560; C74 lists the messages).
* Additions to the NFT whitelist of a treasury on another chain are validated as addresses of the own chain when they are
  proposed (validate.rs 113, 290-326), so contracts of a chain with another address prefix are refused. Address
  validation is not modelled.
* Council proposals can always be ended early, whatever the configuration says, and have no cooldown: a quorum of the council can create, pass and execute a proposal (for example an upgrade of the DAO) within one block, before the other council members can vote (`C139_at_once`).
* Votes of users who lose their attestation after voting stay and count, and can decide a vote alone (`C141_votes_count`).
* With early execution, the quorum is all that a proposal needs if nobody reacts in time (`C143_passes`, `C143_newcomer`). The check for an early end of a poll looks at the votes cast so far: the quorum has to be reached, and the threshold among the votes cast. It does not ask whether the votes that are still missing could change the result. So members with the share of the quorum (10 % in the example), or anybody who stakes that much, can have the treasury spent a tenth of the voting period after they made the proposal, in a multisig in the same block.
* A multisig DAO can lock itself (`C144_locked`): a passed `ModifyMultisigMembership` proposal may take the weight of all members, nothing checks that somebody is left. After that, nobody can propose, vote or have anything resolved, also proposals that are already voted on can never be resolved, and the funds in the treasury are out of reach for good, except for an upgrade by the council if the DAO has one that may upgrade.
* The result is not monotone in the votes against (`C145_no_helps_witness`, `C145_veto_helps_witness`): a member who votes no can thereby make a proposal pass, because no counts for the quorum and because it dilutes the share of the vetoes; and a member who changes a no into a veto can make a proposal pass, because the no votes then no longer match the yes votes. Staying away would have been the better vote against.
* The cooldown of early execution can be avoided entirely (`C146_one_block`): it restarts only when a *vote* changes the expected result, and weights change without votes. Whoever votes first with a negligible weight and stakes afterwards can create, vote, stake and execute in one block, so that no other member can react. The staked coins are only bound for the unlocking period.
* A distribution can be captured with a stake of one block (`C148_denom`, `C148_token`, `C148_nothing_left`). It is shared by the weights at the moment it is handed to the distributor, and the proposal that does so can be executed by anyone once it has passed. Whoever stakes a large amount in the same block, executes it and unstakes gets most of it; the coins are only bound for the unlocking period.
* A change of weight makes governance go through all votes the user ever cast, also on polls that ended long ago (`C150_looks`, `C150_unbounded`); `update_votes` asks for them without a limit. The gas for staking and unstaking so grows with every vote a member casts, for good. (Gas is not modelled; the count of polls looked up is.)
* C153: a version that is registered under a number that a DAO has passed already (a fix to an older line, 1.2.4 after 1.2.5) is never migrated through by that DAO; the registry accepts such registrations without notice.
* C154: while the stakes of an old DAO are migrated, voting goes on with a total that counts only the stakes moved so far. Anybody may send a step and choose its batch size, so whoever has the first address among the stakers can make themselves the only member with a step of batch size one, and pass any proposal (all alone if nobody sends another step before the vote ends or, with early execution, within a tenth of the voting period).
* A new minimum weight for rewards (`update_minimum_eligible_weight`, funds-distributor eligibility.rs 43-116) loads all users ever on record and settles, in every asset, each one between the old and the new minimum. Users who left stay on record, and in a DAO that stakes coins anybody can stake one coin each for any number of accounts, so the change can be made arbitrarily expensive and in the end impossible within the gas of a block (C158_minimum, C158_record, C158_former, C158_crowd). Reports of weights are not affected (C158_weights).
* Anybody who has a single unit of the token of a token DAO can keep any member from claiming unstaked tokens: `AddClaims` (token-staking-impl execute.rs 119-139) takes claims for any user, also of zero tokens, also with a release in the far future, and `claim` (208-244) loads all claims of the user, due or not, with no way to claim only some. So enough such claims make the member's claim exceed the gas of a block until their release (C159_flood, C159_looks). A denom DAO is not affected (C159_denom).
* The order of two members' messages within a block can decide whether a proposal can be executed in that block: if a vote comes before another voter's stake and both together complete the quorum, there is no cooldown; in the other order there is one (`C164_cooldown_witness`). This is the only way in which the order matters (`C164_order`).
* Whether execution may be early is not a term of a proposal but is looked up when it is executed. A proposal that switches early execution on makes all running proposals executable at once, before the end of voting they were opened with. They have no cooldown either, because votes cast while early execution was off set none (`C175_early_witness`).
* A council member who stakes and unstakes the same amount within one block ends with the weight as before, but the member's vote on an open council proposal then counts as much as the stake in the DAO, nothing if there is none (`C176_council_witness`; the violation of C55 again).
* A DAO without a veto threshold uses its threshold for vetoes (`C180_raised_witness`): a DAO that raises its threshold, to make decisions harder, also makes vetoes harder, and proposals can pass that would have been vetoed before.
* The index of an asset in the funds distributor never falls and is a `Decimal`, so the sum of amount over total weight is limited to about 3.4 * 10^20 units (`C181_limit`). Where weights are counted in ones (NFT and multisig DAOs) and an asset has 18 decimals, that is 340 coins for each NFT or unit of weight, over the whole life of the DAO, and a member who is alone with one unit of weight can use it up at no cost (`C181_alone`), after which the asset can in effect never be distributed again (`C181_forever`).
* The limit of C181 in the composed system (`C183_sabotage`): a first member with one staked unit can end the distributions of any allowed coin or token for the life of the DAO, in any amount of one unit or more for each unit staked, and can claim back all of what was used for it. No message to the modelled contracts and no proposal lowers the index again.
