import Verif.Membership.Rename
import Verif.Gov.Props7
import Verif.Distributor.Props10
import Verif.Controller.Props3

/-!
# The governance controller with other names for the addresses
-/

set_option linter.unusedSimpArgs false

namespace Verif.Controller
open Verif
open Verif.Staking (Duration At)

/-! ## The renamed messages, state and environment -/

/-- Users and weights, with other names for the users. -/
def listRen (π : Renaming) (l : List (Addr × Nat)) : List (Addr × Nat) := l.map (fun p => (π p.1, p.2))

/-- A council with other names for its members. -/
def CouncilSpec.ren (π : Renaming) (c : CouncilSpec) : CouncilSpec := { c with members := c.members.map π }

/-- An action of a proposal with other names for the users; assets and NFT contracts keep theirs. -/
def Action.ren (π : Renaming) : Action → Action
  | .updateCouncil c => .updateCouncil (c.map (CouncilSpec.ren π))
  | .requestFunding r u l => .requestFunding r (π u) l
  | .modifyMultisig l => .modifyMultisig (listRen π l)
  | .updateMetadata m => .updateMetadata m
  | .updateGovConfig c => .updateGovConfig c
  | .updateAssetWhitelist r a d => .updateAssetWhitelist r a d
  | .updateNftWhitelist r a d => .updateNftWhitelist r a d
  | .upgradeDao v => .upgradeDao v
  | .executeMsgs l => .executeMsgs l
  | .executeTreasuryMsgs r l => .executeTreasuryMsgs r l
  | .executeEnterpriseMsgs l => .executeEnterpriseMsgs l
  | .distributeFunds l => .distributeFunds l
  | .updateMinWeight w => .updateMinWeight w
  | .deployTreasury d => .deployTreasury d

/-- A deposit with another name for the depositor. -/
def Deposit.ren (π : Renaming) (d : Deposit) : Deposit := { d with depositor := π d.depositor }

/-- What the controller stores for a proposal, with other names. -/
def Info.ren (π : Renaming) (i : Info) : Info :=
  { i with deposit := i.deposit.map (Deposit.ren π), actions := i.actions.map (Action.ren π) }

/-- The state with other names; the main contract of the DAO keeps its name. -/
def State.ren (π : Renaming) (s : State) : State :=
  { s with creating := s.creating.map (Info.ren π), infos := s.infos.rename (Equiv.refl Nat) (Info.ren π) }

/-- The contracts of a DAO with other names. -/
def Components.ren (π : Renaming) (c : Components) : Components :=
  ⟨π c.treasury, π c.distributor, π c.membership, π c.council, π c.governance, π c.outposts⟩

/-- What the controller sees, with other names. -/
def Env.ren (π : Renaming) (e : Env) : Env :=
  { e with
    self := π e.self
    creator := π e.creator
    comps := e.comps.ren π
    restricted := fun u => e.restricted (π.symm u)
    weight := fun u => e.weight (π.symm u)
    councilWeight := fun u => e.councilWeight (π.symm u)
    owner := fun n => (e.owner n).map (fun x => (π x.1, x.2.map π)) }

/-- A new proposal with other names. -/
def Proposal.ren (π : Renaming) (p : Proposal) : Proposal :=
  { p with actions := p.actions.map (Action.ren π), owner := p.owner.map π }

/-- A transfer with another name for the receiver. -/
def Transfer.ren (π : Renaming) : Transfer → Transfer
  | .asset i a u => .asset i a (π u)
  | .nft c t u => .nft c t (π u)

/-- A message to the treasury with other names for receivers and the distributor. -/
def treasuryRen (π : Renaming) : Treasury.Msg → Treasury.Msg
  | .setAdmin a => .setAdmin (π a)
  | .updateAssets a r => .updateAssets a r
  | .updateNfts a r => .updateNfts a r
  | .spend u l => .spend (π u) l
  | .distribute d l => .distribute (π d) l
  | .cosmosMsgs l => .cosmosMsgs l

/-- A sub-message with other names. -/
def Sub.ren (π : Renaming) : Sub → Sub
  | .actions id => .actions id
  | .deposit id t => .deposit id (t.ren π)
  | .takeNft c t => .takeNft c t
  | .treasury r m => .treasury r (treasuryRen π m)
  | .enterprise m => .enterprise m
  | .council l => .council (listRen π l)
  | .unlocking d => .unlocking d
  | .members l => .members (listRen π l)
  | .distributor m => .distributor (m.ren π)
  | .deploy d => .deploy d
  | .custom n => .custom n

/-- A message with other names for the users. -/
def Msg.ren (π : Renaming) : Msg → Msg
  | .createProposal p f => .createProposal (p.ren π) f
  | .createWithNft p l => .createWithNft (p.ren π) l
  | .createCouncil p => .createCouncil (p.ren π)
  | .castVote i o => .castVote i o
  | .castCouncilVote i o => .castCouncilVote i o
  | .execute i => .execute i
  | .receive u a p => .receive (π u) a (p.map (Proposal.ren π))
  | .weightsChanged l => .weightsChanged (l.map (WeightChange.ren π))
  | .executeActions i => .executeActions i
  | .deployInitial => .deployInitial

/-! ## Lemmas -/

theorem bind_ren {α α' β β' : Type} {f : α → α'} {g : β → β'} {X : Except Err α} {X' : Except Err α'}
    {k : α → Except Err β} {k' : α' → Except Err β'} (hX : X' = X.map f) (hk : ∀ a, k' (f a) = (k a).map g) :
    (X' >>= k') = (X >>= k).map g := by
  subst hX
  cases X with
  | error e => rfl
  | ok a => exact hk a

theorem bind_same {α β β' : Type} {g : β → β'} {X X' : Except Err α}
    {k : α → Except Err β} {k' : α → Except Err β'} (hX : X' = X) (hk : ∀ a, k' a = (k a).map g) :
    (X' >>= k') = (X >>= k).map g := by
  subst hX
  cases X' with
  | error e => rfl
  | ok a => exact hk a

/-- State and governance. -/
def twoRen (π : Renaming) (r : State × Gov.State) : State × Gov.State := (r.1.ren π, r.2.ren π)

/-- State and sub-messages. -/
def subRen (π : Renaming) (r : State × List Sub) : State × List Sub := (r.1.ren π, r.2.map (Sub.ren π))

/-- State, governance and sub-messages. -/
def resRen (π : Renaming) (r : State × Gov.State × List Sub) : State × Gov.State × List Sub :=
  (r.1.ren π, r.2.1.ren π, r.2.2.map (Sub.ren π))

theorem ren_infos (π : Renaming) (s : State) (i : Nat) : (s.ren π).infos.get i = (s.infos.get i).map (Info.ren π) :=
  Map.get_rename s.infos (Equiv.refl Nat) (Info.ren π) i

theorem ren_setInfo (π : Renaming) (s : State) (i : Nat) (x : Info) :
    ({ s with infos := s.infos.set i x } : State).ren π = { s.ren π with infos := (s.ren π).infos.set i (x.ren π) } := by
  unfold State.ren
  congr 1
  exact Map.rename_set s.infos (Equiv.refl Nat) (Info.ren π) i x

theorem ren_validateCouncil (π : Renaming) (c : Option CouncilSpec) :
    validateCouncil (c.map (CouncilSpec.ren π)) = validateCouncil c := by
  cases c with
  | none => rfl
  | some c =>
    unfold validateCouncil CouncilSpec.ren
    simp only [Option.map_some, List.nodup_map_iff π.injective]

theorem ren_type (π : Renaming) (a : Action) : (a.ren π).type = a.type := by cases a <;> rfl

theorem ren_keys (π : Renaming) (l : List (Addr × Nat)) :
    ((listRen π l).map (·.1)).Nodup ↔ (l.map (·.1)).Nodup := by
  rw [show (listRen π l).map (·.1) = (l.map (·.1)).map π from by simp [listRen, List.map_map, Function.comp_def]]
  exact List.nodup_map_iff π.injective

theorem ren_validateMultisig (π : Renaming) (e : Env) (l : List (Addr × Nat)) :
    validateMultisig (e.ren π) (listRen π l) = validateMultisig e l := by
  unfold validateMultisig
  simp only [ren_keys]
  rfl

theorem ren_validateAction (π : Renaming) (e : Env) (cfg : GovConfig) (a : Action) :
    validateAction (e.ren π) cfg (a.ren π) = validateAction e cfg a := by
  cases a with
  | updateCouncil c =>
    show (do let _ ← validateCouncil (c.map (CouncilSpec.ren π)); return ()) = (do let _ ← validateCouncil c; return ())
    rw [ren_validateCouncil]
  | modifyMultisig l => exact ren_validateMultisig π e l
  | _ => rfl

theorem ren_validateEach (π : Renaming) (e : Env) (cfg : GovConfig) : ∀ l : List Action,
    validateEach (e.ren π) cfg (l.map (Action.ren π)) = validateEach e cfg l
  | [] => rfl
  | a :: t => by
    show (do validateAction (e.ren π) cfg (a.ren π); validateEach (e.ren π) cfg (t.map (Action.ren π))) = _
    rw [ren_validateAction, ren_validateEach π e cfg t]
    rfl

theorem ren_validateActions (π : Renaming) (e : Env) (cfg : GovConfig) (l : List Action) :
    validateActions (e.ren π) cfg (l.map (Action.ren π)) = validateActions e cfg l := by
  unfold validateActions
  rw [List.length_map, ren_validateEach]

theorem ren_unrestricted (π : Renaming) (e : Env) (u : Addr) : unrestricted (e.ren π) (π u) = unrestricted e u := by
  unfold unrestricted
  rw [show (e.ren π).restricted (π u) = e.restricted u from congrArg e.restricted (Equiv.symm_apply_apply π u)]

theorem ren_weight (π : Renaming) (e : Env) (u : Addr) : (e.ren π).weight (π u) = e.weight u :=
  congrArg e.weight (Equiv.symm_apply_apply π u)

theorem ren_councilWeight (π : Renaming) (e : Env) (u : Addr) : (e.ren π).councilWeight (π u) = e.councilWeight u :=
  congrArg e.councilWeight (Equiv.symm_apply_apply π u)

theorem ren_govExec (π : Renaming) (g : Gov.State) (t : Nat) (a : Addr) (m : Gov.Msg) :
    Gov.exec (g.ren π) ⟨t, π a, m.ren π⟩ = (Gov.exec g ⟨t, a, m⟩).map (Gov.State.ren π) := Gov.ren_exec π g ⟨t, a, m⟩

theorem ren_replyCreate (π : Renaming) (s : State) (id : Nat) :
    replyCreate (s.ren π) id = (replyCreate s id).map (State.ren π) := by
  unfold replyCreate
  show (match s.creating.map (Info.ren π) with | none => _ | some i => _) = _
  cases s.creating with
  | none => rfl
  | some i =>
    refine congrArg Except.ok ?_
    symm
    exact ren_setInfo π { s with creating := none } id i

theorem ren_createPoll (π : Renaming) (e : Env) (s : State) (g : Gov.State) (cfg : GovConfig) (p : Proposal)
    (d : Option Deposit) (t : PType) (u : Addr) :
    createPoll (e.ren π) (s.ren π) (g.ren π) cfg (p.ren π) (d.map (Deposit.ren π)) t (π u) =
      (createPoll e s g cfg p d t u).map (twoRen π) := by
  unfold createPoll
  refine bind_ren (f := Gov.State.ren π) (ren_govExec π g e.block.time e.self (.createPoll
    { proposer := u, deposit := 0, label := p.title, description := p.description,
      endsAt := plusSeconds e.block.time cfg.voteDuration, quorum := cfg.quorum, threshold := cfg.threshold,
      vetoThreshold := cfg.veto })) fun g1 => ?_
  exact bind_ren (ren_replyCreate π { s with creating := some ⟨t, none, none, d, p.actions⟩ } g1.pollCount) fun s2 => rfl

theorem ren_sufficient (π : Renaming) (cfg : GovConfig) (d : Option Deposit) (w : Nat) :
    sufficient cfg (d.map (Deposit.ren π)) w = sufficient cfg d w := by
  unfold sufficient
  cases d <;> rfl

theorem ren_createProposal (π : Renaming) (e : Env) (s : State) (g : Gov.State) (p : Proposal) (d : Option Deposit)
    (u : Addr) :
    createProposal (e.ren π) (s.ren π) (g.ren π) (p.ren π) (d.map (Deposit.ren π)) (π u) =
      (createProposal e s g p d u).map (twoRen π) := by
  unfold createProposal
  refine bind_same (ren_unrestricted π e u) fun _ => ?_
  refine bind_same (by rw [ren_weight, ren_sufficient]; rfl) fun _ => ?_
  refine bind_same (ren_validateActions π e s.config p.actions) fun _ => ?_
  exact ren_createPoll π e s g s.config p d .general u

theorem ren_getD (π : Renaming) (u : Option Addr) (x : Addr) : (u.map π).getD (π x) = π (u.getD x) := by
  cases u <;> rfl

theorem ren_createWithFunds (π : Renaming) (e : Env) (u : Addr) (f : List (Nat × Nat)) (s : State) (g : Gov.State)
    (p : Proposal) :
    createWithFunds (e.ren π) (π u) f (s.ren π) (g.ren π) (p.ren π) =
      (createWithFunds e u f s g p).map (twoRen π) := by
  have h0 := ren_createProposal π e s g p none u
  unfold createWithFunds
  rw [show (e.ren π).daoType = e.daoType from rfl, show (e.ren π).denom = e.denom from rfl]
  cases e.daoType with
  | denom =>
    dsimp only
    cases e.denom with
    | none => rfl
    | some d =>
      dsimp only
      rw [← ren_createProposal]
      congr 1
      cases f.find? (fun c => decide (c.1 = d)) with
      | none => rfl
      | some c =>
        simp only [Option.map_some]
        rw [show (p.ren π).owner = p.owner.map π from rfl, ren_getD]
        rfl
  | token => exact h0
  | nft => exact h0
  | multisig => exact h0

theorem ren_canDeposit (π : Renaming) (e : Env) (u : Addr) (t : Nat) :
    canDeposit (e.ren π) (π u) t = canDeposit e u t := by
  unfold canDeposit
  rw [show (e.ren π).owner t = (e.owner t).map (fun x => (π x.1, x.2.map π)) from rfl]
  cases e.owner t with
  | none => rfl
  | some x =>
    obtain ⟨o, l⟩ := x
    simp only [Option.map_some]
    have : π u ∈ l.map π ↔ u ∈ l := List.mem_map_of_injective π.injective
    simp only [EmbeddingLike.apply_eq_iff_eq, this]

theorem ren_takeNfts (π : Renaming) (e : Env) (nft u : Addr) : ∀ l : List Nat,
    takeNfts (e.ren π) nft (π u) l = (takeNfts e nft u l).map (List.map (Sub.ren π))
  | [] => rfl
  | t :: l => by
    unfold takeNfts
    refine bind_same (ren_canDeposit π e u t) fun b => ?_
    cases b with
    | true => exact bind_ren (ren_takeNfts π e nft u l) fun _ => rfl
    | false => rfl

theorem ren_createWithNft (π : Renaming) (e : Env) (u : Addr) (s : State) (g : Gov.State) (p : Proposal) (l : List Nat) :
    createWithNft (e.ren π) (π u) (s.ren π) (g.ren π) (p.ren π) l = (createWithNft e u s g p l).map (resRen π) := by
  unfold createWithNft
  rw [show (e.ren π).daoType = e.daoType from rfl, show (e.ren π).nft = e.nft from rfl]
  split
  · rfl
  split
  · rfl
  cases e.nft with
  | none => rfl
  | some nft =>
    dsimp only
    refine bind_ren (ren_takeNfts π e nft u l) fun subs => ?_
    have h := ren_createProposal π e s g p (some ⟨p.owner.getD u, .cw721 nft l⟩) u
    refine bind_ren (Eq.trans ?_ h) fun r => rfl
    rw [show (p.ren π).owner = p.owner.map π from rfl, ren_getD]
    rfl

theorem ren_receive (π : Renaming) (e : Env) (a : Addr) (ha : π a = a) (s : State) (g : Gov.State) (u : Addr) (n : Nat)
    (p : Option Proposal) :
    receive (e.ren π) a (s.ren π) (g.ren π) (π u) n (p.map (Proposal.ren π)) =
      (receive e a s g u n p).map (twoRen π) := by
  unfold receive
  cases p with
  | none => rfl
  | some p =>
    simp only [Option.map_some]
    rw [show (e.ren π).token = e.token from rfl, show (e.ren π).daoType = e.daoType from rfl]
    cases e.token with
    | none => rfl
    | some t =>
      dsimp only
      split
      · rfl
      · rw [← ren_createProposal, show (p.ren π).owner = p.owner.map π from rfl, ren_getD]
        rfl

theorem ren_createCouncil (π : Renaming) (e : Env) (u : Addr) (s : State) (g : Gov.State) (p : Proposal) :
    createCouncil (e.ren π) (π u) (s.ren π) (g.ren π) (p.ren π) = (createCouncil e u s g p).map (twoRen π) := by
  unfold createCouncil
  refine bind_same (ren_unrestricted π e u) fun _ => ?_
  rw [show (s.ren π).council = s.council from rfl]
  cases s.council with
  | none => rfl
  | some c =>
    dsimp only
    refine bind_same (ren_validateActions π e s.config p.actions) fun _ => ?_
    rw [ren_councilWeight]
    split
    · rfl
    rw [show (p.ren π).actions.all (fun a => decide (a.type ∈ c.allowed)) = p.actions.all (fun a => decide (a.type ∈ c.allowed))
      from by
        show (p.actions.map (Action.ren π)).all _ = _
        rw [List.all_map]
        congr 1
        funext a
        simp [ren_type]]
    split
    · exact ren_createPoll π e s g _ p none .council u
    · rfl

theorem ren_totalVotes (π : Renaming) (e : Env) (a : At) (t : PType) : totalVotes (e.ren π) a t = totalVotes e a t := by
  cases t <;> rfl

theorem ren_simulateEnd (π : Renaming) (g : Gov.State) (i m : Nat) :
    Gov.simulateEnd (g.ren π) i m = Gov.simulateEnd g i m := by
  unfold Gov.simulateEnd
  rw [Gov.ren_poll]
  cases g.polls.get i <;> rfl

theorem ren_queryPoll (π : Renaming) (g : Gov.State) (i : Nat) :
    Gov.queryPoll (g.ren π) i = (Gov.queryPoll g i).map (Gov.Poll.ren π) := by
  unfold Gov.queryPoll
  rw [Gov.ren_poll]
  cases g.polls.get i <;> rfl

theorem ren_replyVote (π : Renaming) (e : Env) (s : State) (g : Gov.State) :
    replyVote (e.ren π) (s.ren π) (g.ren π) = (replyVote e s g).map (State.ren π) := by
  unfold replyVote
  rw [show (s.ren π).voting = s.voting from rfl]
  cases s.voting with
  | none => rfl
  | some v =>
    obtain ⟨id, old⟩ := v
    dsimp only
    rw [show (s.ren π).config = s.config from rfl, show (e.ren π).daoType = e.daoType from rfl]
    split
    · rfl
    split
    · rfl
    rw [ren_infos]
    cases s.infos.get id with
    | none => rfl
    | some i =>
      simp only [Option.map_some]
      rw [show (i.ren π).type = i.type from rfl]
      split
      · rfl
      refine bind_same (by rw [ren_totalVotes, ren_simulateEnd]) fun st => ?_
      refine bind_ren (ren_queryPoll π g id) fun p => ?_
      refine congrArg Except.ok ?_
      unfold restartCooldown
      split
      · exact (ren_setInfo π { s with voting := none } id
          { i with earliest := some (min (plusSeconds e.block.time (s.config.voteDuration / 10)) p.endsAt) }).symm
      · rfl

theorem ren_castVote (π : Renaming) (e : Env) (u : Addr) (s : State) (g : Gov.State) (id : Nat) (o : Gov.Outcome) :
    castVote (e.ren π) (π u) (s.ren π) (g.ren π) id o = (castVote e u s g id o).map (twoRen π) := by
  unfold castVote
  refine bind_same (ren_unrestricted π e u) fun _ => ?_
  rw [ren_weight, ren_infos]
  split
  · rfl
  cases s.infos.get id with
  | none => rfl
  | some i =>
    simp only [Option.map_some]
    rw [show (i.ren π).type = i.type from rfl]
    split
    · rfl
    refine bind_same (by rw [ren_totalVotes, ren_simulateEnd]) fun st => ?_
    refine bind_ren (f := Gov.State.ren π) (ren_govExec π g e.block.time e.self (.castVote id o u (e.weight u))) fun g1 => ?_
    exact bind_ren (ren_replyVote π e { s with voting := some (id, executability st) } g1) fun s2 => rfl

theorem ren_castCouncilVote (π : Renaming) (e : Env) (u : Addr) (s : State) (g : Gov.State) (id : Nat) (o : Gov.Outcome) :
    castCouncilVote (e.ren π) (π u) (s.ren π) (g.ren π) id o = (castCouncilVote e u s g id o).map (twoRen π) := by
  unfold castCouncilVote
  refine bind_same (ren_unrestricted π e u) fun _ => ?_
  rw [show (s.ren π).council = s.council from rfl, ren_councilWeight, ren_infos]
  cases s.council with
  | none => rfl
  | some c =>
    dsimp only
    split
    · rfl
    cases s.infos.get id with
    | none => rfl
    | some i =>
      simp only [Option.map_some]
      rw [show (i.ren π).type = i.type from rfl]
      split
      · rfl
      exact bind_ren (f := Gov.State.ren π) (ren_govExec π g e.block.time e.self (.castVote id o u (e.councilWeight u)))
        fun g1 => rfl

theorem ren_sendDeposit (π : Renaming) (id : Nat) (a : DepositAsset) (u : Addr) :
    sendDeposit id a (π u) = (sendDeposit id a u).map (Sub.ren π) := by
  unfold sendDeposit depositTransfers
  cases a with
  | denom d n => rfl
  | cw20 t n => rfl
  | cw721 c l =>
    simp only [List.map_map]
    rfl

theorem ren_returnDeposit (π : Renaming) (id : Nat) (i : Info) :
    returnDeposit id (i.ren π) = (returnDeposit id i).map (Sub.ren π) := by
  unfold returnDeposit
  rw [show (i.ren π).deposit = i.deposit.map (Deposit.ren π) from rfl]
  cases i.deposit with
  | none => rfl
  | some d => exact ren_sendDeposit π id d.asset d.depositor

theorem ren_rejectedDeposit (π : Renaming) (e : Env) (id : Nat) (i : Info) (r : Gov.Reason) :
    rejectedDeposit (e.ren π) id (i.ren π) r = (rejectedDeposit e id i r).map (Sub.ren π) := by
  unfold rejectedDeposit
  rw [show (i.ren π).type = i.type from rfl, show (i.ren π).deposit = i.deposit.map (Deposit.ren π) from rfl]
  cases i.type with
  | council => rfl
  | general =>
    dsimp only
    split
    · cases i.deposit with
      | none => rfl
      | some d => exact ren_sendDeposit π id d.asset e.comps.treasury
    · exact ren_returnDeposit π id i

theorem ren_setExecuted (π : Renaming) (s : State) (id : Nat) (b : Block) :
    setExecuted (s.ren π) id b = (setExecuted s id b).map (State.ren π) := by
  unfold setExecuted
  rw [ren_infos]
  cases s.infos.get id with
  | none => rfl
  | some i => exact congrArg Except.ok (ren_setInfo π s id { i with executedAt := some b }).symm

theorem ren_resolve (π : Renaming) (e : Env) (s : State) (g : Gov.State) (id : Nat) :
    resolve (e.ren π) (s.ren π) (g.ren π) id = (resolve e s g id).map (subRen π) := by
  unfold resolve
  refine bind_ren (ren_queryPoll π g id) fun p => ?_
  rw [show (p.ren π).status = p.status from rfl]
  cases p.status with
  | inProgress x => rfl
  | passed x y =>
    refine bind_ren (ren_setExecuted π s id e.block) fun s1 => ?_
    rw [ren_infos]
    cases s1.infos.get id with
    | none => rfl
    | some i =>
      refine congrArg (fun l => Except.ok (s1.ren π, Sub.actions id :: l)) ?_
      exact ren_returnDeposit π id i
  | rejected r =>
    refine bind_ren (ren_setExecuted π s id e.block) fun s1 => ?_
    rw [ren_infos]
    cases s1.infos.get id with
    | none => rfl
    | some i => exact congrArg (fun l => Except.ok (s1.ren π, l)) (ren_rejectedDeposit π e id i r)

theorem ren_endProposal (π : Renaming) (e : Env) (s : State) (g : Gov.State) (id : Nat) (t : PType) :
    endProposal (e.ren π) (s.ren π) (g.ren π) id t = (endProposal e s g id t).map (resRen π) := by
  unfold endProposal
  refine bind_ren (ren_queryPoll π g id) fun p => ?_
  dsimp only
  rw [ren_totalVotes, ren_totalVotes]
  rw [show (p.ren π).endsAt = p.endsAt from rfl, show (e.ren π).block = e.block from rfl]
  generalize (if p.endsAt ≤ e.block.time then totalVotes e (.time p.endsAt) t else totalVotes e .never t) = n
  by_cases hn : n = 0
  · rw [if_pos hn, if_pos hn]
    rfl
  rw [if_neg hn, if_neg hn]
  refine bind_ren (f := Gov.State.ren π) (ren_govExec π g e.block.time e.self (.endPoll id n false (allowsEarly s t)))
    fun g1 => ?_
  exact bind_ren (f := subRen π) (ren_resolve π e { s with executing := none } g1 id) fun r => rfl

theorem ren_executeProposal (π : Renaming) (e : Env) (u : Addr) (s : State) (g : Gov.State) (id : Nat) :
    executeProposal (e.ren π) (π u) (s.ren π) (g.ren π) id = (executeProposal e u s g id).map (resRen π) := by
  unfold executeProposal
  refine bind_same (ren_unrestricted π e u) fun _ => ?_
  rw [ren_infos]
  cases s.infos.get id with
  | none => rfl
  | some i =>
    simp only [Option.map_some]
    rw [show (i.ren π).executedAt = i.executedAt from rfl, show (i.ren π).type = i.type from rfl,
      show (i.ren π).pastEarliest (e.ren π).block.time = i.pastEarliest e.block.time from rfl]
    split
    · rfl
    split
    · rfl
    exact ren_endProposal π e s g id i.type

theorem ren_act (π : Renaming) (e : Env) (s : State) (a : Action) :
    act (e.ren π) (s.ren π) (a.ren π) = (act e s a).map (subRen π) := by
  cases a with
  | updateGovConfig c =>
    show updateGovConfig (e.ren π) (s.ren π) c = (updateGovConfig e s c).map (subRen π)
    unfold updateGovConfig
    refine bind_same rfl fun _ => ?_
    cases c.unlocking with
    | none => rfl
    | some d =>
      refine bind_same rfl fun _ => ?_
      show Except.ok (_, unlockingSubs e.daoType d) = Except.ok (_, (unlockingSubs e.daoType d).map (Sub.ren π))
      cases e.daoType <;> rfl
  | updateCouncil c =>
    show updateCouncil (s.ren π) (c.map (CouncilSpec.ren π)) = (updateCouncil s c).map (subRen π)
    unfold updateCouncil
    refine bind_same (ren_validateCouncil π c) fun _ => ?_
    refine congrArg (fun l => Except.ok (_, [Sub.council l])) ?_
    cases c with
    | none => rfl
    | some c => simp [CouncilSpec.ren, listRen, List.map_map, Function.comp_def]
  | upgradeDao v => exact bind_same rfl fun _ => rfl
  | executeMsgs l =>
    show (do let subs ← customSubs e l; return (s.ren π, subs)) = Except.map (subRen π) (do let subs ← customSubs e l; return (s, subs))
    unfold customSubs
    split
    · show Except.ok (s.ren π, l.map Sub.custom) = Except.ok (s.ren π, (l.map Sub.custom).map (Sub.ren π))
      rw [List.map_map]
      rfl
    · rfl
  | modifyMultisig l => exact bind_same (ren_validateMultisig π e l) fun _ => rfl
  | _ => rfl

theorem ren_actAll (π : Renaming) (e : Env) : ∀ (l : List Action) (s : State),
    actAll (e.ren π) (s.ren π) (l.map (Action.ren π)) = (actAll e s l).map (subRen π)
  | [], _ => rfl
  | a :: t, s => by
    rw [List.map_cons]
    unfold actAll
    refine bind_ren (ren_act π e s a) fun r => ?_
    refine bind_ren (ren_actAll π e t r.1) fun r2 => ?_
    refine congrArg (fun l => Except.ok (r2.1.ren π, l)) ?_
    show r.2.map (Sub.ren π) ++ r2.2.map (Sub.ren π) = (r.2 ++ r2.2).map (Sub.ren π)
    rw [List.map_append]

theorem ren_updateAllVotes (π : Renaming) (e : Env) : ∀ (l : List WeightChange) (g : Gov.State),
    updateAllVotes (e.ren π) (g.ren π) (l.map (WeightChange.ren π)) = (updateAllVotes e g l).map (Gov.State.ren π)
  | [], _ => rfl
  | c :: t, g => by
    have h : ∀ g1, _ := fun g1 => ren_updateAllVotes π e t g1
    unfold updateAllVotes at h ⊢
    rw [List.map_cons, List.foldlM_cons, List.foldlM_cons]
    exact bind_ren (ren_govExec π g _ _ (.updateVotes c.user c.new)) h

theorem ren_weightsChanged (π : Renaming) (e : Env) (a : Addr) (g : Gov.State) (l : List WeightChange) :
    weightsChanged (e.ren π) (π a) (g.ren π) (l.map (WeightChange.ren π)) =
      (weightsChanged e a g l).map (fun r => (r.1.ren π, r.2.map (Sub.ren π))) := by
  unfold weightsChanged
  show (if π a = π e.comps.council then _ else if π a ≠ π e.comps.membership then _ else _) = _
  by_cases h1 : a = e.comps.council
  · rw [if_pos (by rw [h1]), if_pos h1]
    rfl
  rw [if_neg (fun h => h1 (π.injective h)), if_neg h1]
  by_cases h2 : a = e.comps.membership
  · rw [if_neg (by rw [h2]; simp), if_neg (not_not.2 h2)]
    refine bind_ren (ren_updateAllVotes π e l g) fun g1 => ?_
    refine congrArg (fun l => Except.ok (g1.ren π, [Sub.distributor (.updateWeights l)])) ?_
    simp [Distributor.listRen, List.map_map, Function.comp_def, WeightChange.ren]
  · rw [if_pos (fun h => h2 (π.injective h)), if_pos h2]
    rfl

/-- Every message with other names is answered as before: with the same error if it is refused, and otherwise with the
same result, with the new names. The contract that reports a deposit of tokens keeps its name. -/
theorem ren_exec (π : Renaming) (e : Env) (a : Addr) (s : State) (g : Gov.State) (m : Msg)
    (hk : ∀ u n p, m = .receive u n p → π a = a) :
    exec (e.ren π) (π a) (s.ren π) (g.ren π) (m.ren π) = (exec e a s g m).map (resRen π) := by
  cases m with
  | createProposal p f => exact bind_ren (ren_createWithFunds π e a f s g p) fun r => rfl
  | createWithNft p l => exact ren_createWithNft π e a s g p l
  | createCouncil p => exact bind_ren (ren_createCouncil π e a s g p) fun r => rfl
  | castVote i o => exact bind_ren (ren_castVote π e a s g i o) fun r => rfl
  | castCouncilVote i o => exact bind_ren (ren_castCouncilVote π e a s g i o) fun r => rfl
  | execute i => exact ren_executeProposal π e a s g i
  | receive u n p =>
    have ha := hk u n p rfl
    rw [ha]
    exact bind_ren (ren_receive π e a ha s g u n p) fun r => rfl
  | weightsChanged l => exact bind_ren (ren_weightsChanged π e a g l) fun r => rfl
  | executeActions i =>
    refine bind_ren (X := executeActions e a s i) (f := subRen π) ?_ fun r => rfl
    unfold executeActions
    show (if π a ≠ π e.self then _ else _) = _
    by_cases h : a = e.self
    · rw [if_neg (by rw [h]; simp), if_neg (not_not.2 h), ren_infos]
      cases s.infos.get i with
      | none => rfl
      | some i => exact ren_actAll π e i.actions s
    · rw [if_pos (fun x => h (π.injective x)), if_pos h]
      rfl
  | deployInitial =>
    refine bind_ren (X := deployInitial e a s) (f := subRen π) ?_ fun r => rfl
    unfold deployInitial
    show (if s.created ≠ e.block.time then _ else if π e.creator ≠ π a then _ else _) = _
    split
    · rfl
    by_cases h : e.creator = a
    · rw [if_neg (by rw [h]; simp), if_neg (not_not.2 h)]
      refine congrArg (fun l => Except.ok (_, l)) ?_
      show (s.treasuries.getD []).map Sub.deploy = ((s.treasuries.getD []).map Sub.deploy).map (Sub.ren π)
      rw [List.map_map]
      rfl
    · rw [if_pos (fun x => h (π.injective x)), if_pos h]
      rfl

theorem ren_init (π : Renaming) (b : Block) (ent : Addr) (t : DaoType) (cfg : GovConfig) (c : Option CouncilSpec)
    (l : List Nat) :
    init b ent t cfg (c.map (CouncilSpec.ren π)) [] l = (init b ent t cfg c [] l).map (State.ren π) := by
  unfold init
  refine bind_same rfl fun _ => ?_
  exact bind_same (ren_validateCouncil π c) fun _ => rfl

/-! ## Queries -/

/-- The answer about a proposal, with other names. -/
def Response.ren (π : Renaming) (r : Response) : Response :=
  { r with proposer := π r.proposer, actions := r.actions.map (Action.ren π) }

theorem ren_fixStatus (π : Renaming) (e : Env) (s : State) (g : Gov.State) (id : Nat) (st : Gov.Status) (i : Info) :
    fixStatus (e.ren π) (s.ren π) (g.ren π) id st (i.ren π) = fixStatus e s g id st i := by
  unfold fixStatus finalStatus
  simp only [ren_totalVotes, ren_simulateEnd]
  rfl

theorem ren_queryStatus (π : Renaming) (e : Env) (s : State) (g : Gov.State) (id : Nat) :
    queryStatus (e.ren π) (s.ren π) (g.ren π) id = queryStatus e s g id := by
  unfold queryStatus
  rw [ren_queryPoll, ren_infos]
  cases Gov.queryPoll g id with
  | error x => rfl
  | ok p =>
    cases s.infos.get id with
    | none => rfl
    | some i => exact ren_fixStatus π e s g id p.status i

theorem ren_queryProposal (π : Renaming) (e : Env) (s : State) (g : Gov.State) (id : Nat) :
    queryProposal (e.ren π) (s.ren π) (g.ren π) id = (queryProposal e s g id).map (Response.ren π) := by
  unfold queryProposal
  refine bind_ren (ren_queryPoll π g id) fun p => ?_
  unfold toResponse
  rw [show (p.ren π).id = p.id from rfl, ren_infos]
  cases s.infos.get p.id with
  | none => rfl
  | some i =>
    simp only [Option.map_some]
    refine bind_same (ren_fixStatus π e s g p.id p.status i) fun st => ?_
    simp only [ren_totalVotes]
    rfl

end Verif.Controller
