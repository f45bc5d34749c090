import Verif.Dao.Rename
import Verif.Dao.SimTrace
import Verif.Dao.Sample

/-!
# The contracts of a DAO together: all users are treated alike (C171)
-/

set_option linter.unusedSimpArgs false

namespace Verif.Dao
open Verif
open Verif.Controller (DaoType Version Components Transfer Sub)
open Verif.Staking (Duration At)

/-! ## Specification -/

/-- The claims of a user for unstaked tokens or NFTs: amount or NFTs, and when they are released. -/
def claimsOf (x : Member) (u : Addr) : List (Nat × List Nat × Staking.ReleaseAt) :=
  match x with
  | .staking _ s => (Staking.getClaims s u).map (fun c => (c.amount, [], c.release))
  | .nft s => (Nft.getClaims s u).map (fun c => (0, c.nfts, c.release))
  | .multisig _ => []

/-- In the DAO `v`, everyone has under the new name what they have in the DAO `w` under the old one: weight, seat in the
council, claims, rewards and votes. The proposals are the same but for the names, and so are the transfers of their
deposits. Every message with the new names is accepted by `v` exactly if it is accepted by `w` with the old ones. -/
structure SameButNames (π : Renaming) (c : Cfg) (w v : World) : Prop where
  block : v.block = w.block
  weight : ∀ u, v.mem.weight (π u) = w.mem.weight u
  total : ∀ a, v.mem.total a = w.mem.total a
  council : ∀ u, Multisig.queryWeight v.council (π u) = Multisig.queryWeight w.council u
  councilTotal : ∀ a, Multisig.queryTotal v.council a = Multisig.queryTotal w.council a
  claims : ∀ u, claimsOf v.mem (π u) = claimsOf w.mem u
  rewards : ∀ u d t, Distributor.queryRewards v.dist (π u) d t = Distributor.queryRewards w.dist u d t
  votes : ∀ id u, Gov.queryPollVoter v.gov id (π u) = (Gov.queryPollVoter w.gov id u).map (Gov.Vote.ren π)
  polls : ∀ id, Gov.queryPoll v.gov id = (Gov.queryPoll w.gov id).map (Gov.Poll.ren π)
  proposals : ∀ e id, Controller.queryProposal ((c.ren π).env (e.ren π) v) v.ctl v.gov id =
    (Controller.queryProposal (c.env e w) w.ctl w.gov id).map (Controller.Response.ren π)
  outcomes : ∀ id, outcome v id = outcome w id
  deposits : ∀ id, paidOut v id = (paidOut w id).map (Transfer.ren π)
  config : v.ctl.config = w.ctl.config ∧ v.ctl.council = w.ctl.council
  accepts : ∀ e a m, (m.fromToken = true → π a = a) →
    ((∃ r, handle (c.ren π) (e.ren π) v (π a) (m.ren π) = .ok r) ↔ ∃ r, handle c e w a m = .ok r)

/-! ## Lemmas -/

theorem ren_claimsOf (π : Renaming) (x : Member) (u : Addr) : claimsOf (x.ren π) (π u) = claimsOf x u := by
  rcases x with ⟨k, s⟩ | s | s
  · show (Staking.getClaims (s.ren π) (π u)).map _ = _
    rw [Staking.ren_getClaims, List.map_map]
    rfl
  · show (Nft.getClaims (s.ren π) (π u)).map _ = _
    rw [Nft.ren_getClaims, List.map_map]
    rfl
  · rfl

theorem ren_paidOut (π : Renaming) (w : World) (id : Nat) : paidOut (w.ren π) id = (paidOut w id).map (Transfer.ren π) := by
  unfold paidOut
  show (w.log.map (Event.ren π)).filterMap _ = _
  rw [List.filterMap_map, List.map_filterMap]
  refine List.filterMap_congr fun x _ => ?_
  cases x with
  | paid i t =>
    show Event.transferOf id (.paid i (t.ren π)) = (Event.transferOf id (.paid i t)).map _
    unfold Event.transferOf
    dsimp only
    split <;> rfl
  | _ => rfl

theorem ren_outcome (π : Renaming) (w : World) (id : Nat) : outcome (w.ren π) id = outcome w id := by
  unfold outcome
  show (match (w.ctl.ren π).infos.get id, (w.gov.ren π).polls.get id with
    | some i, some p => if i.executedAt.isSome then some p.status else none
    | _, _ => none) = _
  rw [Controller.ren_infos, Gov.ren_poll]
  cases w.ctl.infos.get id with
  | none => rfl
  | some i => cases w.gov.polls.get id <;> rfl

theorem sameButNames_ren {π : Renaming} {c : Cfg} (hf : Fixes π c) {w : World} (hd : DistGood w.dist) :
    SameButNames π c w (w.ren π) where
  block := rfl
  weight u := ren_memWeight π w.mem u
  total a := ren_memTotal π w.mem a
  council u := Members.ren_weight π w.council u
  councilTotal a := by cases a <;> rfl
  claims u := ren_claimsOf π w.mem u
  rewards u d t := by
    unfold Distributor.queryRewards
    rw [show (w.ren π).dist = w.dist.ren π from rfl, Distributor.ren_effective,
      show (w.dist.ren π).native = w.dist.native.ren π from rfl, show (w.dist.ren π).cw20 = w.dist.cw20.ren π from rfl]
    dsimp only
    rw [Distributor.ren_rewards, Distributor.ren_rewards]
  votes id u := Gov.ren_vote π w.gov u id
  polls id := Controller.ren_queryPoll π w.gov id
  proposals e id := by
    rw [ren_env hf]
    exact Controller.ren_queryProposal π (c.env e w) w.ctl w.gov id
  outcomes id := ren_outcome π w id
  deposits id := ren_paidOut π w id
  config := ⟨rfl, rfl⟩
  accepts e a m hk := (ren_handle hf e hd hk).iff

/-! ## C171 -/

/-- **A DAO treats all its users alike.** Give the users other names throughout a history of a DAO, in the messages, in the
lists of members it began with and in the custom messages of proposals; the contracts of the DAO, and token contracts, keep
theirs. Then the history goes as before: the same messages are handled in the same order, with the new names. In the end
everyone has under the new name what they had under the old one, every proposal has the same status, deposits went to the
same users, and the same messages are accepted next. -/
theorem C171_history {π : Renaming} {c : Cfg} (hf : Fixes π c) {w w' : World} {t : List Entry} (hg : Genesis c w)
    (h : History c w w' t) (hk : TokensKept π t) :
    ∃ v v' t', Genesis (c.ren π) v ∧ History (c.ren π) v v' t' ∧
      t'.map (fun x => (x.sender, x.msg)) = t.map (fun x => (π x.sender, x.msg.ren π)) ∧
      SameButNames π c w v ∧ SameButNames π c w' v' := by
  obtain ⟨g0, d0⟩ := hg.ren hf
  obtain ⟨g1, d1⟩ := h.ren hf hk d0
  refine ⟨w.ren π, w'.ren π, t.map (Entry.ren π), g0, g1, ?_, sameButNames_ren hf d0, sameButNames_ren hf d1⟩
  rw [List.map_map]
  rfl

/-- So whatever happens in the DAO to one user can happen to any other: for every history there is one in which two users
are exchanged throughout, if neither is a contract of the DAO or sends tokens as a token contract does. -/
theorem C171_exchange {c : Cfg} {a b : Addr} (hf : Fixes (swap2 a b) c) {w w' : World} {t : List Entry} (hg : Genesis c w)
    (h : History c w w' t) (hk : ∀ x ∈ t, x.msg.fromToken = true → x.sender ≠ a ∧ x.sender ≠ b) :
    ∃ v v' t', Genesis (c.ren (swap2 a b)) v ∧ History (c.ren (swap2 a b)) v v' t' ∧
      v'.mem.weight b = w'.mem.weight a ∧ v'.mem.weight a = w'.mem.weight b ∧
      (∀ u, u ≠ a → u ≠ b → v'.mem.weight u = w'.mem.weight u) ∧
      (∀ d k, Distributor.queryRewards v'.dist b d k = Distributor.queryRewards w'.dist a d k) ∧
      ∀ id, outcome v' id = outcome w' id := by
  have hne : ∀ u, u ≠ a → u ≠ b → swap2 a b u = u := fun u h1 h2 => by
    show (if u = a then b else if u = b then a else u) = u
    rw [if_neg h1, if_neg h2]
  have ha : swap2 a b a = b := by
    show (if a = a then b else _) = b
    rw [if_pos rfl]
  have hb : swap2 a b b = a := by
    show (if b = a then b else if b = b then a else b) = a
    split
    · assumption
    · rw [if_pos rfl]
  obtain ⟨v, v', t', g, g', _, _, al⟩ := C171_history hf hg h (fun x hx hm => hne _ (hk x hx hm).1 (hk x hx hm).2)
  refine ⟨v, v', t', g, g', ?_, ?_, fun u h1 h2 => ?_, fun d k => ?_, fun id => ?_⟩
  · have := al.weight a
    rwa [ha] at this
  · have := al.weight b
    rwa [hb] at this
  · have := al.weight u
    rwa [hne u h1 h2] at this
  · have := al.rewards a d k
    rwa [ha] at this
  · exact al.outcomes id

/-- Users 10 and 11 stake 60 and 40 coins and vote for and against a proposal, which is executed. With the two exchanged
it is 11 who has 60 coins, and whose vote decides. -/
example : ∃ w' t, Genesis sampleCfg sampleGenesis ∧ Fixes (swap2 10 11) sampleCfg ∧ History sampleCfg sampleGenesis w' t ∧
    (∀ x ∈ t, x.msg.fromToken = true → x.sender ≠ 10 ∧ x.sender ≠ 11) ∧ w'.mem.weight 10 = 60 ∧ w'.mem.weight 11 = 40 ∧
    (∃ m, outcome w' 1 = some m) ∧ Gov.queryPollVoter w'.gov 1 10 = some ⟨1, 10, .yes, 60⟩ := by
  have hs : ((traceAll sampleCfg sampleGenesis sampleDone).map (fun r =>
        r.2.all (fun x => ! x.msg.fromToken || decide (x.sender ≠ 10 ∧ x.sender ≠ 11)) &&
          decide (r.1.mem.weight 10 = 60 ∧ r.1.mem.weight 11 = 40 ∧ (outcome r.1 1).isSome ∧
            Gov.queryPollVoter r.1.gov 1 10 = some ⟨1, 10, .yes, 60⟩))) =
      some true := by decide +kernel
  obtain ⟨⟨w', t⟩, h1, h2⟩ := Option.map_eq_some_iff.1 hs
  simp only [Bool.and_eq_true, decide_eq_true_eq] at h2
  refine ⟨w', t, sample_genesis, ⟨rfl, rfl, rfl⟩, traceAll_history _ .start h1, fun x hx hm => ?_, h2.2.1, h2.2.2.1,
    Option.isSome_iff_exists.1 h2.2.2.2.1, h2.2.2.2.2⟩
  have := List.all_eq_true.1 h2.1 x hx
  rw [hm] at this
  exact of_decide_eq_true this

end Verif.Dao
