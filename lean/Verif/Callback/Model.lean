import Verif.Membership.Model

/-!
# ICS721 callback proxy (packages/ics721-callback-proxy-impl, contracts/ics721-callback-proxy)

The contract that NFTs sent over IBC arrive at when their owner wants them staked in a DAO.
-/

namespace Verif.Callback
open Verif

/-- `Config`, config.rs 5-8: the ICS721 proxy whose callbacks are accepted. -/
structure Config where
  ics721Proxy : Addr
  deriving DecidableEq

/-- `instantiate`, instantiate.rs 6-14. -/
def init (proxy : Addr) : Config := ⟨proxy⟩

/-- `Ics721HookMsg`, ics721-callback-proxy-api/src/msg.rs 15-21; `unknown` stands for bytes that do not parse. -/
inductive Hook
  | stake (user membership : Addr)
  | unknown
  deriving DecidableEq

/-- `Ics721ReceiveCallbackMsg`, ics721-types/src/types.rs 6-14. Of the packet only the token ids are used. -/
structure Request where
  nftContract : Addr
  tokens : List Nat
  msg : Hook
  deriving DecidableEq

/-- A cw721 `SendNft` message to `nftContract` for one token: recipient `contract`, with a `Stake` hook for `user`. -/
structure SendNft where
  nftContract : Addr
  contract : Addr
  token : Nat
  user : Addr
  deriving DecidableEq

/-- The loop of `stake_nft`, execute.rs 31-49. -/
def stakeNft (m : Request) (user membership : Addr) : List SendNft :=
  m.tokens.map (fun t => ⟨m.nftContract, membership, t, user⟩)

/-- `ics721_receive_callback`, execute.rs 11-29; the only execute message, contracts/ics721-callback-proxy/src/contract.rs
32-45. The storage is not written. -/
def exec (c : Config) (sender : Addr) (m : Request) : Except Err (Config × List SendNft) :=
  if sender ≠ c.ics721Proxy then .error .unauthorized
  else
    match m.msg with
    | .stake user membership => .ok (c, stakeNft m user membership)
    | .unknown => .ok (c, [])

/-- `query_config`, query.rs 6-12. -/
def queryConfig (c : Config) : Addr := c.ics721Proxy

/-- The stored configuration after a list of messages: a failing one changes nothing. -/
def run (c : Config) : List (Addr × Request) → Config
  | [] => c
  | x :: t =>
    match exec c x.1 x.2 with
    | .ok r => run r.1 t
    | .error _ => run c t

end Verif.Callback
