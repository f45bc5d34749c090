import Verif.Controller.Props
import Verif.Custody.Rewards
import Mathlib.Data.List.Count

set_option linter.unusedSimpArgs false

/-!
# The governance controller together with the assets and NFTs deposited for proposals

The controller of `Verif.Controller.Model` is put next to the balances of every denom and cw20 token and next to the
owners recorded by every cw721 contract. Tokens behave as cw20-base and cw721-base do: `Receive` is called only after a
`Send`, a transfer of an NFT removes its approvals.

A resolution has sub-messages: the actions of the proposal, if it passed, and then the transfers of its deposit. What
happens in between (the actions may call any contract) is not fixed here: the transfers are put in `due`, and each one
is an operation of its own, `pay`. That they never fail is what is proved, so that nothing is ever reverted by them.

The only other thing the controller does with what it holds is to execute the custom messages of proposals that passed
(`ExecuteMsgs`, contract.rs 1091-1100). A custom message that spends is the operation `spend`; it is in the model to
show what it can do, and is excluded where deposits are shown to be safe.
-/

namespace Verif.Custody.Deposits
open Verif Verif.Controller

/-- An NFT: its owner and those approved for it. -/
structure Token where
  owner : Addr
  spenders : List Addr
  deriving DecidableEq

/-- The controller and governance, the balances of each asset, the NFTs of each cw721 contract, the operators of each
cw721 contract (contract, owner, operator), and the transfers yet to be made. -/
structure World where
  st : State
  gov : Gov.State
  led : AssetInfo → Verif.Ledger
  nfts : Addr → Map Nat Token
  ops : Addr → Addr → Addr → Bool
  due : List Transfer

/-- What can happen. -/
inductive Op
  | mint (a : AssetInfo) (dst : Addr) (n : Nat)
  | burn (a : AssetInfo) (src : Addr) (n : Nat)
  | transfer (a : AssetInfo) (src dst : Addr) (n : Nat)
  | mintNft (c : Addr) (t : Nat) (dst : Addr)
  | burnNft (c : Addr) (t : Nat) (by_ : Addr)
  /-- `Approve`, `Revoke` -/
  | approve (c : Addr) (t : Nat) (by_ : Addr) (spenders : List Addr)
  /-- `ApproveAll`, `RevokeAll` -/
  | operator (c : Addr) (by_ op : Addr) (b : Bool)
  | moveNft (c : Addr) (t : Nat) (by_ dst : Addr)
  /-- cw20 `Send` to the controller -/
  | send (token src : Addr) (n : Nat) (p : Option Proposal) (e : Controller.Env)
  /-- a message to the controller: from any account, or the call of itself that runs the actions -/
  | call (e : Controller.Env) (sender : Addr) (m : Msg)
  /-- the next transfer of a deposit -/
  | pay
  /-- a custom message of a proposal that passed, which transfers assets of the controller -/
  | spend (a : AssetInfo) (dst : Addr) (n : Nat)

/-- Those who may transfer an NFT: its owner, who is approved for it, operators of the owner. -/
def mayMove (w : World) (c : Addr) (x : Token) (by_ : Addr) : Bool :=
  decide (by_ = x.owner) || decide (by_ ∈ x.spenders) || w.ops c x.owner by_

/-- The cw721 contract `c` transfers an NFT for `by_`. -/
def transferNft (w : World) (c : Addr) (t : Nat) (by_ dst : Addr) : Except Err World :=
  match (w.nfts c).get t with
  | none => .error .notFound
  | some x =>
    if mayMove w c x by_ then
      .ok { w with nfts := fun d => if d = c then (w.nfts c).set t ⟨dst, []⟩ else w.nfts d }
    else .error .unauthorized

/-- The environment of a call of the controller `me`; the cw721 contract of the DAO answers `OwnerOf`. -/
def envOf (me : Addr) (w : World) (e : Controller.Env) : Controller.Env :=
  { e with self := me, owner := fun t => match e.nft with
    | none => none
    | some c => ((w.nfts c).get t).map (fun x => (x.owner, x.spenders)) }

/-- What happens with a sub-message: NFTs are taken at once, transfers of deposits are yet to be made, and the others are
operations of their own. -/
def after (me : Addr) (w : World) : Sub → Except Err World
  | .takeNft c t => transferNft w c t me me
  | .deposit _ t => .ok { w with due := w.due ++ [t] }
  | _ => .ok w

/-- A transfer by the controller. -/
def give (me : Addr) (w : World) : Transfer → Except Err World
  | .asset a n dst => do
    let l ← Rewards.move w.led a me dst n
    pure { w with led := l }
  | .nft c t dst => transferNft w c t me dst

/-- The coins attached to a message. -/
def attached : Msg → List (Nat × Nat)
  | .createProposal _ l => l
  | _ => []

/-- A cw20 `Receive`, which only tokens send. -/
def isReceive : Msg → Bool
  | .receive _ _ _ => true
  | _ => false

/-- The call of itself that runs the actions of a proposal. -/
def isActions : Msg → Bool
  | .executeActions _ => true
  | _ => false

/-- A message to the controller, once what was sent with it has arrived. -/
def handle (me : Addr) (w : World) (e : Controller.Env) (sender : Addr) (m : Msg) : Except Err World := do
  let r ← Controller.exec (envOf me w e) sender w.st w.gov m
  r.2.2.foldlM (after me) { w with st := r.1, gov := r.2.1 }

/-- One operation, with its failures. -/
def exec (me : Addr) (w : World) : Op → Except Err World
  | .mint a dst n => do
    let l ← (w.led a).mint dst n
    pure { w with led := fun b => if b = a then l else w.led b }
  | .burn a src n =>
    if src = me then .error .unauthorized
    else do
      let l ← (w.led a).burn src n
      pure { w with led := fun b => if b = a then l else w.led b }
  | .transfer a src dst n =>
    if src = me then .error .unauthorized
    else do
      let l ← Rewards.move w.led a src dst n
      pure { w with led := l }
  | .mintNft c t dst =>
    if (w.nfts c).has t then .error .invalidArgument
    else .ok { w with nfts := fun d => if d = c then (w.nfts c).set t ⟨dst, []⟩ else w.nfts d }
  | .burnNft c t by_ =>
    match (w.nfts c).get t with
    | none => .error .notFound
    | some x =>
      if by_ ≠ me ∧ mayMove w c x by_ then
        .ok { w with nfts := fun d => if d = c then (w.nfts c).remove t else w.nfts d }
      else .error .unauthorized
  | .approve c t by_ l =>
    match (w.nfts c).get t with
    | none => .error .notFound
    | some x =>
      if by_ ≠ me ∧ (by_ = x.owner ∨ w.ops c x.owner by_ = true) then
        .ok { w with nfts := fun d => if d = c then (w.nfts c).set t ⟨x.owner, l⟩ else w.nfts d }
      else .error .unauthorized
  | .operator c by_ o b =>
    if by_ = me then .error .unauthorized
    else .ok { w with ops := fun d x y => if d = c ∧ x = by_ ∧ y = o then b else w.ops d x y }
  | .moveNft c t by_ dst =>
    if by_ = me then .error .unauthorized else transferNft w c t by_ dst
  | .send token src n p e =>
    if src = me then .error .unauthorized
    else do
      let l ← Rewards.move w.led (.cw20 token) src me n
      handle me { w with led := l } e token (.receive src n p)
  | .call e sender m =>
    if (sender = me ∧ isActions m = false) ∨ isReceive m = true then .error .unauthorized
    else do
      let l ← Rewards.attach me w.led sender (attached m)
      handle me { w with led := l } e sender m
  | .pay =>
    match w.due with
    | [] => .error .notFound
    | t :: l => do
      let w1 ← give me w t
      pure { w1 with due := l }
  | .spend a dst n => do
    let l ← Rewards.move w.led a me dst n
    pure { w with led := l }

/-- A failing operation changes nothing. -/
def step (me : Addr) (w : World) (o : Op) : World :=
  match exec me w o with
  | .ok w' => w'
  | .error _ => w

/-- The world after a list of operations. -/
def run (me : Addr) (w : World) : List Op → World
  | [] => w
  | o :: t => run me (step me w o) t

/-- Custom messages leave the holdings of the controller alone. -/
def Op.tame : Op → Prop
  | .spend _ _ _ => False
  | _ => True

/-- A new controller without proposals (whatever of its initial cross-chain treasuries is still to be deployed), next to
any balances whose sums fit 128 bits and any NFTs; it has no NFTs and no operators. -/
def Start (me : Addr) (w : World) : Prop :=
  (∃ b ent t cfg council tr st x, Controller.init b ent t cfg council [] tr = .ok st ∧
    w.st = { st with treasuries := x }) ∧
  (∀ a, (w.led a).supply < 2 ^ 128) ∧ (∀ c t x, (w.nfts c).get t = some x → x.owner ≠ me) ∧
  (∀ c o, w.ops c me o = false) ∧ w.due = []

/-- The worlds that can come about. -/
def Reach (me : Addr) (w : World) : Prop := ∃ w0 l, Start me w0 ∧ (∀ o ∈ l, Op.tame o) ∧ w = run me w0 l

/-! ## What is owed -/

/-- Something that can be deposited: a unit of an asset, or one NFT. -/
inductive Item
  | coin (a : AssetInfo)
  | nft (c : Addr) (t : Nat)
  deriving DecidableEq

/-- How much of it a deposit has. -/
def Item.inAsset : Item → DepositAsset → Nat
  | .coin (.native d), .denom d' n => if d' = d then n else 0
  | .coin (.cw20 t), .cw20 t' n => if t' = t then n else 0
  | .nft c t, .cw721 c' l => if c' = c then l.count t else 0
  | _, _ => 0

/-- How much of it is in a deposit, if there is one. -/
def Item.inDeposit (x : Item) : Option Deposit → Nat
  | some d => x.inAsset d.asset
  | none => 0

/-- How much of it is deposited for a proposal that is not resolved. -/
def Item.inInfo (x : Item) (i : Info) : Nat :=
  match i.executedAt, i.deposit with
  | none, some d => x.inAsset d.asset
  | _, _ => 0

/-- How much of it a transfer moves. -/
def Item.inTransfer (x : Item) (t : Transfer) : Nat :=
  match x, t with
  | .coin a, .asset b n _ => if b = a then n else 0
  | .nft c t, .nft d u _ => if d = c ∧ u = t then 1 else 0
  | _, _ => 0

/-- How much of it the controller must be able to give away. -/
def owed (w : World) (x : Item) : Nat :=
  w.st.infos.sum (fun _ i => x.inInfo i) + (w.due.map x.inTransfer).sum

/-- How much of it the controller has. -/
def holds (me : Addr) (w : World) : Item → Nat
  | .coin a => (w.led a).bal me
  | .nft c t => if ((w.nfts c).get t).map Token.owner = some me then 1 else 0

/-- The invariant. -/
structure Inv (me : Addr) (w : World) : Prop where
  backed : ∀ x, owed w x ≤ holds me w x
  fits : ∀ a, (w.led a).supply < 2 ^ 128
  noSpender : ∀ c t x, (w.nfts c).get t = some x → x.owner = me → x.spenders = []
  noOp : ∀ c o, w.ops c me o = false

/-! ## Lemmas -/

theorem run_append (me : Addr) (w : World) (a b : List Op) : run me w (a ++ b) = run me (run me w a) b := by
  induction a generalizing w with
  | nil => rfl
  | cons o t ih => exact ih _

theorem Reach.step {me : Addr} {w : World} (h : Reach me w) {o : Op} (ho : o.tame) : Reach me (step me w o) := by
  obtain ⟨w0, l, h0, hl, rfl⟩ := h
  refine ⟨w0, l ++ [o], h0, fun x hx => ?_, by rw [run_append]; rfl⟩
  rcases List.mem_append.1 hx with hx | hx
  · exact hl x hx
  · rw [List.mem_singleton.1 hx]; exact ho

theorem Reach.run {me : Addr} {w : World} (h : Reach me w) {l : List Op} (ho : ∀ o ∈ l, Op.tame o) :
    Reach me (run me w l) := by
  obtain ⟨w0, l0, h0, hl, rfl⟩ := h
  refine ⟨w0, l0 ++ l, h0, fun x hx => ?_, by rw [run_append]⟩
  rcases List.mem_append.1 hx with hx | hx
  · exact hl x hx
  · exact ho x hx

theorem transfers_sum (x : Item) (a : DepositAsset) (dst : Addr) :
    ((depositTransfers a dst).map x.inTransfer).sum = x.inAsset a := by
  cases a with
  | denom d n =>
    cases x with
    | coin b =>
      cases b with
      | native d' =>
        show (if AssetInfo.native d = .native d' then n else 0) + 0 = if d = d' then n else 0
        by_cases h : d = d'
        · rw [if_pos h, if_pos (by rw [h])]; rfl
        · rw [if_neg h, if_neg (by intro h'; cases h'; exact h rfl)]
      | cw20 c => rfl
      | cw1155 c i => rfl
    | nft c t => rfl
  | cw20 c n =>
    cases x with
    | coin b =>
      cases b with
      | native d => rfl
      | cw20 c' =>
        show (if AssetInfo.cw20 c = .cw20 c' then n else 0) + 0 = if c = c' then n else 0
        by_cases h : c = c'
        · rw [if_pos h, if_pos (by rw [h])]; rfl
        · rw [if_neg h, if_neg (by intro h'; cases h'; exact h rfl)]
      | cw1155 c i => rfl
    | nft c t => rfl
  | cw721 c l =>
    unfold depositTransfers
    rw [List.map_map]
    cases x with
    | coin b =>
      have : ∀ l : List Nat, (l.map ((Item.coin b).inTransfer ∘ fun t => Transfer.nft c t dst)).sum = 0 := by
        intro l
        induction l with
        | nil => rfl
        | cons t l ih => rw [List.map_cons, List.sum_cons, ih]; rfl
      rw [this]
      cases b <;> rfl
    | nft c' t =>
      show _ = if c = c' then l.count t else 0
      induction l with
      | nil => simp
      | cons u l ih =>
        rw [List.map_cons, List.sum_cons, ih]
        show (if c = c' ∧ u = t then 1 else 0) + _ = _
        by_cases h : c = c'
        · simp only [h, true_and, if_true, List.count_cons]
          by_cases hu : u = t
          · simp [hu]; omega
          · simp [hu]
        · simp [h]

/-- The transfers in the sub-messages of the controller. -/
def subDue : List Sub → List Transfer
  | [] => []
  | .deposit _ t :: l => t :: subDue l
  | _ :: l => subDue l

/-- What a call does to the proposals: none but those created have a new deposit, and what is no longer owed for them
becomes due. -/
def Settles (s s' : State) (subs : List Sub) : Prop :=
  ∀ x : Item, s'.infos.sum (fun _ i => x.inInfo i) + ((subDue subs).map x.inTransfer).sum ≤
    s.infos.sum (fun _ i => x.inInfo i)

theorem subDue_map (id : Nat) (l : List Transfer) : subDue (l.map (.deposit id)) = l := by
  induction l with
  | nil => rfl
  | cons t l ih => rw [List.map_cons]; show t :: subDue _ = _; rw [ih]

theorem subDue_none {l : List Sub} (h : ∀ x ∈ l, ∀ i t, x ≠ .deposit i t) : subDue l = [] := by
  induction l with
  | nil => rfl
  | cons x l ih =>
    have h1 := ih (fun y hy => h y (List.mem_cons_of_mem _ hy))
    have h2 := h x List.mem_cons_self
    cases x with
    | deposit i t => exact absurd rfl (h2 i t)
    | _ => exact h1

theorem settles_same {s s' : State} (h : s'.infos = s.infos) {l : List Sub} (hl : ∀ x ∈ l, ∀ i t, x ≠ .deposit i t) :
    Settles s s' l := by
  intro x
  rw [h, subDue_none hl]
  simp

/-- The deposit transfers of a resolution. -/
theorem outcome_due (x : Item) (e : Controller.Env) (id : Nat) (i : Info) (st : Gov.Status) (hi : i.executedAt = none) :
    ((subDue (outcomeSubs e id i st)).map x.inTransfer).sum ≤ x.inInfo i := by
  have hret : ((subDue (returnDeposit id i)).map x.inTransfer).sum ≤ x.inInfo i := by
    unfold returnDeposit Item.inInfo
    rw [hi]
    cases hd : i.deposit with
    | none => exact Nat.zero_le _
    | some d =>
      show ((subDue (sendDeposit id d.asset d.depositor)).map x.inTransfer).sum ≤ x.inAsset d.asset
      unfold sendDeposit
      rw [subDue_map, transfers_sum]
  cases st with
  | inProgress _ => exact Nat.zero_le _
  | passed _ _ => exact hret
  | rejected r =>
    show ((subDue (rejectedDeposit e id i r)).map x.inTransfer).sum ≤ x.inInfo i
    unfold rejectedDeposit
    cases i.type with
    | council => exact Nat.zero_le _
    | general =>
      show ((subDue (if r = .quorumNotReached ∨ r = .isVetoOutcome then _ else _)).map x.inTransfer).sum ≤ _
      by_cases hr : r = .quorumNotReached ∨ r = .isVetoOutcome
      · rw [if_pos hr]
        unfold Item.inInfo
        rw [hi]
        cases hd : i.deposit with
        | none => exact Nat.zero_le _
        | some d =>
          show ((subDue (sendDeposit id d.asset _)).map x.inTransfer).sum ≤ x.inAsset d.asset
          unfold sendDeposit
          rw [subDue_map, transfers_sum]
      · rw [if_neg hr]
        exact hret

theorem sum_keep (x : Item) {m : Map Nat Info} {id : Nat} {i j : Info} (hi : m.get id = some i)
    (h : x.inInfo j = x.inInfo i) : (m.set id j).sum (fun _ i => x.inInfo i) = m.sum (fun _ i => x.inInfo i) := by
  have h2 := Map.sum_set m (fun _ i => x.inInfo i) id j
  rw [hi, Map.contrib_some] at h2
  omega

theorem infos_voted (x : Item) (e : Controller.Env) (s : State) (id : Nat) (i : Info) (o n : Executability) (t : Nat)
    (hi : s.infos.get id = some i) :
    (voted e s id i o n t).infos.sum (fun _ i => x.inInfo i) = s.infos.sum (fun _ i => x.inInfo i) := by
  unfold voted
  split
  · unfold restartCooldown
    split
    · exact sum_keep x hi rfl
    · rfl
  · rfl

theorem settles_execute {e : Controller.Env} {u : Addr} {s : State} {g : Gov.State} {id : Nat} {r : State × Gov.State × List Sub}
    (h : executeProposal e u s g id = .ok r) : Settles s r.1 r.2.2 := by
  obtain ⟨_, i, p, hi, _, hx, _, _, _, _, rfl⟩ := executeProposal_ok_iff.1 h
  intro x
  have h1 := outcome_due x e id i (p.finalStatus (endTotal e p i.type)) hx
  have h2 := Map.sum_set s.infos (fun _ i => x.inInfo i) id { i with executedAt := some e.block }
  rw [hi, Map.contrib_some] at h2
  have h3 : x.inInfo { i with executedAt := some e.block } = 0 := rfl
  rw [h3] at h2
  show (s.infos.set id { i with executedAt := some e.block }).sum (fun _ i => x.inInfo i) +
    ((subDue (outcomeSubs e id i (p.finalStatus (endTotal e p i.type)))).map x.inTransfer).sum ≤ _
  omega

/-- Any message that creates nothing. -/
theorem settles_exec {e : Controller.Env} {u : Addr} {s : State} {g : Gov.State} {m : Msg} (hm : m.isCreate = false)
    {r : State × Gov.State × List Sub} (h : Controller.exec e u s g m = .ok r) : Settles s r.1 r.2.2 := by
  cases m with
  | createProposal _ _ => cases hm
  | createWithNft _ _ => cases hm
  | createCouncil _ => cases hm
  | receive _ _ _ => cases hm
  | castVote id o =>
    simp only [Controller.exec, bind_ok_iff, pure_ok_iff] at h
    obtain ⟨r1, h1, rfl⟩ := h
    obtain ⟨_, _, i, p, q, hi, _, _, _, _, _, h2⟩ := castVote_ok_iff.1 h1
    intro x
    show r1.1.infos.sum _ + 0 ≤ _
    rw [h2, infos_voted x e s id i _ _ _ hi]
    exact le_rfl
  | castCouncilVote id o =>
    simp only [Controller.exec, bind_ok_iff, pure_ok_iff] at h
    obtain ⟨r1, h1, rfl⟩ := h
    obtain ⟨_, _, _, _, _, _, _, _, h2⟩ := castCouncilVote_ok_iff.1 h1
    exact settles_same (by rw [h2]) (fun x hx => (by cases hx))
  | execute id => exact settles_execute h
  | weightsChanged l =>
    simp only [Controller.exec, bind_ok_iff, pure_ok_iff] at h
    obtain ⟨r1, h1, rfl⟩ := h
    refine settles_same rfl (fun x hx i t => ?_)
    rcases weightsChanged_ok_iff.1 h1 with ⟨_, rfl⟩ | ⟨_, _, _, h2⟩
    · cases hx
    · change x ∈ r1.2 at hx
      rw [h2] at hx
      rw [List.mem_singleton.1 hx]
      intro hh; cases hh
  | executeActions id =>
    simp only [Controller.exec, bind_ok_iff, pure_ok_iff] at h
    obtain ⟨r1, h1, rfl⟩ := h
    obtain ⟨_, i, _, h2⟩ := executeActions_ok_iff.1 h1
    obtain ⟨h3, h4⟩ := actAll_ok _ h2
    refine settles_same (by show r1.1.infos = _; rw [h3.same]) (fun x hx i t hh => ?_)
    have := h4 x hx
    rw [hh] at this
    exact this
  | deployInitial =>
    simp only [Controller.exec, bind_ok_iff, pure_ok_iff] at h
    obtain ⟨r1, h1, rfl⟩ := h
    obtain ⟨_, _, rfl⟩ := deployInitial_ok_iff.1 h1
    refine settles_same rfl (fun x hx i t hh => ?_)
    obtain ⟨d, _, hd⟩ := List.mem_map.1 hx
    rw [hh] at hd
    cases hd

/-- Only the creation with an NFT deposit takes NFTs. -/
theorem notake {e : Controller.Env} {u : Addr} {s : State} {g : Gov.State} {m : Msg} (hm : m.isCreate = false)
    {r : State × Gov.State × List Sub} (h : Controller.exec e u s g m = .ok r) :
    ∀ x ∈ r.2.2, ∀ c t, x ≠ .takeNft c t := by
  intro x hx c t hh
  subst hh
  have hdep : ∀ (id : Nat) (a : DepositAsset) (dst : Addr), Sub.takeNft c t ∉ sendDeposit id a dst := by
    intro id a dst hh
    obtain ⟨y, _, hy⟩ := List.mem_map.1 hh
    cases hy
  have hret : ∀ (id : Nat) (i : Info), Sub.takeNft c t ∉ returnDeposit id i := by
    intro id i hh
    unfold returnDeposit at hh
    cases hd : i.deposit with
    | none => rw [hd] at hh; cases hh
    | some d => rw [hd] at hh; exact hdep _ _ _ hh
  cases m with
  | createProposal _ _ => cases hm
  | createWithNft _ _ => cases hm
  | createCouncil _ => cases hm
  | receive _ _ _ => cases hm
  | castVote id o =>
    simp only [Controller.exec, bind_ok_iff, pure_ok_iff] at h
    obtain ⟨r1, h1, rfl⟩ := h
    cases hx
  | castCouncilVote id o =>
    simp only [Controller.exec, bind_ok_iff, pure_ok_iff] at h
    obtain ⟨r1, h1, rfl⟩ := h
    cases hx
  | execute id =>
    obtain ⟨_, i, p, _, _, _, _, _, _, _, rfl⟩ := executeProposal_ok_iff.1 h
    change Sub.takeNft c t ∈ outcomeSubs e id i (p.finalStatus (endTotal e p i.type)) at hx
    cases hst : p.finalStatus (endTotal e p i.type) with
    | inProgress _ => rw [hst] at hx; cases hx
    | passed _ _ =>
      rw [hst] at hx
      rcases List.mem_cons.1 hx with hh | hh
      · cases hh
      · exact hret _ _ hh
    | rejected q =>
      rw [hst] at hx
      change Sub.takeNft c t ∈ rejectedDeposit e id i q at hx
      unfold rejectedDeposit at hx
      cases ht : i.type with
      | council => rw [ht] at hx; cases hx
      | general =>
        rw [ht] at hx
        change Sub.takeNft c t ∈ (if q = .quorumNotReached ∨ q = .isVetoOutcome then _ else _) at hx
        by_cases hq : q = .quorumNotReached ∨ q = .isVetoOutcome
        · rw [if_pos hq] at hx
          cases hd : i.deposit with
          | none => rw [hd] at hx; cases hx
          | some d => rw [hd] at hx; exact hdep _ _ _ hx
        · rw [if_neg hq] at hx
          exact hret _ _ hx
  | weightsChanged l =>
    simp only [Controller.exec, bind_ok_iff, pure_ok_iff] at h
    obtain ⟨r1, h1, rfl⟩ := h
    rcases weightsChanged_ok_iff.1 h1 with ⟨_, rfl⟩ | ⟨_, _, _, h2⟩
    · cases hx
    · change _ ∈ r1.2 at hx
      rw [h2] at hx
      cases List.mem_singleton.1 hx
  | executeActions id =>
    simp only [Controller.exec, bind_ok_iff, pure_ok_iff] at h
    obtain ⟨r1, h1, rfl⟩ := h
    obtain ⟨_, i, _, h2⟩ := executeActions_ok_iff.1 h1
    exact (actAll_ok _ h2).2 _ hx
  | deployInitial =>
    simp only [Controller.exec, bind_ok_iff, pure_ok_iff] at h
    obtain ⟨r1, h1, rfl⟩ := h
    obtain ⟨_, _, rfl⟩ := deployInitial_ok_iff.1 h1
    obtain ⟨d, _, hd⟩ := List.mem_map.1 hx
    cases hd

/-! ### Creation -/

theorem sum_added (x : Item) (m : Map Nat Info) (id : Nat) (i : Info) :
    (m.set id i).sum (fun _ i => x.inInfo i) ≤ m.sum (fun _ i => x.inInfo i) + x.inInfo i := by
  have h2 := Map.sum_set m (fun _ i => x.inInfo i) id i
  beta_reduce at h2
  omega

/-- A call that creates a proposal with deposit `d`. -/
theorem created_infos {e : Controller.Env} {s : State} {g : Gov.State} {p : Proposal} {d : Option Deposit} {u : Addr}
    {r : State × Gov.State} (h : createProposal e s g p d u = .ok r) (x : Item) :
    r.1.infos.sum (fun _ i => x.inInfo i) ≤
      s.infos.sum (fun _ i => x.inInfo i) + x.inDeposit d := by
  have h1 := (created_general h).state
  rw [h1]
  refine le_trans (sum_added x s.infos r.2.pollCount _) ?_
  cases d <;> exact le_rfl

/-- The effect of the sub-messages that take no NFT. -/
theorem after_plain {me : Addr} {subs : List Sub} : ∀ {w w' : World}, (∀ x ∈ subs, ∀ c t, x ≠ .takeNft c t) →
    subs.foldlM (after me) w = .ok w' → w' = { w with due := w.due ++ subDue subs } := by
  induction subs with
  | nil =>
    intro w w' _ h
    rw [foldlM_nil_ok_iff] at h
    subst h
    show w = { w with due := w.due ++ [] }
    rw [List.append_nil]
  | cons x l ih =>
    intro w w' hx h
    rw [foldlM_cons_ok_iff] at h
    obtain ⟨w1, h1, h2⟩ := h
    have h3 := ih (fun y hy => hx y (List.mem_cons_of_mem _ hy)) h2
    have hx0 := hx x List.mem_cons_self
    cases x with
    | takeNft c t => exact absurd rfl (hx0 c t)
    | deposit i t =>
      cases h1
      rw [h3]
      show ({ w with due := (w.due ++ [t]) ++ subDue l } : World) = { w with due := w.due ++ (t :: subDue l) }
      rw [List.append_assoc]
      rfl
    | _ => cases h1; exact h3

theorem after_plain_ok (me : Addr) {subs : List Sub} (hx : ∀ x ∈ subs, ∀ c t, x ≠ .takeNft c t) :
    ∀ (w : World), ∃ w', subs.foldlM (after me) w = .ok w' := by
  induction subs with
  | nil => intro w; exact ⟨w, rfl⟩
  | cons x l ih =>
    intro w
    have hx0 := hx x List.mem_cons_self
    have h1 := ih (fun y hy => hx y (List.mem_cons_of_mem _ hy))
    simp only [foldlM_cons_ok_iff]
    cases x with
    | takeNft c t => exact absurd rfl (hx0 c t)
    | deposit i t =>
      obtain ⟨w', h2⟩ := h1 { w with due := w.due ++ [t] }
      exact ⟨w', _, rfl, h2⟩
    | _ =>
      obtain ⟨w', h2⟩ := h1 w
      exact ⟨w', _, rfl, h2⟩

/-- What a transfer of an NFT does. -/
theorem transferNft_ok_iff {w w' : World} {c : Addr} {t : Nat} {by_ dst : Addr} :
    transferNft w c t by_ dst = .ok w' ↔ ∃ x, (w.nfts c).get t = some x ∧ mayMove w c x by_ = true ∧
      w' = { w with nfts := fun d => if d = c then (w.nfts c).set t ⟨dst, []⟩ else w.nfts d } := by
  unfold transferNft
  cases h : (w.nfts c).get t with
  | none =>
    constructor
    · intro h; cases h
    · rintro ⟨_, h, _⟩; cases h
  | some x =>
    simp only
    by_cases hm : mayMove w c x by_ = true
    · rw [if_pos hm]
      constructor
      · intro h; cases h; exact ⟨x, rfl, hm, rfl⟩
      · rintro ⟨y, hy, _, rfl⟩; rfl
    · rw [if_neg hm]
      constructor
      · intro h; cases h
      · rintro ⟨y, hy, hm', _⟩; cases hy; exact absurd hm' hm

/-- The NFT after a transfer. -/
theorem get_moved (w : World) (c c' : Addr) (t t' : Nat) (y : Token) :
    ((if c' = c then (w.nfts c).set t y else w.nfts c') : Map Nat Token).get t' =
      if c' = c ∧ t' = t then some y else (w.nfts c').get t' := by
  by_cases hc : c' = c
  · subst hc
    rw [if_pos rfl, Map.get_set]
    by_cases ht : t' = t
    · subst ht; simp
    · rw [if_neg (fun h => ht h.symm), if_neg (fun h => ht h.2)]
  · rw [if_neg hc, if_neg (fun h => hc h.1)]

/-- Nobody else can move what the controller owns. -/
theorem Inv.owner_ne {me : Addr} {w : World} (hi : Inv me w) {c : Addr} {t : Nat} {x : Token} {by_ : Addr}
    (hx : (w.nfts c).get t = some x) (hb : by_ ≠ me) (hm : mayMove w c x by_ = true) : x.owner ≠ me := by
  intro ho
  unfold mayMove at hm
  rw [hi.noSpender c t x hx ho, ho, hi.noOp] at hm
  simp [hb] at hm

/-- Nothing gets lost for the controller when other things change. -/
theorem Inv.mono {me : Addr} {w w' : World} (hi : Inv me w) (ho : ∀ x, owed w' x ≤ owed w x)
    (hh : ∀ x, holds me w x ≤ holds me w' x) (hf : ∀ a, (w'.led a).supply < 2 ^ 128)
    (hs : ∀ c t x, (w'.nfts c).get t = some x → x.owner = me → x.spenders = [])
    (hp : ∀ c o, w'.ops c me o = false) : Inv me w' :=
  ⟨fun x => le_trans (ho x) (le_trans (hi.backed x) (hh x)), hf, hs, hp⟩

/-- A new NFT record `y` for one token the controller does not own. -/
theorem Inv.setNft {me : Addr} {w : World} (hi : Inv me w) {c : Addr} {t : Nat} {y : Token}
    (hn : ∀ x, (w.nfts c).get t = some x → x.owner ≠ me) (hy : y.owner = me → y.spenders = []) :
    Inv me { w with nfts := fun d => if d = c then (w.nfts c).set t y else w.nfts d } := by
  refine hi.mono (fun x => le_rfl) (fun x => ?_) hi.fits (fun c' t' x hx ho => ?_) hi.noOp
  · cases x with
    | coin a => exact le_rfl
    | nft c' t' =>
      show (if ((w.nfts c').get t').map Token.owner = some me then 1 else 0) ≤
        (if (((if c' = c then (w.nfts c).set t y else w.nfts c') : Map Nat Token).get t').map Token.owner = some me
          then 1 else 0)
      rw [get_moved]
      by_cases h : c' = c ∧ t' = t
      · obtain ⟨rfl, rfl⟩ := h
        have : ¬ ((w.nfts c').get t').map Token.owner = some me := by
          intro hh
          cases hg : (w.nfts c').get t' with
          | none => rw [hg] at hh; cases hh
          | some z => rw [hg] at hh; exact hn z hg (Option.some.inj hh)
        rw [if_neg this]
        exact Nat.zero_le _
      · rw [if_neg h]
  · change ((if c' = c then (w.nfts c).set t y else w.nfts c') : Map Nat Token).get t' = some x at hx
    rw [get_moved] at hx
    by_cases h : c' = c ∧ t' = t
    · rw [if_pos h] at hx; cases hx; exact hy ho
    · rw [if_neg h] at hx; exact hi.noSpender c' t' x hx ho

theorem inv_transferNft {me : Addr} {w w' : World} (hi : Inv me w) {c : Addr} {t : Nat} {by_ dst : Addr} (hb : by_ ≠ me)
    (h : transferNft w c t by_ dst = .ok w') : Inv me w' := by
  obtain ⟨x, hx, hm, rfl⟩ := transferNft_ok_iff.1 h
  exact hi.setNft (fun y hy => by rw [hx] at hy; cases hy; exact hi.owner_ne hx hb hm) (fun _ => rfl)

/-- New balances that leave the controller with no less. -/
theorem Inv.setLed {me : Addr} {w : World} (hi : Inv me w) {led : AssetInfo → Verif.Ledger}
    (hh : ∀ a, (w.led a).bal me ≤ (led a).bal me) (hf : ∀ a, (led a).supply < 2 ^ 128) :
    Inv me { w with led := led } := by
  refine hi.mono (fun x => le_rfl) (fun x => ?_) hf hi.noSpender hi.noOp
  cases x with
  | coin a => exact hh a
  | nft c t => exact le_rfl

theorem move_keeps {me : Addr} {led led' : AssetInfo → Verif.Ledger} {a : AssetInfo} {src dst : Addr} {n : Nat}
    (hs : src ≠ me) (h : Rewards.move led a src dst n = .ok led') :
    (∀ b, (led b).bal me ≤ (led' b).bal me) ∧ (∀ b, (led' b).supply = (led b).supply) ∧
      (dst = me → (led' a).bal me = (led a).bal me + n) := by
  obtain ⟨e1, e2, e3, e4⟩ := Rewards.move_effect h
  refine ⟨fun b => ?_, e1, fun hd => ?_⟩
  · by_cases hb : b = a
    · subst hb
      by_cases hd : src = dst
      · rw [e3 hd]
      · obtain ⟨f1, f2, f3⟩ := e4 hd
        by_cases hm : dst = me
        · subst hm; rw [f2]; omega
        · rw [f3 me (Ne.symm hs) (Ne.symm hm)]
    · rw [e2 b hb]
  · subst hd
    exact (e4 hs).2.1

/-- A message that creates nothing. -/
theorem inv_handle_other {me : Addr} {w w' : World} (hi : Inv me w) {e : Controller.Env} {u : Addr} {m : Msg}
    (hm : m.isCreate = false) (h : handle me w e u m = .ok w') : Inv me w' := by
  unfold handle at h
  rw [bind_ok_iff] at h
  obtain ⟨r, h1, h2⟩ := h
  have hs := settles_exec hm h1
  have hn : ∀ x ∈ r.2.2, ∀ c t, x ≠ .takeNft c t := notake hm h1
  have h3 := after_plain hn h2
  subst h3
  refine hi.mono (fun x => ?_) (fun x => ?_) hi.fits hi.noSpender hi.noOp
  · have := hs x
    unfold owed
    show r.1.infos.sum (fun _ i => x.inInfo i) + ((w.due ++ subDue r.2.2).map x.inTransfer).sum ≤ _
    rw [List.map_append, List.sum_append]
    omega
  · cases x <;> exact le_rfl

/-- A new proposal whose deposit `d` the controller has beyond what it owes. -/
theorem inv_created {me : Addr} {w : World} (hi : Inv me w) {e : Controller.Env} {u : Addr} {p : Proposal}
    {d : Option Deposit} {r : State × Gov.State} (h : createProposal e w.st w.gov p d u = .ok r)
    (hd : ∀ x, owed w x + x.inDeposit d ≤ holds me w x) :
    Inv me { w with st := r.1, gov := r.2 } := by
  refine ⟨fun x => ?_, hi.fits, hi.noSpender, hi.noOp⟩
  have h1 := created_infos h x
  have h2 := hd x
  unfold owed at h2 ⊢
  refine le_trans ?_ (le_trans h2 ?_)
  · show r.1.infos.sum _ + (w.due.map x.inTransfer).sum ≤ _
    omega
  · cases x <;> exact le_rfl

/-- A coin among others. -/
theorem found_le (a : AssetInfo) {f : List (Nat × Nat)} {d : Nat} {c : Nat × Nat}
    (h : f.find? (fun c => decide (c.1 = d)) = some c) :
    (Item.coin a).inAsset (.denom c.1 c.2) ≤ (f.map (fun f => if AssetInfo.native f.1 = a then f.2 else 0)).sum := by
  have hmem := List.mem_of_find?_eq_some h
  have h1 : (Item.coin a).inAsset (.denom c.1 c.2) = if AssetInfo.native c.1 = a then c.2 else 0 := by
    cases a with
    | native d' =>
      show (if c.1 = d' then c.2 else 0) = _
      by_cases hd : c.1 = d'
      · rw [if_pos hd, if_pos (by rw [hd])]
      · rw [if_neg hd, if_neg (by intro hh; cases hh; exact hd rfl)]
    | cw20 _ => rfl
    | cw1155 _ _ => rfl
  rw [h1]
  clear h h1
  induction f with
  | nil => cases hmem
  | cons y t ih =>
    rw [List.map_cons, List.sum_cons]
    rcases List.mem_cons.1 hmem with rfl | hm
    · exact Nat.le_add_right _ _
    · exact le_trans (ih hm) (Nat.le_add_left _ _)

/-- NFTs taken by the controller. -/
theorem takes_effect {me c : Addr} : ∀ (l : List Nat) {w w' : World},
    (l.map (Sub.takeNft c)).foldlM (after me) w = .ok w' →
    w' = { w with nfts := w'.nfts } ∧ ∀ c' t, (w'.nfts c').get t =
      if c' = c ∧ t ∈ l then some ⟨me, []⟩ else (w.nfts c').get t := by
  intro l
  induction l with
  | nil =>
    intro w w' h
    rw [List.map_nil, foldlM_nil_ok_iff] at h
    subst h
    exact ⟨rfl, fun c' t => by simp⟩
  | cons t l ih =>
    intro w w' h
    rw [List.map_cons, foldlM_cons_ok_iff] at h
    obtain ⟨w1, h1, h2⟩ := h
    obtain ⟨i1, i2⟩ := ih h2
    obtain ⟨x, _, _, rfl⟩ := transferNft_ok_iff.1 h1
    refine ⟨i1, fun c' t' => ?_⟩
    rw [i2]
    show (if c' = c ∧ t' ∈ l then _ else
      ((if c' = c then (w.nfts c).set t ⟨me, []⟩ else w.nfts c') : Map Nat Token).get t') = _
    rw [get_moved]
    by_cases hc : c' = c
    · by_cases ht : t' = t
      · simp [hc, ht]
      · simp [hc, ht]
    · simp [hc]

/-- A proposal with a deposit of NFTs. -/
theorem inv_nft {me : Addr} {w w' : World} (hi : Inv me w) {e : Controller.Env} {u : Addr} (hu : u ≠ me) {p : Proposal}
    {l : List Nat} (h : handle me w e u (.createWithNft p l) = .ok w') : Inv me w' := by
  unfold handle at h
  rw [bind_ok_iff] at h
  obtain ⟨r, h1, h2⟩ := h
  simp only [Controller.exec] at h1
  obtain ⟨_, hnd, nft, hn, h3, h4⟩ := createWithNft_ok_iff.1 h1
  obtain ⟨h5, h6⟩ := takeNfts_ok l h3
  rw [h5] at h2
  obtain ⟨h7, h8⟩ := takes_effect l h2
  have hn' : e.nft = some nft := hn
  -- the controller owns none of the tokens, and owes none of them
  have hown : ∀ t ∈ l, holds me w (.nft nft t) = 0 := by
    intro t ht
    obtain ⟨o, sp, ho, hos⟩ := h6 t ht
    have ho' : ((w.nfts nft).get t).map (fun x => (x.owner, x.spenders)) = some (o, sp) := by
      have := ho
      simp only [envOf, hn'] at this
      exact this
    cases hx : (w.nfts nft).get t with
    | none => rw [hx] at ho'; cases ho'
    | some x =>
      rw [hx] at ho'
      cases ho'
      show (if ((w.nfts nft).get t).map Token.owner = some me then 1 else 0) = 0
      rw [hx]
      refine if_neg (fun hh => ?_)
      have hme : x.owner = me := Option.some.inj hh
      rcases hos with hos | hos
      · exact hu (hos.symm.trans hme)
      · rw [hi.noSpender nft t x hx hme] at hos
        cases hos
  have hw1 : Inv me { w with nfts := w'.nfts } := by
    refine hi.mono (fun x => le_rfl) (fun x => ?_) hi.fits (fun c t x hx ho => ?_) hi.noOp
    · cases x with
      | coin a => exact le_rfl
      | nft c t =>
        show (if ((w.nfts c).get t).map Token.owner = some me then 1 else 0) ≤
          (if ((w'.nfts c).get t).map Token.owner = some me then 1 else 0)
        rw [h8]
        by_cases hc : c = nft ∧ t ∈ l
        · rw [if_pos hc]
          show _ ≤ if some me = some me then 1 else 0
          rw [if_pos rfl]
          split <;> decide
        · rw [if_neg hc]
    · change (w'.nfts c).get t = some x at hx
      rw [h8] at hx
      by_cases hc : c = nft ∧ t ∈ l
      · rw [if_pos hc] at hx; cases hx; rfl
      · rw [if_neg hc] at hx
        exact hi.noSpender c t x hx ho
  have hw2 := inv_created (w := { w with nfts := w'.nfts }) hw1 h4 (fun x => ?_)
  · rw [h7]; exact hw2
  · show owed w x + _ ≤ _
    have hb := hi.backed x
    cases x with
    | coin a => cases a <;> exact hb
    | nft c t =>
      show owed w _ + (if nft = c then l.count t else 0) ≤
        if ((w'.nfts c).get t).map Token.owner = some me then 1 else 0
      rw [h8]
      by_cases hc : c = nft ∧ t ∈ l
      · obtain ⟨rfl, ht⟩ := hc
        have hj : (c = c ∧ t ∈ l) := ⟨rfl, ht⟩
        rw [if_pos rfl, if_pos hj]
        have h9 := hown t ht
        have h10 : l.count t ≤ 1 := List.nodup_iff_count.1 hnd t
        show _ ≤ if some me = some me then 1 else 0
        rw [if_pos rfl]
        omega
      · rw [if_neg hc]
        have h11 : (if nft = c then l.count t else 0) = 0 := by
          by_cases hnc : nft = c
          · rw [if_pos hnc]
            exact List.count_eq_zero.2 (fun ht => hc ⟨hnc.symm, ht⟩)
          · rw [if_neg hnc]
        rw [h11]
        exact hb

/-- A proposal with attached coins. -/
theorem inv_funds {me : Addr} {w w' : World} (hi : Inv me w) {e : Controller.Env} {u : Addr} (hu : u ≠ me) {p : Proposal}
    {f : List (Nat × Nat)} {led : AssetInfo → Verif.Ledger} (ha : Rewards.attach me w.led u f = .ok led)
    (h : handle me { w with led := led } e u (.createProposal p f) = .ok w') : Inv me w' := by
  unfold handle at h
  rw [bind_ok_iff] at h
  obtain ⟨r, h1, h2⟩ := h
  simp only [Controller.exec, bind_ok_iff, pure_ok_iff] at h1
  obtain ⟨r1, h1, rfl⟩ := h1
  have h3 := createWithFunds_ok h1
  rw [foldlM_nil_ok_iff] at h2
  subst h2
  have hl := fun a => Rewards.attach_effect hu ha a
  refine inv_created (w := { w with led := led })
    (hi.setLed (fun a => by rw [(hl a).2]; omega) (fun a => by rw [(hl a).1]; exact hi.fits a)) h3 (fun x => ?_)
  show owed w x + _ ≤ _
  have hb := hi.backed x
  unfold fundsDeposit
  split
  · rename_i d _ _
    cases hf : f.find? (fun c => decide (c.1 = d)) with
    | none =>
      show owed w x + 0 ≤ _
      cases x with
      | coin a =>
        show _ ≤ (led a).bal me
        rw [(hl a).2]
        exact le_trans hb (Nat.le_add_right _ _)
      | nft c t => exact hb
    | some c =>
      show owed w x + x.inAsset (.denom c.1 c.2) ≤ _
      cases x with
      | coin a =>
        show _ ≤ (led a).bal me
        rw [(hl a).2]
        exact Nat.add_le_add hb (found_le a hf)
      | nft c t => exact hb
  · show owed w x + 0 ≤ _
    cases x with
    | coin a =>
      show _ ≤ (led a).bal me
      rw [(hl a).2]
      exact le_trans hb (Nat.le_add_right _ _)
    | nft c t => exact hb

/-- A proposal with a deposit of tokens. -/
theorem inv_send {me : Addr} {w w' : World} (hi : Inv me w) {e : Controller.Env} {token src : Addr} (hs : src ≠ me)
    {n : Nat} {p : Option Proposal} {led : AssetInfo → Verif.Ledger}
    (hm : Rewards.move w.led (.cw20 token) src me n = .ok led)
    (h : handle me { w with led := led } e token (.receive src n p) = .ok w') : Inv me w' := by
  unfold handle at h
  rw [bind_ok_iff] at h
  obtain ⟨r, h1, h2⟩ := h
  simp only [Controller.exec, bind_ok_iff, pure_ok_iff] at h1
  obtain ⟨r1, h1, rfl⟩ := h1
  obtain ⟨q, _, _, _, h3⟩ := receive_ok_iff.1 h1
  rw [foldlM_nil_ok_iff] at h2
  subst h2
  obtain ⟨m1, m2, m3⟩ := move_keeps hs hm
  refine inv_created (w := { w with led := led })
    (hi.setLed m1 (fun a => by rw [m2]; exact hi.fits a)) h3 (fun x => ?_)
  show owed w x + _ ≤ _
  have hb := hi.backed x
  cases x with
  | coin a =>
    have hb' : owed w (.coin a) ≤ (w.led a).bal me := hb
    show owed w (.coin a) + (Item.coin a).inAsset (.cw20 token n) ≤ (led a).bal me
    have hm1 := m1 a
    cases a with
    | native d => exact le_trans hb' hm1
    | cw20 c =>
      show _ + (if token = c then n else 0) ≤ _
      by_cases hc : token = c
      · subst hc
        have := m3 rfl
        rw [if_pos rfl]
        omega
      · rw [if_neg hc]; exact le_trans hb' hm1
    | cw1155 c i => exact le_trans hb' hm1
  | nft c t => exact hb

/-- A transfer that is due succeeds. -/
theorem give_ok {me : Addr} {w : World} (hi : Inv me w) {t : Transfer} {l : List Transfer} (hd : w.due = t :: l) :
    ∃ w1, give me w t = .ok w1 := by
  cases t with
  | asset a n dst =>
    have h1 := hi.backed (.coin a)
    unfold owed at h1
    rw [hd, List.map_cons, List.sum_cons] at h1
    have h2 : (Item.coin a).inTransfer (.asset a n dst) = n := if_pos rfl
    have h3 : n ≤ (w.led a).bal me := by
      have : holds me w (.coin a) = (w.led a).bal me := rfl
      omega
    obtain ⟨led, hl⟩ := Rewards.move_exists (dst := dst) (hi.fits a) h3
    refine ⟨{ w with led := led }, ?_⟩
    show (Rewards.move w.led a me dst n >>= fun l => pure { w with led := l }) = _
    rw [hl]
    rfl
  | nft c t dst =>
    have h1 := hi.backed (.nft c t)
    unfold owed at h1
    rw [hd, List.map_cons, List.sum_cons] at h1
    have h2 : (Item.nft c t).inTransfer (.nft c t dst) = 1 := if_pos ⟨rfl, rfl⟩
    have h3 : holds me w (.nft c t) ≠ 0 := by omega
    have h4 : ((w.nfts c).get t).map Token.owner = some me := by
      by_contra hh
      exact h3 (if_neg hh)
    cases hx : (w.nfts c).get t with
    | none => rw [hx] at h4; cases h4
    | some x =>
      rw [hx] at h4
      have ho : x.owner = me := Option.some.inj h4
      exact ⟨_, transferNft_ok_iff.2 ⟨x, hx, by unfold mayMove; rw [ho]; simp, rfl⟩⟩

theorem inv_pay {me : Addr} {w w1 : World} (hi : Inv me w) {t : Transfer} {l : List Transfer} (hd : w.due = t :: l)
    (h : give me w t = .ok w1) : Inv me { w1 with due := l } := by
  have how : ∀ x, owed w x = w.st.infos.sum (fun _ i => x.inInfo i) + (x.inTransfer t + (l.map x.inTransfer).sum) := by
    intro x
    unfold owed
    rw [hd, List.map_cons, List.sum_cons]
  cases t with
  | asset a n dst =>
    simp only [give, bind_ok_iff, pure_ok_iff] at h
    obtain ⟨led, hl, rfl⟩ := h
    obtain ⟨e1, e2, e3, e4⟩ := Rewards.move_effect hl
    refine ⟨fun x => ?_, fun b => by rw [e1]; exact hi.fits b, hi.noSpender, hi.noOp⟩
    have hb := hi.backed x
    rw [how x] at hb
    show w.st.infos.sum (fun _ i => x.inInfo i) + (l.map x.inTransfer).sum ≤ _
    cases x with
    | nft c t =>
      refine le_trans ?_ hb
      exact Nat.add_le_add_left (Nat.le_add_left _ _) _
    | coin b =>
      show _ ≤ (led b).bal me
      have hb' : _ ≤ (w.led b).bal me := hb
      by_cases hab : b = a
      · subst hab
        have h2 : (Item.coin b).inTransfer (.asset b n dst) = n := if_pos rfl
        rw [h2] at hb'
        by_cases hm : me = dst
        · rw [e3 hm]; omega
        · rw [(e4 hm).1]; omega
      · rw [e2 b hab]; omega
  | nft c t dst =>
    obtain ⟨y, hy, _, rfl⟩ := transferNft_ok_iff.1 h
    refine ⟨fun x => ?_, hi.fits, fun c' t' x hx ho => ?_, hi.noOp⟩
    · have hb := hi.backed x
      rw [how x] at hb
      show w.st.infos.sum (fun _ i => x.inInfo i) + (l.map x.inTransfer).sum ≤ _
      cases x with
      | coin b =>
        refine le_trans ?_ hb
        exact Nat.add_le_add_left (Nat.le_add_left _ _) _
      | nft c' t' =>
        show _ ≤ if (((if c' = c then (w.nfts c).set t ⟨dst, []⟩ else w.nfts c') :
          Map Nat Token).get t').map Token.owner = some me then 1 else 0
        rw [get_moved]
        by_cases hc : c' = c ∧ t' = t
        · obtain ⟨rfl, rfl⟩ := hc
          have h2 : (Item.nft c' t').inTransfer (.nft c' t' dst) = 1 := if_pos ⟨rfl, rfl⟩
          rw [h2] at hb
          have h3 : holds me w (.nft c' t') ≤ 1 := by unfold holds; simp only; split <;> decide
          omega
        · rw [if_neg hc]
          exact le_trans (Nat.add_le_add_left (Nat.le_add_left _ _) _) hb
    · change ((if c' = c then (w.nfts c).set t ⟨dst, []⟩ else w.nfts c') : Map Nat Token).get t' = some x at hx
      rw [get_moved] at hx
      by_cases hc : c' = c ∧ t' = t
      · rw [if_pos hc] at hx; cases hx; rfl
      · rw [if_neg hc] at hx; exact hi.noSpender c' t' x hx ho

theorem inv_exec {me : Addr} {w w' : World} (hi : Inv me w) {o : Op} (ho : o.tame) (h : exec me w o = .ok w') :
    Inv me w' := by
  cases o with
  | mint a dst n =>
    simp only [exec, bind_ok_iff, pure_ok_iff] at h
    obtain ⟨l, hl, rfl⟩ := h
    obtain ⟨_, m2, m3, m4⟩ := Verif.Ledger.mint_effect hl
    refine hi.setLed (fun b => ?_) (fun b => ?_)
    · by_cases hb : b = a
      · subst hb
        simp only [if_true]
        by_cases hd : me = dst
        · subst hd; rw [m3]; omega
        · rw [m4 me hd]
      · simp only [hb, if_false, le_refl]
    · by_cases hb : b = a
      · subst hb; simp only [if_true]; exact m2
      · simp only [hb, if_false]; exact hi.fits b
  | burn a src n =>
    simp only [exec, ite_ok_iff, bind_ok_iff, pure_ok_iff] at h
    obtain ⟨hs, l, hl, rfl⟩ := h
    obtain ⟨b1, _, b3⟩ := Verif.Ledger.burn_effect hl
    refine hi.setLed (fun b => ?_) (fun b => ?_)
    · by_cases hb : b = a
      · subst hb; simp only [if_true]; rw [b3 me (Ne.symm hs)]
      · simp only [hb, if_false, le_refl]
    · by_cases hb : b = a
      · subst hb; simp only [if_true]; exact lt_of_le_of_lt b1 (hi.fits b)
      · simp only [hb, if_false]; exact hi.fits b
  | transfer a src dst n =>
    simp only [exec, ite_ok_iff, bind_ok_iff, pure_ok_iff] at h
    obtain ⟨hs, l, hl, rfl⟩ := h
    obtain ⟨m1, m2, _⟩ := move_keeps hs hl
    exact hi.setLed m1 (fun a => by rw [m2]; exact hi.fits a)
  | mintNft c t dst =>
    simp only [exec, ite_ok_iff] at h
    obtain ⟨hn, h⟩ := h
    cases h
    refine hi.setNft (fun x hx => ?_) (fun _ => rfl)
    exact absurd (Map.has_iff.2 ⟨x, hx⟩) hn
  | burnNft c t by_ =>
    simp only [exec] at h
    cases hx : (w.nfts c).get t with
    | none => rw [hx] at h; cases h
    | some x =>
      rw [hx] at h
      simp only at h
      by_cases hb : by_ ≠ me ∧ mayMove w c x by_ = true
      · rw [if_pos hb] at h
        cases h
        have hne := hi.owner_ne hx hb.1 hb.2
        have hget : ∀ c' t', ((if c' = c then (w.nfts c).remove t else w.nfts c') : Map Nat Token).get t' =
            if c' = c ∧ t' = t then none else (w.nfts c').get t' := by
          intro c' t'
          by_cases hc : c' = c
          · subst hc
            rw [if_pos rfl, Map.get_remove]
            by_cases ht : t' = t
            · subst ht; simp
            · rw [if_neg (fun h => ht h.symm), if_neg (fun h => ht h.2)]
          · rw [if_neg hc, if_neg (fun h => hc h.1)]
        refine hi.mono (fun x => le_rfl) (fun y => ?_) hi.fits (fun c' t' y hy ho => ?_) hi.noOp
        · cases y with
          | coin a => exact le_rfl
          | nft c' t' =>
            show (if ((w.nfts c').get t').map Token.owner = some me then 1 else 0) ≤
              (if (((if c' = c then (w.nfts c).remove t else w.nfts c') : Map Nat Token).get t').map Token.owner =
                some me then 1 else 0)
            rw [hget]
            by_cases hc : c' = c ∧ t' = t
            · obtain ⟨rfl, rfl⟩ := hc
              have : ¬ ((w.nfts c').get t').map Token.owner = some me := by
                rw [hx]
                exact fun hh => hne (Option.some.inj hh)
              rw [if_neg this]
              exact Nat.zero_le _
            · rw [if_neg hc]
        · change ((if c' = c then (w.nfts c).remove t else w.nfts c') : Map Nat Token).get t' = some y at hy
          rw [hget] at hy
          by_cases hc : c' = c ∧ t' = t
          · rw [if_pos hc] at hy; cases hy
          · rw [if_neg hc] at hy; exact hi.noSpender c' t' y hy ho
      · rw [if_neg hb] at h; cases h
  | approve c t by_ l =>
    simp only [exec] at h
    cases hx : (w.nfts c).get t with
    | none => rw [hx] at h; cases h
    | some x =>
      rw [hx] at h
      simp only at h
      by_cases hb : by_ ≠ me ∧ (by_ = x.owner ∨ w.ops c x.owner by_ = true)
      · rw [if_pos hb] at h
        cases h
        have hne : x.owner ≠ me := hi.owner_ne hx hb.1 (by
          unfold mayMove
          rcases hb.2 with hh | hh
          · simp [hh]
          · simp [hh])
        exact hi.setNft (fun y hy => by rw [hx] at hy; cases hy; exact hne) (fun hh => absurd hh hne)
      · rw [if_neg hb] at h; cases h
  | operator c by_ op b =>
    simp only [exec, ite_ok_iff] at h
    obtain ⟨hb, h⟩ := h
    cases h
    refine hi.mono (fun x => le_rfl) (fun x => ?_) hi.fits hi.noSpender (fun c' o => ?_)
    · cases x <;> exact le_rfl
    · show (if c' = c ∧ me = by_ ∧ o = op then b else w.ops c' me o) = false
      rw [if_neg (fun hh => hb hh.2.1.symm)]
      exact hi.noOp c' o
  | moveNft c t by_ dst =>
    simp only [exec, ite_ok_iff] at h
    exact inv_transferNft hi h.1 h.2
  | send token src n p e =>
    simp only [exec, ite_ok_iff, bind_ok_iff] at h
    obtain ⟨hs, l, hl, h⟩ := h
    exact inv_send hi hs hl h
  | call e u m =>
    simp only [exec, ite_ok_iff, bind_ok_iff] at h
    obtain ⟨hs, l, hl, h⟩ := h
    rw [not_or] at hs
    obtain ⟨hs, hr⟩ := hs
    have hplain : attached m = [] → l = w.led := by
      intro ha
      rw [ha] at hl
      cases hl
      rfl
    cases m with
    | createProposal p f => exact inv_funds hi (fun hu => hs ⟨hu, rfl⟩) hl h
    | createWithNft p l =>
      rw [hplain rfl] at h
      exact inv_nft hi (fun hu => hs ⟨hu, rfl⟩) h
    | createCouncil p =>
      rw [hplain rfl] at h
      unfold handle at h
      rw [bind_ok_iff] at h
      obtain ⟨r, h1, h2⟩ := h
      simp only [Controller.exec, bind_ok_iff, pure_ok_iff] at h1
      obtain ⟨r1, h1, rfl⟩ := h1
      obtain ⟨cp, hc⟩ := created_council h1
      rw [foldlM_nil_ok_iff] at h2
      subst h2
      refine hi.mono (fun x => ?_) (fun x => ?_) hi.fits hi.noSpender hi.noOp
      · unfold owed
        show r1.1.infos.sum _ + _ ≤ _
        rw [hc.state]
        refine Nat.add_le_add_right ?_ _
        exact sum_added x w.st.infos _ _
      · cases x <;> exact le_rfl
    | receive _ _ _ => exact absurd rfl hr
    | castVote _ _ => rw [hplain rfl] at h; exact inv_handle_other hi rfl h
    | castCouncilVote _ _ => rw [hplain rfl] at h; exact inv_handle_other hi rfl h
    | execute _ => rw [hplain rfl] at h; exact inv_handle_other hi rfl h
    | weightsChanged _ => rw [hplain rfl] at h; exact inv_handle_other hi rfl h
    | executeActions _ => rw [hplain rfl] at h; exact inv_handle_other hi rfl h
    | deployInitial => rw [hplain rfl] at h; exact inv_handle_other hi rfl h
  | pay =>
    simp only [exec] at h
    cases hd : w.due with
    | nil => rw [hd] at h; cases h
    | cons t l =>
      rw [hd] at h
      simp only [bind_ok_iff, pure_ok_iff] at h
      obtain ⟨w1, h1, rfl⟩ := h
      exact inv_pay hi hd h1
  | spend a dst n => exact absurd ho (fun h => h)

theorem step_cases (me : Addr) (w : World) (o : Op) :
    (∃ w', exec me w o = .ok w' ∧ step me w o = w') ∨ step me w o = w := by
  unfold step
  cases exec me w o with
  | ok w' => exact .inl ⟨w', rfl, rfl⟩
  | error _ => exact .inr rfl

theorem inv_run {me : Addr} {w : World} (hi : Inv me w) {l : List Op} (hl : ∀ o ∈ l, Op.tame o) : Inv me (run me w l) := by
  induction l generalizing w with
  | nil => exact hi
  | cons o t ih =>
    refine ih ?_ (fun x hx => hl x (List.mem_cons_of_mem _ hx))
    rcases step_cases me w o with ⟨w', h1, h2⟩ | h2
    · rw [h2]; exact inv_exec hi (hl o List.mem_cons_self) h1
    · rw [h2]; exact hi

theorem Start.inv {me : Addr} {w : World} (h : Start me w) : Inv me w := by
  obtain ⟨⟨b, ent, t, cfg, council, tr, st, x, hs, hw⟩, h2, h3, h4, h5⟩ := h
  obtain ⟨_, _, h6⟩ := Controller.init_ok hs
  refine ⟨fun x => ?_, h2, fun c t x hx ho => absurd ho (h3 c t x hx), h4⟩
  unfold owed
  rw [h5, hw, h6]
  exact Nat.zero_le _

theorem Reach.inv {me : Addr} {w : World} (h : Reach me w) : Inv me w := by
  obtain ⟨w0, l, h0, hl, rfl⟩ := h
  exact inv_run h0.inv hl

end Verif.Custody.Deposits
