import Verif.Callback.Model
import Verif.Nft.Props2

set_option linter.unusedSimpArgs false

/-!
# An NFT staking contract together with the owners of the tokens, and the ICS721 callback proxy

The NFT staking contract of `Verif.Nft.Model` is put next to the owners recorded by the cw721 contract of its
collection, and next to the callback proxy of `Verif.Callback.Model`.
-/

namespace Verif.Custody.Collection
open Verif Verif.Nft

/-- What does not change: the addresses of the staking contract, of the cw721 contract of its collection, and of the
callback proxy, and the callback proxy's configuration. -/
structure Params where
  me : Addr
  coll : Addr
  proxy : Addr
  cfg : Callback.Config

/-- The contract, and the owner of each existing token. -/
structure World where
  st : State
  own : Map Nat Addr
  deriving DecidableEq

/-- What can happen. An approved operator acts on behalf of the owner and needs no operation of its own; the contracts
modelled here approve nobody. -/
inductive Op
  | mint (t : Nat) (dst : Addr)
  | burn (src : Addr) (t : Nat)
  | transfer (src dst : Addr) (t : Nat)
  /-- cw721 `SendNft` to the staking contract -/
  | send (src : Addr) (t : Nat) (h : Hook) (e : NEnv) (delivered : Bool)
  /-- any account sends a message to the staking contract -/
  | call (e : NEnv) (m : Msg) (delivered : Bool)
  /-- any account calls the callback proxy -/
  | callback (m : Callback.Request) (e : NEnv) (delivered : Bool)

/-- The cw721 contract moves a token of `src`. -/
def move (own : Map Nat Addr) (src dst : Addr) (t : Nat) : Except Err (Map Nat Addr) :=
  if own.get t ≠ some src then .error .unauthorized
  else .ok (own.set t dst)

/-- The cw721 contract executes the transfers among the sub-messages of the staking contract, in order; one that fails
reverts everything. -/
def giveOut (p : Params) (own : Map Nat Addr) : List Out → Except Err (Map Nat Addr)
  | [] => .ok own
  | .sendNft dst t :: l => do
    let own1 ← move own p.me dst t
    giveOut p own1 l
  | _ :: l => giveOut p own l

/-- The environment of a message from `sender`. The ICS721 proxy names the collection, or nothing. -/
def envOf (p : Params) (e : NEnv) (sender : Addr) : NEnv :=
  ⟨{ e.env with sender := sender }, e.proxyNft.map (fun _ => p.coll)⟩

/-- cw721 `SendNft` to the staking contract: the token changes hands, then the contract is called. -/
def sendIn (p : Params) (w : World) (src : Addr) (t : Nat) (h : Hook) (e : NEnv) : Except Err World := do
  let own ← move w.own src p.me t
  let r ← Nft.exec w.st (envOf p e p.coll) (.receiveNft t h)
  let own2 ← giveOut p own r.2
  pure ⟨r.1, own2⟩

/-- One message of the callback proxy. One to another cw721 contract changes nothing here; for another recipient only
the owner changes. -/
def deliver (p : Params) (e : NEnv) (w : World) (o : Callback.SendNft) : Except Err World :=
  if o.nftContract ≠ p.coll then .ok w
  else if o.contract = p.me then sendIn p w p.proxy o.token (.stake o.user) e
  else do
    let own ← move w.own p.proxy o.contract o.token
    pure { w with own := own }

/-- One operation, with its failures. The two contracts start nothing by themselves, and the cw721 contract calls the
staking contract only because of a `SendNft`. -/
def exec (p : Params) (w : World) : Op → Except Err World
  | .mint t dst =>
    if w.own.has t then .error .invalidArgument
    else .ok { w with own := w.own.set t dst }
  | .burn src t =>
    if src = p.me ∨ src = p.proxy ∨ w.own.get t ≠ some src then .error .unauthorized
    else .ok { w with own := w.own.remove t }
  | .transfer src dst t =>
    if src = p.me ∨ src = p.proxy then .error .unauthorized
    else do
      let own ← move w.own src dst t
      pure { w with own := own }
  | .send src t h e d =>
    if src = p.me ∨ src = p.proxy ∨ d = false then .error .unauthorized
    else sendIn p w src t h e
  | .call e m d =>
    if e.env.sender = p.me ∨ e.env.sender = p.coll ∨ d = false then .error .unauthorized
    else do
      let r ← Nft.exec w.st (envOf p e e.env.sender) m
      let own ← giveOut p w.own r.2
      pure ⟨r.1, own⟩
  | .callback m e d =>
    if d = false then .error .other
    else do
      let r ← Callback.exec p.cfg e.env.sender m
      r.2.foldlM (deliver p e) w

/-- A failing operation changes nothing. -/
def step (p : Params) (w : World) (o : Op) : World :=
  match exec p w o with
  | .ok w' => w'
  | .error _ => w

/-- The world after a list of operations. -/
def run (p : Params) (w : World) : List Op → World
  | [] => w
  | o :: t => run p (step p w o) t

/-- A new staking contract for the collection, next to any owners. -/
def Start (p : Params) (w : World) : Prop :=
  ∃ b nft u hooks x y, w.st = init b nft u hooks x y ∧ (nft = .cw721 p.coll ∨ ∃ q, nft = .ics721 q)

/-- The worlds that can come about; the callback proxy is not the staking contract. -/
def Reach (p : Params) (w : World) : Prop := p.proxy ≠ p.me ∧ ∃ w0 l, Start p w0 ∧ w = run p w0 l

/-! ## Lemmas -/

theorem run_append (p : Params) (w : World) (a b : List Op) : run p w (a ++ b) = run p (run p w a) b := by
  induction a generalizing w with
  | nil => rfl
  | cons o t ih => exact ih _

theorem Reach.step {p : Params} {w : World} (h : Reach p w) (o : Op) : Reach p (step p w o) := by
  obtain ⟨hp, w0, l, h0, rfl⟩ := h
  exact ⟨hp, w0, l ++ [o], h0, by rw [run_append]; rfl⟩

theorem Reach.run {p : Params} {w : World} (h : Reach p w) (l : List Op) : Reach p (run p w l) := by
  obtain ⟨hp, w0, l0, h0, rfl⟩ := h
  exact ⟨hp, w0, l0 ++ l, h0, by rw [run_append]⟩

theorem move_ok_iff {own own' : Map Nat Addr} {src dst : Addr} {t : Nat} :
    move own src dst t = .ok own' ↔ own.get t = some src ∧ own' = own.set t dst := by
  unfold move
  rw [ite_ok_iff, Classical.not_not]
  constructor
  · rintro ⟨h, h2⟩; cases h2; exact ⟨h, rfl⟩
  · rintro ⟨h, rfl⟩; exact ⟨h, rfl⟩

theorem giveOut_keeps {p : Params} {outs : List Out} : ∀ {own own' : Map Nat Addr}, giveOut p own outs = .ok own' →
    ∀ t, sentBack outs t = 0 → own'.get t = own.get t := by
  induction outs with
  | nil => intro own own' h t _; cases h; rfl
  | cons o l ih =>
    intro own own' h t ht
    cases o with
    | sendNft dst t' =>
      unfold giveOut at h
      simp only [bind_ok_iff, move_ok_iff] at h
      obtain ⟨_, ⟨_, rfl⟩, h2⟩ := h
      unfold sentBack at ht
      rw [List.countP_cons] at ht
      have hne : t' ≠ t := by
        rintro rfl
        simp [returns] at ht
      rw [ih h2 t (by unfold sentBack; omega), Map.get_set_ne _ _ hne]
    | notify a b => exact ih h t (by unfold sentBack at ht ⊢; rw [List.countP_cons] at ht; omega)
    | pay a b => exact ih h t (by unfold sentBack at ht ⊢; rw [List.countP_cons] at ht; omega)

/-- Sending out distinct tokens that the contract holds. -/
theorem giveOut_sends {p : Params} {u : Addr} : ∀ (l : List Nat) (own : Map Nat Addr), l.Nodup →
    (∀ t ∈ l, own.get t = some p.me) →
    ∃ own', giveOut p own (l.map (fun t => .sendNft u t)) = .ok own' ∧
      ∀ t, own'.get t = if t ∈ l then some u else own.get t := by
  intro l
  induction l with
  | nil => intro own _ _; exact ⟨own, rfl, fun t => by simp⟩
  | cons x l ih =>
    intro own hn hh
    obtain ⟨hx, hn⟩ := List.nodup_cons.1 hn
    obtain ⟨own', h1, h2⟩ := ih (own.set x u) hn (fun t ht => by
      rw [Map.get_set_ne _ _ (by rintro rfl; exact hx ht)]
      exact hh t (List.mem_cons_of_mem _ ht))
    refine ⟨own', ?_, fun t => ?_⟩
    · rw [List.map_cons]
      unfold giveOut
      rw [bind_ok_iff]
      exact ⟨_, move_ok_iff.2 ⟨hh x List.mem_cons_self, rfl⟩, h1⟩
    · rw [h2 t]
      by_cases ht : t ∈ l
      · rw [if_pos ht, if_pos (List.mem_cons_of_mem _ ht)]
      · rw [if_neg ht, Map.get_set]
        by_cases htx : x = t
        · subst htx; simp
        · rw [if_neg htx, if_neg (by simp [ht, Ne.symm htx])]

theorem giveOut_report (p : Params) (own : Map Nat Addr) (m : Members) (cs : List WeightChange) :
    giveOut p own (m.report cs) = .ok own := by
  unfold Members.report
  generalize m.hooks.keys = ks
  induction ks with
  | nil => rfl
  | cons k t ih => rw [List.map_cons]; unfold giveOut; exact ih

/-- Whether the contract holds the token. -/
def held (p : Params) (own : Map Nat Addr) (t : Nat) : Nat := if own.get t = some p.me then 1 else 0

/-- The invariant: each token owed is held, once; the contract knows no other collection, and none only while it owes
nothing. -/
structure Inv (p : Params) (w : World) : Prop where
  st : Nft.Reachable w.st
  owed : ∀ t, owed w.st t ≤ held p w.own t
  coll : w.st.nft = .cw721 p.coll ∨ ((∃ q, w.st.nft = .ics721 q) ∧ ∀ t, Nft.owed w.st t = 0)

theorem reachable_exec {s : State} (h : Nft.Reachable s) {e : NEnv} {m : Msg} {r : State × List Out}
    (hr : Nft.exec s e m = .ok r) : Nft.Reachable r.1 := by
  have := reachable_step h ⟨e, m, true⟩
  simpa only [Nft.step, hr, if_true] using this

theorem nftContract_envOf {p : Params} {w : World} (hi : Inv p w) {e : NEnv} {x c : Addr}
    (h : nftContract w.st (envOf p e x).proxyNft = some c) : c = p.coll := by
  unfold nftContract at h
  rcases hi.coll with hc | ⟨⟨q, hc⟩, _⟩
  · rw [hc] at h; cases h; rfl
  · rw [hc] at h
    simp only [envOf, Option.map_eq_some_iff] at h
    obtain ⟨_, _, rfl⟩ := h
    rfl

/-- A message to the staking contract, with its transfers. -/
theorem inv_call {p : Params} {w : World} (hi : Inv p w) {e : NEnv} {x : Addr} {m : Msg} {r : State × List Out}
    (hr : Nft.exec w.st (envOf p e x) m = .ok r) {own own' : Map Nat Addr} (hown : giveOut p own r.2 = .ok own')
    (hm : ∀ t, held p own t = held p w.own t + m.arrives t) : Inv p ⟨r.1, own'⟩ := by
  have heff := effect_exec hi.st.inv hr
  refine ⟨reachable_exec hi.st hr, fun t => ?_, ?_⟩
  · have h1 := heff.owed t
    have h2 := hi.owed t
    have h3 := hm t
    have h4 : held p own t ≤ 1 := by unfold held; split <;> omega
    simp only
    by_cases hs : sentBack r.2 t = 0
    · have := giveOut_keeps hown t hs
      have h5 : held p own' t = held p own t := by unfold held; rw [this]
      omega
    · omega
  · have hcase : (∃ t hk, m = .receiveNft t hk) ∨ (r.1.nft = w.st.nft ∧ ∀ t, m.arrives t = 0) := by
      cases m with
      | receiveNft t hk => exact .inl ⟨t, hk, rfl⟩
      | unstake l =>
        obtain ⟨_, _, _, _, _, rfl⟩ := unstake_ok_iff.1 hr
        exact .inr ⟨rfl, fun _ => rfl⟩
      | claim u =>
        obtain ⟨_, _, rfl⟩ := (claim_ok_iff hi.st.inv).1 hr
        exact .inr ⟨rfl, fun _ => rfl⟩
      | updateUnlocking q =>
        obtain ⟨_, rfl⟩ := updateUnlocking_ok_iff.1 hr
        exact .inr ⟨rfl, fun _ => rfl⟩
      | addHook a =>
        have := ((C83_nft_edit w.st (envOf p e x) a).2.2.1 r hr).2.2
        rw [this]
        exact .inr ⟨rfl, fun _ => rfl⟩
      | removeHook a =>
        have := ((C83_nft_edit w.st (envOf p e x) a).2.2.2 r hr).2.2
        rw [this]
        exact .inr ⟨rfl, fun _ => rfl⟩
    rcases hcase with ⟨t, hk, rfl⟩ | ⟨hn, ha⟩
    · left
      obtain ⟨h1, h2⟩ := receiveNft_ok_iff.1 hr
      have hx : x = p.coll := nftContract_envOf hi h1
      rcases h2 with ⟨u, _, h3⟩ | ⟨u, d, _, h3⟩
      · obtain ⟨_, _, _, _, rfl⟩ := stakeNft_ok_iff.1 h3
        simp only [envOf, hx]
      · obtain ⟨_, rfl⟩ := addNftClaim_ok_iff.1 h3
        simp only [envOf, hx]
    · rcases hi.coll with hc | ⟨hq, h0⟩
      · exact .inl (by rw [hn]; exact hc)
      · refine .inr ⟨by simp only [hn]; exact hq, fun t => ?_⟩
        have h1 := heff.owed t
        have h2 := h0 t
        have h3 := ha t
        simp only
        omega

theorem inv_sendIn {p : Params} {w w' : World} (hi : Inv p w) {src : Addr} (hsrc : src ≠ p.me) {t : Nat} {hk : Hook}
    {e : NEnv} (h : sendIn p w src t hk e = .ok w') : Inv p w' := by
  unfold sendIn at h
  simp only [bind_ok_iff, move_ok_iff, pure_ok_iff] at h
  obtain ⟨_, ⟨h0, rfl⟩, r, hr, own2, h2, rfl⟩ := h
  refine inv_call hi hr h2 (fun t' => ?_)
  unfold held Msg.arrives Msg.brings
  rw [Map.get_set]
  by_cases ht : t' = t
  · subst ht
    simp [h0, hsrc]
  · have : t ≠ t' := fun hh => ht hh.symm
    simp [ht, this]

/-- Tokens of others change hands. -/
theorem inv_own {p : Params} {w : World} (hi : Inv p w) {own' : Map Nat Addr}
    (h : ∀ t, w.own.get t = some p.me → own'.get t = some p.me) : Inv p { w with own := own' } := by
  refine ⟨hi.st, fun t => ?_, hi.coll⟩
  have h1 := hi.owed t
  have h2 := h t
  unfold held at h1 ⊢
  simp only
  by_cases hh : w.own.get t = some p.me
  · rw [if_pos (h2 hh)]; rw [if_pos hh] at h1; exact h1
  · rw [if_neg hh] at h1; split <;> omega

theorem inv_deliver {p : Params} (hp : p.proxy ≠ p.me) {w w' : World} (hi : Inv p w) {e : NEnv} {o : Callback.SendNft}
    (h : deliver p e w o = .ok w') : Inv p w' := by
  unfold deliver at h
  by_cases h1 : o.nftContract ≠ p.coll
  · rw [if_pos h1] at h; cases h; exact hi
  · rw [if_neg h1] at h
    by_cases h2 : o.contract = p.me
    · rw [if_pos h2] at h; exact inv_sendIn hi hp h
    · rw [if_neg h2] at h
      simp only [bind_ok_iff, move_ok_iff, pure_ok_iff] at h
      obtain ⟨_, ⟨h0, rfl⟩, rfl⟩ := h
      refine inv_own hi (fun t ht => ?_)
      rw [Map.get_set_ne _ _ (by rintro rfl; rw [ht] at h0; exact hp (Option.some.inj h0).symm)]
      exact ht

theorem inv_delivers {p : Params} (hp : p.proxy ≠ p.me) {e : NEnv} (l : List Callback.SendNft) : ∀ {w w' : World},
    Inv p w → l.foldlM (deliver p e) w = .ok w' → Inv p w' := by
  induction l with
  | nil => intro w w' hi h; rw [foldlM_nil_ok_iff] at h; subst h; exact hi
  | cons o t ih =>
    intro w w' hi h
    rw [foldlM_cons_ok_iff] at h
    obtain ⟨w1, h1, h2⟩ := h
    exact ih (inv_deliver hp hi h1) h2

theorem inv_exec {p : Params} (hp : p.proxy ≠ p.me) {w w' : World} (hi : Inv p w) {o : Op}
    (h : exec p w o = .ok w') : Inv p w' := by
  cases o with
  | mint t dst =>
    simp only [exec, ite_ok_iff] at h
    obtain ⟨h1, h2⟩ := h
    cases h2
    refine inv_own hi (fun t' ht' => ?_)
    rw [Map.get_set_ne _ _ (by rintro rfl; exact h1 (Map.has_iff.2 ⟨_, ht'⟩))]
    exact ht'
  | burn src t =>
    simp only [exec, ite_ok_iff, not_or, Classical.not_not] at h
    obtain ⟨⟨h1, _, h3⟩, h2⟩ := h
    cases h2
    refine inv_own hi (fun t' ht' => ?_)
    rw [Map.get_remove, if_neg (by rintro rfl; rw [ht'] at h3; cases h3; exact h1 rfl)]
    exact ht'
  | transfer src dst t =>
    simp only [exec, ite_ok_iff, not_or, bind_ok_iff, move_ok_iff, pure_ok_iff] at h
    obtain ⟨⟨h1, _⟩, _, ⟨h3, rfl⟩, rfl⟩ := h
    refine inv_own hi (fun t' ht' => ?_)
    rw [Map.get_set_ne _ _ (by rintro rfl; rw [ht'] at h3; cases h3; exact h1 rfl)]
    exact ht'
  | send src t hk e d =>
    simp only [exec, ite_ok_iff, not_or] at h
    exact inv_sendIn hi h.1.1 h.2
  | call e m d =>
    simp only [exec, ite_ok_iff, not_or, bind_ok_iff, pure_ok_iff] at h
    obtain ⟨⟨_, h1, _⟩, r, hr, own, h2, rfl⟩ := h
    refine inv_call hi hr h2 (fun t => ?_)
    have : m.arrives t = 0 := by
      cases m with
      | receiveNft t' hk =>
        exfalso
        exact h1 (nftContract_envOf hi (receiveNft_ok_iff.1 hr).1)
      | _ => rfl
    omega
  | callback m e d =>
    simp only [exec, ite_ok_iff, bind_ok_iff] at h
    obtain ⟨_, r, _, h2⟩ := h
    exact inv_delivers hp _ hi h2

theorem step_cases (p : Params) (w : World) (o : Op) :
    (∃ w', exec p w o = .ok w' ∧ step p w o = w') ∨ step p w o = w := by
  unfold step
  cases exec p w o with
  | ok w' => exact .inl ⟨w', rfl, rfl⟩
  | error _ => exact .inr rfl

theorem inv_step {p : Params} (hp : p.proxy ≠ p.me) {w : World} (hi : Inv p w) (o : Op) : Inv p (step p w o) := by
  rcases step_cases p w o with ⟨w', h1, h2⟩ | h2
  · rw [h2]; exact inv_exec hp hi h1
  · rw [h2]; exact hi

theorem inv_run {p : Params} (hp : p.proxy ≠ p.me) {w : World} (hi : Inv p w) (l : List Op) : Inv p (run p w l) := by
  induction l generalizing w with
  | nil => exact hi
  | cons o t ih => exact ih (inv_step hp hi o)

theorem Reach.inv {p : Params} {w : World} (h : Reach p w) : Inv p w := by
  obtain ⟨hp, w0, l, ⟨b, nft, u, hk, x, y, h1, h2⟩, rfl⟩ := h
  have h0 : ∀ t, owed w0.st t = 0 := by intro t; rw [h1]; rfl
  refine inv_run hp ⟨⟨b, nft, u, hk, x, y, [], h1⟩, fun t => by rw [h0]; exact Nat.zero_le _, ?_⟩ l
  have hn : w0.st.nft = nft := by rw [h1]; rfl
  rcases h2 with rfl | ⟨q, rfl⟩
  · exact .inl hn
  · exact .inr ⟨⟨q, hn⟩, h0⟩

end Verif.Custody.Collection
