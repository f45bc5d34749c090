import Verif.Facade.Props
import Verif.Facade.Sample
import Verif.Custody.TokenProps
import Verif.Custody.CollectionProps

set_option linter.unusedSimpArgs false

/-!
# Facades: staking, unstaking and claiming through the facade (C99)

The messages that the facade makes are sent by the user, to the contracts and ledgers of `Verif.Custody`.
-/

namespace Verif.Facade
open Verif
open Verif.Dao (Member)
open Verif.Staking (Coin)

/-- The coins that a message to a staking contract takes. -/
def coinsOf : Staking.Msg → List Coin
  | .stakeDenom f _ => f
  | _ => []

/-- What happens to a token or denom staking contract at `me` and its asset when the user sends a message of the facade:
`Send` of the cw20 token to the contract, or a message to the contract with the coins it takes. Any other message is
`none`. -/
def tokenOp (k : Staking.Kind) (me asset : Addr) (env : Env) : Adapted → Option Custody.Token.Op
  | .execute t (.sendStake d n h) [] =>
    if k = .token ∧ t = asset ∧ d = me then some (.send env.sender n h env true) else none
  | .execute t (.member (.staking m)) f =>
    if t = me ∧ f = coinsOf m then some (.call env m true) else none
  | _ => none

/-- The same for an NFT staking contract and its collection. -/
def nftOp (me coll : Addr) (env : Nft.NEnv) : Adapted → Option Custody.Collection.Op
  | .execute t (.sendNft d n h) [] =>
    if t = coll ∧ d = me then some (.send env.env.sender n h env true) else none
  | .execute t (.member (.nft m)) [] =>
    if t = me then some (.call env m true) else none
  | _ => none

theorem payOut_report (p : Custody.Token.Params) (l : Ledger) (ks : List Addr) (f : Addr → List WeightChange) :
    Custody.Token.payOut p l (ks.map (fun k => .notify k (f k))) = .ok l := by
  induction ks with
  | nil => rfl
  | cons k t ih => rw [List.map_cons]; unfold Custody.Token.payOut; exact ih

/-! ### Token and denom DAOs -/

/-- A sample staking contract at address 6: users 10 and 11 have funds, 10 has staked 60. -/
def smpStart : Custody.Token.World := ⟨Staking.init ⟨1, 10 ^ 9⟩ 20 (.time 1000) [1] [] [], (Map.empty.set 10 100).set 11 50⟩

/-- The message of the sample that stakes. -/
def smpStake : Staking.Kind → Custody.Token.Op
  | .token => .send 10 60 (.stake 10) ⟨⟨1, 10 ^ 9⟩, 20, 1, fun _ => false⟩ true
  | .denom => .call ⟨⟨1, 10 ^ 9⟩, 10, 1, fun _ => false⟩ (.stakeDenom [⟨20, 60⟩] none) true

/-- The sample after that message. -/
def smpWorld (k : Staking.Kind) : Custody.Token.World := Custody.Token.run ⟨k, 6, false⟩ smpStart [smpStake k]

/-- A sample DAO with that staking contract. -/
def smpDao (m : Member) : Parts := sampleSeen { Dao.sampleGenesis with mem := m }

theorem smp_isDao (m : Member) : IsDao (sampleChain (smpDao m)) 3 (smpDao m) := sample_isDao _ rfl

theorem smp_reach (k : Staking.Kind) : Custody.Token.Reach ⟨k, 6, false⟩ (smpWorld k) :=
  ⟨smpStart, [smpStake k], ⟨⟨⟨1, 10 ^ 9⟩, 20, .time 1000, [1], [], [], rfl⟩, by decide +kernel⟩, rfl⟩

/-- C99: a stake through the facade of a token DAO is one `Send` of the token to its staking contract. Sent by anyone
with the tokens it goes through unless the named user is restricted; it costs the sender exactly the amount and adds the
amount to the weight of the named user, and to nobody else's. -/
theorem C99_stake_token {c : Chain} {e : Addr} {p : Parts} (h : IsDao c e p) {z : Bool} {w : Custody.Token.World}
    (hw : Custody.Token.Reach ⟨.token, p.at_.membership, z⟩ w) (hm : p.member = .staking .token w.st)
    (env : Env) (hme : env.sender ≠ p.at_.membership) (u : Addr) (n : Nat) :
    ∃ l o, adaptStake c e (.cw20 u n) = .ok l ∧ l.map (tokenOp .token p.at_.membership w.st.asset env) = [some o] ∧
      ((∃ w', Custody.Token.exec ⟨.token, p.at_.membership, z⟩ w o = .ok w') ↔
        n ≤ w.led.bal env.sender ∧ env.restricted u = false) ∧
      ∀ w', Custody.Token.exec ⟨.token, p.at_.membership, z⟩ w o = .ok w' →
        w'.led.bal env.sender + n = w.led.bal env.sender ∧
        w'.led.bal p.at_.membership = w.led.bal p.at_.membership + n ∧
        (∀ v, v ≠ env.sender → v ≠ p.at_.membership → w'.led.bal v = w.led.bal v) ∧
        Staking.queryWeight w'.st u = Staking.queryWeight w.st u + n ∧
        (∀ v, v ≠ u → Staking.queryWeight w'.st v = Staking.queryWeight w.st v) ∧ w'.st.claims = w.st.claims := by
  refine ⟨[.execute w.st.asset (.sendStake p.at_.membership n (.stake u)) []],
    .send env.sender n (.stake u) env true, ?_, ?_, ?_, ?_⟩
  · unfold adaptStake
    rw [components_dao h, ok_bind]
    simp only
    rw [memberAt_dao h, ok_bind, hm]
    rfl
  · simp [tokenOp]
  · have hi := hw.inv
    have hst := hi.st
    simp only at hst
    have hcov := Custody.Token.C84_covered hw
    constructor
    · rintro ⟨w', hx⟩
      simp only [Custody.Token.exec, ite_ok_iff, bind_ok_iff, pure_ok_iff, not_or] at hx
      obtain ⟨_, l, hl, r, hr, _⟩ := hx
      exact ⟨(Ledger.transfer_effect hl).1, ((Staking.C79_stake_token hst _ n u).1.1 ⟨r, hr⟩).2.1⟩
    · rintro ⟨h1, h2⟩
      obtain ⟨l, hl⟩ : ∃ l, w.led.transfer env.sender p.at_.membership n = .ok l :=
        ⟨_, (Ledger.transfer_ok_iff hi.supply).2 ⟨h1, rfl⟩⟩
      obtain ⟨_, e1, _, e3⟩ := Ledger.transfer_effect hl
      obtain ⟨_, f2, _⟩ := e3 hme
      have hb := l.bal_le_supply p.at_.membership
      have hs := hi.supply
      simp only at hcov
      obtain ⟨r, hr⟩ := (Staking.C79_stake_token hst { env with sender := w.st.asset } n u).1.2 ⟨rfl, h2, by omega⟩
      refine ⟨⟨r.1, l⟩, ?_⟩
      simp only [Custody.Token.exec, ite_ok_iff, bind_ok_iff, pure_ok_iff, not_or]
      refine ⟨⟨hme, by simp⟩, l, hl, r, hr, l, ?_, rfl⟩
      rw [(Staking.C24_single_change .token w.st _ r).2.2 n u hr]
      exact payOut_report _ _ _ _
  · intro w' hx
    have hst := hw.inv.st
    simp only at hst
    simp only [Custody.Token.exec, ite_ok_iff, bind_ok_iff, pure_ok_iff, not_or] at hx
    obtain ⟨_, l, hl, r, hr, l2, hl2, rfl⟩ := hx
    rw [(Staking.C24_single_change .token w.st _ r).2.2 n u hr, payOut_report] at hl2
    cases hl2
    obtain ⟨e0, _, _, e3⟩ := Ledger.transfer_effect hl
    obtain ⟨f1, f2, f3⟩ := e3 hme
    obtain ⟨g1, g2, _, g4, _⟩ := (Staking.C79_stake_token hst _ n u).2 r hr
    exact ⟨by simp only; omega, f2, f3, g1, g2, g4⟩

example : IsDao (sampleChain (smpDao (.staking .token (smpWorld .token).st))) 3
      (smpDao (.staking .token (smpWorld .token).st)) ∧
    Custody.Token.Reach ⟨.token, (smpDao (.staking .token (smpWorld .token).st)).at_.membership, false⟩ (smpWorld .token) ∧
    (smpDao (.staking .token (smpWorld .token).st)).member = .staking .token (smpWorld .token).st ∧
    50 ≤ (smpWorld .token).led.bal 11 :=
  ⟨smp_isDao _, smp_reach _, rfl, by decide +kernel⟩

/-- C99: a stake through the facade of a denom DAO is one message to its staking contract, with exactly the coins to be
staked; the rest is as for tokens. -/
theorem C99_stake_denom {c : Chain} {e : Addr} {p : Parts} (h : IsDao c e p) {z : Bool} {w : Custody.Token.World}
    (hw : Custody.Token.Reach ⟨.denom, p.at_.membership, z⟩ w) (hm : p.member = .staking .denom w.st)
    (env : Env) (hme : env.sender ≠ p.at_.membership) (u : Addr) (n : Nat) :
    ∃ l o, adaptStake c e (.denom u n) = .ok l ∧ l.map (tokenOp .denom p.at_.membership w.st.asset env) = [some o] ∧
      ((∃ w', Custody.Token.exec ⟨.denom, p.at_.membership, z⟩ w o = .ok w') ↔
        n ≤ w.led.bal env.sender ∧ env.restricted u = false) ∧
      ∀ w', Custody.Token.exec ⟨.denom, p.at_.membership, z⟩ w o = .ok w' →
        w'.led.bal env.sender + n = w.led.bal env.sender ∧
        w'.led.bal p.at_.membership = w.led.bal p.at_.membership + n ∧
        (∀ v, v ≠ env.sender → v ≠ p.at_.membership → w'.led.bal v = w.led.bal v) ∧
        Staking.queryWeight w'.st u = Staking.queryWeight w.st u + n ∧
        (∀ v, v ≠ u → Staking.queryWeight w'.st v = Staking.queryWeight w.st v) ∧ w'.st.claims = w.st.claims := by
  have hat : Custody.Token.attached w.st.asset (.stakeDenom [⟨w.st.asset, n⟩] (some u)) = n := by
    simp [Custody.Token.attached]
  refine ⟨[.execute p.at_.membership (.member (.staking (.stakeDenom [⟨w.st.asset, n⟩] (some u)))) [⟨w.st.asset, n⟩]],
    .call env (.stakeDenom [⟨w.st.asset, n⟩] (some u)) true, ?_, ?_, ?_, ?_⟩
  · unfold adaptStake
    rw [components_dao h, ok_bind]
    simp only
    rw [memberAt_dao h, ok_bind, hm]
    rfl
  · simp [tokenOp, coinsOf]
  · have hi := hw.inv
    have hst := hi.st
    simp only at hst
    have hcov := Custody.Token.C84_covered hw
    constructor
    · rintro ⟨w', hx⟩
      simp only [Custody.Token.exec, ite_ok_iff, bind_ok_iff, pure_ok_iff, not_or, hat] at hx
      obtain ⟨_, l, hl, r, hr, _⟩ := hx
      obtain ⟨_, _, h2, _⟩ := (Staking.C79_stake_denom hst env _ _).1.1 ⟨r, hr⟩
      exact ⟨(Ledger.transfer_effect hl).1, h2⟩
    · rintro ⟨h1, h2⟩
      obtain ⟨l, hl⟩ : ∃ l, w.led.transfer env.sender p.at_.membership n = .ok l :=
        ⟨_, (Ledger.transfer_ok_iff hi.supply).2 ⟨h1, rfl⟩⟩
      obtain ⟨_, e1, _, e3⟩ := Ledger.transfer_effect hl
      obtain ⟨_, f2, _⟩ := e3 hme
      have hb := l.bal_le_supply p.at_.membership
      have hs := hi.supply
      simp only at hcov
      obtain ⟨r, hr⟩ := (Staking.C79_stake_denom hst env [⟨w.st.asset, n⟩] (some u)).1.2 ⟨n, rfl, h2, by omega⟩
      refine ⟨⟨r.1, l⟩, ?_⟩
      simp only [Custody.Token.exec, ite_ok_iff, bind_ok_iff, pure_ok_iff, not_or, hat]
      refine ⟨⟨hme, by simp, by simp⟩, l, hl, r, hr, l, ?_, rfl⟩
      rw [(Staking.C24_single_change .denom w.st _ r).2.1 _ _ hr]
      exact payOut_report _ _ _ _
  · intro w' hx
    have hst := hw.inv.st
    simp only at hst
    simp only [Custody.Token.exec, ite_ok_iff, bind_ok_iff, pure_ok_iff, not_or, hat] at hx
    obtain ⟨_, l, hl, r, hr, l2, hl2, rfl⟩ := hx
    rw [(Staking.C24_single_change .denom w.st _ r).2.1 _ _ hr, payOut_report] at hl2
    cases hl2
    obtain ⟨e0, _, _, e3⟩ := Ledger.transfer_effect hl
    obtain ⟨f1, f2, f3⟩ := e3 hme
    obtain ⟨g1, g2, _, g4, _⟩ := (Staking.C79_stake_denom hst env _ _).2 r n hr rfl
    exact ⟨by simp only; omega, f2, f3, g1, g2, g4⟩

example : IsDao (sampleChain (smpDao (.staking .denom (smpWorld .denom).st))) 3
      (smpDao (.staking .denom (smpWorld .denom).st)) ∧
    Custody.Token.Reach ⟨.denom, (smpDao (.staking .denom (smpWorld .denom).st)).at_.membership, false⟩ (smpWorld .denom) ∧
    (smpDao (.staking .denom (smpWorld .denom).st)).member = .staking .denom (smpWorld .denom).st ∧
    50 ≤ (smpWorld .denom).led.bal 11 :=
  ⟨smp_isDao _, smp_reach _, rfl, by decide +kernel⟩

/-- C99: an unstake request and, after the unlocking period, a claim request through the facade of a token or denom DAO
are one message each. Whatever others do in between, they go through and bring the user at least what was unstaked. -/
theorem C99_withdraw {c : Chain} {e : Addr} {p : Parts} (h : IsDao c e p) {k : Staking.Kind} {z : Bool}
    {w : Custody.Token.World} (hw : Custody.Token.Reach ⟨k, p.at_.membership, z⟩ w)
    (hm : p.member = .staking k w.st) (env later : Env) (n : Nat) (ops : List Custody.Token.Op)
    (hme : env.sender ≠ p.at_.membership) (htok : k = .token → env.sender ≠ w.st.asset)
    (ha : n ≤ Staking.queryWeight w.st env.sender) (hpos : 0 < n) (hid : w.st.nextClaim + 1 < 2 ^ 64)
    (hf : Staking.Fits w.st.unlocking env.block) (hl : ∀ o ∈ ops, ¬ o.claimsOf env.sender)
    (hs : later.sender = env.sender) (hel : Staking.Elapsed w.st.unlocking env.block later.block) :
    ∃ l1 l2 o1 o2 w1 w2,
      adaptUnstake c e (match k with | .token => .cw20 n | .denom => .denom n) = .ok l1 ∧
      adaptClaim c e = .ok l2 ∧
      l1.map (tokenOp k p.at_.membership w.st.asset env) = [some o1] ∧
      l2.map (tokenOp k p.at_.membership w.st.asset later) = [some o2] ∧
      Custody.Token.exec ⟨k, p.at_.membership, z⟩ w o1 = .ok w1 ∧
      Custody.Token.exec ⟨k, p.at_.membership, z⟩ (Custody.Token.run ⟨k, p.at_.membership, z⟩ w1 ops) o2 = .ok w2 ∧
      Staking.queryWeight w1.st env.sender = Staking.queryWeight w.st env.sender - n ∧
      (Custody.Token.run ⟨k, p.at_.membership, z⟩ w1 ops).led.bal env.sender + n ≤ w2.led.bal env.sender := by
  obtain ⟨w1, w2, h1, h2, h3⟩ := Custody.Token.C84_withdraw hw env later n ops hme htok ha hpos hid hf hl hs hel
  refine ⟨[.execute p.at_.membership (.member (.staking (.unstake n))) []],
    [.execute p.at_.membership (.member (.staking (.claim none))) []], _, _, w1, w2, ?_, ?_, ?_, ?_, h1, h2, ?_, h3⟩
  · unfold adaptUnstake
    rw [components_dao h, ok_bind]
    cases k <;> rfl
  · unfold adaptClaim
    rw [typeOf_dao h, ok_bind, hm]
    cases k <;> (simp only [Member.daoType]; rw [components_dao h, ok_bind]; rfl)
  · simp [tokenOp, coinsOf]
  · simp [tokenOp, coinsOf]
  · simp only [Custody.Token.exec, ite_ok_iff, bind_ok_iff, pure_ok_iff, not_or] at h1
    obtain ⟨_, l, hl, r, hr, l2, hl2, rfl⟩ := h1
    exact ((Staking.C18_unstake hw.inv.st env n).2 r hr).1

example (k : Staking.Kind) : 60 ≤ Staking.queryWeight (smpWorld k).st 10 ∧
    Staking.Fits (smpWorld k).st.unlocking ⟨5, 5 * 10 ^ 9⟩ ∧
    Staking.Elapsed (smpWorld k).st.unlocking ⟨5, 5 * 10 ^ 9⟩ ⟨2000, 2000 * 10 ^ 9⟩ := by
  cases k <;> decide +kernel

/-! ### NFT DAOs -/

/-- A sample collection: the staking contract is at address 6, the cw721 contract at 20, the callback proxy at 30. User
10 owns tokens 101 and 102, and has staked 103. -/
def smpColl : Custody.Collection.Params := ⟨6, 20, 30, Callback.init 31⟩

/-- The sample before the stake. -/
def smpNftStart : Custody.Collection.World :=
  ⟨Nft.init ⟨1, 10 ^ 9⟩ (.cw721 20) (.time 1000) [1] [] [], ((Map.empty.set 101 10).set 102 10).set 103 10⟩

/-- The environment of the sample. -/
def smpNEnv (t : Nat) (u : Addr) : Nft.NEnv := ⟨⟨⟨t, t * 10 ^ 9⟩, u, 1, fun _ => false⟩, none⟩

/-- The sample after the stake. -/
def smpNft : Custody.Collection.World :=
  Custody.Collection.run smpColl smpNftStart [.send 10 103 (.stake 10) (smpNEnv 2 10) true]

theorem smp_nft_reach : Custody.Collection.Reach smpColl smpNft :=
  ⟨by decide, smpNftStart, _, ⟨⟨1, 10 ^ 9⟩, .cw721 20, .time 1000, [1], [], [], rfl, .inl rfl⟩, rfl⟩

theorem sendAll {p : Custody.Collection.Params} (u : Addr) (e : Nft.NEnv) (src : Addr) (hsrc : src ≠ p.me)
    (hpx : src ≠ p.proxy) : ∀ (ts : List Nat) {w : Custody.Collection.World}, Custody.Collection.Reach p w →
    ((∃ w', (ts.map (fun t => Custody.Collection.Op.send src t (.stake u) e true)).foldlM
        (Custody.Collection.exec p) w = .ok w') ↔
      ts.Nodup ∧ (∀ t ∈ ts, w.own.get t = some src) ∧
      (ts ≠ [] → Custody.Collection.Known w e ∧ e.env.restricted u = false) ∧
      (ts ≠ [] → Nft.queryTotal w.st .never + ts.length < 2 ^ 128)) ∧
    (∀ w', (ts.map (fun t => Custody.Collection.Op.send src t (.stake u) e true)).foldlM
        (Custody.Collection.exec p) w = .ok w' →
      (∀ t, w'.own.get t = if t ∈ ts then some p.me else w.own.get t) ∧
      (∀ t, w'.st.stakes.get t = if t ∈ ts then some u else w.st.stakes.get t) ∧
      w'.st.claims = w.st.claims ∧ Nft.queryWeight w'.st u = Nft.queryWeight w.st u + ts.length ∧
      (∀ v, v ≠ u → Nft.queryWeight w'.st v = Nft.queryWeight w.st v) ∧
      Nft.queryTotal w'.st .never = Nft.queryTotal w.st .never + ts.length) := by
  intro ts
  induction ts with
  | nil =>
    intro w h
    simp only [List.map_nil, foldlM_nil_ok_iff]
    constructor
    · simp
    · rintro w' rfl
      simp
  | cons x ts ih =>
    intro w h
    have hdel : ∀ w : Custody.Collection.World, Custody.Collection.exec p w (.send src x (.stake u) e true) =
        Custody.Collection.sendIn p w src x (.stake u) e := by
      intro w; simp only [Custody.Collection.exec, hsrc, hpx, Bool.true_eq_false, or_self, if_false]
    simp only [List.map_cons, foldlM_cons_ok_iff, hdel]
    obtain ⟨hiff, heff⟩ := Custody.Collection.C85_stake h hsrc x u e
    have hreach : ∀ w1, Custody.Collection.sendIn p w src x (.stake u) e = .ok w1 → Custody.Collection.Reach p w1 := by
      intro w1 hw1
      have := h.step (.send src x (.stake u) e true)
      unfold Custody.Collection.step at this
      rw [hdel, hw1] at this
      exact this
    constructor
    · constructor
      · rintro ⟨w', w1, h1, h2⟩
        obtain ⟨a1, a2, a3, a4⟩ := hiff.1 ⟨w1, h1⟩
        obtain ⟨b1, b2, b3, b4, b5, b6, b7⟩ := heff w1 h1
        obtain ⟨c1, c2, c3, c4⟩ := (ih (hreach w1 h1)).1.1 ⟨w', h2⟩
        have hx : x ∉ ts := by
          intro hx
          have := c2 x hx
          rw [b1, Map.get_set_self] at this
          exact hsrc (Option.some.inj this).symm
        refine ⟨List.nodup_cons.2 ⟨hx, c1⟩, ?_, fun _ => ⟨a2, a3⟩, fun _ => ?_⟩
        · intro t ht
          rcases List.mem_cons.1 ht with rfl | ht
          · exact a1
          · have := c2 t ht
            rw [b1, Map.get_set_ne _ _ (by rintro rfl; exact hx ht)] at this
            exact this
        · cases ts with
          | nil => simp only [List.length_cons, List.length_nil]; omega
          | cons y l =>
            have := c4 (by simp)
            simp only [List.length_cons] at *
            omega
      · rintro ⟨h1, h2, h3, h4⟩
        obtain ⟨hx, h1⟩ := List.nodup_cons.1 h1
        have h4 := h4 (by simp)
        obtain ⟨h3, h3'⟩ := h3 (by simp)
        rw [List.length_cons] at h4
        obtain ⟨w1, hw1⟩ := hiff.2 ⟨h2 x List.mem_cons_self, h3, h3', by omega⟩
        obtain ⟨b1, b2, b3, b4, b5, b6, b7⟩ := heff w1 hw1
        obtain ⟨w', hw'⟩ := (ih (hreach w1 hw1)).1.2 ⟨h1, fun t ht => by
            rw [b1, Map.get_set_ne _ _ (by rintro rfl; exact hx ht)]
            exact h2 t (List.mem_cons_of_mem _ ht),
          fun _ => ⟨.inl ⟨_, b7⟩, h3'⟩, fun _ => by omega⟩
        exact ⟨w', w1, hw1, hw'⟩
    · rintro w' ⟨w1, h1, h2⟩
      obtain ⟨b1, b2, b3, b4, b5, b6, b7⟩ := heff w1 h1
      obtain ⟨c1, c2, c3, c4, c5, c6⟩ := (ih (hreach w1 h1)).2 w' h2
      refine ⟨fun t => ?_, fun t => ?_, by rw [c3, b3], ?_, fun v hv => by rw [c5 v hv, b5 v hv], ?_⟩
      · rw [c1 t, b1, Map.get_set]
        by_cases ht : t ∈ ts
        · rw [if_pos ht, if_pos (List.mem_cons_of_mem _ ht)]
        · rw [if_neg ht]
          by_cases hx : x = t
          · subst hx; simp
          · rw [if_neg hx, if_neg (by simp [ht, Ne.symm hx])]
      · rw [c2 t, b2, Map.get_set]
        by_cases ht : t ∈ ts
        · rw [if_pos ht, if_pos (List.mem_cons_of_mem _ ht)]
        · rw [if_neg ht]
          by_cases hx : x = t
          · subst hx; simp
          · rw [if_neg hx, if_neg (by simp [ht, Ne.symm hx])]
      · rw [c4, b4, List.length_cons]; omega
      · rw [c6, b6, List.length_cons]; omega

/-- C99: a stake through the facade of an NFT DAO is one `SendNft` for each token, to the staking contract. Sent by the
owner in one transaction they go through exactly if the tokens are distinct and the sender's and the named user is not
restricted; all of them are then staked for the named user, and nothing else changes. -/
theorem C99_stake_nft {c : Chain} {e : Addr} {p : Parts} (h : IsDao c e p) {q : Custody.Collection.Params}
    (hq : q.me = p.at_.membership) {w : Custody.Collection.World} (hw : Custody.Collection.Reach q w)
    (hm : p.member = .nft w.st) (hcoll : p.member.nftAddr p.proxy = some q.coll) (env : Nft.NEnv)
    (hproxy : env.proxyNft = p.proxy)
    (hme : env.env.sender ≠ q.me) (hpx : env.env.sender ≠ q.proxy) (u : Addr) (ts : List Nat) (hne : ts ≠ []) :
    ∃ (l : List Adapted) (ops : List Custody.Collection.Op), adaptStake c e (.cw721 u ts) = .ok l ∧
      l.map (nftOp p.at_.membership q.coll env) = ops.map some ∧
      ((∃ w', ops.foldlM (Custody.Collection.exec q) w = .ok w') ↔
        ts.Nodup ∧ (∀ t ∈ ts, w.own.get t = some env.env.sender) ∧ env.env.restricted u = false ∧
        Nft.queryTotal w.st .never + ts.length < 2 ^ 128) ∧
      ∀ w', ops.foldlM (Custody.Collection.exec q) w = .ok w' →
        (∀ t, w'.own.get t = if t ∈ ts then some p.at_.membership else w.own.get t) ∧
        (∀ t, w'.st.stakes.get t = if t ∈ ts then some u else w.st.stakes.get t) ∧
        w'.st.claims = w.st.claims ∧ Nft.queryWeight w'.st u = Nft.queryWeight w.st u + ts.length ∧
        (∀ v, v ≠ u → Nft.queryWeight w'.st v = Nft.queryWeight w.st v) := by
  obtain ⟨s1, s2⟩ := sendAll (p := q) u env env.env.sender hme hpx ts hw
  refine ⟨ts.map (fun t => .execute q.coll (.sendNft p.at_.membership t (.stake u)) []),
    ts.map (fun t => .send env.env.sender t (.stake u) env true), ?_, ?_, ?_, ?_⟩
  · unfold adaptStake
    rw [components_dao h, ok_bind]
    simp only
    rw [memberAt_dao h, ok_bind]
    simp only
    rw [hcoll]
    rfl
  · rw [List.map_map, List.map_map]
    refine List.map_congr_left (fun t _ => ?_)
    simp [nftOp]
  · rw [s1]
    have hk : Custody.Collection.Known w env := by
      unfold Custody.Collection.Known
      rw [hm] at hcoll
      unfold Member.nftAddr Nft.nftContract at hcoll
      cases hn : w.st.nft with
      | cw721 a => exact .inl ⟨a, rfl⟩
      | ics721 a =>
        simp only [hn] at hcoll
        right
        rw [hproxy]
        intro h0
        rw [h0] at hcoll
        cases hcoll
    constructor
    · rintro ⟨a, b, c, d⟩; exact ⟨a, b, (c hne).2, d hne⟩
    · rintro ⟨a, b, c, d⟩; exact ⟨a, b, fun _ => ⟨hk, c⟩, fun _ => d⟩
  · intro w' hx
    obtain ⟨a1, a2, a3, a4, a5, _⟩ := s2 w' hx
    rw [← hq]
    exact ⟨a1, a2, a3, a4, a5⟩

example : IsDao (sampleChain (smpDao (.nft smpNft.st))) 3 (smpDao (.nft smpNft.st)) ∧
    smpColl.me = (smpDao (.nft smpNft.st)).at_.membership ∧ (smpDao (.nft smpNft.st)).member = .nft smpNft.st ∧
    (smpDao (.nft smpNft.st)).member.nftAddr (smpDao (.nft smpNft.st)).proxy = some smpColl.coll ∧
    (∀ t ∈ [101, 102], smpNft.own.get t = some 10) :=
  ⟨smp_isDao _, rfl, rfl, by decide +kernel, by decide +kernel⟩

/-- C99: an unstake request and, after the unlocking period, a claim request through the facade of an NFT DAO are one
message each. Whatever others do in between, they go through and the user owns the tokens again. -/
theorem C99_withdraw_nft {c : Chain} {e : Addr} {p : Parts} (h : IsDao c e p) {q : Custody.Collection.Params}
    {w : Custody.Collection.World} (hw : Custody.Collection.Reach q w)
    (hm : p.member = .nft w.st) (env later : Nft.NEnv) (ts : List Nat) (ops : List Custody.Collection.Op)
    (hme : env.env.sender ≠ q.me) (hcoll : env.env.sender ≠ q.coll) (hnd : ts.Nodup)
    (hst : ∀ t ∈ ts, w.st.stakes.get t = some env.env.sender) (hne : ts ≠ []) (hid : w.st.nextClaim + 1 < 2 ^ 64)
    (hf : Staking.Fits w.st.unlocking env.env.block) (hl : ∀ o ∈ ops, ¬ o.claimsOf env.env.sender)
    (hs : later.env.sender = env.env.sender)
    (hel : Staking.Elapsed w.st.unlocking env.env.block later.env.block) :
    ∃ l1 l2 o1 o2 w1 w2, adaptUnstake c e (.cw721 ts) = .ok l1 ∧ adaptClaim c e = .ok l2 ∧
      l1.map (nftOp p.at_.membership q.coll env) = [some o1] ∧
      l2.map (nftOp p.at_.membership q.coll later) = [some o2] ∧
      Custody.Collection.exec q w o1 = .ok w1 ∧
      Custody.Collection.exec q (Custody.Collection.run q w1 ops) o2 = .ok w2 ∧
      ∀ t ∈ ts, w2.own.get t = some env.env.sender := by
  obtain ⟨w1, w2, h1, h2, h3⟩ := Custody.Collection.C85_withdraw hw env later ts ops hme hcoll hnd hst hne hid hf hl hs hel
  refine ⟨[.execute p.at_.membership (.member (.nft (.unstake ts))) []],
    [.execute p.at_.membership (.member (.nft (.claim none))) []], _, _, w1, w2, ?_, ?_, ?_, ?_, h1, h2,
    fun t ht => (h3 t ht).2⟩
  · unfold adaptUnstake
    rw [components_dao h, ok_bind]
    rfl
  · unfold adaptClaim
    rw [typeOf_dao h, ok_bind, hm]
    simp only [Member.daoType]
    rw [components_dao h, ok_bind]
    rfl
  · simp [nftOp]
  · simp [nftOp]

example : smpNft.st.stakes.get 103 = some 10 ∧
    Staking.Fits smpNft.st.unlocking (smpNEnv 5 10).env.block ∧
    Staking.Elapsed smpNft.st.unlocking (smpNEnv 5 10).env.block (smpNEnv 2000 10).env.block := by decide +kernel

/-- C99: the facade refuses a stake of the wrong kind, and a claim in a multisig DAO. -/
theorem C99_refused {c : Chain} {e : Addr} {p : Parts} (h : IsDao c e p) :
    (∀ u n, (∃ l, adaptStake c e (.cw20 u n) = .ok l) ↔ p.member.daoType = .token) ∧
    (∀ u n, (∃ l, adaptStake c e (.denom u n) = .ok l) ↔ p.member.daoType = .denom) ∧
    (∀ u ts l, adaptStake c e (.cw721 u ts) = .ok l → p.member.daoType = .nft) ∧
    ((∃ l, adaptClaim c e = .ok l) ↔ p.member.daoType ≠ .multisig) := by
  refine ⟨fun u n => ?_, fun u n => ?_, fun u ts l => ?_, ?_⟩
  · unfold adaptStake
    rw [components_dao h, ok_bind]
    simp only
    rw [memberAt_dao h, ok_bind]
    cases hm : p.member with
    | staking k s => cases k <;> simp [Member.token, orFail, Member.daoType, bind, Except.bind, pure, Except.pure]
    | nft s => simp [Member.token, orFail, Member.daoType, bind, Except.bind]
    | multisig s => simp [Member.token, orFail, Member.daoType, bind, Except.bind]
  · unfold adaptStake
    rw [components_dao h, ok_bind]
    simp only
    rw [memberAt_dao h, ok_bind]
    cases hm : p.member with
    | staking k s => cases k <;> simp [Member.denom, orFail, Member.daoType, bind, Except.bind, pure, Except.pure]
    | nft s => simp [Member.denom, orFail, Member.daoType, bind, Except.bind]
    | multisig s => simp [Member.denom, orFail, Member.daoType, bind, Except.bind]
  · unfold adaptStake
    rw [components_dao h, ok_bind]
    simp only
    rw [memberAt_dao h, ok_bind]
    cases hm : p.member with
    | staking k s => cases k <;> simp [Member.nftAddr, orFail, Member.daoType, bind, Except.bind]
    | nft s => simp [Member.daoType]
    | multisig s => simp [Member.nftAddr, orFail, Member.daoType, bind, Except.bind]
  · unfold adaptClaim
    rw [typeOf_dao h, ok_bind]
    cases hm : p.member.daoType <;>
      simp [components_dao h, ok_bind, bind, Except.bind, pure, Except.pure]

example : (smpDao (.nft smpNft.st)).member.daoType = .nft ∧
    (adaptClaim (sampleChain (smpDao (.nft smpNft.st))) 3).isOk = true ∧
    (adaptStake (sampleChain (smpDao (.nft smpNft.st))) 3 (.cw20 10 5)).isOk = false := by decide +kernel

/-- C99: an unstake request is not checked: whatever its kind and whatever the kind of the DAO, it gives one message to the
membership contract. The requests to unstake tokens and coins give the same message, so that either of them unstakes in a
token DAO and in a denom DAO. -/
theorem C99_unstake_any_kind {c : Chain} {e : Addr} {p : Parts} (h : IsDao c e p) :
    (∀ r, ∃ m, adaptUnstake c e r = .ok [.execute p.at_.membership m []]) ∧
    (∀ n, adaptUnstake c e (.cw20 n) = adaptUnstake c e (.denom n)) := by
  refine ⟨fun r => ?_, fun n => rfl⟩
  unfold adaptUnstake
  rw [components_dao h, ok_bind]
  cases r <;> exact ⟨_, rfl⟩

/-- In an NFT DAO, a request to unstake coins gives a message too (that the membership contract does not know). -/
example : (smpDao (.nft smpNft.st)).member.daoType = .nft ∧
    (adaptUnstake (sampleChain (smpDao (.nft smpNft.st))) 3 (.denom 5)).isOk = true := by decide +kernel

end Verif.Facade
