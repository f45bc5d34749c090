import Verif.Factory.Props

/-!
# The factory: the token or NFT collection of a new DAO (C126)
-/

set_option linter.unusedSimpArgs false

namespace Verif.Factory
open Verif
open Verif.Staking (Duration)
open Verif.Versioning (Version Info)
open Verif.Enterprise (DaoType Components)

/-! ### Specification -/

/-- A token instantiated in a transaction. -/
structure NewToken where
  /-- who may migrate it -/
  admin : Option Addr
  code : Nat
  balances : List (Addr × Nat)
  /-- who may mint, and the cap of the supply -/
  minter : Addr × Option Nat
  /-- who may change the marketing information -/
  marketing : Addr
  /-- name, symbol, decimals and the rest of the marketing information -/
  rest : Nat
  address : Option Addr
  deriving DecidableEq

/-- An NFT collection instantiated in a transaction. -/
structure NewCollection where
  admin : Option Addr
  code : Nat
  minter : Addr
  /-- name and symbol -/
  rest : Nat
  address : Option Addr
  deriving DecidableEq

/-- The tokens instantiated in a transaction. -/
def tokens (t : Trace) : List NewToken :=
  t.filterMap (fun x => match x with
    | (.inst _ ad code (.cw20 b m k r), a) => some ⟨ad, code, b, m, k, r, a⟩
    | _ => none)

/-- The NFT collections instantiated in a transaction. -/
def collections (t : Trace) : List NewCollection :=
  t.filterMap (fun x => match x with
    | (.inst _ ad code (.cw721 m r), a) => some ⟨ad, code, m, r, a⟩
    | _ => none)

/-- What a list of balances gives to an account. -/
def given (l : List (Addr × Nat)) (a : Addr) : Nat := ((l.filter (fun x => decide (x.1 = a))).map (·.2)).sum

/-! ### Lemmas -/

theorem attestation_no_asset (m : CreateDao) (v : Info) (a : Option Addr) :
    tokens ((attestationSubs m v).map (fun x => (x, a))) = [] ∧
    collections ((attestationSubs m v).map (fun x => (x, a))) = [] := by
  unfold attestationSubs
  cases m.attestation <;> exact ⟨rfl, rfl⟩

theorem treasurySubs_no_asset (m : CreateDao) (o c : Addr) :
    tokens ((treasurySubs m o c).map (fun x => (x, none))) = [] ∧
    collections ((treasurySubs m o c).map (fun x => (x, none))) = [] := by
  unfold treasurySubs
  cases m.treasuries with
  | none => exact ⟨rfl, rfl⟩
  | some l =>
    by_cases hl : l = []
    · simp only [hl, if_true]; exact ⟨rfl, rfl⟩
    · simp only [hl, if_false]; exact ⟨rfl, rfl⟩

theorem tokens_append (t t' : Trace) : tokens (t ++ t') = tokens t ++ tokens t' := by
  unfold tokens; exact List.filterMap_append

theorem collections_append (t t' : Trace) : collections (t ++ t') = collections t ++ collections t' := by
  unfold collections; exact List.filterMap_append

theorem creation_assets (e : Env) (s : State) (m : CreateDao) (v : Info) (d : Made) (seg : Trace) (w : List (Addr × Nat)) :
    tokens (creation e s m v d seg w) = tokens seg ∧ collections (creation e s m v d seg w) = collections seg := by
  obtain ⟨a1, a2⟩ := attestation_no_asset m v d.comps.attestation
  obtain ⟨b1, b2⟩ := treasurySubs_no_asset m d.comps.outposts d.comps.controller
  unfold creation
  simp only [tokens_append, collections_append, a1, a2, b1, b2]
  constructor <;> simp [tokens, collections]

theorem seg_mem {e : Env} {s : State} {m : CreateDao} {v : Info} {d : Made} {seg : Trace} {w : List (Addr × Nat)}
    {x : Sub × Option Addr} (h : x ∈ seg) : x ∈ creation e s m v d seg w := by
  unfold creation
  simp only [List.mem_append]
  exact Or.inl (Or.inl (Or.inl (Or.inl (Or.inr h))))

theorem given_initial (bal : List (Addr × Nat)) (dao : Option Nat) (tre a : Addr) :
    given (initialBalances bal dao tre) a = given bal a + if a = tre then dao.getD 0 else 0 := by
  unfold initialBalances
  cases dao with
  | none => simp
  | some x =>
    unfold given
    simp only [List.filter_append, List.map_append, List.sum_append, Option.getD_some]
    by_cases h : tre = a
    · rw [if_pos h.symm]; simp [h]
    · rw [if_neg (fun hh => h hh.symm)]; simp [h]

theorem supply_initial (bal : List (Addr × Nat)) (dao : Option Nat) (tre : Addr) :
    sumOf (initialBalances bal dao tre) = sumOf bal + dao.getD 0 := by
  unfold initialBalances sumOf
  cases dao <;> simp

/-! ## C126 -/

/-- C126: a DAO that asks for a new token gets exactly one, from the factory's token code, and it is the token that the
membership contract accepts as stake. Each account gets the balances asked for it, and the treasury moreover the balance
asked for the DAO: all are positive. Minter and marketing owner are those asked for, or else the enterprise contract of the
DAO, which is also the one that may migrate the token. No NFT collection is made. -/
theorem C126_token {e : Env} {s s' : State} {sender : Addr} {msg : Msg} {t : Trace} (h : Tx e s sender msg s' t)
    {m : CreateDao} {version : Option Version} (hm : msg.creates = some (m, version)) {bal : List (Addr × Nat)}
    {dao : Option Nat} {mint : Option (Addr × Option Nat)} {mark : Option (Option Addr)} {rest : Nat} {u : Duration}
    (hk : m.membership = .newCw20 bal dao mint mark rest u) :
    ∃ ent c tok x code, finalizations t = [(ent, c)] ∧ tokens t = [x] ∧ collections t = [] ∧
      x.address = some tok ∧ x.admin = some ent ∧ x.code = s.config.cw20 ∧ x.rest = rest ∧
      (.inst 4 (some ent) code (.token ent tok u [c.controller]), some c.membership) ∈ t ∧
      (∀ a, given x.balances a = given bal a + if a = c.treasury then dao.getD 0 else 0) ∧
      (x.balances.map (·.2)).sum = (bal.map (·.2)).sum + dao.getD 0 ∧
      (∀ y ∈ x.balances, 0 < y.2) ∧
      (∀ y, mint = some y → x.minter = y) ∧ (mint = none → x.minter = (ent, none)) ∧
      (∀ y, mark = some (some y) → x.marketing = y) ∧ ((∀ y, mark ≠ some (some y)) → x.marketing = ent) := by
  obtain ⟨v, d, seg, w, hv, hmem, hatt, rfl, _⟩ := h.create hm
  obtain ⟨_, r2, _⟩ := creation_reads hmem
  obtain ⟨c1, c2⟩ := creation_assets e s m v d seg w
  rw [c1, c2]
  cases hmem with
  | newCw20 bal' dao' mint' mark' rest' u' hc hu hd hb hn tok =>
    rw [hk] at hc
    cases hc
    refine ⟨_, _, tok, _, v.tokenStaking, r2, rfl, rfl, rfl, rfl, rfl, rfl, ?_, fun a => given_initial _ _ _ _,
      supply_initial _ _ _, ?_, ?_, ?_, ?_, ?_⟩
    · exact seg_mem (List.mem_cons_of_mem _ List.mem_cons_self)
    · intro y hy
      simp only [initialBalances] at hy
      cases dao with
      | none => exact Nat.pos_of_ne_zero (hb y hy)
      | some x =>
        rcases List.mem_append.1 hy with hy | hy
        · exact Nat.pos_of_ne_zero (hb y hy)
        · cases List.mem_singleton.1 hy
          refine Nat.pos_of_ne_zero (fun h0 => hd ?_)
          exact congrArg some h0
    · rintro y rfl; rfl
    · rintro rfl; rfl
    · rintro y rfl; rfl
    · intro hy
      cases mark with
      | none => rfl
      | some o =>
        cases o with
        | none => rfl
        | some y => exact absurd rfl (hy y)
  | newDenom _ _ hc => rw [hk] at hc; cases hc
  | importCw20 _ _ hc => rw [hk] at hc; cases hc
  | importCw721 _ _ hc => rw [hk] at hc; cases hc
  | newCw721 _ _ _ hc => rw [hk] at hc; cases hc
  | newIcs721 _ _ _ hc => rw [hk] at hc; cases hc
  | importCw3 _ hc => rw [hk] at hc; cases hc
  | newMultisig _ hc => rw [hk] at hc; cases hc

/-- C126: a DAO that asks for a new NFT collection gets exactly one, from the factory's NFT code, and it is the collection
that the membership contract accepts as stake. Minter is the one asked for, or else the enterprise contract, which may also
migrate it. No token is made. -/
theorem C126_collection {e : Env} {s s' : State} {sender : Addr} {msg : Msg} {t : Trace} (h : Tx e s sender msg s' t)
    {m : CreateDao} {version : Option Version} (hm : msg.creates = some (m, version)) {minter : Option Addr} {rest : Nat}
    {u : Duration} (hk : m.membership = .newCw721 minter rest u) :
    ∃ ent c nft x code, finalizations t = [(ent, c)] ∧ tokens t = [] ∧ collections t = [x] ∧
      x.address = some nft ∧ x.admin = some ent ∧ x.code = s.config.cw721 ∧ x.rest = rest ∧
      (.inst 4 (some ent) code (.nft ent (.cw721 nft) u [c.controller]), some c.membership) ∈ t ∧
      (∀ y, minter = some y → x.minter = y) ∧ (minter = none → x.minter = ent) := by
  obtain ⟨v, d, seg, w, hv, hmem, hatt, rfl, _⟩ := h.create hm
  obtain ⟨_, r2, _⟩ := creation_reads hmem
  obtain ⟨c1, c2⟩ := creation_assets e s m v d seg w
  rw [c1, c2]
  cases hmem with
  | newCw721 minter' rest' u' hc hu nft =>
    rw [hk] at hc
    cases hc
    refine ⟨_, _, nft, _, v.nftStaking, r2, rfl, rfl, rfl, rfl, rfl, rfl, ?_, ?_, ?_⟩
    · exact seg_mem (List.mem_cons_of_mem _ List.mem_cons_self)
    · rintro y rfl; rfl
    · rintro rfl; rfl
  | newDenom _ _ hc => rw [hk] at hc; cases hc
  | importCw20 _ _ hc => rw [hk] at hc; cases hc
  | importCw721 _ _ hc => rw [hk] at hc; cases hc
  | newCw20 _ _ _ _ _ _ hc => rw [hk] at hc; cases hc
  | newIcs721 _ _ _ hc => rw [hk] at hc; cases hc
  | importCw3 _ hc => rw [hk] at hc; cases hc
  | newMultisig _ hc => rw [hk] at hc; cases hc

/-- C126: no other creation makes a token or a collection, and what is imported is what the membership contract accepts:
the coin, token or collection (or bridged class) named in the request, with the unlocking period asked for. -/
theorem C126_others {e : Env} {s s' : State} {sender : Addr} {msg : Msg} {t : Trace} (h : Tx e s sender msg s' t)
    {m : CreateDao} {version : Option Version} (hm : msg.creates = some (m, version))
    (h1 : ∀ bal dao mint mark rest u, m.membership ≠ .newCw20 bal dao mint mark rest u)
    (h2 : ∀ minter rest u, m.membership ≠ .newCw721 minter rest u) :
    tokens t = [] ∧ collections t = [] ∧ ∃ ent c code, finalizations t = [(ent, c)] ∧
      (∀ d u, m.membership = .newDenom d u →
        (.inst 4 (some ent) code (.denom ent d u [c.controller]), some c.membership) ∈ t) ∧
      (∀ k u, m.membership = .importCw20 k u →
        (.inst 4 (some ent) code (.token ent k u [c.controller]), some c.membership) ∈ t) ∧
      (∀ k u, m.membership = .importCw721 k u →
        (.inst 4 (some ent) code (.nft ent (.cw721 k) u [c.controller]), some c.membership) ∈ t) ∧
      (∀ p k u, m.membership = .newIcs721 p k u →
        (.inst 4 (some ent) code (.nft ent (.ics721 p k) u [c.controller]), some c.membership) ∈ t) ∧
      (∀ l, m.membership = .newMultisig l →
        (.inst 4 (some ent) code (.multisig ent l [c.controller]), some c.membership) ∈ t) := by
  obtain ⟨v, d, seg, w, hv, hmem, hatt, rfl, _⟩ := h.create hm
  obtain ⟨_, r2, _⟩ := creation_reads hmem
  obtain ⟨c1, c2⟩ := creation_assets e s m v d seg w
  rw [c1, c2]
  cases hmem with
  | newCw20 _ _ _ _ _ _ hc => exact absurd hc (h1 _ _ _ _ _ _)
  | newCw721 _ _ _ hc => exact absurd hc (h2 _ _ _)
  | newDenom x u hc hu =>
    refine ⟨rfl, rfl, _, _, v.denomStaking, r2, ?_, ?_, ?_, ?_, ?_⟩ <;> rw [hc] <;> intros <;>
      first | contradiction | (rename_i hq; cases hq; exact seg_mem List.mem_cons_self)
  | importCw20 x u hc hu a b k =>
    refine ⟨rfl, rfl, _, _, v.tokenStaking, r2, ?_, ?_, ?_, ?_, ?_⟩ <;> rw [hc] <;> intros <;>
      first | contradiction | (rename_i hq; cases hq; exact seg_mem List.mem_cons_self)
  | importCw721 x u hc hu a =>
    refine ⟨rfl, rfl, _, _, v.nftStaking, r2, ?_, ?_, ?_, ?_, ?_⟩ <;> rw [hc] <;> intros <;>
      first | contradiction | (rename_i hq; cases hq; exact seg_mem List.mem_cons_self)
  | newIcs721 p k u hc hu =>
    refine ⟨rfl, rfl, _, _, v.nftStaking, r2, ?_, ?_, ?_, ?_, ?_⟩ <;> rw [hc] <;> intros <;>
      first | contradiction | (rename_i hq; cases hq; exact seg_mem List.mem_cons_self)
  | importCw3 k hc r hr h0 =>
    refine ⟨rfl, rfl, _, _, v.multisig, r2, ?_, ?_, ?_, ?_, ?_⟩ <;> rw [hc] <;> intros <;> contradiction
  | newMultisig l hc h0 =>
    refine ⟨rfl, rfl, _, _, v.multisig, r2, ?_, ?_, ?_, ?_, ?_⟩ <;> rw [hc] <;> intros <;>
      first | contradiction | (rename_i hq; cases hq; exact seg_mem List.mem_cons_self)

/-! ### Examples -/

/-- A DAO with a new token: 30 for account 7, 20 for account 9 and 50 for the DAO; no minter. -/
def sampleToken : CreateDao :=
  ⟨0, sampleGov, none, .newCw20 [(7, 30), (9, 20)] (some 50) none none 6 (.time 200), none, none, none, none, none⟩

/-- A DAO with a new collection, minted by account 9. -/
def sampleCollection : CreateDao :=
  ⟨0, sampleGov, none, .newCw721 (some 9) 6 (.time 200), none, none, none, none, none⟩

/-- What that creation does. -/
def sampleTokenTrace : Trace :=
  [(.inst 1 (some 5) 32 (.enterprise 0 5 6 .token (Versioning.ver 1 2 0)), some 101),
   (.updateAdmin 101 101, none),
   (.inst 8 (some 101) 34 (.controller 101 .token sampleGov none none), some 102),
   (.inst 7 (some 101) 33 (.governance 102), some 103),
   (.inst 5 (some 101) 41 (.multisig 101 [] [102]), some 104),
   (.inst 9 (some 101) 35 (.outposts 101), some 105),
   (.inst 10 (some 101) 36 (.treasury 102 [] []), some 106),
   (.inst 2 (some 101) 20 (.cw20 [(7, 30), (9, 20), (106, 50)] (101, none) 101 6), some 107),
   (.inst 4 (some 101) 38 (.token 101 107 (.time 200) [102]), some 108),
   (.inst 6 (some 101) 37 (.distributor 102 101 [] none), some 109),
   (.finalizeSelf, none),
   (.finalize 101 ⟨103, 102, 106, 105, 109, 108, 104, none⟩, none)]

theorem sampleToken_tx : Tx sampleEnv sampleInit 3 (.createDao sampleToken) sampleAfter sampleTokenTrace := by
  have h : ∃ s1 subs, exec sampleEnv sampleInit 3 (.createDao sampleToken) = .ok (s1, subs) ∧
      ∃ s' t, Exec sampleEnv s1 subs s' t ∧ s' = sampleAfter ∧ t = sampleTokenTrace := by
    refine ⟨_, _, rfl, _, _, ?_, rfl, rfl⟩
    exact .inst 101 rfl (.updateAdmin (.inst 102 rfl (.inst 103 rfl .nil (.inst 104 rfl .nil (.inst 105 rfl .nil
      (.inst 106 rfl (.inst 107 rfl (.inst 108 rfl .nil .nil) (.inst 109 rfl .nil .nil))
        (.own rfl (.finalize .nil) .nil))))) .nil)) .nil
  obtain ⟨_, _, h1, _, _, h2, rfl, rfl⟩ := h
  exact .mk (by decide) h1 h2

/-- Hypotheses met: the treasury (106) gets the balance of the DAO, and the enterprise contract (101) may mint. -/
example : Tx sampleEnv sampleInit 3 (.createDao sampleToken) sampleAfter sampleTokenTrace ∧
    tokens sampleTokenTrace = [⟨some 101, 20, [(7, 30), (9, 20), (106, 50)], (101, none), 101, 6, some 107⟩] ∧
    collections sampleTokenTrace = [] := ⟨sampleToken_tx, by decide⟩

/-- What that creation does. -/
def sampleCollectionTrace : Trace :=
  [(.inst 1 (some 5) 32 (.enterprise 0 5 6 .nft (Versioning.ver 1 2 0)), some 101),
   (.updateAdmin 101 101, none),
   (.inst 8 (some 101) 34 (.controller 101 .nft sampleGov none none), some 102),
   (.inst 7 (some 101) 33 (.governance 102), some 103),
   (.inst 5 (some 101) 41 (.multisig 101 [] [102]), some 104),
   (.inst 9 (some 101) 35 (.outposts 101), some 105),
   (.inst 10 (some 101) 36 (.treasury 102 [] []), some 106),
   (.inst 3 (some 101) 21 (.cw721 9 6), some 107),
   (.inst 4 (some 101) 40 (.nft 101 (.cw721 107) (.time 200) [102]), some 108),
   (.inst 6 (some 101) 37 (.distributor 102 101 [] none), some 109),
   (.finalizeSelf, none),
   (.finalize 101 ⟨103, 102, 106, 105, 109, 108, 104, none⟩, none)]

theorem sampleCollection_tx : Tx sampleEnv sampleInit 3 (.createDao sampleCollection) sampleAfter sampleCollectionTrace := by
  have h : ∃ s1 subs, exec sampleEnv sampleInit 3 (.createDao sampleCollection) = .ok (s1, subs) ∧
      ∃ s' t, Exec sampleEnv s1 subs s' t ∧ s' = sampleAfter ∧ t = sampleCollectionTrace := by
    refine ⟨_, _, rfl, _, _, ?_, rfl, rfl⟩
    exact .inst 101 rfl (.updateAdmin (.inst 102 rfl (.inst 103 rfl .nil (.inst 104 rfl .nil (.inst 105 rfl .nil
      (.inst 106 rfl (.inst 107 rfl (.inst 108 rfl .nil .nil) (.inst 109 rfl .nil .nil))
        (.own rfl (.finalize .nil) .nil))))) .nil)) .nil
  obtain ⟨_, _, h1, _, _, h2, rfl, rfl⟩ := h
  exact .mk (by decide) h1 h2

/-- Hypotheses met: account 9 mints the collection. -/
example : Tx sampleEnv sampleInit 3 (.createDao sampleCollection) sampleAfter sampleCollectionTrace ∧
    collections sampleCollectionTrace = [⟨some 101, 21, 9, 6, some 107⟩] ∧ tokens sampleCollectionTrace = [] :=
  ⟨sampleCollection_tx, by decide⟩

/-- Hypotheses met: the sample DAO of coins. -/
example : (∀ bal dao mint mark rest u, sampleDenom.membership ≠ .newCw20 bal dao mint mark rest u) ∧
    (∀ minter rest u, sampleDenom.membership ≠ .newCw721 minter rest u) ∧
    (.inst 4 (some 101) 39 (.denom 101 4 (.time 200) [102]), some 107) ∈ sampleTrace := by
  refine ⟨?_, ?_, by decide⟩ <;> intros <;> intro h <;> cases h

end Verif.Factory
