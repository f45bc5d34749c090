import Verif.Dao.LeaveOut

/-!
# The contracts of a DAO together: claims of what was unstaked matter to nothing else (C177)
-/

set_option linter.unusedSimpArgs false

namespace Verif.Dao
open Verif
open Verif.Controller (Sub)

/-! ## Specification -/

/-- The message claims what was unstaked. -/
def Msg.isTaking : Msg → Bool
  | .mem (.staking (.claim _)) => true
  | .mem (.nft (.claim _)) => true
  | _ => false

/-- The two membership contracts are the same but for the claims of what was unstaked; the second one has given out at most as
many ids of claims. -/
inductive SameButDebts : Member → Member → Prop
  | staking {k : Staking.Kind} {s : Staking.State} {cl : Map Nat Staking.Claim} {n : Nat} (h : n ≤ s.nextClaim) :
      SameButDebts (.staking k s) (.staking k { s with claims := cl, nextClaim := n })
  | nft {s : Nft.State} {cl : Map Nat Nft.Claim} {n : Nat} (h : n ≤ s.nextClaim) :
      SameButDebts (.nft s) (.nft { s with claims := cl, nextClaim := n })
  | multisig (s : Members) : SameButDebts (.multisig s) (.multisig s)

/-- The two DAOs are the same but for the claims of what was unstaked. -/
structure SameButUnstaked (w v : World) : Prop where
  members : SameButDebts w.mem v.mem
  council : v.council = w.council
  controller : v.ctl = w.ctl
  governance : v.gov = w.gov
  rewards : v.dist = w.dist
  block : v.block = w.block
  transfers : v.log = w.log

/-! ## The membership contracts -/

theorem SameButDebts.refl : ∀ x : Member, SameButDebts x x
  | .staking _ _ => .staking (le_refl _)
  | .nft _ => .nft (le_refl _)
  | .multisig _ => .multisig _

theorem addTokenClaims_less : ∀ (l : List Staking.UserClaim) {s : Staking.State} {cl : Map Nat Staking.Claim} {n x : Nat}
    {r : Staking.State × Nat}, n ≤ s.nextClaim → l.foldlM Staking.addTokenClaim (s, x) = .ok r →
    ∃ cl' n', n' ≤ r.1.nextClaim ∧ l.foldlM Staking.addTokenClaim ({ s with claims := cl, nextClaim := n }, x) =
      .ok ({ r.1 with claims := cl', nextClaim := n' }, r.2)
  | [], s, cl, n, x, r, hn, h => by
    cases foldlM_nil_ok_iff.1 h
    exact ⟨cl, n, hn, foldlM_nil_ok_iff.2 rfl⟩
  | c :: l, s, cl, n, x, r, hn, h => by
    obtain ⟨y, h1, h2⟩ := foldlM_cons_ok_iff.1 h
    unfold Staking.addTokenClaim Staking.addClaim at h1
    simp only [bind_ok_iff, pure_ok_iff] at h1
    obtain ⟨s1, ⟨k, hk, rfl⟩, z, hz, rfl⟩ := h1
    obtain ⟨hk1, rfl⟩ := cadd64_ok.1 hk
    obtain ⟨cl', n', h3, h4⟩ := addTokenClaims_less l (cl := cl.set n ⟨n, c.user, c.amount, c.release⟩) (n := n + 1)
      (by simp only; omega) h2
    refine ⟨cl', n', h3, foldlM_cons_ok_iff.2 ⟨_, ?_, h4⟩⟩
    unfold Staking.addTokenClaim Staking.addClaim
    simp only [bind_ok_iff, pure_ok_iff]
    exact ⟨_, ⟨n + 1, cadd64_ok.2 ⟨by omega, rfl⟩, rfl⟩, z, hz, rfl⟩

theorem staking_less {k : Staking.Kind} {s : Staking.State} {e : Env} {m : Staking.Msg} {r : Staking.State × List Out}
    (hm : ∀ u, m ≠ .claim u) (h : Staking.exec k s e m = .ok r) {cl : Map Nat Staking.Claim} {n : Nat} (hn : n ≤ s.nextClaim) :
    ∃ cl' n', n' ≤ r.1.nextClaim ∧
      Staking.exec k { s with claims := cl, nextClaim := n } e m = .ok ({ r.1 with claims := cl', nextClaim := n' }, r.2) := by
  have hst : ∀ {u a}, Staking.stakeFor s e u a = .ok r → ∃ cl' n', n' ≤ r.1.nextClaim ∧
      Staking.stakeFor { s with claims := cl, nextClaim := n } e u a = .ok ({ r.1 with claims := cl', nextClaim := n' }, r.2) := by
    intro u a h
    unfold Staking.stakeFor at h ⊢
    simp only [ite_ok_iff, bind_ok_iff, pure_ok_iff] at h ⊢
    obtain ⟨h0, x, h1, y, h2, rfl⟩ := h
    exact ⟨cl, n, hn, h0, x, h1, y, h2, rfl⟩
  cases m with
  | receive a hk =>
    simp only [Staking.exec] at h ⊢
    by_cases hk' : k = .token
    · rw [if_pos hk'] at h ⊢
      unfold Staking.receive at h ⊢
      by_cases hs : e.sender ≠ s.asset
      · rw [if_pos hs] at h; cases h
      · rw [if_neg hs] at h ⊢
        cases hk with
        | stake u => exact hst h
        | addStakes l =>
          simp only [Staking.addStakes] at h ⊢
          obtain ⟨x, h1, h2⟩ := bind_ok_iff.1 h
          by_cases hx : x.2.1 ≠ a
          · simp only [hx, if_true, ne_eq, not_false_eq_true] at h2; cases h2
          · simp only [hx, if_false] at h2
            obtain ⟨y, h3, h4⟩ := bind_ok_iff.1 h2
            cases h4
            refine ⟨cl, n, hn, bind_ok_iff.2 ⟨x, h1, ?_⟩⟩
            simp only [hx, if_false]
            exact bind_ok_iff.2 ⟨y, h3, rfl⟩
        | addClaims l =>
          simp only [Staking.addTokenClaims] at h ⊢
          obtain ⟨x, h1, h2⟩ := bind_ok_iff.1 h
          obtain ⟨cl', n', h3, h4⟩ := addTokenClaims_less l (cl := cl) hn h1
          by_cases hx : x.2 ≠ a
          · simp only [hx, if_true, ne_eq, not_false_eq_true] at h2; cases h2
          · simp only [hx, if_false] at h2
            cases h2
            refine ⟨cl', n', h3, bind_ok_iff.2 ⟨_, h4, ?_⟩⟩
            simp only [hx, if_false]
            rfl
        | unknown => cases h
    · rw [if_neg hk'] at h; cases h
  | stakeDenom f u =>
    simp only [Staking.exec] at h ⊢
    by_cases hk' : k = .denom
    · rw [if_pos hk'] at h ⊢
      unfold Staking.stakeDenom at h ⊢
      split at h
      · by_cases hs : (‹Staking.Coin›).denom ≠ s.asset
        · rw [if_pos hs] at h; cases h
        · rw [if_neg hs] at h ⊢
          exact hst h
      · cases h
    · rw [if_neg hk'] at h; cases h
  | unstake a =>
    simp only [Staking.exec, Staking.unstake, Staking.addClaim, ite_ok_iff, bind_ok_iff, pure_ok_iff] at h ⊢
    obtain ⟨h0, x, h1, y, h2, z, ⟨q, hq, rfl⟩, rfl⟩ := h
    obtain ⟨hk1, rfl⟩ := cadd64_ok.1 hq
    exact ⟨_, n + 1, by simp only; omega, h0, x, h1, y, h2, _, ⟨n + 1, cadd64_ok.2 ⟨by omega, rfl⟩, rfl⟩, rfl⟩
  | claim u => exact absurd rfl (hm u)
  | updateUnlocking p =>
    simp only [Staking.exec, Staking.updateUnlocking, ite_ok_iff] at h ⊢
    obtain ⟨h0, h1⟩ := h
    cases h1
    exact ⟨cl, n, hn, h0, rfl⟩
  | addHook x =>
    simp only [Staking.exec, bind_ok_iff, pure_ok_iff] at h ⊢
    obtain ⟨y, h1, rfl⟩ := h
    exact ⟨cl, n, hn, y, h1, rfl⟩
  | removeHook x =>
    simp only [Staking.exec, bind_ok_iff, pure_ok_iff] at h ⊢
    obtain ⟨y, h1, rfl⟩ := h
    exact ⟨cl, n, hn, y, h1, rfl⟩

theorem nft_less {s : Nft.State} {e : Nft.NEnv} {m : Nft.Msg} {r : Nft.State × List Out}
    (hm : ∀ u, m ≠ .claim u) (h : Nft.exec s e m = .ok r) {cl : Map Nat Nft.Claim} {n : Nat} (hn : n ≤ s.nextClaim) :
    ∃ cl' n', n' ≤ r.1.nextClaim ∧
      Nft.exec { s with claims := cl, nextClaim := n } e m = .ok ({ r.1 with claims := cl', nextClaim := n' }, r.2) := by
  cases m with
  | receiveNft t hk =>
    simp only [Nft.exec, Nft.receiveNft] at h ⊢
    have hc : Nft.nftContract { s with claims := cl, nextClaim := n } e.proxyNft = Nft.nftContract s e.proxyNft := rfl
    rw [hc]
    cases hx : Nft.nftContract s e.proxyNft with
    | none => rw [hx] at h; cases h
    | some x =>
      rw [hx] at h
      simp only at h ⊢
      by_cases hs : e.env.sender ≠ x
      · rw [if_pos hs] at h; cases h
      · rw [if_neg hs] at h
        simp only [hs, if_false]
        cases hk with
        | stake u =>
          simp only [Nft.stakeNft, ite_ok_iff, bind_ok_iff, pure_ok_iff] at h ⊢
          obtain ⟨h0, h1, y, h2, z, h3, rfl⟩ := h
          exact ⟨cl, n, hn, h0, h1, y, h2, z, h3, rfl⟩
        | addClaim u ra =>
          simp only [Nft.addNftClaim, Nft.addClaim, bind_ok_iff, pure_ok_iff] at h ⊢
          obtain ⟨y, ⟨q, hq, rfl⟩, rfl⟩ := h
          obtain ⟨hk1, rfl⟩ := cadd64_ok.1 hq
          exact ⟨_, n + 1, by simp only; omega, _, ⟨n + 1, cadd64_ok.2 ⟨by omega, rfl⟩, rfl⟩, rfl⟩
        | unknown => cases h
  | unstake l =>
    simp only [Nft.exec, Nft.unstake, Nft.addClaim, bind_ok_iff, pure_ok_iff] at h ⊢
    obtain ⟨x, h1, y, h2, z, h3, p, ⟨q, hq, rfl⟩, rfl⟩ := h
    obtain ⟨hk1, rfl⟩ := cadd64_ok.1 hq
    exact ⟨_, n + 1, by simp only; omega, x, h1, y, h2, z, h3, _, ⟨n + 1, cadd64_ok.2 ⟨by omega, rfl⟩, rfl⟩, rfl⟩
  | claim u => exact absurd rfl (hm u)
  | updateUnlocking p =>
    simp only [Nft.exec, Nft.updateUnlocking, ite_ok_iff] at h ⊢
    obtain ⟨h0, h1⟩ := h
    cases h1
    exact ⟨cl, n, hn, h0, rfl⟩
  | addHook x =>
    simp only [Nft.exec, bind_ok_iff, pure_ok_iff] at h ⊢
    obtain ⟨y, h1, rfl⟩ := h
    exact ⟨cl, n, hn, y, h1, rfl⟩
  | removeHook x =>
    simp only [Nft.exec, bind_ok_iff, pure_ok_iff] at h ⊢
    obtain ⟨y, h1, rfl⟩ := h
    exact ⟨cl, n, hn, y, h1, rfl⟩

theorem member_less {x y : Member} (hxy : SameButDebts x y) {e : Nft.NEnv} {m : MemberMsg} {r : Member × List Out}
    (hm : (Msg.mem m).isTaking = false) (h : x.exec e m = .ok r) :
    ∃ y1, y.exec e m = .ok (y1, r.2) ∧ SameButDebts r.1 y1 := by
  cases hxy with
  | @staking k s cl n hn =>
    cases m with
    | staking m =>
      simp only [Member.exec, bind_ok_iff, pure_ok_iff] at h ⊢
      obtain ⟨q, h1, rfl⟩ := h
      obtain ⟨cl', n', h2, h3⟩ := staking_less (fun u hu => by subst hu; cases hm) h1 (cl := cl) hn
      exact ⟨_, ⟨_, h3, rfl⟩, .staking h2⟩
    | _ => cases h
  | @nft s cl n hn =>
    cases m with
    | nft m =>
      simp only [Member.exec, bind_ok_iff, pure_ok_iff] at h ⊢
      obtain ⟨q, h1, rfl⟩ := h
      obtain ⟨cl', n', h2, h3⟩ := nft_less (fun u hu => by subst hu; cases hm) h1 (cl := cl) hn
      exact ⟨_, ⟨_, h3, rfl⟩, .nft h2⟩
    | _ => cases h
  | multisig s => exact ⟨r.1, h, .refl _⟩

/-- A claim changes the claims only, and pays. -/
theorem takeClaims_mem : ∀ (l : List Staking.Claim) {s : Staking.State} {x : Nat} {r : Staking.State × Nat},
    l.foldlM Staking.takeClaim (s, x) = .ok r → r.1 = { s with claims := r.1.claims }
  | [], s, x, r, h => by cases foldlM_nil_ok_iff.1 h; rfl
  | c :: l, s, x, r, h => by
    obtain ⟨y, h1, h2⟩ := foldlM_cons_ok_iff.1 h
    unfold Staking.takeClaim at h1
    obtain ⟨z, _, h1⟩ := bind_ok_iff.1 h1
    cases h1
    have := takeClaims_mem l h2
    exact this

theorem member_take {x y : Member} (hxy : SameButDebts x y) {e : Nft.NEnv} {m : MemberMsg} {r : Member × List Out}
    (hm : (Msg.mem m).isTaking = true) (h : x.exec e m = .ok r) :
    SameButDebts r.1 y ∧ ∀ o ∈ r.2, ∀ a l, o ≠ .notify a l := by
  cases hxy with
  | @staking k s cl n hn =>
    cases m with
    | staking m =>
      simp only [Member.exec, bind_ok_iff, pure_ok_iff] at h
      obtain ⟨q, h1, rfl⟩ := h
      cases m with
      | claim u =>
        simp only [Staking.exec, Staking.claim, ite_ok_iff, bind_ok_iff, pure_ok_iff] at h1
        obtain ⟨_, z, h2, rfl⟩ := h1
        have hz := takeClaims_mem _ h2
        refine ⟨?_, by simp⟩
        simp only
        have : ({ s with claims := cl, nextClaim := n } : Staking.State) = { z.1 with claims := cl, nextClaim := n } := by
          rw [hz]
        rw [this]
        exact .staking (by rw [hz]; exact hn)
      | _ => cases hm
    | _ => cases h
  | @nft s cl n hn =>
    cases m with
    | nft m =>
      simp only [Member.exec, bind_ok_iff, pure_ok_iff] at h
      obtain ⟨q, h1, rfl⟩ := h
      cases m with
      | claim u =>
        simp only [Nft.exec, Nft.claim] at h1
        split at h1
        · cases h1
        · obtain ⟨_, h2⟩ := ite_ok_iff.1 h1
          cases h2
          refine ⟨SameButDebts.nft (s := { s with claims := _ }) hn, ?_⟩
          intro o ho a l
          obtain ⟨_, _, rfl⟩ := List.mem_map.1 ho
          simp
      | _ => cases hm
    | _ => cases h
  | multisig s =>
    cases m with
    | multisig m => cases hm
    | _ => cases h

/-! ## The DAO -/

theorem env_less {c : Cfg} {e : Ext} {w : World} {y : Member} (h : SameButDebts w.mem y) :
    c.env e { w with mem := y } = c.env e w := by
  unfold Cfg.env
  generalize hx : w.mem = x at h
  cases h with
  | @staking k s cl n hn => cases k <;> rfl
  | nft hn => rfl
  | multisig s => rfl

theorem item_less {c : Cfg} {x y : Member} (h : SameButDebts x y) : toItem c y = toItem c x := by
  funext s
  cases h <;> cases s <;> rfl

theorem deliver_less {c : Cfg} {e : Ext} {a : Addr} : ∀ (outs : List Out) {w w1 : World} {items : List Item} {y : Member},
    SameButDebts w.mem y → deliver c e a w outs = .ok (w1, items) →
    deliver c e a { w with mem := y } outs = .ok ({ w1 with mem := y }, items) ∧ w1.mem = w.mem
  | [], w, w1, items, y, hs, h => by
    cases h
    exact ⟨rfl, rfl⟩
  | .notify x l :: t, w, w1, items, y, hs, h => by
    unfold deliver at h ⊢
    by_cases hx : x = c.self
    · rw [if_pos hx] at h ⊢
      rw [env_less hs]
      simp only [bind_ok_iff] at h ⊢
      obtain ⟨z, hz, d1, hd, h3⟩ := h
      obtain ⟨k1, k2⟩ := deliver_less t (w := { w with gov := z.1, dist := d1 }) hs h3
      exact ⟨⟨z, hz, d1, hd, k1⟩, k2⟩
    · rw [if_neg hx] at h ⊢
      cases h
      exact ⟨rfl, rfl⟩
  | .pay _ _ :: t, w, w1, items, y, hs, h => by cases h; exact ⟨rfl, rfl⟩
  | .sendNft _ _ :: t, w, w1, items, y, hs, h => by cases h; exact ⟨rfl, rfl⟩

theorem SameButUnstaked.eq {w v : World} (h : SameButUnstaked w v) : v = { w with mem := v.mem } := by
  obtain ⟨_, h2, h3, h4, h5, h6, h7⟩ := h
  cases v
  simp only at h2 h3 h4 h5 h6 h7
  subst h2 h3 h4 h5 h6 h7
  rfl

theorem sameButUnstaked_of {w : World} {y : Member} (h : SameButDebts w.mem y) : SameButUnstaked w { w with mem := y } :=
  ⟨h, rfl, rfl, rfl, rfl, rfl, rfl⟩

theorem handle_less {c : Cfg} {e : Ext} {w v w1 : World} {a : Addr} {m : Msg} {subs : List Item} (h : SameButUnstaked w v)
    (hm : m.isTaking = false) (hr : handle c e w a m = .ok (w1, subs)) :
    ∃ v1, handle c e v a m = .ok (v1, subs) ∧ SameButUnstaked w1 v1 := by
  obtain ⟨y, hy, rfl⟩ : ∃ y, SameButDebts w.mem y ∧ v = { w with mem := y } := ⟨_, h.members, h.eq⟩
  cases m with
  | ctl m =>
    simp only [handle, bind_ok_iff, pure_ok_iff] at hr ⊢
    obtain ⟨r, h1, h2⟩ := hr
    cases h2
    rw [env_less hy, item_less hy]
    exact ⟨_, ⟨r, h1, rfl⟩, hy, rfl, rfl, rfl, rfl, rfl, rfl⟩
  | gov m =>
    simp only [handle, bind_ok_iff, pure_ok_iff] at hr ⊢
    obtain ⟨g, h1, h2⟩ := hr
    cases h2
    exact ⟨_, ⟨g, h1, rfl⟩, hy, rfl, rfl, rfl, rfl, rfl, rfl⟩
  | dist m =>
    simp only [handle, bind_ok_iff, pure_ok_iff] at hr ⊢
    obtain ⟨r, h1, h2⟩ := hr
    cases h2
    exact ⟨_, ⟨r, h1, rfl⟩, hy, rfl, rfl, rfl, rfl, rfl, rfl⟩
  | mem m =>
    simp only [handle, bind_ok_iff] at hr ⊢
    obtain ⟨x, h1, h2⟩ := hr
    obtain ⟨y1, k1, k2⟩ := member_less hy hm h1
    obtain ⟨k3, k4⟩ := deliver_less _ (w := { w with mem := x.1 }) k2 h2
    exact ⟨_, ⟨_, k1, k3⟩, sameButUnstaked_of (by rw [k4]; exact k2)⟩
  | council m =>
    simp only [handle, bind_ok_iff] at hr ⊢
    obtain ⟨x, h1, h2⟩ := hr
    obtain ⟨k3, k4⟩ := deliver_less _ (w := { w with council := x.1 }) hy h2
    exact ⟨_, ⟨_, h1, k3⟩, sameButUnstaked_of (by rw [k4]; exact hy)⟩

theorem handle_take {c : Cfg} {e : Ext} {w v w1 : World} {a : Addr} {m : Msg} {subs : List Item} (h : SameButUnstaked w v)
    (hm : m.isTaking = true) (hr : handle c e w a m = .ok (w1, subs)) : SameButUnstaked w1 v ∧ ∀ i ∈ subs, i = .other := by
  cases m with
  | mem m =>
    simp only [handle, bind_ok_iff] at hr
    obtain ⟨x, h1, h2⟩ := hr
    obtain ⟨k1, k2⟩ := member_take h.members hm h1
    have hd : deliver c e c.comps.membership { w with mem := x.1 } x.2 =
        .ok ({ w with mem := x.1 }, x.2.map (outItem c c.comps.membership)) := by
      cases hx : x.2 with
      | nil => rfl
      | cons o t =>
        cases o with
        | notify b l => exact absurd rfl (k2 _ (by rw [hx]; simp) b l)
        | pay _ _ => rfl
        | sendNft _ _ => rfl
    rw [hd] at h2
    cases h2
    refine ⟨⟨k1, h.council, h.controller, h.governance, h.rewards, h.block, h.transfers⟩, ?_⟩
    intro i hi
    obtain ⟨o, ho, rfl⟩ := List.mem_map.1 hi
    cases o with
    | notify b l => exact absurd rfl (k2 _ ho b l)
    | pay _ _ => rfl
    | sendNft _ _ => rfl
  | _ => cases hm

theorem spare_claims (c : Cfg) : Spare c Msg.isTaking SameButUnstaked where
  sim _ h hm hr := handle_less h hm hr
  drop _ h hm hr := handle_take h hm hr
  actions _ := rfl
  count h := by rw [h.governance]
  same h := h.block
  log h x := ⟨h.members, h.council, h.controller, h.governance, h.rewards, h.block, by simp only; rw [h.transfers]⟩
  block h b := ⟨h.members, h.council, h.controller, h.governance, h.rewards, rfl, h.transfers⟩

/-! ## C177 -/

/-- **Claims of what was unstaked matter to nothing else.** From a history of a DAO leave out the claims, and begin with other
claims outstanding. Then all other messages are handled as before, with what they lead to, and in the end everything is the
same but for the claims outstanding. -/
theorem C177_claims {c : Cfg} (hw : c.Wf) (ht : c.Tame) {w v w' : World} {t : List Entry} (hr : Reachable c w)
    (hwv : SameButUnstaked w v) (h : History c w w' t) (hs : ∀ x ∈ t, x.msg.isTaking = true → x.sender ≠ c.self) :
    ∃ v' t', History c v v' t' ∧ t'.map Entry.label = (t.filter (fun x => !x.msg.isTaking)).map Entry.label ∧
      SameButUnstaked w' v' :=
  h.without (spare_claims c) hw ht hr hwv hs

/-- Nor do they matter to what is answered, but for the claims: the state of every proposal, votes, weights and totals at any time,
and rewards. -/
theorem C177_answers {c : Cfg} {w v : World} (h : SameButUnstaked w v) (e : Ext) :
    (∀ id, Controller.queryProposal (c.env e v) v.ctl v.gov id = Controller.queryProposal (c.env e w) w.ctl w.gov id) ∧
    (∀ id u, Gov.queryPollVoter v.gov id u = Gov.queryPollVoter w.gov id u) ∧
    (∀ u, v.mem.weight u = w.mem.weight u) ∧ (∀ t, v.mem.total t = w.mem.total t) ∧
    ∀ u ds ts, Distributor.queryRewards v.dist u ds ts = Distributor.queryRewards w.dist u ds ts := by
  obtain ⟨y, hy, rfl⟩ : ∃ y, SameButDebts w.mem y ∧ v = { w with mem := y } := ⟨_, h.members, h.eq⟩
  refine ⟨fun id => by rw [env_less hy], fun _ _ => rfl, ?_, ?_, fun _ _ _ => rfl⟩
  · intro u
    generalize hx : w.mem = x at hy
    cases hy <;> rfl
  · intro t
    generalize hx : w.mem = x at hy
    cases hy <;> rfl

/-- The ids of claims given out. -/
def idsGiven (w : World) : Nat :=
  match w.mem with
  | .staking _ s => s.nextClaim
  | .nft s => s.nextClaim
  | .multisig _ => 0

/-- So what follows on stakes and unstakes within a block depends on where they end up only, too (see C176). -/
theorem C177_after_moves {c : Cfg} (hw : c.Wf) (ht : c.Tame) {w w1 w2 w' : World} (h : Reachable c w) {k : Staking.Kind}
    {s : Staking.State} (hm : w.mem = .staking k s) (room : w.gov.pollCount + 1 < 2 ^ 64) {l l' : List Signed}
    (hl : OnlyMoves c l) (hl' : OnlyMoves c l') (h1 : Sequel c w l w1) (h2 : Sequel c w l' w2)
    (hc : ∀ u, concerned l u ↔ concerned l' u) (hsame : ∀ u, w1.mem.weight u = w2.mem.weight u)
    (hids : idsGiven w2 ≤ idsGiven w1) {t : List Entry} (hh : History c w1 w' t)
    (hs : ∀ x ∈ t, x.msg.isTaking = true → x.sender ≠ c.self) :
    ∃ v' t', History c w2 v' t' ∧ t'.map Entry.label = (t.filter (fun x => !x.msg.isTaking)).map Entry.label ∧
      SameButUnstaked w' v' := by
  have hb := C176_net hw ht h hm room hl hl' h1 h2 hc hsame
  have r1 := (h1.fixed hw ht h hm room hl.valid).1
  refine C177_claims hw ht r1 ?_ hh hs
  refine ⟨?_, hb.rest.1.symm, hb.ctl.symm, hb.polls.symm, hb.rewards.symm, hb.rest.2.1.symm, hb.rest.2.2.symm⟩
  obtain ⟨k', s1, s2, e1, e2, e3, e4, e5⟩ := hb.stakes
  unfold idsGiven at hids
  rw [e1, e2] at hids ⊢
  have : s2 = { s1 with claims := s2.claims, nextClaim := s2.nextClaim } := by
    cases s1; cases s2
    simp only at e3 e4 e5
    rw [e3, e4, e5]
  rw [this]
  exact .staking hids

/-- The example of `C176_net`: two claims come from the first sequence and one from the second. -/
example : ((inTurn sampleCfg (sampleRun fewVotes) [stakes 10 7, unstakes 10 4, unstakes 12 4]).map idsGiven,
    (inTurn sampleCfg (sampleRun fewVotes) [unstakes 12 6, stakes 10 3, stakes 12 2]).map idsGiven) = (some 2, some 1) := by
  decide +kernel

/-- Three unstakes and two claims, between votes and the execution of a proposal. -/
def takenAway : List Step :=
  [stake 10 60, stake 11 40, unstake 10 10, at_ 2, propose 12 [.updateGovConfig sampleChange, .executeMsgs [1, 2]], at_ 3,
   vote 10 1 .yes, unstake 10 5, at_ 5, vote 11 1 .no, unstake 11 1,
   .tx sampleExt 10 (.mem (.staking (.claim none))), at_ 40, execute 13 1, .tx sampleExt 10 (.mem (.staking (.claim none)))]

example : ∃ w' t, Reachable sampleCfg sampleGenesis ∧ SameButUnstaked sampleGenesis sampleGenesis ∧
    History sampleCfg sampleGenesis w' t ∧ (∀ x ∈ t, x.msg.isTaking = true → x.sender ≠ sampleCfg.self) ∧
    (t.filter (fun x => x.msg.isTaking)).length = 2 ∧ (∃ m, outcome w' 1 = some m) := by
  have hs : ((traceAll sampleCfg sampleGenesis takenAway).map (fun r =>
        r.2.all (fun x => ! x.msg.isTaking || decide (x.sender ≠ sampleCfg.self)) &&
          decide ((r.2.filter (fun x => x.msg.isTaking)).length = 2 ∧ (outcome r.1 1).isSome))) = some true := by decide +kernel
  obtain ⟨⟨w', t⟩, h1, h2⟩ := Option.map_eq_some_iff.1 hs
  simp only [Bool.and_eq_true, decide_eq_true_eq] at h2
  refine ⟨w', t, .init sample_genesis, ⟨.refl _, rfl, rfl, rfl, rfl, rfl, rfl⟩, traceAll_history _ .start h1, fun x hx hm => ?_,
    h2.2.1, Option.isSome_iff_exists.1 h2.2.2⟩
  have := List.all_eq_true.1 h2.1 x hx
  rw [hm] at this
  exact of_decide_eq_true this

end Verif.Dao
