import Verif.Treasury.Lemmas

set_option linter.unusedSimpArgs false

/-!
# Treasury: properties C61, C62
-/

namespace Verif.Treasury
open Verif

/-! ## C61 Only the admin controls the treasury -/

/-- C61: a message from anyone but the admin is refused, changes nothing and sends nothing. -/
theorem C61_only_admin (s : State) (sender : Addr) (m : Msg) (h : sender ≠ s.admin) :
    exec s sender m = .error .unauthorized := by
  cases m <;> simp [exec, setAdmin, updateAssets, updateNfts, spend, distribute, cosmosMsgs, h]

/-- Everything a history sends. -/
def sent (s : State) : List Call → List Out
  | [] => []
  | c :: t => (step s c).2 ++ sent (step s c).1 t

/-- C61, over histories: whatever others send, in any number, the treasury stays as it is and sends nothing. -/
theorem C61_history (s : State) (h : List Call) (hs : ∀ c ∈ h, c.sender ≠ s.admin) :
    run s h = s ∧ sent s h = [] := by
  induction h with
  | nil => exact ⟨rfl, rfl⟩
  | cons c t ih =>
    have h1 : step s c = (s, []) := by
      unfold step
      rw [C61_only_admin s c.sender c.msg (hs c List.mem_cons_self)]
    obtain ⟨h2, h3⟩ := ih (fun c hc => hs c (List.mem_cons_of_mem _ hc))
    unfold run sent
    rw [h1]
    exact ⟨h2, h3⟩

theorem spend_moved (to r : Addr) (i : AssetInfo) : ∀ (l : List Asset) (outs : List Out),
    l.mapM (transferMsg to) = Except.ok outs →
      (∀ d, (outs.map (movedNative r d)).sum = if r = to then amountOf (.native d) l else 0) ∧
      (∀ t, (outs.map (movedCw20 r t)).sum = if r = to then amountOf (.cw20 t) l else 0) ∧
      (∀ a ∈ l, a.info.isCw1155 = false) ∧ (∀ m, Out.cosmos m ∉ outs)
  | [], outs, h => by
    cases h
    simp [amountOf]
  | a :: l, outs, h => by
    rw [List.mapM_cons] at h
    obtain ⟨o, h1, h2⟩ := bind_ok_iff.1 h
    obtain ⟨os, h3, h4⟩ := bind_ok_iff.1 h2
    cases h4
    obtain ⟨i1, i2, i3, i4⟩ := spend_moved to r i l os h3
    obtain ⟨info, amount⟩ := a
    cases info with
    | native d =>
      cases h1
      refine ⟨fun d' => ?_, fun t => ?_, fun b hb => ?_, fun m hm => ?_⟩
      · simp only [List.map_cons, List.sum_cons, i1, movedNative, amountOf, AssetInfo.native.injEq]
        by_cases hr : to = r <;> by_cases hd : d = d' <;> simp [hr, hd, Ne.symm, eq_comm (a := r)]
      · simp only [List.map_cons, List.sum_cons, i2, movedCw20, amountOf]
        simp
      · rcases List.mem_cons.1 hb with rfl | hb
        · rfl
        · exact i3 b hb
      · rcases List.mem_cons.1 hm with hm | hm
        · cases hm
        · exact i4 m hm
    | cw20 d =>
      cases h1
      refine ⟨fun d' => ?_, fun t => ?_, fun b hb => ?_, fun m hm => ?_⟩
      · simp only [List.map_cons, List.sum_cons, i1, movedNative, amountOf]
        simp
      · simp only [List.map_cons, List.sum_cons, i2, movedCw20, amountOf, AssetInfo.cw20.injEq]
        by_cases hr : to = r <;> by_cases hd : d = t <;> simp [hr, hd, Ne.symm, eq_comm (a := r)]
      · rcases List.mem_cons.1 hb with rfl | hb
        · rfl
        · exact i3 b hb
      · rcases List.mem_cons.1 hm with hm | hm
        · cases hm
        · exact i4 m hm
    | cw1155 x y => cases h1

/-- C61, what the admin can spend: an accepted spend keeps the state and moves to the recipient exactly the
amounts asked for, of every native denom and every token, and nothing to anyone else; it runs no other message. -/
theorem C61_spend (s s' : State) (sender to : Addr) (assets : List Asset) (outs : List Out)
    (h : exec s sender (.spend to assets) = .ok (s', outs)) :
    sender = s.admin ∧ s' = s ∧
    (∀ r d, (outs.map (movedNative r d)).sum = if r = to then amountOf (.native d) assets else 0) ∧
    (∀ r t, (outs.map (movedCw20 r t)).sum = if r = to then amountOf (.cw20 t) assets else 0) ∧
    (∀ m, Out.cosmos m ∉ outs) := by
  simp only [exec, spend] at h
  split at h
  · cases h
  · rename_i hs
    obtain ⟨os, h1, h2⟩ := bind_ok_iff.1 h
    cases h2
    refine ⟨not_not.1 hs, rfl, fun r d => (spend_moved to r (.native d) assets outs h1).1 d, fun r t =>
      (spend_moved to r (.cw20 t) assets outs h1).2.1 t, (spend_moved to 0 (.native 0) assets outs h1).2.2.2⟩

/-- C61: a spend by the admin is accepted exactly when none of the assets is a cw1155 one. -/
theorem C61_spend_accepted (s : State) (to : Addr) (assets : List Asset) :
    (∃ r, exec s s.admin (.spend to assets) = .ok r) ↔ ∀ a ∈ assets, a.info.isCw1155 = false := by
  simp only [exec, spend, ne_eq, not_true_eq_false, if_false]
  constructor
  · rintro ⟨r, h⟩
    obtain ⟨os, h1, h2⟩ := bind_ok_iff.1 h
    exact (spend_moved to 0 (.native 0) assets os h1).2.2.1
  · intro h
    have hm : ∀ (l : List Asset), (∀ a ∈ l, a.info.isCw1155 = false) →
        ∃ os, l.mapM (transferMsg to) = Except.ok os := by
      intro l
      induction l with
      | nil => exact fun _ => ⟨[], rfl⟩
      | cons a l ih =>
        intro hl
        obtain ⟨os, hos⟩ := ih (fun b hb => hl b (List.mem_cons_of_mem _ hb))
        have ha := hl a List.mem_cons_self
        have : ∃ o, transferMsg to a = .ok o := by
          obtain ⟨info, amount⟩ := a
          cases info with
          | native d => exact ⟨_, rfl⟩
          | cw20 d => exact ⟨_, rfl⟩
          | cw1155 x i => cases ha
        obtain ⟨o, ho⟩ := this
        exact ⟨o :: os, by rw [List.mapM_cons]; exact bind_ok_iff.2 ⟨o, ho, bind_ok_iff.2 ⟨os, hos, rfl⟩⟩⟩
    obtain ⟨os, hos⟩ := hm assets h
    exact ⟨_, bind_ok_iff.2 ⟨os, hos, rfl⟩⟩

theorem distribute_fold (to r : Addr) : ∀ (l : List Asset) (x y : List (Nat × Nat) × List Out),
    l.foldlM (distributeOne to) x = Except.ok y →
      (∀ d, (y.1.map (fun c => if c.1 = d then c.2 else 0)).sum =
        (x.1.map (fun c => if c.1 = d then c.2 else 0)).sum + amountOf (.native d) l) ∧
      (∀ t, (y.2.map (movedCw20 r t)).sum = (x.2.map (movedCw20 r t)).sum + if r = to then amountOf (.cw20 t) l else 0) ∧
      (∀ d, (y.2.map (movedNative r d)).sum = (x.2.map (movedNative r d)).sum) ∧
      (∀ m, Out.cosmos m ∈ y.2 → Out.cosmos m ∈ x.2)
  | [], x, y, h => by
    rw [foldlM_nil_ok_iff] at h
    subst h
    simp [amountOf]
  | a :: l, x, y, h => by
    rw [foldlM_cons_ok_iff] at h
    obtain ⟨z, h1, h2⟩ := h
    obtain ⟨i1, i2, i3, i4⟩ := distribute_fold to r l z y h2
    obtain ⟨info, amount⟩ := a
    cases info with
    | native d =>
      cases h1
      refine ⟨fun d' => ?_, fun t => ?_, fun d' => ?_, fun m hm => by simpa using i4 m hm⟩
      · rw [i1]
        simp only [List.map_append, List.sum_append, List.map_cons, List.map_nil, List.sum_cons, List.sum_nil, amountOf,
          AssetInfo.native.injEq]
        omega
      · rw [i2]
        simp [amountOf]
      · rw [i3]
    | cw20 d =>
      cases h1
      refine ⟨fun d' => ?_, fun t => ?_, fun d' => ?_, fun m hm => by simpa using i4 m hm⟩
      · rw [i1]
        simp [amountOf]
      · rw [i2]
        simp only [List.map_append, List.sum_append, List.map_cons, List.map_nil, List.sum_cons, List.sum_nil, amountOf,
          AssetInfo.cw20.injEq, movedCw20]
        by_cases hr : to = r <;> by_cases hd : d = t <;> simp [hr, hd, Ne.symm, eq_comm (a := r)]
        omega
      · rw [i3]
        simp [movedNative]
    | cw1155 x y => cases h1

/-- C61, what the admin can distribute: an accepted distribution keeps the state and moves to the named distributor
exactly the amounts asked for, and nothing to anyone else; it runs no other message. -/
theorem C61_distribute (s s' : State) (sender to : Addr) (funds : List Asset) (outs : List Out)
    (h : exec s sender (.distribute to funds) = .ok (s', outs)) :
    sender = s.admin ∧ s' = s ∧
    (∀ r d, (outs.map (movedNative r d)).sum = if r = to then amountOf (.native d) funds else 0) ∧
    (∀ r t, (outs.map (movedCw20 r t)).sum = if r = to then amountOf (.cw20 t) funds else 0) ∧
    (∀ m, Out.cosmos m ∉ outs) := by
  simp only [exec, distribute] at h
  split at h
  · cases h
  · rename_i hs
    obtain ⟨x, h1, h2⟩ := bind_ok_iff.1 h
    have h3 := distribute_fold to
    cases h2
    refine ⟨not_not.1 hs, rfl, fun r d => ?_, fun r t => ?_, fun m hm => ?_⟩
    · obtain ⟨i1, i2, i3, _⟩ := distribute_fold to r funds _ x h1
      have i1 := i1 d
      have i3 := i3 d
      simp only [List.map_nil, List.sum_nil, Nat.zero_add] at i1 i3
      split
      · rename_i he
        rw [i3]
        rw [List.isEmpty_iff.1 he] at i1
        simp only [List.map_nil, List.sum_nil] at i1
        rw [← i1]
        simp
      · simp only [List.map_append, List.sum_append, i3, List.map_cons, List.map_nil, List.sum_cons, List.sum_nil,
          movedNative, i1, Nat.zero_add, Nat.add_zero]
        by_cases hr : to = r <;> simp [hr, eq_comm (a := r)]
    · obtain ⟨i1, i2, i3, _⟩ := distribute_fold to r funds _ x h1
      have i2 := i2 t
      simp only [List.map_nil, List.sum_nil, Nat.zero_add] at i2
      split
      · exact i2
      · simp only [List.map_append, List.sum_append, i2, List.map_cons, List.map_nil, List.sum_cons, List.sum_nil,
          movedCw20, Nat.add_zero]
    · have i4 := (distribute_fold to 0 funds _ x h1).2.2.2 m
      split at hm
      · simpa using i4 hm
      · rcases List.mem_append.1 hm with hm | hm
        · simpa using i4 hm
        · simp at hm

/-- C61: a distribution by the admin is accepted exactly when none of the assets is a cw1155 one. -/
theorem C61_distribute_accepted (s : State) (to : Addr) (funds : List Asset) :
    (∃ r, exec s s.admin (.distribute to funds) = .ok r) ↔ ∀ a ∈ funds, a.info.isCw1155 = false := by
  simp only [exec, distribute, ne_eq, not_true_eq_false, if_false]
  have hm : ∀ (l : List Asset) (x : List (Nat × Nat) × List Out),
      (∃ y, l.foldlM (distributeOne to) x = Except.ok y) ↔ ∀ a ∈ l, a.info.isCw1155 = false := by
    intro l
    induction l with
    | nil => exact fun x => ⟨fun _ => by simp, fun _ => ⟨x, rfl⟩⟩
    | cons a l ih =>
      intro x
      obtain ⟨info, amount⟩ := a
      simp only [foldlM_cons_ok_iff, List.forall_mem_cons]
      cases info with
      | native d =>
        rw [← ih (x.1 ++ [(d, amount)], x.2)]
        constructor
        · rintro ⟨y, z, hz, hy⟩
          cases hz
          exact ⟨rfl, y, hy⟩
        · rintro ⟨_, y, hy⟩
          exact ⟨y, _, rfl, hy⟩
      | cw20 d =>
        rw [← ih (x.1, x.2 ++ [.cw20SendDistribute d to amount])]
        constructor
        · rintro ⟨y, z, hz, hy⟩
          cases hz
          exact ⟨rfl, y, hy⟩
        · rintro ⟨_, y, hy⟩
          exact ⟨y, _, rfl, hy⟩
      | cw1155 u v =>
        constructor
        · rintro ⟨y, z, hz, hy⟩
          cases hz
        · rintro ⟨h, _⟩
          cases h
  rw [← hm funds ([], [])]
  constructor
  · rintro ⟨r, h⟩
    obtain ⟨x, h1, _⟩ := bind_ok_iff.1 h
    exact ⟨x, h1⟩
  · rintro ⟨x, h1⟩
    exact ⟨_, bind_ok_iff.2 ⟨x, h1, rfl⟩⟩

/-- C61, handing over: the admin, and only the admin, can name another admin; nothing else changes, nothing is sent,
and from then on the former admin is refused. -/
theorem C61_set_admin (s : State) (new : Addr) :
    ∃ s', exec s s.admin (.setAdmin new) = .ok (s', []) ∧ s'.admin = new ∧ s'.assets = s.assets ∧ s'.nfts = s.nfts ∧
      (new ≠ s.admin → ∀ m, exec s' s.admin m = .error .unauthorized) := by
  refine ⟨{ s with admin := new }, by simp [exec, setAdmin], rfl, rfl, rfl, fun h m => ?_⟩
  exact C61_only_admin _ _ m (fun hh => h hh.symm)

/-- C61: no other message of anyone changes the admin. -/
theorem C61_admin_kept (s s' : State) (sender : Addr) (m : Msg) (outs : List Out)
    (h : exec s sender m = .ok (s', outs)) : s'.admin = s.admin ∨ (sender = s.admin ∧ m = .setAdmin s'.admin) := by
  cases m with
  | setAdmin a =>
    simp only [exec, setAdmin] at h
    split at h
    · cases h
    · rename_i hs
      cases h
      exact .inr ⟨not_not.1 hs, rfl⟩
  | updateAssets a r =>
    simp only [exec, updateAssets] at h
    split at h
    · cases h
    · obtain ⟨w, _, h2⟩ := bind_ok_iff.1 h
      cases h2
      exact .inl rfl
  | updateNfts a r =>
    simp only [exec, updateNfts] at h
    split at h
    · cases h
    · cases h
      exact .inl rfl
  | spend to l => exact .inl (by rw [(C61_spend _ _ _ _ _ _ h).2.1])
  | distribute to l => exact .inl (by rw [(C61_distribute _ _ _ _ _ _ h).2.1])
  | cosmosMsgs l =>
    simp only [exec, cosmosMsgs] at h
    split at h
    · cases h
    · obtain ⟨w, _, h2⟩ := bind_ok_iff.1 h
      cases h2
      exact .inl rfl

/-- C61, the messages the admin can run: the treasury sends exactly the given messages, in the given order, and keeps
its state; if one of them cannot be read the whole call is refused. -/
theorem C61_cosmos_msgs (s : State) (msgs : List (Option Nat)) (r : State × List Out) :
    exec s s.admin (.cosmosMsgs msgs) = .ok r ↔ ∃ l : List Nat, msgs = l.map some ∧ r = (s, l.map Out.cosmos) := by
  simp only [exec, cosmosMsgs, ne_eq, not_true_eq_false, if_false]
  have hm : ∀ (l : List (Option Nat)) (os : List Out),
      l.mapM (m := Except Err) (fun | some m => .ok (Out.cosmos m) | none => .error Err.invalidArgument) = .ok os ↔
        ∃ k : List Nat, l = k.map some ∧ os = k.map Out.cosmos := by
    intro l
    induction l with
    | nil =>
      intro os
      constructor
      · intro h
        cases h
        exact ⟨[], rfl, rfl⟩
      · rintro ⟨k, h1, rfl⟩
        rw [List.map_eq_nil_iff.1 h1.symm]
        rfl
    | cons a l ih =>
      intro os
      rw [List.mapM_cons]
      constructor
      · intro h
        obtain ⟨o, h1, h2⟩ := bind_ok_iff.1 h
        obtain ⟨os', h3, h4⟩ := bind_ok_iff.1 h2
        cases h4
        obtain ⟨k, rfl, rfl⟩ := (ih os').1 h3
        cases a with
        | none => cases h1
        | some m => cases h1; exact ⟨m :: k, rfl, rfl⟩
      · rintro ⟨k, h1, rfl⟩
        cases k with
        | nil => cases h1
        | cons m k =>
          rw [List.map_cons, List.cons.injEq] at h1
          obtain ⟨rfl, rfl⟩ := h1
          exact bind_ok_iff.2 ⟨Out.cosmos m, rfl, bind_ok_iff.2 ⟨k.map Out.cosmos, (ih _).2 ⟨k, rfl, rfl⟩, rfl⟩⟩
  constructor
  · intro h
    obtain ⟨os, h1, h2⟩ := bind_ok_iff.1 h
    cases h2
    obtain ⟨k, rfl, rfl⟩ := (hm _ _).1 h1
    exact ⟨k, rfl, rfl⟩
  · rintro ⟨k, rfl, rfl⟩
    exact bind_ok_iff.2 ⟨_, (hm _ _).2 ⟨k, rfl, rfl⟩, rfl⟩

/-- Hypotheses met: a handover, and two messages run in order. -/
example :
    let s : State := ⟨1, ⟨Map.empty, Map.empty, Map.empty⟩, Map.empty⟩
    exec s 1 (.setAdmin 2) = .ok ({ s with admin := 2 }, []) ∧
    exec s 1 (.cosmosMsgs [some 4, some 3]) = .ok (s, [.cosmos 4, .cosmos 3]) ∧
    exec s 1 (.cosmosMsgs [some 4, none]) = .error .invalidArgument := by
  decide +kernel

/-- Hypotheses met: the admin spends and distributes two kinds of assets. -/
example :
    let s : State := ⟨1, ⟨Map.empty, Map.empty, Map.empty⟩, Map.empty⟩
    exec s 1 (.spend 9 [⟨.native 5, 10⟩, ⟨.cw20 7, 3⟩]) = .ok (s, [.bankSend 9 5 10, .cw20Transfer 7 9 3]) ∧
    exec s 1 (.distribute 8 [⟨.native 5, 10⟩, ⟨.cw20 7, 3⟩, ⟨.native 5, 1⟩]) =
      .ok (s, [.cw20SendDistribute 7 8 3, .distributeNative 8 [(5, 10), (5, 1)]]) := by
  decide +kernel

/-- Hypotheses met: a history of messages by others. -/
example :
    let s : State := ⟨1, ⟨Map.empty, Map.empty, Map.empty⟩, Map.empty⟩
    ∀ c ∈ [Call.mk 2 (.setAdmin 2) true, Call.mk 2 (.spend 2 [⟨.native 5, 10⟩]) true], c.sender ≠ s.admin := by
  decide +kernel

/-! ## C62 The whitelist is a set and is fully enumerable -/

/-- C62: after an accepted update the whitelist is (old plus added) minus removed, so an asset both added and
removed is absent; the admin and the NFT whitelist stay as they are and nothing is sent. -/
theorem C62_update (s s' : State) (sender : Addr) (add remove : List AssetInfo) (outs : List Out)
    (h : exec s sender (.updateAssets add remove) = .ok (s', outs)) :
    (∀ a, s'.assets.Has a ↔ (s.assets.Has a ∨ a ∈ add) ∧ a ∉ remove) ∧
    s'.admin = s.admin ∧ s'.nfts = s.nfts ∧ outs = [] := by
  simp only [exec, updateAssets] at h
  split at h
  · cases h
  · obtain ⟨w, h1, h2⟩ := bind_ok_iff.1 h
    cases h2
    refine ⟨fun a => ?_, rfl, rfl, rfl⟩
    show (removeAssets w remove).Has a ↔ _
    rw [removeAssets_has, (addAssets_ok add h1).2]
    tauto

/-- C62: an update by the admin is accepted exactly when no added asset is a cw1155 one. -/
theorem C62_update_accepted (s : State) (add remove : List AssetInfo) :
    (∃ r, exec s s.admin (.updateAssets add remove) = .ok r) ↔ ∀ a ∈ add, a.isCw1155 = false := by
  simp only [exec, updateAssets, ne_eq, not_true_eq_false, if_false]
  constructor
  · rintro ⟨r, h⟩
    obtain ⟨w, h1, h2⟩ := bind_ok_iff.1 h
    exact (addAssets_ok add h1).1
  · intro h
    obtain ⟨w, hw⟩ := addAssets_exists add s.assets h
    exact ⟨_, bind_ok_iff.2 ⟨w, hw, rfl⟩⟩

/-- C62: the same for the NFT whitelist; the admin and the asset whitelist stay as they are. -/
theorem C62_update_nfts (s : State) (add remove : List Addr) :
    ∃ s', exec s s.admin (.updateNfts add remove) = .ok (s', []) ∧
      (∀ a, s'.nfts.has a = true ↔ (s.nfts.has a = true ∨ a ∈ add) ∧ a ∉ remove) ∧
      s'.admin = s.admin ∧ s'.assets = s.assets := by
  refine ⟨{ s with nfts := remove.foldl (fun m a => m.remove a) (add.foldl (fun m a => m.set a ()) s.nfts) }, by
    simp only [exec, updateNfts, ne_eq, not_true_eq_false, if_false], fun a => ?_, rfl, rfl⟩
  show (remove.foldl (fun m a => m.remove a) (add.foldl (fun m a => m.set a ()) s.nfts)).has a = true ↔ _
  rw [removes_has, sets_has]
  tauto

/-- C62: a new treasury has exactly the assets and NFTs it was given. -/
theorem C62_init (admin : Addr) (assets : List AssetInfo) (nfts : List Addr) (s : State)
    (h : init admin assets nfts = .ok s) :
    s.admin = admin ∧ (∀ a, s.assets.Has a ↔ a ∈ assets) ∧ (∀ a, s.nfts.has a = true ↔ a ∈ nfts) := by
  unfold init at h
  obtain ⟨w, h1, h2⟩ := bind_ok_iff.1 h
  cases h2
  refine ⟨rfl, fun a => ?_, fun a => ?_⟩
  · show w.Has a ↔ _
    rw [(addAssets_ok assets h1).2]
    have : ¬ (⟨Map.empty, Map.empty, Map.empty⟩ : Whitelist).Has a := by cases a <;> exact Bool.false_ne_true
    tauto
  · show (nfts.foldl (fun m a => m.set a ()) Map.empty).has a = true ↔ _
    rw [sets_has]
    have : ¬ (Map.empty : Map Addr Unit).has a = true := Bool.false_ne_true
    tauto

/-- C62: paging through the asset whitelist, with any page size, taking the last asset of a page as the next
cursor, comes to an end and gives each whitelisted asset exactly once and nothing else. -/
theorem C62_paging (s : State) (limit : Option Nat) (hl : limit ≠ some 0) :
    (∃ ps, Reads (fun a => queryAssets s.assets a limit) id none ps) ∧
    ∀ ps, Reads (fun a => queryAssets s.assets a limit) id none ps →
      ps.flatten.Nodup ∧ ∀ a, a ∈ ps.flatten ↔ s.assets.Has a := by
  have hn : 0 < limitOf limit := by
    unfold limitOf
    cases limit with
    | none => simp
    | some n =>
      have : n ≠ 0 := fun h => hl (by rw [h])
      simp only [Option.getD_some]
      omega
  refine ⟨reads_rest_exists _ hn _, fun ps h => ?_⟩
  rw [reads_rest hn h]
  exact ⟨nodup_rest_none _, fun a => mem_rest_none⟩

/-- C62: paging through the NFT whitelist gives each whitelisted collection exactly once and nothing else. -/
theorem C62_paging_nfts (s : State) (limit : Option Nat) (hl : limit ≠ some 0) :
    (∃ ps, Reads (fun a => queryNfts s a limit) id none ps) ∧
    ∀ ps, Reads (fun a => queryNfts s a limit) id none ps →
      ps.flatten.Nodup ∧ ∀ a, a ∈ ps.flatten ↔ s.nfts.has a = true := by
  have hn : 0 < limitOf limit := by
    unfold limitOf
    cases limit with
    | none => simp
    | some n =>
      have : n ≠ 0 := fun h => hl (by rw [h])
      simp only [Option.getD_some]
      omega
  have hq : (fun a => queryNfts s a limit) =
      fun a => (s.nfts.page (a.map (fun v => v)) (limitOf limit)).map (fun e => e.1) := by
    funext a
    unfold queryNfts
    cases a <;> rfl
  rw [hq]
  refine ⟨reads_page_exists (g := fun e : Addr × Unit => e.1) (cur := id) (emb := fun v => v) (fun _ _ => rfl) hn none, fun ps h => ?_⟩
  rw [reads_page (g := fun e : Addr × Unit => e.1) (cur := id) (emb := fun v => v) (fun _ _ => rfl) hn h]
  refine ⟨nodup_map_key s.nfts none (fun k => k) (fun _ _ h => h), fun a => ?_⟩
  rw [← mem_afterL_none, List.mem_map]
  constructor
  · rintro ⟨⟨k, v⟩, h, rfl⟩; exact ⟨v, h⟩
  · rintro ⟨v, h⟩; exact ⟨_, h, rfl⟩

/-- Hypotheses met: a whitelist over the three stores, page size 2. -/
example :
    let w : Whitelist := ⟨(Map.empty.set 4 ()).set 2 (), Map.empty.set 9 (), Map.empty.set (toLex (3, 1)) ()⟩
    queryAssets w none (some 2) = [.native 2, .native 4] ∧
    queryAssets w (some (.native 2)) (some 2) = [.native 4, .cw20 9] ∧
    queryAssets w (some (.native 4)) (some 2) = [.cw20 9, .cw1155 3 1] ∧
    queryAssets w (some (.cw1155 3 1)) (some 2) = [] := by
  decide +kernel

/-- Hypotheses met: an update with an asset both added and removed. -/
example :
    (exec ⟨1, ⟨Map.empty, Map.empty, Map.empty⟩, Map.empty⟩ 1 (.updateAssets [.native 2, .cw20 3] [.cw20 3])).toOption.isSome =
      true := by
  decide +kernel

end Verif.Treasury
