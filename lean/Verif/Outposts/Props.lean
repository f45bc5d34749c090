import Verif.Outposts.Model

/-!
# Treasuries on other chains: properties C68, C75
-/

set_option linter.unusedSimpArgs false

namespace Verif.Outposts
open Verif

/-! ### Helper lemmas -/

theorem controllerOnly_ok_iff {e : Env} {u : Addr} {x : Unit} : controllerOnly e u = .ok x ↔ e.controller = some u := by
  unfold controllerOnly
  cases e.controller with
  | none => simp
  | some c =>
    simp only [Option.some.injEq]
    rw [ite_ok_iff]
    constructor
    · rintro ⟨h, _⟩; exact (Classical.not_not.1 h).symm
    · rintro rfl; exact ⟨not_not.2 rfl, rfl⟩

theorem deploy_ok_iff {e : Env} {s : State} {u : Addr} {d : Deploy} {r : State × List Out} :
    deploy e s u d = .ok r ↔ e.controller = some u ∧ s.treasuries.get d.spec.chain = none ∧
      ((∃ p, s.proxies.get d.spec.chain = some p ∧
          r = ((remoteTreasury e s d d.globalProxy p).1, [(remoteTreasury e s d d.globalProxy p).2])) ∨
       (s.proxies.get d.spec.chain = none ∧ ∃ owner, e.derive_ d.spec.destChannel e.self d.spec.prefix_ = some owner ∧
          r = (issue s ⟨d.spec, d.globalProxy, .proxy d⟩,
            [toProxy e (.proxy d.proxyCode owner) d.globalProxy d.spec (some (nextId s))]))) := by
  unfold deploy
  simp only [bind_ok_iff]
  constructor
  · rintro ⟨x, h1, h2⟩
    rw [ite_ok_iff] at h2
    obtain ⟨h3, h4⟩ := h2
    refine ⟨controllerOnly_ok_iff.1 h1, by simpa using h3, ?_⟩
    cases hp : s.proxies.get d.spec.chain with
    | some p => rw [hp] at h4; cases h4; exact Or.inl ⟨p, rfl, rfl⟩
    | none =>
      rw [hp] at h4
      simp only at h4
      cases ho : e.derive_ d.spec.destChannel e.self d.spec.prefix_ with
      | none => rw [ho] at h4; cases h4
      | some owner => rw [ho] at h4; cases h4; exact Or.inr ⟨rfl, owner, rfl, rfl⟩
  · rintro ⟨h1, h2, h3⟩
    refine ⟨(), controllerOnly_ok_iff.2 h1, ?_⟩
    rw [ite_ok_iff]
    refine ⟨by simp [h2], ?_⟩
    rcases h3 with ⟨p, hp, rfl⟩ | ⟨hp, owner, ho, rfl⟩
    · rw [hp]
    · rw [hp]; simp only [ho]

theorem has_false {V : Type} {m : Map Nat V} {k : Nat} : ¬ m.has k = true ↔ m.get k = none := by
  unfold Map.has
  cases m.get k <;> simp

theorem callback_ok_iff {e : Env} {s : State} {u : Addr} {id : Nat} {answer : Option Nat} {r : State × List Out} :
    callback e s u id answer = .ok r ↔ ∃ c a, s.callbacks.get id = some c ∧
      e.derive_ c.spec.srcChannel c.proxy terra = some u ∧ answer = some a ∧ e.controller ≠ none ∧
      ((∃ d, c.kind = .proxy d ∧ s.proxies.get c.spec.chain = none ∧
          ∀ s1 : State, s1 = { s with callbacks := s.callbacks.remove id, proxies := s.proxies.set c.spec.chain a } →
          r = ((remoteTreasury e s1 d c.proxy a).1, [(remoteTreasury e s1 d c.proxy a).2])) ∨
       (∃ sp, c.kind = .treasury sp ∧ s.treasuries.get c.spec.chain = none ∧
          r = ({ s with callbacks := s.callbacks.remove id, treasuries := s.treasuries.set c.spec.chain a }, []))) := by
  unfold callback
  cases hc : s.callbacks.get id with
  | none => simp
  | some c =>
    simp only [Option.some.injEq, exists_and_left, exists_eq_left']
    cases hd : e.derive_ c.spec.srcChannel c.proxy terra with
    | none => simp
    | some a =>
      simp only [Option.some.injEq]
      rw [ite_ok_iff]
      constructor
      · rintro ⟨h1, h2⟩
        refine ⟨(Classical.not_not.1 h1).symm, ?_⟩
        cases hk : c.kind with
        | proxy d =>
          rw [hk] at h2
          simp only [proxyReply] at h2
          cases answer with
          | none => cases h2
          | some p =>
            simp only at h2
            rw [ite_ok_iff] at h2
            obtain ⟨h3, h4⟩ := h2
            rw [ite_ok_iff] at h4
            obtain ⟨h5, h6⟩ := h4
            cases h6
            exact ⟨p, rfl, h5, Or.inl ⟨d, rfl, has_false.1 h3, fun s1 hs1 => by rw [hs1]⟩⟩
        | treasury sp =>
          rw [hk] at h2
          simp only [treasuryReply] at h2
          cases answer with
          | none => cases h2
          | some p =>
            simp only at h2
            rw [ite_ok_iff, ite_ok_iff] at h2
            obtain ⟨h3, h5, h6⟩ := h2
            cases h6
            exact ⟨p, rfl, h5, Or.inr ⟨sp, rfl, has_false.1 h3, rfl⟩⟩
      · rintro ⟨h1, p, rfl, h5, h6⟩
        refine ⟨not_not.2 h1.symm, ?_⟩
        rcases h6 with ⟨d, hk, hn, hr⟩ | ⟨sp, hk, hn, rfl⟩
        · rw [hk]
          simp only [proxyReply]
          rw [ite_ok_iff, ite_ok_iff]
          refine ⟨has_false.2 hn, h5, ?_⟩
          rw [hr _ rfl]
        · rw [hk]
          simp only [treasuryReply]
          rw [ite_ok_iff, ite_ok_iff]
          exact ⟨has_false.2 hn, h5, rfl⟩

theorem execTreasury_ok_iff {e : Env} {s : State} {u : Addr} {sp : Spec} {m : Nat} {o : List Out} :
    execTreasury e s u sp m = .ok o ↔ e.controller = some u ∧ ∃ p t, s.proxies.get sp.chain = some p ∧
      s.treasuries.get sp.chain = some t ∧ o = [toProxy e (.run t m) p sp none] := by
  unfold execTreasury
  simp only [bind_ok_iff]
  constructor
  · rintro ⟨x, h1, h2⟩
    refine ⟨controllerOnly_ok_iff.1 h1, ?_⟩
    cases hp : s.proxies.get sp.chain with
    | none => rw [hp] at h2; cases h2
    | some p =>
      rw [hp] at h2
      simp only at h2
      cases ht : s.treasuries.get sp.chain with
      | none => rw [ht] at h2; cases h2
      | some t => rw [ht] at h2; cases h2; exact ⟨p, t, rfl, rfl, rfl⟩
  · rintro ⟨h1, p, t, hp, ht, rfl⟩
    refine ⟨(), controllerOnly_ok_iff.2 h1, ?_⟩
    simp only [hp, ht]

/-- What a successful message does to the records. -/
inductive Effect (e : Env) (s : State) (u : Addr) : Msg → State → Prop
  | deploy (d : Deploy) (k : Kind) (hu : e.controller = some u) (hk : ∀ d', k = .proxy d' → d' = d) :
      Effect e s u (.deploy d) (issue s ⟨d.spec, d.globalProxy, k⟩)
  | exec (sp : Spec) (m : Nat) (hu : e.controller = some u) : Effect e s u (.execTreasury sp m) s
  | proxy (id a : Nat) (c : Callback) (d : Deploy) (hc : s.callbacks.get id = some c) (hk : c.kind = .proxy d)
      (hu : e.derive_ c.spec.srcChannel c.proxy terra = some u) (hn : s.proxies.get c.spec.chain = none) :
      Effect e s u (.callback id (some a)) 
        (issue { s with callbacks := s.callbacks.remove id, proxies := s.proxies.set c.spec.chain a }
          ⟨d.spec, c.proxy, .treasury d.spec⟩)
  | treasury (id a : Nat) (c : Callback) (sp : Spec) (hc : s.callbacks.get id = some c) (hk : c.kind = .treasury sp)
      (hu : e.derive_ c.spec.srcChannel c.proxy terra = some u) (hn : s.treasuries.get c.spec.chain = none) :
      Effect e s u (.callback id (some a))
        { s with callbacks := s.callbacks.remove id, treasuries := s.treasuries.set c.spec.chain a }

theorem exec_effect {e : Env} {s : State} {u : Addr} {m : Msg} {r : State × List Out} (h : exec e s u m = .ok r) :
    Effect e s u m r.1 := by
  cases m with
  | deploy d =>
    obtain ⟨h1, _, ⟨p, _, rfl⟩ | ⟨_, o, _, rfl⟩⟩ := deploy_ok_iff.1 h
    · exact .deploy d (.treasury d.spec) h1 (fun d' hd => by cases hd)
    · exact .deploy d (.proxy d) h1 (fun d' hd => by cases hd; rfl)
  | execTreasury sp m =>
    simp only [exec, bind_ok_iff, pure_ok_iff] at h
    obtain ⟨o, h1, rfl⟩ := h
    exact .exec sp m (execTreasury_ok_iff.1 h1).1
  | callback id answer =>
    obtain ⟨c, a, hc, hu, rfl, _, ⟨d, hk, hn, hr⟩ | ⟨sp, hk, hn, rfl⟩⟩ := callback_ok_iff.1 h
    · rw [hr _ rfl]
      exact .proxy id a c d hc hk hu hn
    · exact .treasury id a c sp hc hk hu hn

/-- A message either fails, or has its effect and is recorded. -/
theorem step_cases (s : State) (c : Call) :
    (accepted s c = false ∧ step s c = s) ∨ (accepted s c = true ∧ Effect c.env s c.sender c.msg (step s c)) := by
  unfold accepted step
  cases h : exec c.env s c.sender c.msg with
  | error x => exact Or.inl ⟨rfl, rfl⟩
  | ok r => exact Or.inr ⟨rfl, exec_effect h⟩

theorem issue_get (s : State) (c : Callback) (id : Nat) :
    (issue s c).callbacks.get id = if nextId s = id then some c else s.callbacks.get id := by
  unfold issue
  simp only [Map.get_set]

/-! ## C68 -/

/-- A reply is accepted exactly if its callback is outstanding, it comes from the account derived from the channel and
the proxy of the callback, it carries an address, and the chain has no proxy (respectively treasury) yet. (The enterprise
contract must answer, too.) -/
theorem C68_accepted_iff (e : Env) (s : State) (u : Addr) (id : Nat) (answer : Option Nat) :
    (∃ r, exec e s u (.callback id answer) = .ok r) ↔ ∃ c, s.callbacks.get id = some c ∧
      e.derive_ c.spec.srcChannel c.proxy terra = some u ∧ answer ≠ none ∧ e.controller ≠ none ∧
      (((∃ d, c.kind = .proxy d) ∧ (queryDeployments s c.spec.chain).1 = none) ∨
       ((∃ sp, c.kind = .treasury sp) ∧ (queryDeployments s c.spec.chain).2 = none)) := by
  constructor
  · rintro ⟨r, h⟩
    obtain ⟨c, a, hc, hu, rfl, h5, h6⟩ := callback_ok_iff.1 h
    refine ⟨c, hc, hu, by simp, h5, ?_⟩
    rcases h6 with ⟨d, hk, hn, _⟩ | ⟨sp, hk, hn, _⟩
    · exact Or.inl ⟨⟨d, hk⟩, hn⟩
    · exact Or.inr ⟨⟨sp, hk⟩, hn⟩
  · rintro ⟨c, hc, hu, ha, h5, h6⟩
    cases answer with
    | none => exact absurd rfl ha
    | some a =>
      rcases h6 with ⟨⟨d, hk⟩, hn⟩ | ⟨⟨sp, hk⟩, hn⟩
      · exact ⟨_, callback_ok_iff.2 ⟨c, a, hc, hu, rfl, h5, Or.inl ⟨d, hk, hn, fun s1 hs1 => by rw [hs1]⟩⟩⟩
      · exact ⟨_, callback_ok_iff.2 ⟨c, a, hc, hu, rfl, h5, Or.inr ⟨sp, hk, hn, rfl⟩⟩⟩

/-- An accepted reply records its address as the proxy or the treasury of the callback's chain, and nothing for any
other chain. -/
theorem C68_recorded {e : Env} {s : State} {u : Addr} {id a : Nat} {r : State × List Out}
    (h : exec e s u (.callback id (some a)) = .ok r) : ∃ c, s.callbacks.get id = some c ∧
      queryDeployments r.1 c.spec.chain = (match c.kind with
        | .proxy _ => (some a, (queryDeployments s c.spec.chain).2)
        | .treasury _ => ((queryDeployments s c.spec.chain).1, some a)) ∧
      ∀ x, x ≠ c.spec.chain → queryDeployments r.1 x = queryDeployments s x := by
  obtain ⟨c, a', hc, hu, ha, h5, h6⟩ := callback_ok_iff.1 h
  cases ha
  refine ⟨c, hc, ?_⟩
  rcases h6 with ⟨d, hk, hn, hr⟩ | ⟨sp, hk, hn, rfl⟩
  · rw [hr _ rfl, hk]
    unfold queryDeployments remoteTreasury issue
    refine ⟨by simp, fun x hx => ?_⟩
    simp only [Map.get_set]
    rw [if_neg (Ne.symm hx)]
  · rw [hk]
    unfold queryDeployments
    refine ⟨by simp, fun x hx => ?_⟩
    simp only [Map.get_set]
    rw [if_neg (Ne.symm hx)]

/-- Whether a message is a reply for a callback. -/
def repliesTo (id : Nat) (c : Call) : Bool :=
  match c.msg with
  | .callback i _ => decide (i = id)
  | _ => false

/-- No callback is used twice, in any history of fewer than 2^32 - 1 messages from the start. -/
theorem C68_used_once (a : Addr) (l : List Call) (hl : l.length < 2 ^ 32 - 1) (id : Nat) :
    ((succeeded (init a) l).filter (repliesTo id)).length ≤ 1 := by
  suffices H : ∀ (l : List Call) (s : State), s.lastId + l.length < 2 ^ 32 - 1 →
      (∀ i c, s.callbacks.get i = some c → i ≤ s.lastId) →
      ((succeeded s l).filter (repliesTo id)).length ≤ 1 ∧
      (id ≤ s.lastId → s.callbacks.get id = none → ((succeeded s l).filter (repliesTo id)).length = 0) by
    exact (H l (init a) (by simpa [init] using hl) (fun i c h => by cases h)).1
  intro l
  induction l with
  | nil => intro s _ _; exact ⟨by simp [succeeded], fun _ _ => by simp [succeeded]⟩
  | cons c t ih =>
    intro s hlen hkeys
    simp only [List.length_cons] at hlen
    have hnext : nextId s = s.lastId + 1 := by
      unfold nextId
      exact Nat.mod_eq_of_lt (by omega)
    unfold succeeded
    rcases step_cases s c with ⟨h1, h2⟩ | ⟨h1, h2⟩
    · rw [h1, h2]
      simp only [Bool.false_eq_true, if_false, List.nil_append]
      exact ih s (by omega) hkeys
    · rw [h1]
      simp only [if_true, List.singleton_append, List.filter_cons]
      generalize step s c = s' at h2
      -- what the message leaves
      have key : ((s'.lastId = s.lastId ∨ s'.lastId = s.lastId + 1) ∧
          (∀ i x, s'.callbacks.get i = some x → i ≤ s'.lastId) ∧
          (id ≤ s.lastId → s.callbacks.get id = none → s'.callbacks.get id = none ∧ repliesTo id c = false) ∧
          (repliesTo id c = true → id ≤ s.lastId ∧ s'.callbacks.get id = none)) := by
        obtain ⟨ce, cu, cm⟩ := c
        simp only at h2
        cases h2 with
        | deploy d k hu _ =>
          refine ⟨Or.inr hnext, ?_, ?_, fun h => by cases h⟩
          · intro i x hx
            rw [issue_get] at hx
            show i ≤ nextId s
            rw [hnext]
            split at hx
            · rename_i hi; rw [hnext] at hi; omega
            · have := hkeys i x hx; omega
          · intro h3 h4
            refine ⟨?_, rfl⟩
            rw [issue_get, if_neg (by rw [hnext]; omega)]
            exact h4
        | exec sp m hu => exact ⟨Or.inl rfl, hkeys, fun _ h => ⟨h, rfl⟩, fun h => by cases h⟩
        | proxy i x cb d hc hk hu hn =>
          have hn2 : nextId { s with callbacks := s.callbacks.remove i, proxies := s.proxies.set cb.spec.chain x } =
              s.lastId + 1 := hnext
          refine ⟨Or.inr hn2, ?_, ?_, ?_⟩
          · intro j y hy
            rw [issue_get] at hy
            show j ≤ nextId _
            rw [hn2]
            split at hy
            · rename_i hi; rw [hn2] at hi; omega
            · rw [Map.get_remove] at hy
              split at hy
              · cases hy
              · have := hkeys j y hy; omega
          · intro h3 h4
            have hid : i ≠ id := by rintro rfl; rw [hc] at h4; cases h4
            refine ⟨?_, by simp [repliesTo, hid]⟩
            rw [issue_get, if_neg (by rw [hn2]; omega), Map.get_remove, if_neg hid]
            exact h4
          · intro h3
            have hid : i = id := by simpa [repliesTo] using h3
            subst hid
            have := hkeys i cb hc
            refine ⟨this, ?_⟩
            rw [issue_get, if_neg (by rw [hn2]; omega), Map.get_remove, if_pos rfl]
        | treasury i x cb sp hc hk hu hn =>
          refine ⟨Or.inl rfl, ?_, ?_, ?_⟩
          · intro j y hy
            simp only [Map.get_remove] at hy
            split at hy
            · cases hy
            · exact hkeys j y hy
          · intro h3 h4
            have hid : i ≠ id := by rintro rfl; rw [hc] at h4; cases h4
            refine ⟨?_, by simp [repliesTo, hid]⟩
            simp only [Map.get_remove, if_neg hid]
            exact h4
          · intro h3
            have hid : i = id := by simpa [repliesTo] using h3
            subst hid
            refine ⟨hkeys i cb hc, ?_⟩
            simp only [Map.get_remove, if_true]
      obtain ⟨k1, k2, k3, k4⟩ := key
      obtain ⟨i1, i2⟩ := ih s' (by omega) k2
      refine ⟨?_, fun h3 h4 => ?_⟩
      · split
        · rename_i hr
          obtain ⟨h3, h4⟩ := k4 hr
          rw [List.length_cons, i2 (by omega) h4]
        · exact i1
      · obtain ⟨h5, h6⟩ := k3 h3 h4
        rw [h6]
        simp only [Bool.false_eq_true, if_false]
        exact i2 (by omega) h5

/-- A chain's proxy and treasury, once recorded, are never replaced or removed. -/
theorem C68_never_replaced (s : State) (l : List Call) (chain : Nat) :
    (∀ p, (queryDeployments s chain).1 = some p → (queryDeployments (run s l) chain).1 = some p) ∧
    (∀ t, (queryDeployments s chain).2 = some t → (queryDeployments (run s l) chain).2 = some t) := by
  unfold queryDeployments
  simp only
  induction l generalizing s with
  | nil => exact ⟨fun _ h => h, fun _ h => h⟩
  | cons c t ih =>
    obtain ⟨i1, i2⟩ := ih (step s c)
    suffices H : (∀ p, s.proxies.get chain = some p → (step s c).proxies.get chain = some p) ∧
        (∀ p, s.treasuries.get chain = some p → (step s c).treasuries.get chain = some p) from
      ⟨fun p h => i1 p (H.1 p h), fun p h => i2 p (H.2 p h)⟩
    rcases step_cases s c with ⟨_, h2⟩ | ⟨_, h2⟩
    · rw [h2]; exact ⟨fun _ h => h, fun _ h => h⟩
    · generalize step s c = s' at h2
      obtain ⟨ce, cu, cm⟩ := c
      simp only at h2
      cases h2 with
      | deploy d k hu _ => exact ⟨fun _ h => h, fun _ h => h⟩
      | exec sp m hu => exact ⟨fun _ h => h, fun _ h => h⟩
      | proxy i x cb d hc hk hu hn =>
        refine ⟨fun p h => ?_, fun _ h => h⟩
        show (s.proxies.set cb.spec.chain x).get chain = some p
        rw [Map.get_set, if_neg]
        · exact h
        · rintro rfl; rw [hn] at h; cases h
      | treasury i x cb sp hc hk hu hn =>
        refine ⟨fun _ h => h, fun p h => ?_⟩
        show (s.treasuries.set cb.spec.chain x).get chain = some p
        rw [Map.get_set, if_neg]
        · exact h
        · rintro rfl; rw [hn] at h; cases h

/-- In a history, the governance controller asked for a deployment on a chain, over a channel and a global proxy. -/
def Asked (h : List Call) (d : Deploy) : Prop := ∃ c ∈ h, c.msg = .deploy d ∧ c.env.controller = some c.sender

/-- In a history, the account derived from that channel and proxy reported an address. -/
def Reported (derive_ : Derive) (h : List Call) (d : Deploy) (a : Nat) : Prop :=
  ∃ c ∈ h, (∃ id, c.msg = .callback id (some a)) ∧ derive_ d.spec.srcChannel d.globalProxy terra = some c.sender

/-- Every recorded proxy and treasury was reported by the account derived from the channel and the global proxy that the
governance controller named in a deployment for that chain. -/
theorem C68_authenticated (derive_ : Derive) (a : Addr) (l : List Call) (hd : ∀ c ∈ l, c.env.derive_ = derive_)
    (chain x : Nat) (h : (queryDeployments (run (init a) l) chain).1 = some x ∨
      (queryDeployments (run (init a) l) chain).2 = some x) :
    ∃ d, d.spec.chain = chain ∧ Asked (succeeded (init a) l) d ∧ Reported derive_ (succeeded (init a) l) d x := by
  -- for the messages `pre` that succeeded before
  suffices H : ∀ (l : List Call) (s : State) (pre : List Call), (∀ c ∈ l, c.env.derive_ = derive_) →
      (∀ i cb, s.callbacks.get i = some cb → ∃ d, cb.spec = d.spec ∧ cb.proxy = d.globalProxy ∧ Asked pre d ∧
        ∀ d', cb.kind = .proxy d' → d' = d) →
      (∀ ch y, (s.proxies.get ch = some y ∨ s.treasuries.get ch = some y) →
        ∃ d, d.spec.chain = ch ∧ Asked pre d ∧ Reported derive_ pre d y) →
      ∀ ch y, ((run s l).proxies.get ch = some y ∨ (run s l).treasuries.get ch = some y) →
        ∃ d, d.spec.chain = ch ∧ Asked (pre ++ succeeded s l) d ∧ Reported derive_ (pre ++ succeeded s l) d y by
    have := H l (init a) [] hd (fun i cb h => by cases h) (fun ch y h => by rcases h with h | h <;> cases h) chain x h
    simpa using this
  intro l
  induction l with
  | nil =>
    intro s pre _ _ hrec ch y hy
    simpa [succeeded] using hrec ch y hy
  | cons c t ih =>
    intro s pre hd hcb hrec ch y hy
    have hd1 := hd c List.mem_cons_self
    have hd2 : ∀ c ∈ t, c.env.derive_ = derive_ := fun c hc => hd c (List.mem_cons_of_mem _ hc)
    unfold succeeded
    rcases step_cases s c with ⟨h1, h2⟩ | ⟨h1, h2⟩
    · rw [h1]
      simp only [Bool.false_eq_true, if_false, List.nil_append]
      have hy' : (run s t).proxies.get ch = some y ∨ (run s t).treasuries.get ch = some y := by
        simpa [run, h2] using hy
      rw [h2]
      exact ih s pre hd2 hcb hrec ch y hy'
    · rw [h1]
      simp only [if_true]
      rw [← List.append_assoc]
      refine ih (step s c) (pre ++ [c]) hd2 ?_ ?_ ch y hy
      · have hAsk : ∀ d, Asked pre d → Asked (pre ++ [c]) d := fun d ⟨x, hx, hx'⟩ => ⟨x, List.mem_append_left _ hx, hx'⟩
        have hold : ∀ i cb, s.callbacks.get i = some cb → ∃ d, cb.spec = d.spec ∧ cb.proxy = d.globalProxy ∧
            Asked (pre ++ [c]) d ∧ ∀ d', cb.kind = .proxy d' → d' = d := by
          intro i cb h
          obtain ⟨d, e1, e2, e3, e4⟩ := hcb i cb h
          exact ⟨d, e1, e2, hAsk d e3, e4⟩
        generalize step s c = s' at h2
        intro i cb hi
        obtain ⟨ce, cu, cm⟩ := c
        simp only at h2
        cases h2 with
        | deploy d k hu hk =>
          rw [issue_get] at hi
          split at hi
          · cases hi
            exact ⟨d, rfl, rfl, ⟨_, List.mem_append_right _ (List.mem_singleton.2 rfl), rfl, hu⟩, hk⟩
          · exact hold i cb hi
        | exec sp m hu => exact hold i cb hi
        | proxy j x cb0 d hc hk hu hn =>
          rw [issue_get] at hi
          split at hi
          · cases hi
            obtain ⟨d', e1, e2, e3, e4⟩ := hold j cb0 hc
            have := e4 d hk
            subst this
            exact ⟨d, rfl, e2, e3, fun d' hd' => by cases hd'⟩
          · rw [Map.get_remove] at hi
            split at hi
            · cases hi
            · exact hold i cb hi
        | treasury j x cb0 sp hc hk hu hn =>
          simp only [Map.get_remove] at hi
          split at hi
          · cases hi
          · exact hold i cb hi
      · have hAsk : ∀ d, Asked pre d → Asked (pre ++ [c]) d := fun d ⟨x, hx, hx'⟩ => ⟨x, List.mem_append_left _ hx, hx'⟩
        have hRep : ∀ d y, Reported derive_ pre d y → Reported derive_ (pre ++ [c]) d y :=
          fun d y ⟨x, hx, hx'⟩ => ⟨x, List.mem_append_left _ hx, hx'⟩
        have hold : ∀ ch y, (s.proxies.get ch = some y ∨ s.treasuries.get ch = some y) →
            ∃ d, d.spec.chain = ch ∧ Asked (pre ++ [c]) d ∧ Reported derive_ (pre ++ [c]) d y := by
          intro ch y h
          obtain ⟨d, e1, e2, e3⟩ := hrec ch y h
          exact ⟨d, e1, hAsk d e2, hRep d y e3⟩
        generalize step s c = s' at h2
        intro ch y hy
        obtain ⟨ce, cu, cm⟩ := c
        simp only at h2 hd1
        have hnew : ∀ (j z : Nat) (cb0 : Callback), s.callbacks.get j = some cb0 → cm = .callback j (some z) →
            ce.derive_ cb0.spec.srcChannel cb0.proxy terra = some cu →
            ∃ d, d.spec.chain = cb0.spec.chain ∧ Asked (pre ++ [⟨ce, cu, cm⟩]) d ∧
              Reported derive_ (pre ++ [⟨ce, cu, cm⟩]) d z := by
          intro j z cb0 hc hm hu
          obtain ⟨d, e1, e2, e3, _⟩ := hcb j cb0 hc
          refine ⟨d, by rw [e1], hAsk d e3, ⟨_, List.mem_append_right _ (List.mem_singleton.2 rfl), ⟨j, hm⟩, ?_⟩⟩
          rw [← e1, ← e2, ← hd1]
          exact hu
        cases h2 with
        | deploy d k hu hk => exact hold ch y hy
        | exec sp m hu => exact hold ch y hy
        | proxy j x cb0 d hc hk hu hn =>
          rcases hy with hy | hy
          · change (s.proxies.set cb0.spec.chain x).get ch = some y at hy
            rw [Map.get_set] at hy
            split at hy
            · rename_i he
              cases hy
              subst he
              exact hnew j y cb0 hc rfl hu
            · exact hold ch y (Or.inl hy)
          · exact hold ch y (Or.inr hy)
        | treasury j x cb0 sp hc hk hu hn =>
          rcases hy with hy | hy
          · exact hold ch y (Or.inl hy)
          · change (s.treasuries.set cb0.spec.chain x).get ch = some y at hy
            rw [Map.get_set] at hy
            split at hy
            · rename_i he
              cases hy
              subst he
              exact hnew j y cb0 hc rfl hu
            · exact hold ch y (Or.inr hy)

/-! ### A sample history -/

/-- Derived accounts of the sample. -/
def sampleDerive : Derive := fun ch a p => some (ch * 10000 + a * 10 + p)

/-- Controller 12. -/
def sampleEnv : Env := ⟨10, 5, some 12, sampleDerive⟩

/-- Deployment on chain 7 with global proxy 70, over channels 1 (here) and 2 (there). -/
def sampleDeploy : Deploy := ⟨⟨7, 3, 0, 1, 0, 2, 9, none⟩, none, none, 100, 101, 70⟩

/-- The controller deploys, an intruder reports, the proxies report. -/
def sampleCalls : List Call :=
  [⟨sampleEnv, 12, .deploy sampleDeploy⟩, ⟨sampleEnv, 99, .callback 1 (some 666)⟩,
   ⟨sampleEnv, 10700, .callback 1 (some 71)⟩, ⟨sampleEnv, 10700, .callback 1 (some 72)⟩,
   ⟨sampleEnv, 10700, .callback 2 (some 73)⟩]

example : queryDeployments (run (init 4) sampleCalls) 7 = (some 71, some 73) ∧
    (succeeded (init 4) sampleCalls).map (fun c => (c.sender, c.msg)) =
      [(12, .deploy sampleDeploy), (10700, .callback 1 (some 71)), (10700, .callback 2 (some 73))] := by decide +kernel

/-! ## C75 -/

/-- A message for a treasury on another chain is sent exactly if it comes from the governance controller and the chain
has a proxy and a treasury. It goes through that proxy to that treasury, and changes nothing here. -/
theorem C75_execute_iff (e : Env) (s : State) (u : Addr) (sp : Spec) (m : Nat) (r : State × List Out) :
    exec e s u (.execTreasury sp m) = .ok r ↔ e.controller = some u ∧ ∃ p t,
      queryDeployments s sp.chain = (some p, some t) ∧ r.1 = s ∧ ∃ o, r.2 = [o] ∧ o.proxy = p ∧ o.act = .run t m ∧
        o.callback = none ∧ o.srcPort = sp.srcPort ∧ o.srcChannel = sp.srcChannel ∧
        o.timeout = wadd64 e.time (sp.timeout.getD (15 * 60 * 10 ^ 9)) := by
  simp only [exec, bind_ok_iff, pure_ok_iff]
  unfold queryDeployments
  constructor
  · rintro ⟨o, h1, rfl⟩
    obtain ⟨h2, p, t, h3, h4, rfl⟩ := execTreasury_ok_iff.1 h1
    exact ⟨h2, p, t, by rw [h3, h4], rfl, _, rfl, rfl, rfl, rfl, rfl, rfl, rfl⟩
  · rintro ⟨h2, p, t, h3, h4, o, h5, h6, h7, h8, h9, h10, h11⟩
    rw [Prod.mk.injEq] at h3
    refine ⟨_, execTreasury_ok_iff.2 ⟨h2, p, t, h3.1, h3.2, rfl⟩, ?_⟩
    obtain ⟨r1, r2⟩ := r
    obtain ⟨o1, o2, o3, o4, o5, o6⟩ := o
    simp only at h4 h5 h6 h7 h8 h9 h10 h11
    subst h4 h5 h6 h7 h8 h9 h10 h11
    rfl

/-- A deployment is accepted only from the governance controller, only while the chain has no treasury, and then sends
one message with a new callback, to the global proxy named in it. A treasury is administered by the recorded proxy. -/
theorem C75_deploy {e : Env} {s : State} {u : Addr} {d : Deploy} {r : State × List Out}
    (h : exec e s u (.deploy d) = .ok r) :
    e.controller = some u ∧ (queryDeployments s d.spec.chain).2 = none ∧ (∃ o, r.2 = [o] ∧ o.proxy = d.globalProxy ∧
      o.callback = some (r.1.lastId, d.spec.destPort, d.spec.destChannel, d.spec.denom) ∧
      match (queryDeployments s d.spec.chain).1 with
      | some p => o.act = .treasury d.treasuryCode p d.assets d.nfts
      | none => ∃ owner, e.derive_ d.spec.destChannel e.self d.spec.prefix_ = some owner ∧
          o.act = .proxy d.proxyCode owner) ∧
      (∀ c, queryDeployments r.1 c = queryDeployments s c) := by
  obtain ⟨h1, h2, ⟨p, h3, rfl⟩ | ⟨h3, owner, h4, rfl⟩⟩ := deploy_ok_iff.1 h
  · refine ⟨h1, h2, ⟨_, rfl, rfl, rfl, ?_⟩, fun c => rfl⟩
    unfold queryDeployments
    rw [h3]
    rfl
  · refine ⟨h1, h2, ⟨_, rfl, rfl, rfl, ?_⟩, fun c => rfl⟩
    unfold queryDeployments
    rw [h3]
    exact ⟨owner, h4, rfl⟩

/-- What a message sends, if it succeeds. -/
def sentBy (s : State) (c : Call) : List Out :=
  match exec c.env s c.sender c.msg with
  | .ok r => r.2
  | .error _ => []

/-- All that is sent in a history. -/
def sent (s : State) : List Call → List Out
  | [] => []
  | c :: t => sentBy s c ++ sent (step s c) t

/-- The reasons for sending something: the governance controller asked for a deployment or for sending a message to a
treasury. `recorded` gives the proxy and the treasury of a chain. -/
inductive Meant (h : List Call) (recorded : Nat → Option Nat × Option Nat) (o : Out) : Prop
  /-- a proxy, owned by the account that stands for this contract on the other chain -/
  | proxy (c : Call) (d : Deploy) (owner : Addr) (hc : c ∈ h) (hm : c.msg = .deploy d)
      (hs : c.env.controller = some c.sender) (ho : c.env.derive_ d.spec.destChannel c.env.self d.spec.prefix_ = some owner)
      (ha : o.act = .proxy d.proxyCode owner) (hp : o.proxy = d.globalProxy) (hr : o.srcPort = d.spec.srcPort)
      (hr' : o.srcChannel = d.spec.srcChannel)
  /-- a treasury, administered by the recorded proxy -/
  | treasury (d : Deploy) (p : Nat) (hd : Asked h d) (hp : (recorded d.spec.chain).1 = some p)
      (ha : o.act = .treasury d.treasuryCode p d.assets d.nfts) (hg : o.proxy = d.globalProxy)
      (hr : o.srcPort = d.spec.srcPort) (hr' : o.srcChannel = d.spec.srcChannel)
  /-- a message, to the recorded treasury through the recorded proxy -/
  | run (c : Call) (sp : Spec) (m p t : Nat) (hc : c ∈ h) (hm : c.msg = .execTreasury sp m)
      (hs : c.env.controller = some c.sender) (hp : recorded sp.chain = (some p, some t))
      (ha : o.act = .run t m) (hg : o.proxy = p) (hr : o.srcPort = sp.srcPort) (hr' : o.srcChannel = sp.srcChannel)

theorem Meant.mono {h h' : List Call} {r r' : Nat → Option Nat × Option Nat} {o : Out} (hm : Meant h r o)
    (hh : ∀ c ∈ h, c ∈ h') (h1 : ∀ c p, (r c).1 = some p → (r' c).1 = some p)
    (h2 : ∀ c p, (r c).2 = some p → (r' c).2 = some p) : Meant h' r' o := by
  cases hm with
  | proxy c d owner hc hm hs ho ha hp hr hr' => exact .proxy c d owner (hh c hc) hm hs ho ha hp hr hr'
  | treasury d p hd hp ha hg hr hr' =>
    obtain ⟨c, hc, hx⟩ := hd
    exact .treasury d p ⟨c, hh c hc, hx⟩ (h1 _ p hp) ha hg hr hr'
  | run c sp m p t hc hm hs hp ha hg hr hr' =>
    refine .run c sp m p t (hh c hc) hm hs (Prod.ext ?_ ?_) ha hg hr hr'
    · exact h1 _ p (by rw [hp])
    · exact h2 _ t (by rw [hp])

/-- Callbacks stem from deployments asked for. -/
def Known (pre : List Call) (s : State) : Prop :=
  ∀ i cb, s.callbacks.get i = some cb → ∃ d, cb.spec = d.spec ∧ cb.proxy = d.globalProxy ∧ Asked pre d ∧
    ∀ d', cb.kind = .proxy d' → d' = d

theorem Known.step {pre : List Call} {s : State} (hk : Known pre s) {c : Call} (h2 : Effect c.env s c.sender c.msg (step s c)) :
    Known (pre ++ [c]) (step s c) := by
  have hold : Known (pre ++ [c]) s := by
    intro i cb h
    obtain ⟨d, e1, e2, ⟨x, hx, hx'⟩, e4⟩ := hk i cb h
    exact ⟨d, e1, e2, ⟨x, List.mem_append_left _ hx, hx'⟩, e4⟩
  generalize Outposts.step s c = s' at h2
  intro i cb hi
  obtain ⟨ce, cu, cm⟩ := c
  simp only at h2
  cases h2 with
  | deploy d k hu hk =>
    rw [issue_get] at hi
    split at hi
    · cases hi
      exact ⟨d, rfl, rfl, ⟨_, List.mem_append_right _ (List.mem_singleton.2 rfl), rfl, hu⟩, hk⟩
    · exact hold i cb hi
  | exec sp m hu => exact hold i cb hi
  | proxy j x cb0 d hc hk hu hn =>
    rw [issue_get] at hi
    split at hi
    · cases hi
      obtain ⟨d', e1, e2, e3, e4⟩ := hold j cb0 hc
      have := e4 d hk
      subst this
      exact ⟨d, rfl, e2, e3, fun d' hd' => by cases hd'⟩
    · rw [Map.get_remove] at hi
      split at hi
      · cases hi
      · exact hold i cb hi
  | treasury j x cb0 sp hc hk hu hn =>
    simp only [Map.get_remove] at hi
    split at hi
    · cases hi
    · exact hold i cb hi

/-- What one message sends is meant. -/
theorem sentBy_meant {pre : List Call} {s : State} (hk : Known pre s) {c : Call} {o : Out} (ho : o ∈ sentBy s c) :
    Meant (pre ++ [c]) (queryDeployments (step s c)) o := by
  have hc : c ∈ pre ++ [c] := List.mem_append_right _ (List.mem_singleton.2 rfl)
  unfold sentBy at ho
  unfold step
  cases h : exec c.env s c.sender c.msg with
  | error x => rw [h] at ho; cases ho
  | ok r =>
    rw [h] at ho
    simp only at ho ⊢
    cases hm : c.msg with
    | deploy d =>
      rw [hm] at h
      obtain ⟨h1, h2, ⟨p, h3, rfl⟩ | ⟨h3, owner, h4, rfl⟩⟩ := deploy_ok_iff.1 h
      · rcases List.mem_singleton.1 ho with rfl
        exact .treasury d p ⟨c, hc, hm, h1⟩ h3 rfl rfl rfl rfl
      · rcases List.mem_singleton.1 ho with rfl
        exact .proxy c d owner hc hm h1 h4 rfl rfl rfl rfl
    | execTreasury sp m =>
      rw [hm] at h
      simp only [exec, bind_ok_iff, pure_ok_iff] at h
      obtain ⟨x, h1, rfl⟩ := h
      obtain ⟨h2, p, t, hp, ht, rfl⟩ := execTreasury_ok_iff.1 h1
      rcases List.mem_singleton.1 ho with rfl
      exact .run c sp m p t hc hm h2 (Prod.ext hp ht) rfl rfl rfl rfl
    | callback id answer =>
      rw [hm] at h
      obtain ⟨cb, a, hcb, hu, rfl, _, ⟨d, hkd, hn, hr⟩ | ⟨sp, hkd, hn, rfl⟩⟩ := callback_ok_iff.1 h
      · rw [hr _ rfl] at ho ⊢
        rcases List.mem_singleton.1 ho with rfl
        obtain ⟨d', e1, e2, ⟨x, hx, hx'⟩, e4⟩ := hk id cb hcb
        have := e4 d hkd
        subst this
        refine .treasury d a ⟨x, List.mem_append_left _ hx, hx'⟩ ?_ rfl e2 rfl rfl
        show (s.proxies.set cb.spec.chain a).get d.spec.chain = some a
        rw [e1]
        simp
      · cases ho

/-- Whatever is sent in any history was meant by the governance controller: a proxy is instantiated only for a deployment
it asked for, a treasury only for such a deployment and administered by the proxy recorded for the chain, and a message
goes only from the controller through the recorded proxy to the recorded treasury. -/
theorem C75_all_sent (a : Addr) (l : List Call) (o : Out) (ho : o ∈ sent (init a) l) :
    Meant (succeeded (init a) l) (queryDeployments (run (init a) l)) o := by
  suffices H : ∀ (l : List Call) (s : State) (pre : List Call), Known pre s → o ∈ sent s l →
      Meant (pre ++ succeeded s l) (queryDeployments (run s l)) o by
    simpa using H l (init a) [] (fun i cb h => by cases h) ho
  intro l
  induction l with
  | nil => intro s pre _ ho; cases ho
  | cons c t ih =>
    intro s pre hk ho
    unfold sent at ho
    unfold succeeded
    rcases step_cases s c with ⟨h1, h2⟩ | ⟨h1, h2⟩
    · rw [h1, show run s (c :: t) = run s t by simp only [run, h2], h2]
      simp only [Bool.false_eq_true, if_false, List.nil_append]
      rw [h2] at ho
      refine ih s pre hk ((List.mem_append.1 ho).resolve_left ?_)
      unfold sentBy
      unfold accepted at h1
      cases hx : exec c.env s c.sender c.msg with
      | error x => exact List.not_mem_nil
      | ok r => rw [hx] at h1; cases h1
    · rw [h1]
      simp only [if_true]
      rw [← List.append_assoc]
      rcases List.mem_append.1 ho with ho | ho
      · obtain ⟨h3, h4⟩ : (∀ ch p, (queryDeployments (step s c) ch).1 = some p → (queryDeployments (run s (c :: t)) ch).1 = some p) ∧
            ∀ ch p, (queryDeployments (step s c) ch).2 = some p → (queryDeployments (run s (c :: t)) ch).2 = some p :=
          ⟨fun ch => (C68_never_replaced (step s c) t ch).1, fun ch => (C68_never_replaced (step s c) t ch).2⟩
        exact (sentBy_meant hk ho).mono (fun x hx => List.mem_append_left _ hx) h3 h4
      · exact ih (step s c) (pre ++ [c]) (hk.step h2) ho

example : (sent (init 4) sampleCalls).map (fun o => (o.proxy, o.act)) =
    [(70, .proxy 100 20103), (70, .treasury 101 71 none none)] := by decide +kernel

/-- Reading page after page lists each chain with a treasury exactly once, in increasing order; and the reading ends. -/
theorem C75_paging (s : State) (limit : Option Nat) (hl : limit ≠ some 0) :
    (∃ ps, Reads (fun c => queryTreasuries s c limit) (·.1) none ps) ∧
    ∀ ps, Reads (fun c => queryTreasuries s c limit) (·.1) none ps →
      ps.flatten.Pairwise (fun x y => x.1 < y.1) ∧
      ∀ c t, (c, t) ∈ ps.flatten ↔ (queryDeployments s c).2 = some t := by
  have hn : 0 < min (limit.getD 50) 100 := by
    cases limit with
    | none => decide
    | some n =>
      have : n ≠ 0 := fun h => hl (by rw [h])
      simp only [Option.getD_some]
      omega
  have hg : ∀ e ∈ s.treasuries.entries, (fun v : Nat => v) ((·.1) ((fun x : Nat × Nat => x) e)) = e.1 := fun e _ => rfl
  have hfun : (fun c => queryTreasuries s c limit) =
      fun c : Option Nat => (s.treasuries.page (c.map (fun v : Nat => v)) (min (limit.getD 50) 100)).map
        (fun x : Nat × Nat => x) := by
    funext c
    cases c <;> simp [queryTreasuries]
  rw [hfun]
  refine ⟨reads_page_exists (emb := fun v : Nat => v) hg hn none, fun ps hps => ?_⟩
  have hres := reads_page (emb := fun v : Nat => v) hg hn hps
  simp only [Option.map_none, afterL_none, List.map_id'] at hres
  rw [hres]
  refine ⟨s.treasuries.sorted, fun c t => ?_⟩
  rw [← Map.get_eq_some_iff]
  rfl

example : ∃ r, exec sampleEnv (run (init 4) sampleCalls) 12 (.execTreasury sampleDeploy.spec 55) = .ok r ∧
    r.2.map (fun o => (o.proxy, o.act)) = [(71, .run 73 55)] := ⟨_, rfl, by decide +kernel⟩

example : Reads (fun c => queryTreasuries (run (init 4) sampleCalls) c (some 1)) (·.1) none [[(7, 73)]] := by
  refine Reads.more (x := (7, 73)) (by decide +kernel) ?_
  exact Reads.stop (by decide +kernel)

end Verif.Outposts
