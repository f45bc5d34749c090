import Verif.Dao.Props18

/-!
# The contracts of a DAO together: what the controller orders is backed by the members (C137)
-/

set_option linter.unusedSimpArgs false

namespace Verif.Dao
open Verif
open Verif.Controller (Action Info Sub Does DoesAll)

/-! ### Specification -/

/-- What the controller sent when it handled a message on record. -/
def told (c : Cfg) (x : Entry) : List Sub :=
  match x.msg with
  | .ctl m =>
    match Controller.exec (c.env x.ext x.world) x.sender x.world.ctl x.world.gov m with
    | .ok r => r.2.2
    | .error _ => []
  | _ => []

/-- Orders: messages to a treasury, to the enterprise contract, and custom messages. -/
inductive Order : Sub → Prop
  | treasury (r : Option Nat) (m : Treasury.Msg) : Order (.treasury r m)
  | enterprise (m : Controller.EnterpriseMsg) : Order (.enterprise m)
  | custom (n : Nat) : Order (.custom n)

/-- The order that an action asks for. -/
inductive Asks : Action → Sub → Prop
  | funding (r : Option Nat) (u : Addr) (l : List Asset) : Asks (.requestFunding r u l) (.treasury r (.spend u l))
  | distribute (d : Addr) (l : List Asset) : Asks (.distributeFunds l) (.treasury none (.distribute d l))
  | treasuryMsgs (r : Option Nat) (l : List Nat) {l' : List (Option Nat)} (h : ∀ n, some n ∈ l' → n ∈ l) :
      Asks (.executeTreasuryMsgs r l) (.treasury r (.cosmosMsgs l'))
  | assets (r : Option Nat) (a d : List AssetInfo) : Asks (.updateAssetWhitelist r a d) (.treasury r (.updateAssets a d))
  | nfts (r : Option Nat) (a d : List Addr) : Asks (.updateNftWhitelist r a d) (.treasury r (.updateNfts a d))
  | metadata (n : Nat) : Asks (.updateMetadata n) (.enterprise (.updateMetadata n))
  | upgrade (v : Controller.Version) : Asks (.upgradeDao v) (.enterprise (.upgradeDao v))
  | enterpriseMsgs (l : List Nat) : Asks (.executeEnterpriseMsgs l) (.enterprise (.executeMsgs l))
  | custom {l : List Nat} {n : Nat} (h : n ∈ l) : Asks (.executeMsgs l) (.custom n)

/-- The orders that the council may give: changes of whitelists and of metadata, and upgrades. -/
inductive Modest : Sub → Prop
  | assets (r : Option Nat) (a d : List AssetInfo) : Modest (.treasury r (.updateAssets a d))
  | nfts (r : Option Nat) (a d : List Addr) : Modest (.treasury r (.updateNfts a d))
  | metadata (n : Nat) : Modest (.enterprise (.updateMetadata n))
  | upgrade (v : Controller.Version) : Modest (.enterprise (.upgradeDao v))

/-- The message runs the actions of a proposal. -/
def Entry.runs (x : Entry) (id : Nat) : Bool :=
  match x.msg with
  | .ctl (.executeActions j) => decide (j = id)
  | _ => false

/-- How often the actions of a proposal were run, according to the record. -/
def runs (t : List Entry) (id : Nat) : Nat := t.countP (·.runs id)

/-! ### Lemmas -/

theorem doesAll_mem {e : Controller.Env} {s s' : Controller.State} {l : List Action} {subs : List Sub}
    (h : DoesAll e s l s' subs) {x : Sub} (hx : x ∈ subs) : ∃ a ∈ l, ∃ s1 s2 subs', Does e s1 a s2 subs' ∧ x ∈ subs' := by
  induction h with
  | nil s => cases hx
  | cons h t ih =>
    rcases List.mem_append.1 hx with hx | hx
    · exact ⟨_, List.mem_cons_self, _, _, _, h, hx⟩
    · obtain ⟨a, ha, r⟩ := ih hx
      exact ⟨a, List.mem_cons_of_mem _ ha, r⟩

theorem does_asks {e : Controller.Env} {s s' : Controller.State} {a : Action} {subs : List Sub}
    (h : Does e s a s' subs) {x : Sub} (hx : x ∈ subs) (ho : Order x) : Asks a x := by
  cases h with
  | updateMetadata m => rw [List.mem_singleton.1 hx]; exact .metadata m
  | config _ _ _ => cases hx
  | configUnlocking _ _ _ _ _ => rw [List.mem_singleton.1 hx] at ho; cases ho
  | configMultisig _ _ _ _ _ => cases hx
  | noCouncil => rw [List.mem_singleton.1 hx] at ho; cases ho
  | council _ => rw [List.mem_singleton.1 hx] at ho; cases ho
  | assets r a d => rw [List.mem_singleton.1 hx]; exact .assets r a d
  | nfts r a d => rw [List.mem_singleton.1 hx]; exact .nfts r a d
  | funding r u l => rw [List.mem_singleton.1 hx]; exact .funding r u l
  | upgrade _ => rw [List.mem_singleton.1 hx]; exact .upgrade _
  | msgs _ =>
    obtain ⟨n, hn, rfl⟩ := List.mem_map.1 hx
    exact .custom hn
  | treasuryMsgs r l =>
    rw [List.mem_singleton.1 hx]
    refine .treasuryMsgs r l (fun n hn => ?_)
    obtain ⟨k, hk, hkn⟩ := List.mem_map.1 hn
    split at hkn
    · cases hkn; exact hk
    · cases hkn
  | enterpriseMsgs l => rw [List.mem_singleton.1 hx]; exact .enterpriseMsgs l
  | multisig _ _ => rw [List.mem_singleton.1 hx] at ho; cases ho
  | distribute l => rw [List.mem_singleton.1 hx]; exact .distribute _ l
  | minWeight n => rw [List.mem_singleton.1 hx] at ho; cases ho
  | deploy d => rw [List.mem_singleton.1 hx] at ho; cases ho

theorem Asks.modest {a : Action} {s : Sub} (h : Asks a s) (ha : a.type ∈ Controller.harmless) : Modest s := by
  cases h with
  | assets r a d => exact .assets r a d
  | nfts r a d => exact .nfts r a d
  | metadata n => exact .metadata n
  | upgrade v => exact .upgrade v
  | _ => exact absurd ha (by simp [Action.type, Controller.harmless])

/-- Orders are given by the run of actions only. -/
theorem order_run {e : Controller.Env} {u : Addr} {s : Controller.State} {g : Gov.State} {m : Controller.Msg}
    {r : Controller.State × Gov.State × List Sub} (h : Controller.exec e u s g m = .ok r) {x : Sub} (hx : x ∈ r.2.2)
    (ho : Order x) : ∃ id i a, m = .executeActions id ∧ s.infos.get id = some i ∧ a ∈ i.actions ∧ Asks a x := by
  have hcreate : m.isCreate = true → False := by
    intro hm
    obtain ⟨_, _, _, hsub⟩ := Controller.created_exec hm h
    obtain ⟨_, _, rfl⟩ := hsub x hx
    cases ho
  cases m with
  | createProposal p f => exact (hcreate rfl).elim
  | createWithNft p l => exact (hcreate rfl).elim
  | createCouncil p => exact (hcreate rfl).elim
  | receive f a p => exact (hcreate rfl).elim
  | castVote j o =>
    simp only [Controller.exec, bind_ok_iff, pure_ok_iff] at h
    obtain ⟨r1, _, rfl⟩ := h
    cases hx
  | castCouncilVote j o =>
    simp only [Controller.exec, bind_ok_iff, pure_ok_iff] at h
    obtain ⟨r1, _, rfl⟩ := h
    cases hx
  | execute j =>
    exfalso
    simp only [Controller.exec] at h
    obtain ⟨_, k, q, _, _, _, _, _, _, _, rfl⟩ := Controller.executeProposal_ok_iff.1 h
    simp only at hx
    have hsend : ∀ {j : Nat} {d : Controller.DepositAsset} {u : Addr}, x ∉ Controller.sendDeposit j d u := by
      intro j d u hx
      obtain ⟨_, _, rfl⟩ := List.mem_map.1 hx
      cases ho
    have hdep : ∀ {j : Nat} {k : Info}, x ∉ Controller.returnDeposit j k := by
      intro j k hx
      unfold Controller.returnDeposit at hx
      split at hx
      · exact hsend hx
      · cases hx
    unfold Controller.outcomeSubs at hx
    split at hx
    · rcases List.mem_cons.1 hx with rfl | hx
      · cases ho
      · exact hdep hx
    · unfold Controller.rejectedDeposit at hx
      split at hx
      · cases hx
      · split at hx
        · split at hx
          · exact hsend hx
          · cases hx
        · exact hdep hx
    · cases hx
  | weightsChanged l =>
    simp only [Controller.exec, bind_ok_iff, pure_ok_iff] at h
    obtain ⟨r1, h1, rfl⟩ := h
    rcases Controller.weightsChanged_ok_iff.1 h1 with ⟨_, rfl⟩ | ⟨_, _, h3, h4⟩
    · cases hx
    · exfalso
      change x ∈ r1.2 at hx
      rw [h4, List.mem_singleton] at hx
      rw [hx] at ho
      cases ho
  | executeActions j =>
    obtain ⟨_, _, i, hi, hd⟩ := Controller.C91_actions.1 h
    obtain ⟨a, ha, _, _, _, hdo, hxs⟩ := doesAll_mem hd hx
    exact ⟨j, i, a, rfl, hi, ha, does_asks hdo hxs ho⟩
  | deployInitial =>
    simp only [Controller.exec, bind_ok_iff, pure_ok_iff] at h
    obtain ⟨r1, k1, rfl⟩ := h
    obtain ⟨_, _, rfl⟩ := Controller.deployInitial_ok_iff.1 k1
    obtain ⟨_, _, rfl⟩ := List.mem_map.1 hx
    cases ho

theorem handle_ran {c : Cfg} {e : Ext} {w w1 : World} {a : Addr} {m : Msg} {subs : List Item}
    (h : handle c e w a m = .ok (w1, subs)) (id : Nat) :
    ranCount w1 id = ranCount w id + runs [⟨w, e, a, m⟩] id := by
  cases m with
  | ctl m =>
    obtain ⟨r, hx⟩ := handle_ctl h
    have hworld := hx.world
    simp only at hworld
    have hev : (r.2.2.filterMap eventOf).count (.ran id) = 0 := by
      rw [List.count_eq_zero]
      intro hm
      obtain ⟨s, _, hs⟩ := List.mem_filterMap.1 hm
      cases s <;> cases hs
    have : ranCount w1 id = ranCount w id + (ranOf m).count (.ran id) := by
      rw [hworld]
      unfold ranCount
      simp only [List.count_append, hev]
      omega
    rw [this]
    congr 1
    cases m <;> try rfl
    rename_i j
    unfold runs Entry.runs ranOf
    by_cases hj : j = id <;> simp [hj]
  | gov m =>
    simp only [handle, bind_ok_iff, pure_ok_iff] at h
    obtain ⟨_, _, h2⟩ := h
    cases h2
    rfl
  | dist m =>
    simp only [handle, bind_ok_iff, pure_ok_iff] at h
    obtain ⟨_, _, h2⟩ := h
    cases h2
    rfl
  | mem m =>
    simp only [handle, bind_ok_iff] at h
    obtain ⟨x, _, hd⟩ := h
    have h3 := (deliver_plain _ hd).2.1
    unfold ranCount
    rw [h3]; rfl
  | council m =>
    simp only [handle, bind_ok_iff] at h
    obtain ⟨x, _, hd⟩ := h
    have h3 := (deliver_plain _ hd).2.1
    unfold ranCount
    rw [h3]; rfl

theorem runs_append (t t' : List Entry) (id : Nat) : runs (t ++ t') id = runs t id + runs t' id := by
  unfold runs
  rw [List.countP_append]

theorem Traced.ran {c : Cfg} {w w' : World} {l : List Item} {t : List Entry} (h : Traced c w l w' t) (id : Nat) :
    ranCount w' id = ranCount w id + runs t id := by
  induction h with
  | nil w => rfl
  | @call w w1 w2 w3 a m subs rest t1 t2 e room h h1 h2 ih1 ih2 =>
    have := handle_ran h id
    have e1 : (⟨w, e, a, m⟩ :: (t1 ++ t2) : List Entry) = [⟨w, e, a, m⟩] ++ (t1 ++ t2) := rfl
    rw [e1, runs_append, runs_append]
    omega
  | @actions w w1 w2 w3 j subs rest t1 t2 e room h h1 h2 ih1 ih2 =>
    have := handle_ran h id
    have e1 : (⟨w, e, c.self, .ctl (.executeActions j)⟩ :: (t1 ++ t2) : List Entry) =
      [⟨w, e, c.self, .ctl (.executeActions j)⟩] ++ (t1 ++ t2) := rfl
    rw [e1, runs_append, runs_append]
    omega
  | failed h ih => exact ih
  | @deposit w w1 w2 j t calls rest t1 t2 hc h1 h2 ih1 ih2 =>
    rw [runs_append]
    have : ranCount { w with log := w.log ++ [.paid j t] } id = ranCount w id := by
      unfold ranCount
      simp [List.count_append]
    omega
  | @other w w1 w2 calls rest t1 t2 hc h1 h2 ih1 ih2 =>
    rw [runs_append]
    omega

theorem History.ran {c : Cfg} {w w' : World} {t : List Entry} (h : History c w w' t) (id : Nat) :
    ranCount w' id = ranCount w id + runs t id := by
  induction h with
  | start => rfl
  | tx _ _ hx ih => rw [runs_append, hx.ran id, ih]; omega
  | block _ _ _ ih => exact ih

/-! ## C137 -/

/-- Each order on record was asked for by an action of a proposal that passed and whose actions were run in this history.
A general proposal was backed by the members; a council proposal only changes whitelists or metadata, or upgrades. -/
theorem C137_orders {c : Cfg} (hw : c.Wf) (ht : c.Tame) {w w' : World} {t : List Entry} (hr : Reachable c w)
    (h : History c w w' t) {x : Entry} (hx : x ∈ t) {s : Sub} (hs : s ∈ told c x) (ho : Order s) :
    ∃ id i a, x.msg = .ctl (.executeActions id) ∧ w'.ctl.infos.get id = some i ∧ a ∈ i.actions ∧ Asks a s ∧
      ranCount w id = 0 ∧ ranCount w' id = 1 ∧
      ((i.type = .general ∧ ∃ v p, Gov.queryPoll w'.gov id = .ok p ∧ Was c v w' ∧ Backed v w' id p) ∨
        (i.type = .council ∧ Modest s)) := by
  have hr' := h.later.reachable hr
  unfold told at hs
  split at hs
  · rename_i m hm
    split at hs
    · rename_i r hex
      obtain ⟨id, j, a, rfl, hj, ha, hask⟩ := order_run hex hs ho
      obtain ⟨_, id', i', o, n, h1, h2, h3, h4, h5⟩ := C130_ordered hw ht hr h hx (by rw [hm]; rfl)
      have hid : id' = id := by
        rcases h5 with h5 | ⟨b, _, hb⟩
        · rw [hm] at h5; cases h5; rfl
        · rw [hm] at hb
          cases hb with
          | custom hn hd => exact absurd (ht _ _ hd) (by simp [Msg.tame])
      subst hid
      obtain ⟨i2, k1, k2⟩ := h.carried hw ht hr x hx id' j hj
      rw [h1] at k1; cases k1
      refine ⟨id', i', a, hm, h1, by rw [k2]; exact ha, hask, h3, h4, ?_⟩
      cases hty : i'.type with
      | general =>
        obtain ⟨v, p, q1, q2, q3⟩ := C136_backed hw ht hr' h1 hty h2
        exact Or.inl ⟨rfl, v, p, q1, q2, q3⟩
      | council =>
        exact Or.inr ⟨rfl, hask.modest (((hr'.base hw ht).ctl.free id' i' h1 hty).2 a (by rw [k2]; exact ha))⟩
    · cases hs
  · cases hs

/-- The actions of each proposal are on record at most once, whatever the history, so no order is given twice. -/
theorem C137_once {c : Cfg} (hw : c.Wf) (ht : c.Tame) {w w' : World} {t : List Entry} (hr : Reachable c w)
    (h : History c w w' t) (id : Nat) : runs t id ≤ 1 := by
  have h1 := h.ran id
  obtain ⟨h2, h3⟩ := C44_at_most_once hw ht (h.later.reachable hr) id
  omega

/-! ### Examples -/

/-- A proposal for funds, passed and executed. -/
def sampleFunding : List Step :=
  [stake 10 60, stake 11 40, at_ 2, propose 10 [.requestFunding none 77 [⟨.native 5, 30⟩]], at_ 3, vote 10 1 .yes,
    at_ 102]

/-- The proposal was on record with its run, exactly once; and its run sends the order. -/
example : ∃ t, History sampleCfg sampleGenesis (sampleRun (sampleFunding ++ [execute 13 1])) t ∧ runs t 1 = 1 ∧
    ∃ x ∈ t, x.runs 1 = true := by
  have hl : Later sampleCfg sampleGenesis (sampleRun (sampleFunding ++ [execute 13 1])) := by
    cases hx : runAll sampleCfg sampleGenesis (sampleFunding ++ [execute 13 1]) with
    | none =>
      exfalso
      have : (runAll sampleCfg sampleGenesis (sampleFunding ++ [execute 13 1])).isSome = true := by decide +kernel
      rw [hx] at this
      cases this
    | some w' =>
      have : sampleRun (sampleFunding ++ [execute 13 1]) = w' := by unfold sampleRun; rw [hx]; rfl
      rw [this]
      exact runAll_later _ .refl hx
  obtain ⟨t, h⟩ := hl.history
  have h1 := h.ran 1
  have h2 : ranCount (sampleRun (sampleFunding ++ [execute 13 1])) 1 = 1 := by decide +kernel
  have h3 : ranCount sampleGenesis 1 = 0 := by decide +kernel
  have h4 : runs t 1 = 1 := by omega
  refine ⟨t, h, h4, ?_⟩
  have h5 : 0 < t.countP (·.runs 1) := by unfold runs at h4; omega
  exact List.countP_pos_iff.1 h5

example : told sampleCfg ⟨sampleRun sampleFunding, sampleExt, sampleCfg.self, .ctl (.executeActions 1)⟩ =
    [.treasury none (.spend 77 [⟨.native 5, 30⟩])] := by decide +kernel

end Verif.Dao
