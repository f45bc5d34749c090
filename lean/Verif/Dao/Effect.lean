import Verif.Dao.Orders
import Verif.Dao.Props10

/-!
# The contracts of a DAO together: the amendments of a passed proposal are accepted
-/

set_option linter.unusedSimpArgs false

namespace Verif.Dao
open Verif
open Verif.Controller (Action GovConfig GovChange CouncilConfig CouncilSpec Sub Info Changed DaoType ValidConfig ValidSpec)
open Verif.Staking (Duration)

/-! ### Specification -/

/-- The actions all amend the rules of a DAO of type `t`, they can be carried out one after the other when the configuration
is `g`, and the configuration is then `g'`. -/
inductive Amendable (t : DaoType) : GovConfig → List Action → GovConfig → Prop
  | nil (g : GovConfig) : Amendable t g [] g
  | config {g g1 g2 : GovConfig} {ch : GovChange} {l : List Action} (h : Changed g ch g1) (hv : ValidConfig t g1)
      (hd : ∀ n, ch.unlocking = some (.time n) → g1.voteDuration ≤ n) (r : Amendable t g1 l g2) :
      Amendable t g (.updateGovConfig ch :: l) g2
  | council {g g1 : GovConfig} {sp : Option CouncilSpec} {l : List Action} (h : ∀ x, sp = some x → ValidSpec x)
      (r : Amendable t g l g1) : Amendable t g (.updateCouncil sp :: l) g1
  | members {g g1 : GovConfig} {ms : List (Addr × Nat)} {l : List Action} (ht : t = .multisig)
      (h : (ms.map (·.1)).Nodup) (r : Amendable t g l g1) : Amendable t g (.modifyMultisig ms :: l) g1
  | minimum {g g1 : GovConfig} {n : Nat} {l : List Action} (r : Amendable t g l g1) :
      Amendable t g (.updateMinWeight n :: l) g1

/-- The unlocking period after an action. -/
def periodGiven (d : Option Duration) : Action → Option Duration
  | .updateGovConfig ch => match ch.unlocking with | some k => some k | none => d
  | _ => d

/-- The minimum weight for rewards after an action. -/
def minimumGiven (n : Nat) : Action → Nat
  | .updateMinWeight k => k
  | _ => n

/-- The weight of a user in the council after an action. -/
def seatGiven (u : Addr) (n : Nat) : Action → Nat
  | .updateCouncil none => 0
  | .updateCouncil (some sp) => if u ∈ sp.members then 1 else 0
  | _ => n

/-- The weight of a user in a multisig DAO after an action. -/
def shareGiven (u : Addr) (n : Nat) : Action → Nat
  | .modifyMultisig ms => (named ms u).getD n
  | _ => n

/-- The sum of the weights that actions give to members of a multisig DAO. -/
def newShares (l : List Action) : Nat :=
  (l.map (fun a => match a with | .modifyMultisig ms => (ms.map (·.2)).sum | _ => 0)).sum

/-- The rules in `w'`, which the controller does not hold itself, are those in `w` amended by the actions. -/
structure Amends (w w' : World) (l : List Action) : Prop where
  period : w.mem.daoType ≠ .multisig → w'.mem.unlocking = l.foldl periodGiven w.mem.unlocking
  minimum : w'.dist.min = l.foldl minimumGiven w.dist.min
  seats : ∀ u, Multisig.queryWeight w'.council u = l.foldl (seatGiven u) (Multisig.queryWeight w.council u)
  shares : w.mem.daoType = .multisig → ∀ u, w'.mem.weight u = l.foldl (shareGiven u) (w.mem.weight u)

/-- Messages that are accepted one after the other, and send none themselves. -/
inductive Carried (c : Cfg) (e : Ext) : World → List Item → World → Prop
  | nil (w : World) : Carried c e w [] w
  | cons {w w1 w2 : World} {a : Addr} {m : Msg} {l : List Item} (h : handle c e w a m = .ok (w1, []))
      (r : Carried c e w1 l w2) : Carried c e w (.call a m :: l) w2

/-! ### Reports of many weights -/

theorem votes_exist {e : Controller.Env} {s : Controller.State} : ∀ (l : List WeightChange) {g : Gov.State},
    CtlInv e.self e.daoType e.block.time s g → (∀ x ∈ l, x.new < M128) →
    ∃ g', Controller.updateAllVotes e g l = .ok g' := by
  intro l
  induction l with
  | nil => intro g _ _; exact ⟨g, rfl⟩
  | cons x t ih =>
    intro g h hl
    have hx := hl x List.mem_cons_self
    obtain ⟨g1, hg, _⟩ := Gov.C10_update_votes h.gov.reachable (now := e.block.time) (voter := x.user) (amount := x.new) hx
      (fun i p hp => h.started i p (Controller.queryPoll_ok_iff.1 hp))
    rw [show g.admin = e.self from h.gov.admin] at hg
    have h1 : Controller.updateAllVotes e g [x] = .ok g1 := foldlM_cons_ok_iff.2 ⟨g1, hg, rfl⟩
    obtain ⟨h2, _⟩ := updateAll_inv [x] (fun y hy => by rw [List.mem_singleton.1 hy]; exact hx) h h1
    obtain ⟨g', h3⟩ := ih h2 (fun y hy => hl y (List.mem_cons_of_mem _ hy))
    exact ⟨g', foldlM_cons_ok_iff.2 ⟨g1, hg, h3⟩⟩

/-- What the distributor holds as weights. -/
def load (d : Distributor.State) : Nat := d.weights.sum (fun _ n => n)

theorem total_le_load {d : Distributor.State} (h : Distributor.Inv d) : d.total ≤ load d := by
  rw [h.toCore.total]
  have he : d.effective = d.weights.mapVals (fun _ x => Distributor.effWeight x d.min) := by
    refine Map.ext_get (fun u => ?_)
    rw [h.eff u, Map.get_mapVals]
  have hs : d.effective.sum (fun _ n => n) = d.weights.sum (fun _ x => Distributor.effWeight x d.min) := by
    rw [he]
    unfold Map.sum Map.mapVals
    rw [List.map_map]
    rfl
  rw [hs]
  refine Map.sum_le_sum (fun _ x _ => ?_)
  unfold Distributor.effWeight
  split <;> omega

theorem mem_le_sum {n : Nat} : ∀ {l : List Nat}, n ∈ l → n ≤ l.sum
  | [], h => by cases h
  | x :: t, h => by
    rw [List.sum_cons]
    rcases List.mem_cons.1 h with rfl | h
    · omega
    · have := mem_le_sum h
      omega

theorem load_sets : ∀ (l : List (Addr × Nat)) (m : Map Addr Nat),
    (l.foldl (fun m p => m.set p.1 p.2) m).sum (fun _ n => n) ≤ m.sum (fun _ n => n) + (l.map (·.2)).sum := by
  intro l
  induction l with
  | nil => intro m; simp
  | cons p t ih =>
    intro m
    have h1 := ih (m.set p.1 p.2)
    have h2 := Map.sum_set m (fun _ n => n) p.1 p.2
    rw [List.foldl_cons, List.map_cons, List.sum_cons]
    omega

/-- A world in which weights of `k` in total can still be added. -/
structure Sound (c : Cfg) (w : World) (k : Nat) : Prop where
  base : Base c w
  dist : DistOk c w
  owed : ∀ a, Distributor.owedOf w.dist a < ONE * M128
  load : 2 * (load w.dist + k) < M128
  total : w.mem.mem.wsum + k < M128
  room : w.gov.pollCount + 1 < 2 ^ 64

/-- What one accepted message without messages of its own amounts to. -/
structure Taken (c : Cfg) (e : Ext) (w : World) (m : Msg) (k : Nat) (w1 : World) : Prop where
  handled : handle c e w c.self m = .ok (w1, [])
  sound : Sound c w1 k
  ruling : Ruling c w w1 ⟨w, e, c.self, m⟩
  type : w1.mem.daoType = w.mem.daoType
  ctl : w1.ctl = w.ctl
  log : w1.log = w.log

theorem taken {c : Cfg} (hw : c.Wf) (ht : c.Tame) {e : Ext} {w w1 : World} {m : Msg} {k k' : Nat} (h : Sound c w k)
    (hm : m.tame = true) (hn : ∀ m', m ≠ .ctl m') (hr : handle c e w c.self m = .ok (w1, []))
    (ho : ∀ a, Distributor.owedOf w1.dist a ≤ Distributor.owedOf w.dist a) (hl : load w1.dist + k' ≤ load w.dist + k)
    (hs : w1.mem.mem.wsum + k' ≤ w.mem.mem.wsum + k) (hc : w1.gov.pollCount = w.gov.pollCount) :
    Taken c e w m k' w1 := by
  have hk : Known c c.self m := Or.inr ⟨rfl, Or.inl hm⟩
  have hh := handled hw ht h.base hk h.room hr
  refine ⟨hr, ⟨hh.base, (hh.dist hw h.base hk hr h.dist).1, fun a => lt_of_le_of_lt (ho a) (h.owed a), ?_, ?_, ?_⟩,
    hh.ruling hw h.base hk hr h.dist, hh.type, ?_, ?_⟩
  · have := h.load
    omega
  · have := h.total
    omega
  · rw [hc]; exact h.room
  · rcases hh.kind with ⟨_, m', _, hm', _⟩ | ⟨_, h1, _⟩
    · exact absurd hm' (hn m')
    · exact h1
  · rcases hh.kind with ⟨_, m', _, hm', _⟩ | ⟨_, _, h1, _⟩
    · exact absurd hm' (hn m')
    · exact h1

/-! ### Each kind of amendment -/

/-- A new council. -/
theorem take_council {c : Cfg} (hw : c.Wf) (ht : c.Tame) {w : World} {k : Nat} (h : Sound c w k) (e : Ext)
    {l : List (Addr × Nat)} (hd : (l.map (·.1)).Nodup) (hs : (l.map (·.2)).sum < M128) :
    ∃ w1, Taken c e w (.council (.setMembers l)) k w1 ∧ w1.mem = w.mem := by
  have hx : Multisig.exec w.council (c.menv e w c.self) (.setMembers l) = .ok (_, _) :=
    Multisig.setMembers_ok_iff.2 ⟨rfl, hd, hs, rfl⟩
  generalize hm : (Multisig.setAll { w.council with weights := Map.empty } l).saveTotal (Multisig.listed l)
    (c.menv e w c.self).block = m at hx
  rw [report_single (m := w.council) h.base.council.hooks] at hx
  have hr : handle c e w c.self (.council (.setMembers l)) = .ok ({ w with council := m }, []) := by
    simp only [handle]
    refine bind_ok_iff.2 ⟨_, hx, ?_⟩
    simp only [deliver, if_true]
    refine bind_ok_iff.2 ⟨_, Controller.weightsChanged_ok_iff.2 (Or.inl ⟨rfl, rfl⟩), rfl⟩
  exact ⟨_, taken hw ht h rfl (fun _ hh => by cases hh) hr (fun _ => le_refl _) (le_refl _) (le_refl _) rfl, rfl⟩

/-- A new unlocking period. -/
theorem take_period {c : Cfg} (hw : c.Wf) (ht : c.Tame) {w : World} {k : Nat} (h : Sound c w k) (e : Ext)
    (hk : w.mem.daoType ≠ .multisig) (d : Duration) :
    ∃ w1, Taken c e w (.mem (w.mem.unlockingMsg d)) k w1 := by
  have key : ∃ x, w.mem.exec ⟨c.menv e w c.self, e.proxy⟩ (w.mem.unlockingMsg d) = .ok (x, []) ∧ x.mem = w.mem.mem ∧
      (w.mem.unlockingMsg d).tame = true := by
    cases hm : w.mem with
    | staking q s =>
      refine ⟨.staking q { s with unlocking := d }, ?_, rfl, rfl⟩
      exact bind_ok_iff.2 ⟨_, Staking.updateUnlocking_ok_iff.2 ⟨rfl, rfl⟩, rfl⟩
    | nft s =>
      refine ⟨.nft { s with unlocking := d }, ?_, rfl, rfl⟩
      exact bind_ok_iff.2 ⟨_, Nft.updateUnlocking_ok_iff.2 ⟨rfl, rfl⟩, rfl⟩
    | multisig s => rw [hm] at hk; exact absurd rfl hk
  obtain ⟨x, hx, hxm, htm⟩ := key
  have hr : handle c e w c.self (.mem (w.mem.unlockingMsg d)) = .ok ({ w with mem := x }, []) := by
    simp only [handle]
    exact bind_ok_iff.2 ⟨_, hx, rfl⟩
  refine ⟨_, taken hw ht h htm (fun _ hh => by cases hh) hr (fun _ => le_refl _) (le_refl _) ?_ rfl⟩
  show x.mem.wsum + k ≤ _
  rw [hxm]

/-- A new minimum weight for rewards. -/
theorem take_minimum {c : Cfg} (hw : c.Wf) (ht : c.Tame) {w : World} {k : Nat} (h : Sound c w k) (e : Ext) (n : Nat) :
    ∃ w1, Taken c e w (.dist (.updateMin n)) k w1 ∧ w1.mem = w.mem := by
  have hex : ∃ d, Distributor.updateMin w.dist (e.denv c.self) n = .ok d := by
    unfold Distributor.updateMin
    rw [if_neg (by simp [Ext.denv, h.dist.admin])]
    by_cases hn : w.dist.min = n
    · rw [if_pos hn]; exact ⟨_, rfl⟩
    · rw [if_neg hn]
      have h1 := Distributor.affected_sum w.dist w.dist.min n
      have h2 := total_le_load h.dist.inv
      have h3 := h.load
      obtain ⟨d, hd⟩ := Distributor.mins_exist (b := decide (w.dist.min > n)) (Distributor.affected w.dist w.dist.min n)
        h.dist.inv.toCore h.owed (by unfold load at h2 h3; omega)
      exact ⟨_, bind_ok_iff.2 ⟨d, hd, rfl⟩⟩
  obtain ⟨d, hd⟩ := hex
  obtain ⟨_, _, _, hwt, _, _, _, ho⟩ := Distributor.updateMin_ok h.dist.inv hd
  have hr : handle c e w c.self (.dist (.updateMin n)) = .ok ({ w with dist := d }, []) := by
    simp only [handle, Distributor.exec]
    exact bind_ok_iff.2 ⟨(d, []), bind_ok_iff.2 ⟨d, hd, rfl⟩, rfl⟩
  refine ⟨_, taken hw ht h rfl (fun _ hh => by cases hh) hr ho ?_ (le_refl _) rfl, rfl⟩
  show load d + k ≤ _
  unfold load
  rw [hwt]

/-- New weights of members of a multisig DAO. -/
theorem take_members {c : Cfg} (hw : c.Wf) (ht : c.Tame) {w : World} {k : Nat} {l : List (Addr × Nat)}
    (h : Sound c w ((l.map (·.2)).sum + k)) (e : Ext) (hk : w.mem.daoType = .multisig) (hd : (l.map (·.1)).Nodup) :
    ∃ w1, Taken c e w (.mem (.multisig (.updateMembers l))) k w1 := by
  cases hm : w.mem with
  | staking q s => rw [hm] at hk; cases q <;> cases hk
  | nft s => rw [hm] at hk; cases hk
  | multisig s =>
    have hg : (Member.multisig s).Ok c.self := hm ▸ h.base.mem
    have hi : Multisig.Inv s := hg.good
    have htot : s.wsum + ((l.map (·.2)).sum + k) < M128 := by
      have := h.total
      rw [hm] at this
      exact this
    have hfit : Multisig.Fit s s.total l := by
      intro n _
      have h1 : Multisig.listed (l.take (n + 1)) ≤ (l.map (·.2)).sum := by
        unfold Multisig.listed
        conv => rhs; rw [← List.take_append_drop (n + 1) l, List.map_append, List.sum_append]
        omega
      rw [hi.total]
      unfold M128 at htot
      omega
    have hx : Multisig.exec s (c.menv e w c.self) (.updateMembers l) = .ok (_, _) :=
      (Multisig.updateMembers_ok_iff hi).2 ⟨rfl, hd, hfit, rfl⟩
    have hws := Multisig.wsum_setAll s l hd
    generalize hz : (Multisig.setAll s l).saveTotal (Multisig.setAll s l).wsum (c.menv e w c.self).block = z at hx
    have hzs : z.wsum + Multisig.held s l = s.wsum + (l.map (·.2)).sum := by
      rw [← hz]; exact hws
    rw [report_single (m := s) hg.hooks] at hx
    generalize hch : l.map (fun p => (⟨p.1, s.weight p.1, p.2⟩ : WeightChange)) = ch at hx
    have hnew : ∀ x ∈ ch, x.new < M128 := by
      intro x hxm
      rw [← hch] at hxm
      obtain ⟨p, hp, rfl⟩ := List.mem_map.1 hxm
      have : p.2 ≤ (l.map (·.2)).sum := mem_le_sum (List.mem_map.2 ⟨p, hp, rfl⟩)
      show p.2 < _
      omega
    have hpairs : ch.map (fun x => (x.user, x.new)) = l := by
      rw [← hch, List.map_map]
      exact List.map_id' l
    have hty : ({ w with mem := Member.multisig z } : World).mem.daoType = w.mem.daoType := by rw [hm]; rfl
    have hctl : CtlInv (c.env e { w with mem := Member.multisig z }).self
        (c.env e { w with mem := Member.multisig z }).daoType (c.env e { w with mem := Member.multisig z }).block.time w.ctl w.gov := by
      have := h.base.ctl
      rw [← hty] at this
      exact this
    obtain ⟨g, hgv⟩ := votes_exist ch hctl hnew
    have hcount := updateAll_count hgv
    obtain ⟨d, hdv⟩ := Distributor.updates_exist l h.dist.inv h.owed (by
      have h2 := total_le_load h.dist.inv
      have h3 := h.load
      omega)
    obtain ⟨_, hq, hwt⟩ := Distributor.updates_ok l h.dist.inv hdv
    have hdd : updateDist c e w.dist [.distributor (.updateWeights l)] = .ok d := by
      unfold updateDist
      refine bind_ok_iff.2 ⟨(d, []), ?_, rfl⟩
      simp only [Distributor.exec]
      refine bind_ok_iff.2 ⟨d, ?_, rfl⟩
      unfold Distributor.updateWeights
      exact ite_ok_iff.2 ⟨by simp [Ext.denv, h.dist.admin], hdv⟩
    have hr : handle c e w c.self (.mem (.multisig (.updateMembers l))) =
        .ok ({ w with mem := .multisig z, gov := g, dist := d }, []) := by
      simp only [handle]
      rw [hm]
      refine bind_ok_iff.2 ⟨_, bind_ok_iff.2 ⟨_, hx, rfl⟩, ?_⟩
      simp only [deliver, if_true]
      refine bind_ok_iff.2 ⟨(g, [.distributor (.updateWeights l)]),
        Controller.weightsChanged_ok_iff.2 (Or.inr ⟨hw.both, rfl, hgv, by rw [hpairs]⟩), ?_⟩
      exact bind_ok_iff.2 ⟨d, hdd, rfl⟩
    refine ⟨_, taken hw ht h rfl (fun _ hh => by cases hh) hr (fun a => hq.owed a) ?_ ?_ hcount⟩
    · show load d + k ≤ _
      have := load_sets l w.dist.weights
      unfold load
      rw [hwt]
      omega
    · show z.wsum + k ≤ _
      rw [hm]
      show z.wsum + k ≤ s.wsum + _
      omega

/-! ### A list of amendments -/

theorem Amends.cons {w w1 w2 : World} {a : Action} {l : List Action} (ht : w1.mem.daoType = w.mem.daoType)
    (h : Amends w w1 [a]) (r : Amends w1 w2 l) : Amends w w2 (a :: l) := by
  refine ⟨fun hn => ?_, ?_, fun u => ?_, fun hn u => ?_⟩
  · rw [r.period (ht ▸ hn), h.period hn]; rfl
  · rw [r.minimum, h.minimum]; rfl
  · rw [r.seats u, h.seats u]; rfl
  · rw [r.shares (ht.trans hn) u, h.shares hn u]; rfl

theorem named_seats (l : List Addr) (u : Addr) :
    (named (l.map (fun v => (v, 1))) u).getD 0 = if u ∈ l then 1 else 0 := by
  unfold named
  induction l with
  | nil => rfl
  | cons v t ih =>
    rw [List.map_cons, List.find?_cons]
    by_cases h : v = u
    · subst h
      simp
    · have : decide (((v, 1) : Addr × Nat).1 = u) = false := by simpa using h
      rw [this]
      simp only [List.mem_cons, show ¬ u = v from fun hh => h hh.symm, false_or]
      exact ih

/-- The messages that an amendment leads to, in a DAO of type `t`. -/
def orders (t : DaoType) : Action → List Sub
  | .updateGovConfig ch => if t = .multisig then [] else ch.unlocking.toList.map .unlocking
  | .updateCouncil none => [.council []]
  | .updateCouncil (some sp) => [.council (sp.members.map (fun u => (u, 1)))]
  | .modifyMultisig ms => [.members ms]
  | .updateMinWeight n => [.distributor (.updateMin n)]
  | _ => []

theorem orders_done {e : Controller.Env} {g g' : GovConfig} {l : List Action} (h : Amendable e.daoType g l g') :
    ∀ {s : Controller.State}, s.config = g →
      ∃ s', Controller.DoesAll e s l s' (l.flatMap (orders e.daoType)) ∧ s'.config = g' := by
  induction h with
  | nil g => intro s hs; exact ⟨s, .nil s, hs⟩
  | @config g g1 g2 ch l h hv hd _ ih =>
    intro s hs
    subst hs
    obtain ⟨s', h1, h2⟩ := ih (s := { s with config := g1 }) rfl
    refine ⟨s', ?_, h2⟩
    rw [List.flatMap_cons]
    refine .cons ?_ h1
    rw [orders]
    cases hu : ch.unlocking with
    | none =>
      rw [show (if e.daoType = DaoType.multisig then [] else (none : Option Duration).toList.map Sub.unlocking) = [] from by
        split <;> rfl]
      exact .config h hv hu
    | some d =>
      have hd' : ∀ n, d = .time n → g1.voteDuration ≤ n := fun n hn => hd n (by rw [hu, hn])
      by_cases ht : e.daoType = .multisig
      · rw [if_pos ht]
        exact .configMultisig h hv hu hd' ht
      · rw [if_neg ht]
        exact .configUnlocking h hv hu hd' ht
  | @council g g1 sp l h _ ih =>
    intro s hs
    cases sp with
    | none =>
      obtain ⟨s', h1, h2⟩ := ih (s := { s with council := none }) hs
      exact ⟨s', .cons .noCouncil h1, h2⟩
    | some x =>
      obtain ⟨s', h1, h2⟩ := ih (s := { s with council := some x.kept }) hs
      exact ⟨s', .cons (.council (h x rfl)) h1, h2⟩
  | members ht h _ ih =>
    intro s hs
    obtain ⟨s', h1, h2⟩ := ih hs
    exact ⟨s', .cons (.multisig ht h) h1, h2⟩
  | minimum _ ih =>
    intro s hs
    obtain ⟨s', h1, h2⟩ := ih hs
    exact ⟨s', .cons (.minWeight _) h1, h2⟩

theorem unlockingMsg_type {x y : Member} (h : x.daoType = y.daoType) (d : Duration) : x.unlockingMsg d = y.unlockingMsg d := by
  cases x with
  | staking k s =>
    cases y with
    | staking => rfl
    | nft => cases k <;> cases h
    | multisig => rfl
  | nft s =>
    cases y with
    | staking k _ => cases k <;> cases h
    | nft => rfl
    | multisig => cases h
  | multisig s =>
    cases y with
    | staking => rfl
    | nft => cases h
    | multisig => rfl

theorem periodAfter_unlocking (x : Member) (d : Duration) (o : Option Duration) (w : World) (e : Ext) (a : Addr) :
    periodAfter o ⟨w, e, a, .mem (x.unlockingMsg d)⟩ = some d := by
  cases x <;> rfl

theorem Taken.shares {c : Cfg} {e : Ext} {w w1 : World} {m : Msg} {k : Nat} (h : Taken c e w m k w1)
    (hm : w.mem.daoType = .multisig) (u : Addr) :
    w1.mem.weight u = shareAfter u (w.mem.weight u) ⟨w, e, c.self, m⟩ := by
  cases hk : w.mem with
  | staking q s => rw [hk] at hm; cases q <;> cases hm
  | nft s => rw [hk] at hm; cases hm
  | multisig s =>
    obtain ⟨s', h1, h2⟩ := h.ruling.shares s hk
    rw [h1]
    exact h2 u

theorem shareAfter_unlocking (x : Member) (d : Duration) (u : Addr) (n : Nat) (w : World) (e : Ext) (a : Addr) :
    shareAfter u n ⟨w, e, a, .mem (x.unlockingMsg d)⟩ = n := by
  cases x <;> rfl

/-- All messages of a list of amendments are accepted, and have the effect asked for. -/
theorem carried {c : Cfg} (hw : c.Wf) (ht : c.Tame) (e : Ext) (x : Member) {t : DaoType} (hx : x.daoType = t)
    {g g' : GovConfig} {l : List Action} (h : Amendable t g l g') :
    (∀ sp, .updateCouncil (some sp) ∈ l → sp.members.length < 2 ^ 128) →
    ∀ {w : World}, w.mem.daoType = t → Sound c w (newShares l) →
      ∃ w', Carried c e w ((l.flatMap (orders t)).map (toItem c x)) w' ∧
        Exec c w ((l.flatMap (orders t)).map (toItem c x)) w' ∧ Amends w w' l ∧ Sound c w' 0 ∧
        w'.ctl = w.ctl ∧ w'.log = w.log := by
  have one : ∀ {l : List Action} {a : Action} {y : Sub} {m : Msg} {w w1 : World} {k k' : Nat},
      orders t a = [y] → toItem c x y = .call c.self m → Taken c e w m k w1 → Sound c w k' →
      Amends w w1 [a] →
      (∃ w', Carried c e w1 ((l.flatMap (orders t)).map (toItem c x)) w' ∧
        Exec c w1 ((l.flatMap (orders t)).map (toItem c x)) w' ∧ Amends w1 w' l ∧ Sound c w' 0 ∧
        w'.ctl = w1.ctl ∧ w'.log = w1.log) →
      ∃ w', Carried c e w (((a :: l).flatMap (orders t)).map (toItem c x)) w' ∧
        Exec c w (((a :: l).flatMap (orders t)).map (toItem c x)) w' ∧ Amends w w' (a :: l) ∧ Sound c w' 0 ∧
        w'.ctl = w.ctl ∧ w'.log = w.log := by
    intro l a y m w w1 k k' ho hy hk hs ha hr
    obtain ⟨w', h1, h0, h2, h3, h4, h5⟩ := hr
    refine ⟨w', ?_, ?_, ha.cons hk.type h2, h3, h4.trans hk.ctl, h5.trans hk.log⟩
    · rw [List.flatMap_cons, ho, List.singleton_append, List.map_cons, hy]
      exact .cons hk.handled h1
    · rw [List.flatMap_cons, ho, List.singleton_append, List.map_cons, hy]
      exact .call e hs.room hk.handled (.nil _) h0
  induction h with
  | nil g =>
    intro _ w _ hs
    exact ⟨w, .nil w, .nil w, ⟨fun _ => rfl, rfl, fun _ => rfl, fun _ _ => rfl⟩, hs, rfl, rfl⟩
  | @config g g1 g2 ch l h hv hd _ ih =>
    intro hb w hk hs
    have ih := @ih (fun sp hsp => hb sp (List.mem_cons_of_mem _ hsp))
    have hsh : newShares (.updateGovConfig ch :: l) = newShares l := by simp [newShares]
    rw [hsh] at hs
    by_cases hsil : t = .multisig ∨ ch.unlocking = none
    · obtain ⟨w', h1, h0, h2, h3, h4, h5⟩ := ih hk hs
      have ho : orders t (.updateGovConfig ch) = [] := by
        rw [orders]
        rcases hsil with hsil | hsil
        · rw [if_pos hsil]
        · rw [hsil]; split <;> rfl
      refine ⟨w', by rw [List.flatMap_cons, ho]; exact h1,
        by rw [List.flatMap_cons, ho]; exact h0, Amends.cons rfl ?_ h2, h3, h4, h5⟩
      refine ⟨fun hn => ?_, rfl, fun _ => rfl, fun _ _ => rfl⟩
      rcases hsil with hsil | hsil
      · exact absurd (hk.trans hsil) hn
      · simp [periodGiven, hsil]
    · have hne : t ≠ .multisig := fun hh => hsil (Or.inl hh)
      obtain ⟨d, hd⟩ : ∃ d, ch.unlocking = some d := by
        cases hu : ch.unlocking with
        | none => exact absurd (Or.inr hu) hsil
        | some d => exact ⟨d, rfl⟩
      obtain ⟨w1, h1⟩ := take_period hw ht hs e (by rw [hk]; exact hne) d
      refine one (y := .unlocking d) (m := .mem (w.mem.unlockingMsg d)) ?_ ?_ h1 hs ?_ (ih (h1.type.trans hk) h1.sound)
      · rw [orders]; rw [if_neg hne, hd]; rfl
      · simp only [toItem]
        rw [unlockingMsg_type (hx.trans hk.symm)]
      · refine ⟨fun _ => ?_, ?_, fun u => ?_, fun hm u => absurd (hk.symm.trans hm) hne⟩
        · rw [h1.ruling.period, periodAfter_unlocking]
          simp [periodGiven, hd]
        · rw [h1.ruling.minimum]; rfl
        · rw [h1.ruling.seats u]; rfl
  | @council g g1 sp l h _ ih =>
    intro hb w hk hs
    have ih := @ih (fun sp hsp => hb sp (List.mem_cons_of_mem _ hsp))
    have hsh : newShares (.updateCouncil sp :: l) = newShares l := by simp [newShares]
    rw [hsh] at hs
    cases sp with
    | none =>
      obtain ⟨w1, h1, h1m⟩ := take_council hw ht hs e (l := []) List.nodup_nil (by decide)
      refine one (y := .council []) rfl rfl h1 hs ?_ (ih (h1.type.trans hk) h1.sound)
      refine ⟨fun _ => ?_, ?_, fun u => ?_, fun hm u => ?_⟩
      · rw [h1.ruling.period]; rfl
      · rw [h1.ruling.minimum]; rfl
      · rw [h1.ruling.seats u]; rfl
      · rw [h1.shares hm u]; rfl
    | some z =>
      have hz := h z rfl
      have hn : ((z.members.map (fun u => (u, 1))).map (·.1)).Nodup := by
        rw [List.map_map]
        have : ((fun p : Addr × Nat => p.1) ∘ fun u => (u, 1)) = id := rfl
        rw [this, List.map_id]
        exact hz.members
      have hsum : ((z.members.map (fun u => (u, 1))).map (·.2)).sum < M128 := by
        rw [List.map_map]
        have : ∀ l : List Addr, (l.map ((fun p : Addr × Nat => p.2) ∘ fun u => (u, 1))).sum = l.length := by
          intro l
          induction l with
          | nil => rfl
          | cons a t ih => rw [List.map_cons, List.sum_cons, ih, List.length_cons]; simp; omega
        rw [this]
        exact hb z List.mem_cons_self
      obtain ⟨w1, h1, h1m⟩ := take_council hw ht hs e hn hsum
      refine one (y := .council (z.members.map (fun u => (u, 1)))) rfl rfl h1 hs ?_ (ih (h1.type.trans hk) h1.sound)
      refine ⟨fun _ => ?_, ?_, fun u => ?_, fun hm u => ?_⟩
      · rw [h1.ruling.period]; rfl
      · rw [h1.ruling.minimum]; rfl
      · rw [h1.ruling.seats u]
        exact named_seats z.members u
      · rw [h1.shares hm u]; rfl
  | @members g g1 ms l htm h _ ih =>
    intro hb w hk hs
    have ih := @ih (fun sp hsp => hb sp (List.mem_cons_of_mem _ hsp))
    have hsh : newShares (.modifyMultisig ms :: l) = (ms.map (·.2)).sum + newShares l := by simp [newShares]
    rw [hsh] at hs
    obtain ⟨w1, h1⟩ := take_members hw ht hs e (hk.trans htm) h
    refine one (y := .members ms) rfl rfl h1 hs ?_ (ih (h1.type.trans hk) h1.sound)
    refine ⟨fun hn => absurd (hk.trans htm) hn, ?_, fun u => ?_, fun hm u => ?_⟩
    · rw [h1.ruling.minimum]; rfl
    · rw [h1.ruling.seats u]; rfl
    · rw [h1.shares hm u]; rfl
  | @minimum g g1 n l _ ih =>
    intro hb w hk hs
    have ih := @ih (fun sp hsp => hb sp (List.mem_cons_of_mem _ hsp))
    have hsh : newShares (.updateMinWeight n :: l) = newShares l := by simp [newShares]
    rw [hsh] at hs
    obtain ⟨w1, h1, _⟩ := take_minimum hw ht hs e n
    refine one (y := .distributor (.updateMin n)) rfl rfl h1 hs ?_ (ih (h1.type.trans hk) h1.sound)
    refine ⟨fun _ => ?_, ?_, fun u => ?_, fun hm u => ?_⟩
    · rw [h1.ruling.period]; rfl
    · rw [h1.ruling.minimum]; rfl
    · rw [h1.ruling.seats u]; rfl
    · rw [h1.shares hm u]; rfl

end Verif.Dao
