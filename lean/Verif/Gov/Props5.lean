import Verif.Gov.Props3

/-!
# Governance: splitting a weight over several accounts changes no result (C155)
-/

set_option linter.unusedSimpArgs false

namespace Verif.Gov
open Verif

/-! ### Specification -/

/-- The accounts over which each voter's weight is split: at least one each, and nobody shares an account. -/
structure Accounts (acc : Addr → List Addr) : Prop where
  some : ∀ v, acc v ≠ []
  nodup : ∀ v, (acc v).Nodup
  own : ∀ u v b, b ∈ acc u → b ∈ acc v → u = v

/-- A message, and the messages that take its place when the weights are split: instead of a vote with some weight, the accounts
of the voter vote for the same, with weights that add up to it, and likewise for an update of the weight. Everything else
stays. -/
inductive Shared (acc : Addr → List Addr) : Call → List Call → Prop
  | create (now : Nat) (x : Addr) (p : CreateParams) : Shared acc ⟨now, x, .createPoll p⟩ [⟨now, x, .createPoll p⟩]
  | finish (now : Nat) (x : Addr) (i m : Nat) (e a : Bool) :
      Shared acc ⟨now, x, .endPoll i m e a⟩ [⟨now, x, .endPoll i m e a⟩]
  | vote (now : Nat) (x : Addr) (i : Nat) (o : Outcome) (v : Addr) (n : Addr → Nat) :
      Shared acc ⟨now, x, .castVote i o v ((acc v).map n).sum⟩ ((acc v).map (fun b => ⟨now, x, .castVote i o b (n b)⟩))
  | update (now : Nat) (x : Addr) (v : Addr) (n : Addr → Nat) :
      Shared acc ⟨now, x, .updateVotes v ((acc v).map n).sum⟩ ((acc v).map (fun b => ⟨now, x, .updateVotes b (n b)⟩))

/-- A history, and the same history with the weights split. -/
inductive Split (acc : Addr → List Addr) : List Call → List Call → Prop
  | nil : Split acc [] []
  | cons {c : Call} {m h l : List Call} (hc : Shared acc c m) (hl : Split acc h l) : Split acc (c :: h) (m ++ l)

/-- The weight of a vote, zero if there is none. -/
def cast : Option Vote → Nat
  | .some x => x.amount
  | .none => 0

/-! ### Lemmas -/

/-- A vote on poll `i` was recorded. -/
structure Hit (i : Nat) (s s' : State) (v : Addr) (o : Outcome) (a : Nat) : Prop where
  admin : s'.admin = s.admin
  count : s'.pollCount = s.pollCount
  poll : ∃ p, s.polls.get i = some p ∧ s'.polls.get i = some (p.recount (s.votes.get (vkey v i)) o a)
  votes : ∀ w, s'.votes.get (vkey w i) = if w = v then some ⟨i, v, o, a⟩ else s.votes.get (vkey w i)

/-- Votes on poll `i` were recorded, one for each of the accounts. -/
inductive Hits (i : Nat) (o : Outcome) (n : Addr → Nat) : List Addr → State → State → Prop
  | nil (s : State) : Hits i o n [] s s
  | cons {b : Addr} {bs : List Addr} {s s1 s' : State} (h : Hit i s s1 b o (n b)) (t : Hits i o n bs s1 s') :
      Hits i o n (b :: bs) s s'

theorem get_increase (p : Poll) (o : Outcome) (c k : Nat) : (p.increase o c).results.get k =
    if o.idx = k then some (match p.results.get o.idx with | some t => wadd128 t c | none => c) else p.results.get k := by
  unfold Poll.increase
  cases h : p.results.get o.idx <;> simp [Map.get_set]

theorem get_decrease (p : Poll) (o : Outcome) (c k : Nat) (h : p.results.has o.idx = true) : (p.decrease o c).results.get k =
    if o.idx = k then some (wsub128 ((p.results.get k).getD 0) c) else p.results.get k := by
  obtain ⟨t, ht⟩ := Map.has_iff.1 h
  unfold Poll.decrease
  rw [ht]
  simp only [Map.get_set]
  split
  · rename_i hk
    rw [← hk, ht]
    rfl
  · rfl

theorem poll_ext {p q : Poll} (h1 : p.terms = q.terms) (h2 : p.status = q.status)
    (h3 : ∀ k, p.results.get k = q.results.get k) : p = q := by
  have h3 := Map.ext_get h3
  cases p
  cases q
  simp only [Poll.terms, Terms.mk.injEq] at h1
  simp_all

theorem recount_none (p : Poll) (o : Outcome) {m n : Nat} (h : m + n < M128) :
    (p.recount none o m).recount none o n = p.recount none o (m + n) := by
  refine poll_ext (by simp) (by simp) (fun k => ?_)
  simp only [Poll.recount, get_increase]
  by_cases hk : o.idx = k
  · simp only [hk, if_true]
    cases p.results.get k with
    | none => simp [wadd128, Nat.mod_eq_of_lt h]
    | some t => simp [wadd128, Nat.add_assoc]
  · simp [hk]

theorem get_recount (p : Poll) (o : Outcome) (m k : Nat) {x : Vote} (h : p.results.has x.outcome.idx = true) :
    (p.recount (some x) o m).results.get k =
      if o.idx = k then
        some (if x.outcome = o then wadd128 (wsub128 ((p.results.get k).getD 0) x.amount) m else
          match p.results.get k with | some t => wadd128 t m | none => m)
      else if x.outcome.idx = k then some (wsub128 ((p.results.get k).getD 0) x.amount) else p.results.get k := by
  simp only [Poll.recount, get_increase, get_decrease _ _ _ _ h, Outcome.idx_inj]
  by_cases ho : o.idx = k
  · rw [if_pos ho, if_pos ho, ← ho]
    by_cases hx : x.outcome = o
    · simp [hx]
    · simp only [if_neg hx]
  · rw [if_neg ho, if_neg ho]

theorem recount_some (p : Poll) (o : Outcome) {m n : Nat} (hmn : m + n < M128) {x y z : Vote} (hxy : y.outcome = x.outcome)
    (hxz : z.outcome = x.outcome) (hz : z.amount = x.amount + y.amount) (h : p.results.has x.outcome.idx = true) :
    (p.recount (some x) o m).recount (some y) o n = p.recount (some z) o (m + n) := by
  have h1 : (p.recount (some x) o m).results.has y.outcome.idx = true := by
    simp only [Poll.recount]
    rw [hxy, has_increase, has_decrease, h, Bool.or_true]
  refine poll_ext (by simp) (by simp) (fun k => ?_)
  rw [get_recount _ _ _ _ h1, get_recount p o m k h, get_recount p o (m + n) k (by rw [hxz]; exact h), hxy, hxz, hz]
  by_cases ho : o.idx = k
  · simp only [if_pos ho]
    by_cases hx : x.outcome = o
    · simp only [if_pos hx, Option.getD_some]
      unfold wadd128 wsub128
      unfold M128 at hmn ⊢
      congr 1
      omega
    · simp only [if_neg hx]
      cases p.results.get k with
      | none => simp [wadd128, Nat.mod_eq_of_lt hmn]
      | some t => simp [wadd128, Nat.add_assoc]
  · simp only [if_neg ho]
    split
    · simp only [Option.getD_some]
      unfold wsub128 M128
      congr 1
      omega
    · rfl

theorem fold_none {o : Outcome} {n : Addr → Nat} {old : Addr → Option Vote} : ∀ (bs : List Addr) (p : Poll), bs ≠ [] →
    (∀ b ∈ bs, old b = none) → (bs.map n).sum < M128 →
    bs.foldl (fun p b => p.recount (old b) o (n b)) p = p.recount none o (bs.map n).sum
  | [], _, h, _, _ => absurd rfl h
  | [b], p, _, h, _ => by simp [h b (by simp)]
  | b :: c :: bs, p, _, h, hs => by
    rw [List.map_cons, List.sum_cons] at hs ⊢
    rw [List.foldl_cons, fold_none (c :: bs) _ (by simp) (fun x hx => h x (List.mem_cons_of_mem _ hx)) (by omega),
      h b (by simp), recount_none _ _ hs]

theorem fold_some {o o0 : Outcome} {n : Addr → Nat} {old : Addr → Option Vote} : ∀ (bs : List Addr) (p : Poll) (z : Vote),
    bs ≠ [] → (∀ b ∈ bs, ∃ y, old b = some y ∧ y.outcome = o0) → (bs.map n).sum < M128 → p.results.has o0.idx = true →
    z.outcome = o0 → z.amount = (bs.map (fun b => cast (old b))).sum →
    bs.foldl (fun p b => p.recount (old b) o (n b)) p = p.recount (some z) o (bs.map n).sum
  | [], _, _, h, _, _, _, _, _ => absurd rfl h
  | [b], p, z, _, h, _, hp, hz, ha => by
    obtain ⟨y, h1, h2⟩ := h b (by simp)
    simp only [List.foldl_cons, List.foldl_nil, List.map_cons, List.map_nil, List.sum_cons, List.sum_nil, Nat.add_zero, h1,
      cast] at ha ⊢
    simp only [Poll.recount, h2, hz, ha]
  | b :: c :: bs, p, z, _, h, hs, hp, hz, ha => by
    obtain ⟨y, h1, h2⟩ := h b (by simp)
    rw [List.map_cons, List.sum_cons] at hs ha ⊢
    rw [List.foldl_cons, fold_some (c :: bs) _ ⟨0, 0, o0, ((c :: bs).map (fun b => cast (old b))).sum⟩ (by simp)
      (fun x hx => h x (List.mem_cons_of_mem _ hx)) (by omega) (by
        rw [h1]
        simp only [Poll.recount]
        rw [h2, has_increase, has_decrease, hp, Bool.or_true]) rfl rfl, h1]
    refine recount_some _ _ hs h2.symm (by rw [hz, h2]) ?_ (by rw [h2]; exact hp)
    rw [ha, h1]
    rfl

theorem foldl_same {α β : Type} {f g : β → α → β} : ∀ {l : List α}, (∀ b, ∀ a ∈ l, f b a = g b a) → ∀ b, l.foldl f b = l.foldl g b
  | [], _, _ => rfl
  | a :: l, h, b => by
    rw [List.foldl_cons, List.foldl_cons, h b a (by simp)]
    exact foldl_same (fun b c hc => h b c (List.mem_cons_of_mem _ hc)) _

theorem Hits.ok {i : Nat} {o : Outcome} {n : Addr → Nat} {bs : List Addr} {t t' : State} (h : Hits i o n bs t t')
    (hn : bs.Nodup) : t'.admin = t.admin ∧ t'.pollCount = t.pollCount ∧
    (∀ w, t'.votes.get (vkey w i) = if w ∈ bs then some ⟨i, w, o, n w⟩ else t.votes.get (vkey w i)) ∧
    (∀ p, t.polls.get i = some p →
      t'.polls.get i = some (bs.foldl (fun p b => p.recount (t.votes.get (vkey b i)) o (n b)) p)) := by
  induction h with
  | nil s => exact ⟨rfl, rfl, fun w => by simp, fun p hp => hp⟩
  | @cons b bs s s1 s' h _ ih =>
    obtain ⟨hb, hn⟩ := List.nodup_cons.1 hn
    obtain ⟨i1, i2, i3, i4⟩ := ih hn
    refine ⟨i1.trans h.admin, i2.trans h.count, fun w => ?_, fun p hp => ?_⟩
    · rw [i3, h.votes]
      by_cases hw : w ∈ bs
      · simp [hw]
      · by_cases hwb : w = b
        · simp [hwb, hb]
        · simp [hw, hwb]
    · obtain ⟨q, q1, q2⟩ := h.poll
      rw [hp] at q1
      cases q1
      rw [i4 _ q2, List.foldl_cons]
      congr 1
      refine foldl_same (fun p c hc => ?_) _
      rw [h.votes, if_neg (fun (hh : c = b) => hb (hh ▸ hc))]

/-- The states with and without the split agree about poll `i`. -/
structure Alike (acc : Addr → List Addr) (i : Nat) (s t : State) : Prop where
  admin : s.admin = t.admin
  count : s.pollCount = t.pollCount
  poll : s.polls.get i = t.polls.get i
  no : ∀ v, s.votes.get (vkey v i) = none → ∀ b ∈ acc v, t.votes.get (vkey b i) = none
  yes : ∀ v x, s.votes.get (vkey v i) = some x →
    (∀ b ∈ acc v, ∃ y, t.votes.get (vkey b i) = some y ∧ y.outcome = x.outcome) ∧
    x.amount = ((acc v).map (fun b => cast (t.votes.get (vkey b i)))).sum

theorem Alike.agree {acc : Addr → List Addr} {i : Nat} {s s' t t' : State} (h : Alike acc i s t) (hs : AgreeOn i s s')
    (ht : AgreeOn i t t') : Alike acc i s' t' :=
  ⟨hs.admin.symm.trans (h.admin.trans ht.admin), hs.count.symm.trans (h.count.trans ht.count),
    hs.poll.symm.trans (h.poll.trans ht.poll), fun v hv b hb => by rw [← ht.votes]; exact h.no v (by rw [hs.votes]; exact hv) b hb,
    fun v x hv => by
      simp only [← ht.votes]
      exact h.yes v x (by rw [hs.votes]; exact hv)⟩

theorem Alike.hit {acc : Addr → List Addr} (ha : Accounts acc) {i : Nat} {s s' t t' : State} (is : Inv s) (h : Alike acc i s t)
    {v : Addr} {o : Outcome} {n : Addr → Nat} (hn : ((acc v).map n).sum < M128) (hs : Hit i s s' v o ((acc v).map n).sum)
    (ht : Hits i o n (acc v) t t') : Alike acc i s' t' := by
  obtain ⟨t1, t2, t3, t4⟩ := ht.ok (ha.nodup v)
  obtain ⟨p, p1, p2⟩ := hs.poll
  refine ⟨hs.admin.trans (h.admin.trans t1.symm), hs.count.trans (h.count.trans t2.symm), ?_, fun u hu b hb => ?_,
    fun u x hu => ?_⟩
  · rw [p2, t4 p (h.poll ▸ p1)]
    congr 1
    cases hv : s.votes.get (vkey v i) with
    | none => exact (fold_none (acc v) p (ha.some v) (h.no v hv) hn).symm
    | some x =>
      obtain ⟨y1, y2⟩ := h.yes v x hv
      have hpid := (is.vkeys _ _ hv)
      have hxi : x.pollId = i := (vkey_inj.1 hpid.1).2.symm
      exact (fold_some (acc v) p x (ha.some v) y1 hn (is.present _ _ _ hv (by rw [hxi]; exact p1)) rfl y2).symm
  · rw [hs.votes] at hu
    split at hu
    · cases hu
    · rename_i huv
      rw [t3, if_neg (fun hb' => huv (ha.own u v b hb hb'))]
      exact h.no u hu b hb
  · rw [hs.votes] at hu
    split at hu
    · rename_i huv
      cases hu
      subst huv
      refine ⟨fun b hb => ⟨⟨i, b, o, n b⟩, by rw [t3, if_pos hb], rfl⟩, ?_⟩
      refine congrArg List.sum (List.map_congr_left (fun b hb => ?_))
      rw [t3, if_pos hb]
      rfl
    · rename_i huv
      obtain ⟨y1, y2⟩ := h.yes u x hu
      have hne : ∀ b ∈ acc u, b ∉ acc v := fun b hb hb' => huv (ha.own u v b hb hb')
      refine ⟨fun b hb => ?_, ?_⟩
      · rw [t3, if_neg (hne b hb)]
        exact y1 b hb
      · rw [y2]
        refine congrArg List.sum (List.map_congr_left (fun b hb => ?_))
        rw [t3, if_neg (hne b hb)]

/-- A vote on poll `i` is accepted. -/
def Can (s : State) (x : Addr) (now i : Nat) : Prop :=
  x = s.admin ∧ i ≠ 0 ∧ i ≤ s.pollCount ∧ ∃ p, s.polls.get i = some p ∧ p.live ∧ p.startedAt ≤ now ∧ now < p.endsAt

theorem castVote_hit {s s' : State} {now i : Nat} {o : Outcome} {v : Addr} {a : Nat} (h : castVote s now i o v a = .ok s') :
    Hit i s s' v o a := by
  obtain ⟨_, _, p, hp, _, _, _, rfl⟩ := castVote_ok_iff.1 h
  refine ⟨rfl, rfl, ⟨p, hp, Map.get_set_self ..⟩, fun w => ?_⟩
  show (s.votes.set (vkey v i) _).get (vkey w i) = _
  rw [Map.get_set]
  by_cases hw : w = v
  · rw [if_pos (by rw [hw]), if_pos hw]
  · rw [if_neg (fun hh => hw (vkey_inj.1 hh).1.symm), if_neg hw]

theorem vote_can {s : State} {now : Nat} {x : Addr} {i : Nat} {o : Outcome} {v : Addr} {a : Nat} (h : Can s x now i) :
    Hit i s (step s ⟨now, x, .castVote i o v a⟩) v o a := by
  obtain ⟨h0, h1, h2, p, h3, h4, h5, h6⟩ := h
  have := (castVote_ok_iff (o := o) (v := v) (a := a)).2 ⟨h1, h2, p, h3, h4, h5, h6, rfl⟩
  unfold step exec
  rw [if_neg (fun hh => hh h0)]
  dsimp only
  rw [this]
  exact castVote_hit this

theorem vote_cannot {s : State} {now : Nat} {x : Addr} {i : Nat} {o : Outcome} {v : Addr} {a : Nat} (h : ¬ Can s x now i) :
    step s ⟨now, x, .castVote i o v a⟩ = s := by
  unfold step
  cases hs : exec s ⟨now, x, .castVote i o v a⟩ with
  | error e => rfl
  | ok s' =>
    unfold exec at hs
    obtain ⟨h0, hs⟩ := ite_ok_iff.1 hs
    obtain ⟨h1, h2, p, h3, h4, h5, h6, _⟩ := castVote_ok_iff.1 hs
    exact absurd ⟨not_not.1 h0, h1, h2, p, h3, h4, h5, h6⟩ h

theorem Hit.can {i : Nat} {s s' : State} {v : Addr} {o : Outcome} {a : Nat} (h : Hit i s s' v o a) {x : Addr} {now : Nat}
    (hc : Can s x now i) : Can s' x now i := by
  obtain ⟨h0, h1, h2, p, h3, h4, h5, h6⟩ := hc
  obtain ⟨q, q1, q2⟩ := h.poll
  rw [h3] at q1
  cases q1
  refine ⟨h.admin ▸ h0, h1, h.count ▸ h2, _, q2, ?_, ?_, ?_⟩
  · simpa [Poll.live] using h4
  · rw [terms_startedAt (q := p) (by simp)]
    exact h5
  · rw [terms_endsAt (q := p) (by simp)]
    exact h6

theorem Hit.open {i : Nat} {s s' : State} {v : Addr} {o : Outcome} {a : Nat} (h : Hit i s s' v o a) {now : Nat}
    (hc : openAt s now i) : openAt s' now i := by
  obtain ⟨p, h3, h4, h6⟩ := hc
  obtain ⟨q, q1, q2⟩ := h.poll
  rw [h3] at q1
  cases q1
  refine ⟨_, q2, ?_, ?_⟩
  · simpa [Poll.live] using h4
  · rw [terms_endsAt (q := p) (by simp)]
    exact h6

theorem votes_can {now : Nat} {x : Addr} {i : Nat} {o : Outcome} {n : Addr → Nat} : ∀ (bs : List Addr) {t : State},
    Can t x now i → Hits i o n bs t (run t (bs.map (fun b => ⟨now, x, .castVote i o b (n b)⟩)))
  | [], t, _ => .nil t
  | b :: bs, t, h => by
    have h1 := vote_can (o := o) (v := b) (a := n b) h
    exact .cons h1 (votes_can bs (h1.can h))

theorem votes_cannot {now : Nat} {x : Addr} {i : Nat} {o : Outcome} {n : Addr → Nat} : ∀ (bs : List Addr) {t : State},
    ¬ Can t x now i → run t (bs.map (fun b => ⟨now, x, .castVote i o b (n b)⟩)) = t
  | [], t, _ => rfl
  | b :: bs, t, h => by
    show run (step t _) _ = t
    rw [vote_cannot h]
    exact votes_cannot bs h

theorem votes_other {now : Nat} {x : Addr} {i j : Nat} (hj : j ≠ i) {o : Outcome} {n : Addr → Nat} :
    ∀ (bs : List Addr) {t : State}, AgreeOn i t (run t (bs.map (fun b => ⟨now, x, .castVote j o b (n b)⟩)))
  | [], t => .rfl
  | b :: bs, t => (other_step (by simp [aboutOther, hj])).trans (votes_other hj bs)

theorem update_hit {s : State} (is : Inv s) {now : Nat} (ps : Past now s) {x : Addr} (hx : x = s.admin) {i : Nat} {v : Addr}
    {a : Nat} (ha : a < M128) {y : Vote} (hy : s.votes.get (vkey v i) = some y) (ho : openAt s now i) :
    Hit i s (step s ⟨now, x, .updateVotes v a⟩) v y.outcome a := by
  obtain ⟨b1, b2, b3⟩ := votesOf_spec is v
  obtain ⟨s', h1, _⟩ := updateLoop (now := now) ha (votesOf s v) s is ps b1 b2
  have hst : step s ⟨now, x, .updateVotes v a⟩ = s' := by
    unfold step exec
    rw [if_neg (fun hh => hh hx)]
    dsimp only
    unfold updateVotes
    rw [h1]
  rw [hst]
  obtain ⟨y1, m1, p1⟩ := List.mem_map.1 ((b3 i).2 ⟨y, hy⟩)
  have e1 := b1 y1 m1
  rw [p1, hy] at e1
  cases e1
  obtain ⟨s1, h2, g⟩ := updates_one _ y b2 m1 p1 h1
  have hcast : castVote s now i y.outcome v a = .ok s1 := by
    obtain ⟨p, q1, q2, q3⟩ := ho
    unfold updateVote at h2
    rw [p1, q1] at h2
    dsimp only at h2
    obtain ⟨e, he⟩ := q2
    rw [he] at h2
    dsimp only at h2
    rw [if_pos (by rw [is.prog i p e q1 he]; exact q3)] at h2
    exact h2
  have hh := castVote_hit hcast
  exact ⟨g.admin.symm.trans hh.admin, g.count.symm.trans hh.count, by rw [← g.poll]; exact hh.poll,
    fun w => by rw [← g.votes]; exact hh.votes w⟩

theorem update_miss {s : State} (is : Inv s) {now : Nat} {x : Addr} {i : Nat} {v : Addr} {a : Nat}
    (h : s.votes.get (vkey v i) = none ∨ ¬ openAt s now i ∨ x ≠ s.admin) :
    AgreeOn i s (step s ⟨now, x, .updateVotes v a⟩) := by
  unfold step
  cases hs : exec s ⟨now, x, .updateVotes v a⟩ with
  | error e => exact .rfl
  | ok s' =>
    unfold exec at hs
    obtain ⟨h0, hs⟩ := ite_ok_iff.1 hs
    dsimp only at hs ⊢
    unfold updateVotes at hs
    obtain ⟨b1, b2, b3⟩ := votesOf_spec is v
    cases hv : s.votes.get (vkey v i) with
    | none =>
      refine updates_other _ (fun y hy hh => ?_) hs
      have := b1 y hy
      rw [hh, hv] at this
      cases this
    | some y =>
      obtain ⟨y1, m1, p1⟩ := List.mem_map.1 ((b3 i).2 ⟨y, hv⟩)
      have e1 := b1 y1 m1
      rw [p1, hv] at e1
      cases e1
      obtain ⟨s1, h2, g⟩ := updates_one _ y b2 m1 p1 hs
      rcases updateVote_cases h2 with rfl | h2
      · exact g
      · rw [p1] at h2
        obtain ⟨_, _, p, q1, q2, _, q3, _⟩ := castVote_ok_iff.1 h2
        rcases h with h | h | h
        · rw [hv] at h
          cases h
        · exact absurd ⟨p, q1, q2, q3⟩ h
        · exact absurd h h0

/-- What stays true of the state between the messages that take the place of one. -/
structure Good (now : Nat) (s : State) : Prop where
  inv : Inv s
  past : Past now s
  room : s.pollCount < M64

theorem Good.step {s : State} {c : Call} (h : Good c.now s) (ht : c.msg.typed) (hc : isCreate c = 0) :
    Good c.now (step s c) := by
  obtain ⟨h1, h2, _⟩ := inv_step h.inv ht (by rw [hc]; exact h.room)
  exact ⟨h1, past_step h.inv ht (by rw [hc]; exact h.room) h.past, by have := h.room; omega⟩

theorem Good.run {now : Nat} : ∀ (l : List Call) {s : State}, Good now s → (∀ c ∈ l, c.now = now ∧ c.msg.typed ∧ isCreate c = 0) →
    Good now (run s l)
  | [], _, h, _ => h
  | c :: l, s, h, hl => by
    obtain ⟨h1, h2, h3⟩ := hl c (by simp)
    subst h1
    exact Good.run l (h.step h2 h3) (fun d hd => hl d (List.mem_cons_of_mem _ hd))

theorem updates_hit {now : Nat} {x : Addr} {i : Nat} {o : Outcome} {n : Addr → Nat} : ∀ (bs : List Addr) {t : State},
    Good now t → x = t.admin → openAt t now i → bs.Nodup → (∀ b ∈ bs, n b < M128) →
    (∀ b ∈ bs, ∃ y, t.votes.get (vkey b i) = some y ∧ y.outcome = o) →
    Hits i o n bs t (run t (bs.map (fun b => ⟨now, x, .updateVotes b (n b)⟩)))
  | [], t, _, _, _, _, _, _ => .nil t
  | b :: bs, t, hg, hx, ho, hn, hs, hv => by
    obtain ⟨n1, n2⟩ := List.nodup_cons.1 hn
    obtain ⟨y, y1, y2⟩ := hv b (by simp)
    have hb := hs b (by simp)
    have h1 := update_hit hg.inv hg.past hx hb y1 ho
    rw [y2] at h1
    refine .cons h1 (updates_hit bs (hg.step (c := ⟨now, x, .updateVotes b (n b)⟩) hb rfl) (h1.admin ▸ hx) (h1.open ho) n2
      (fun c hc => hs c (List.mem_cons_of_mem _ hc)) (fun c hc => ?_))
    rw [h1.votes, if_neg (fun (hh : c = b) => n1 (hh ▸ hc))]
    exact hv c (List.mem_cons_of_mem _ hc)

theorem updates_miss {now : Nat} {x : Addr} {i : Nat} {n : Addr → Nat} : ∀ (bs : List Addr) {t : State},
    Good now t → (∀ b ∈ bs, n b < M128) → ((∀ b ∈ bs, t.votes.get (vkey b i) = none) ∨ ¬ openAt t now i ∨ x ≠ t.admin) →
    AgreeOn i t (run t (bs.map (fun b => ⟨now, x, .updateVotes b (n b)⟩)))
  | [], t, _, _, _ => .rfl
  | b :: bs, t, hg, hs, hv => by
    have hb := hs b (by simp)
    have h1 : AgreeOn i t (step t ⟨now, x, .updateVotes b (n b)⟩) := update_miss hg.inv
      (hv.imp (fun h => h b (by simp)) id)
    refine h1.trans (updates_miss bs (hg.step (c := ⟨now, x, .updateVotes b (n b)⟩) hb rfl)
      (fun c hc => hs c (List.mem_cons_of_mem _ hc)) ?_)
    unfold openAt
    rw [← h1.poll, ← h1.admin]
    exact hv.imp (fun h c hc => by rw [← h1.votes]; exact h c (List.mem_cons_of_mem _ hc)) id

theorem alike_create {acc : Addr → List Addr} {i : Nat} {s t s' : State} (h : Alike acc i s t) {now : Nat} {c : CreateParams}
    (hs : createPoll s now c = .ok s') : ∃ t', createPoll t now c = .ok t' ∧ Alike acc i s' t' := by
  obtain ⟨h1, h2, rfl⟩ := createPoll_ok_iff.1 hs
  refine ⟨_, createPoll_ok_iff.2 ⟨h1, h2, rfl⟩, h.admin, ?_, ?_, h.no, h.yes⟩
  · show wadd64 _ _ = wadd64 _ _
    rw [h.count]
  · show (s.polls.set _ _).get i = (t.polls.set _ _).get i
    rw [Map.get_set, Map.get_set, h.count, h.poll]

theorem alike_end {acc : Addr → List Addr} {i : Nat} {s t s' : State} (h : Alike acc i s t) {now m : Nat} {e a : Bool}
    (hs : endPoll s now i m e a = .ok s') : ∃ t', endPoll t now i m e a = .ok t' ∧ Alike acc i s' t' := by
  obtain ⟨p, hp, h1, h2, rfl⟩ := endPoll_ok_iff.1 hs
  refine ⟨_, endPoll_ok_iff.2 ⟨p, h.poll ▸ hp, h1, h2, rfl⟩, h.admin, h.count, ?_, h.no, h.yes⟩
  show (s.polls.set i _).get i = (t.polls.set i _).get i
  rw [Map.get_set, Map.get_set, if_pos rfl, if_pos rfl]

theorem step_error {s : State} {c : Call} (h : ∀ s', exec s c ≠ .ok s') : step s c = s := by
  unfold step
  cases hs : exec s c with
  | error e => rfl
  | ok s' => exact absurd hs (h s')

theorem step_ok {s s' : State} {c : Call} (h : exec s c = .ok s') : step s c = s' := by
  unfold step
  rw [h]

theorem alike_one {acc : Addr → List Addr} {i : Nat} {s t : State} {c : Call} (h : Alike acc i s t)
    (h1 : ∀ s', exec s c = .ok s' → ∃ t', exec t c = .ok t' ∧ Alike acc i s' t')
    (h2 : ∀ t', exec t c = .ok t' → ∃ s', exec s c = .ok s') : Alike acc i (step s c) (step t c) := by
  cases hs : exec s c with
  | ok s' =>
    obtain ⟨t', e, ha⟩ := h1 s' hs
    rw [step_ok hs, step_ok e]
    exact ha
  | error x =>
    rw [step_error (s := s) (fun s' hh => by rw [hs] at hh; cases hh), step_error (s := t) (fun t' hh => by
      obtain ⟨s', e⟩ := h2 t' hh
      rw [hs] at e
      cases e)]
    exact h

theorem le_sum_map {α : Type} {n : α → Nat} : ∀ {l : List α} {b : α}, b ∈ l → n b ≤ (l.map n).sum
  | a :: l, b, h => by
    rw [List.map_cons, List.sum_cons]
    rcases List.mem_cons.1 h with rfl | h
    · omega
    · have := le_sum_map (n := n) h
      omega

theorem sum_map_zero {α : Type} {n : α → Nat} : ∀ {l : List α}, (∀ b ∈ l, n b = 0) → (l.map n).sum = 0
  | [], _ => rfl
  | a :: l, h => by
    rw [List.map_cons, List.sum_cons, h a (by simp), sum_map_zero (fun b hb => h b (List.mem_cons_of_mem _ hb))]

theorem alike_step {acc : Addr → List Addr} (ha : Accounts acc) {i : Nat} {s t : State} {c : Call} {l : List Call}
    (hl : Shared acc c l) (ht : c.msg.typed) (gs : Good c.now s) (gt : Good c.now t) (hc : t.pollCount + isCreate c < M64)
    (h : Alike acc i s t) : Alike acc i (step s c) (run t l) ∧ Good c.now (run t l) := by
  have hle : ∀ {v : Addr} {n : Addr → Nat}, ((acc v).map n).sum < M128 → ∀ b ∈ acc v, n b < M128 := fun hs b hb =>
    lt_of_le_of_lt (le_sum_map hb) hs
  cases hl with
  | create now x p =>
    refine ⟨alike_one h (fun s' hs => ?_) (fun t' hs => ?_), ?_⟩
    · unfold exec at hs ⊢
      obtain ⟨h0, hs⟩ := ite_ok_iff.1 hs
      rw [if_neg (by rw [← h.admin]; exact h0)]
      exact alike_create h hs
    · unfold exec at hs ⊢
      obtain ⟨h0, hs⟩ := ite_ok_iff.1 hs
      rw [if_neg (by rw [h.admin]; exact h0)]
      obtain ⟨h1, h2, rfl⟩ := createPoll_ok_iff.1 hs
      exact ⟨_, createPoll_ok_iff.2 ⟨h1, h2, rfl⟩⟩
    · obtain ⟨h1, h2, _⟩ := inv_step gt.inv ht hc
      exact ⟨h1, past_step gt.inv ht hc gt.past, lt_of_le_of_lt h2 hc⟩
  | finish now x j m e a =>
    refine ⟨?_, gt.step ht rfl⟩
    by_cases hj : j = i
    · subst hj
      refine alike_one h (fun s' hs => ?_) (fun t' hs => ?_)
      · unfold exec at hs ⊢
        obtain ⟨h0, hs⟩ := ite_ok_iff.1 hs
        rw [if_neg (by rw [← h.admin]; exact h0)]
        exact alike_end h hs
      · unfold exec at hs ⊢
        obtain ⟨h0, hs⟩ := ite_ok_iff.1 hs
        rw [if_neg (by rw [h.admin]; exact h0)]
        obtain ⟨p, hp, h1, h2, rfl⟩ := endPoll_ok_iff.1 hs
        exact ⟨_, endPoll_ok_iff.2 ⟨p, h.poll ▸ hp, h1, h2, rfl⟩⟩
    · exact h.agree (other_step (by simp [aboutOther, hj])) (other_step (by simp [aboutOther, hj]))
  | vote now x j o v n =>
    refine ⟨?_, gt.run _ (fun d hd => ?_)⟩
    · by_cases hj : j = i
      · subst hj
        have hcan : Can t x now j ↔ Can s x now j := by
          unfold Can
          rw [h.admin, h.count, h.poll]
        by_cases hs : Can s x now j
        · exact h.hit ha gs.inv ht (vote_can hs) (votes_can _ (hcan.2 hs))
        · rw [vote_cannot hs, votes_cannot _ (fun hh => hs (hcan.1 hh))]
          exact h
      · exact h.agree (other_step (by simp [aboutOther, hj])) (votes_other hj _)
    · obtain ⟨b, hb, rfl⟩ := List.mem_map.1 hd
      exact ⟨rfl, hle ht b hb, rfl⟩
  | update now x v n =>
    refine ⟨?_, gt.run _ (fun d hd => ?_)⟩
    · have ho : openAt t now i ↔ openAt s now i := by
        unfold openAt
        rw [h.poll]
      cases hv : s.votes.get (vkey v i) with
      | none => exact h.agree (update_miss gs.inv (.inl hv)) (updates_miss _ gt (hle ht) (.inl (h.no v hv)))
      | some y =>
        by_cases hs : openAt s now i
        · by_cases hx : x = s.admin
          · exact h.hit ha gs.inv ht (update_hit gs.inv gs.past hx ht hv hs)
              (updates_hit _ gt (h.admin ▸ hx) (ho.2 hs) (ha.nodup v) (hle ht) (h.yes v y hv).1)
          · exact h.agree (update_miss gs.inv (.inr (.inr hx))) (updates_miss _ gt (hle ht) (.inr (.inr (h.admin ▸ hx))))
        · exact h.agree (update_miss gs.inv (.inr (.inl hs)))
            (updates_miss _ gt (hle ht) (.inr (.inl (fun hh => hs (ho.1 hh)))))
    · obtain ⟨b, hb, rfl⟩ := List.mem_map.1 hd
      exact ⟨rfl, hle ht b hb, rfl⟩

theorem alike_run {acc : Addr → List Addr} (ha : Accounts acc) {i : Nat} {h : List Call} {l : List Call}
    (hl : Split acc h l) : ∀ {s t : State}, Inv s → Inv t → Alike acc i s t → (∀ c ∈ h, c.msg.typed) →
    s.pollCount + creates h < M64 → h.Pairwise (fun c d => c.now ≤ d.now) → (∀ c ∈ h, Past c.now s ∧ Past c.now t) →
    Alike acc i (run s h) (run t l) := by
  induction hl with
  | nil => exact fun _ _ h _ _ _ _ => h
  | @cons c m h l hc hl ih =>
    intro s t is it hal hty hcr hp hpast
    obtain ⟨hp1, hp2⟩ := List.pairwise_cons.1 hp
    have hcr' : s.pollCount + (isCreate c + creates h) < M64 := hcr
    obtain ⟨q1, q2⟩ := hpast c List.mem_cons_self
    have hc1 := hty c List.mem_cons_self
    obtain ⟨a1, a2⟩ := alike_step ha hc hc1 ⟨is, q1, by omega⟩ ⟨it, q2, by rw [← hal.count]; omega⟩
      (by rw [← hal.count]; omega) hal
    have hns := inv_step is hc1 (by omega)
    have hps := past_step is hc1 (by omega) q1
    have mono : ∀ {now now' : Nat} {r : State}, now ≤ now' → Past now r → Past now' r :=
      fun hle hr j p hj => le_trans (hr j p hj) hle
    have : run t (m ++ l) = run (run t m) l := List.foldl_append ..
    rw [this]
    refine ih hns.1 a2.inv a1 (fun x hx => hty x (List.mem_cons_of_mem _ hx)) ?_ hp2
      (fun x hx => ⟨mono (hp1 x hx) hps, mono (hp1 x hx) a2.past⟩)
    have := hns.2.1
    omega

/-! ## C155 -/

/-- **Splitting a weight over several accounts changes no result.** In any history in which time does not run backwards, let
every voter be any number of accounts, which vote for the same in place of the voter and with weights that add up to the
weight of that vote, and the same for updates of weights. Then every poll is the same in the end, with the same results and
status. -/
theorem C155_results (admin : Addr) {acc : Addr → List Addr} (ha : Accounts acc) {h : List Call} {l : List Call}
    (hl : Split acc h l) (hty : ∀ c ∈ h, c.msg.typed) (hcr : creates h < 2 ^ 64)
    (hp : h.Pairwise (fun c d => c.now ≤ d.now)) (i : Nat) :
    queryPoll (run (init admin) h) i = queryPoll (run (init admin) l) i ∧
    ∀ v, cast (queryPollVoter (run (init admin) h) i v) =
        ((acc v).map (fun b => cast (queryPollVoter (run (init admin) l) i b))).sum ∧
      ∀ b ∈ acc v, (queryPollVoter (run (init admin) h) i v).map (·.outcome) =
        (queryPollVoter (run (init admin) l) i b).map (·.outcome) := by
  have hnil : ∀ now, Past now (init admin) := fun now j p hj => by cases hj
  have ha := alike_run (i := i) ha hl (inv_init admin) (inv_init admin)
    ⟨rfl, rfl, rfl, fun _ _ _ _ => rfl, fun v x hx => by cases hx⟩ hty (by show 0 + creates h < M64; unfold M64; omega) hp
    (fun c _ => ⟨hnil _, hnil _⟩)
  refine ⟨?_, fun v => ?_⟩
  · unfold queryPoll
    rw [ha.poll]
  · unfold queryPollVoter
    cases hv : (run (init admin) h).votes.get (vkey v i) with
    | none =>
      have h1 := ha.no v hv
      refine ⟨(sum_map_zero (fun b hb => ?_)).symm, fun b hb => by rw [h1 b hb]⟩
      rw [h1 b hb]
      rfl
    | some x =>
      obtain ⟨y1, y2⟩ := ha.yes v x hv
      refine ⟨y2, fun b hb => ?_⟩
      obtain ⟨y, h1, h2⟩ := y1 b hb
      rw [h1]
      exact congrArg some h2.symm

/-! ### Examples -/

/-- In the sample: voter 7 votes through the accounts 7 and 70, voter 8 through 8, 80 and 81. -/
def sampleAcc (v : Addr) : List Addr := if v = 7 then [7, 70] else if v = 8 then [8, 80, 81] else [v + 1000]

theorem sampleAcc_ok : Accounts sampleAcc := by
  refine ⟨fun v => ?_, fun v => ?_, fun u v b hu hv => ?_⟩
  · unfold sampleAcc
    split
    · simp
    · split <;> simp
  · unfold sampleAcc
    split
    · simp
    · split <;> simp
  · have key : ∀ w c : Nat, c ∈ sampleAcc w → (w = 7 ∧ (c = 7 ∨ c = 70)) ∨ (w = 8 ∧ (c = 8 ∨ c = 80 ∨ c = 81)) ∨
        (w ≠ 7 ∧ w ≠ 8 ∧ c = w + 1000) := by
      intro w c h
      unfold sampleAcc at h
      split at h
      · exact .inl ⟨by assumption, by simpa using h⟩
      · split at h
        · exact .inr (.inl ⟨by assumption, by simpa using h⟩)
        · exact .inr (.inr ⟨by assumption, by assumption, by simpa using h⟩)
    have h1 := key u b hu
    have h2 := key v b hv
    have : ∀ u v b : Nat, ((u = 7 ∧ (b = 7 ∨ b = 70)) ∨ (u = 8 ∧ (b = 8 ∨ b = 80 ∨ b = 81)) ∨ (u ≠ 7 ∧ u ≠ 8 ∧ b = u + 1000)) →
        ((v = 7 ∧ (b = 7 ∨ b = 70)) ∨ (v = 8 ∧ (b = 8 ∨ b = 80 ∨ b = 81)) ∨ (v ≠ 7 ∧ v ≠ 8 ∧ b = v + 1000)) → u = v := by
      intro u v b h1 h2
      omega
    exact this u v b h1 h2

/-- The sample history with the weights split. -/
def sampleSplit : List Call :=
  [ ⟨10, 1, .createPoll ⟨5, 0, 0, 0, 100, ONE / 10, ONE / 2, none⟩⟩,
    ⟨10, 1, .createPoll ⟨6, 3, 1, 1, 200, ONE / 10, ONE / 2, some (ONE / 3)⟩⟩,
    ⟨11, 1, .castVote 1 .yes 7 15⟩, ⟨11, 1, .castVote 1 .yes 70 25⟩,
    ⟨12, 1, .castVote 1 .no 8 10⟩, ⟨12, 1, .castVote 1 .no 80 0⟩, ⟨12, 1, .castVote 1 .no 81 20⟩,
    ⟨12, 9, .castVote 1 .no 8 1000⟩, ⟨12, 9, .castVote 1 .no 80 0⟩, ⟨12, 9, .castVote 1 .no 81 0⟩,
    ⟨13, 1, .castVote 1 .veto 7 40⟩, ⟨13, 1, .castVote 1 .veto 70 0⟩,
    ⟨14, 1, .castVote 2 .yes 7 1⟩, ⟨14, 1, .castVote 2 .yes 70 39⟩,
    ⟨15, 1, .updateVotes 7 20⟩, ⟨15, 1, .updateVotes 70 5⟩ ]

theorem sample_split : Split sampleAcc sample sampleSplit :=
  .cons (.create ..) <| .cons (.create ..) <|
  .cons (.vote 11 1 1 .yes 7 (fun b => if b = 7 then 15 else 25)) <|
  .cons (.vote 12 1 1 .no 8 (fun b => if b = 8 then 10 else if b = 80 then 0 else 20)) <|
  .cons (.vote 12 9 1 .no 8 (fun b => if b = 8 then 1000 else 0)) <|
  .cons (.vote 13 1 1 .veto 7 (fun b => if b = 7 then 40 else 0)) <|
  .cons (.vote 14 1 2 .yes 7 (fun b => if b = 7 then 1 else 39)) <|
  .cons (.update 15 1 7 (fun b => if b = 7 then 20 else 5)) .nil

/-- Hypotheses met, and the results are not trivial: on poll 1 there are 25 vetoes and 30 against, and the 25 of voter 7 are
the 20 and the 5 of its two accounts. -/
example : Accounts sampleAcc ∧ Split sampleAcc sample sampleSplit ∧ (∀ c ∈ sample, c.msg.typed) ∧ creates sample < 2 ^ 64 ∧
    sample.Pairwise (fun c d => c.now ≤ d.now) ∧
    (queryPoll (run (init 1) sampleSplit) 1).map (·.results.entries) = .ok [(0, 0), (1, 30), (3, 25)] ∧
    queryPollVoter (run (init 1) sampleSplit) 1 7 = some ⟨1, 7, .veto, 20⟩ ∧
    queryPollVoter (run (init 1) sampleSplit) 1 70 = some ⟨1, 70, .veto, 5⟩ := by
  refine ⟨sampleAcc_ok, sample_split, ?_, by decide +kernel, by decide +kernel, by decide +kernel, by decide +kernel,
    by decide +kernel⟩
  intro c hc
  simp only [sample, List.mem_cons, List.not_mem_nil, or_false] at hc
  rcases hc with rfl | rfl | rfl | rfl | rfl | rfl | rfl | rfl <;> simp [Msg.typed] <;> decide

end Verif.Gov
