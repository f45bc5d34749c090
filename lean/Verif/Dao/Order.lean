import Verif.Dao.Props32
import Verif.Dao.Rewards
import Verif.Distributor.Props9
import Verif.Staking.Props4
import Verif.Gov.Props6

/-!
# Lemmas: what a message of a member changes (for C164)
-/

set_option linter.unusedSimpArgs false

namespace Verif

/-- Sums of maps whose values are bounded by those of two others. -/
theorem sum_le_two {m a b : Map Addr Nat} (h : ∀ u, (m.get u).getD 0 ≤ (a.get u).getD 0 + (b.get u).getD 0) :
    m.sum (fun _ x => x) ≤ a.sum (fun _ x => x) + b.sum (fun _ x => x) := by
  have key : ∀ (n : Map Addr Nat) (us : List Addr), us.Nodup → (∀ u ∈ n.keys, u ∈ us) →
      (us.map (fun u => (n.get u).getD 0)).sum = n.sum (fun _ x => x) := by
    intro n us hn hu
    exact Distributor.sum_all us n hn (fun u x hx _ => hu u (Map.mem_keys.2 ⟨x, hx⟩))
  have hn : (m.keys ++ a.keys ++ b.keys).dedup.Nodup := List.nodup_dedup _
  rw [← key m _ hn (fun u hu => by simp [hu]), ← key a _ hn (fun u hu => by simp [hu]), ← key b _ hn (fun u hu => by simp [hu])]
  generalize (m.keys ++ a.keys ++ b.keys).dedup = us
  induction us with
  | nil => simp
  | cons u us ih =>
    simp only [List.map_cons, List.sum_cons]
    have := h u
    omega

end Verif

namespace Verif.Distributor
open Verif

/-- What the distributor stores about one user is the same, and so are the indices. -/
structure UserPart (u : Addr) (s t : State) : Prop extends Kept u s t where
  weights : s.weights.get u = t.weights.get u

theorem UserPart.rfl' (u : Addr) (s : State) : UserPart u s s := ⟨.rfl' u s, rfl⟩

theorem UserPart.symm {u : Addr} {s t : State} (h : UserPart u s t) : UserPart u t s := ⟨h.toKept.symm, h.weights.symm⟩

theorem UserPart.trans {u : Addr} {s t r : State} (h : UserPart u s t) (h' : UserPart u t r) : UserPart u s r :=
  ⟨h.toKept.trans h'.toKept, h.weights.trans h'.weights⟩

theorem update_part {u : Addr} {n : Nat} {s t s' t' : State} (h : UserPart u s t) (hm : s.min = t.min)
    (hs : updateOne s (u, n) = .ok s') (ht : updateOne t (u, n) = .ok t') : UserPart u s' t' := by
  obtain ⟨x, hx, _, _, rfl⟩ := updateOne_iff.1 hs
  obtain ⟨y, hy, _, _, rfl⟩ := updateOne_iff.1 ht
  obtain ⟨z, hz, h1, h2⟩ := refresh_loc (U := (· = u)) rfl h.effective h.native h.cw20 hx
  rw [hy] at hz
  cases hz
  exact ⟨⟨by simp only [Map.get_set_self, hm], h1, h2⟩, by simp only [Map.get_set_self]⟩

theorem update_frame {u v : Addr} (huv : v ≠ u) {n : Nat} {s s' : State} (hs : updateOne s (v, n) = .ok s') : UserPart u s s' := by
  refine ⟨updateOne_other (p := (v, n)) huv hs, ?_⟩
  obtain ⟨x, hx, _, _, rfl⟩ := updateOne_iff.1 hs
  exact (Map.get_set_ne _ _ huv).symm

theorem update_fixed {v : Addr} {n : Nat} {s s' : State} (hs : updateOne s (v, n) = .ok s') :
    s'.admin = s.admin ∧ s'.min = s.min ∧ s'.effective = s.effective.set v (effWeight n s.min) := by
  obtain ⟨x, hx, _, _, rfl⟩ := updateOne_iff.1 hs
  exact ⟨rfl, rfl, rfl⟩

/-- A report accepted in one state is accepted in another one with the same data of the user, if the total fits. -/
theorem update_accept {u : Addr} {n : Nat} {s t s' : State} (h : UserPart u s t) (hi : Inv t)
    (hs : updateOne s (u, n) = .ok s') (hr : (t.effective.set u (effWeight n t.min)).sum (fun _ w => w) < M128) :
    ∃ t', updateOne t (u, n) = .ok t' := by
  obtain ⟨x, hx, _, _, _⟩ := updateOne_iff.1 hs
  obtain ⟨z, hz, _, _⟩ := refresh_loc (U := (· = u)) rfl h.effective h.native h.cw20 hx
  have h6 : Map.contrib (fun _ w => w) u (t.effective.get u) = (t.effective.get u).getD 0 := by
    cases t.effective.get u <;> rfl
  have h5 := Map.contrib_le_sum t.effective (fun _ w => w) u
  have h7 := Map.sum_set t.effective (fun _ w => w) u (effWeight n t.min)
  have h8 := hi.total
  exact ⟨_, updateOne_iff.2 ⟨z, hz, by simp only; omega, by simp only; omega, rfl⟩⟩

theorem claim_fixed {u : Addr} {s : State} {e : Env} {ds ts : List Nat} {x : State × List Out}
    (hx : claim s e u ds ts = .ok x) : x.1.admin = s.admin ∧ x.1.min = s.min ∧ x.1.effective = s.effective ∧
      x.1.weights = s.weights := by
  have h := claim_frame hx
  exact ⟨h.admin.symm, h.min.symm, h.effective.symm, h.weights.symm⟩

/-- States are determined by the parts of the users. -/
theorem userParts_ext {s t : State} (h : ∀ u, UserPart u s t) (ha : s.admin = t.admin) (hm : s.min = t.min) (is : Inv s) (it : Inv t) :
    s = t := by
  have h1 : s.weights = t.weights := Map.ext_get (fun u => (h u).weights)
  have h2 : s.effective = t.effective := Map.ext_get (fun u => (h u).effective)
  have h3 : s.total = t.total := by rw [is.total, it.total, h2]
  have hl : ∀ {L M : Ledger}, (∀ u, L.Same (· = u) M) → L = M := by
    intro L M hL
    obtain ⟨i, d⟩ := L
    obtain ⟨i', d'⟩ := M
    have hi : i = i' := (hL 0).idx
    have hd : d = d' := Map.ext_get (fun k => (hL (ofLex k).1).dist _ (ofLex k).2 rfl)
    rw [hi, hd]
  have h4 := hl (fun u => (h u).native)
  have h5 := hl (fun u => (h u).cw20)
  cases s; cases t
  simp_all

end Verif.Distributor
