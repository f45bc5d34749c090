import Verif.Factory.Props

/-!
# The factory: which codes are those of DAOs (C113)

`ENTERPRISE_CODE_IDS` is read by two queries and written nowhere in the repository: what it holds was stored by an earlier
version of the factory. It is a parameter here, the same before and after every message.
-/

namespace Verif.Factory
open Verif
open Verif.Versioning (Version Info ver)

/-- `query_enterprise_code_ids`, contract.rs 833-852; limits of lines 62-63. -/
def queryCodes (codes : Map Nat Unit) (after limit : Option Nat) : List Nat :=
  (codes.page after (min (limit.getD 50) 100)).map (·.1)

/-- `query_is_enterprise_code_id` with `query_version_1_0_0_info`, contract.rs 854-892. -/
def queryIsCode (codes : Map Nat Unit) (e : Env) (s : State) (code : Nat) : Except Err Bool :=
  if codes.has code then .ok true
  else do
    let r ← need (e.registry s.config.versioning) .queryFailed
    match Versioning.queryVersion r (ver 1 0 0) with
    | .error _ => .error .queryFailed
    | .ok v => .ok (decide (v.treasury = code))

/-- The contract that a DAO is listed under, number `n`, was instantiated from this code. -/
def ListedCode (t : Trace) (s' : State) (n code : Nat) : Prop :=
  ∃ a admin id m, s'.daos.get n = some a ∧ (Sub.inst id admin code m, some a) ∈ t ∧ ∃ c x y, m = .treasury c x y

/-- C113: the code of the contract that a new DAO is listed under is recognised exactly if it was already known, or is
the code of treasuries in version 1.0.0. For a DAO of that version it is recognised. -/
theorem C113_recognised_partial {e : Env} {s s' : State} {sender : Addr} {msg : Msg} {t : Trace}
    (h : Tx e s sender msg s' t) {m : CreateDao} {version : Option Version} (hm : msg.creates = some (m, version))
    (codes : Map Nat Unit) :
    ∃ code, ListedCode t s' s.counter code ∧
      (∀ (e' : Env) r v, e'.registry s'.config.versioning = some r → r.versions.get (ver 1 0 0) = some v →
        queryIsCode codes e' s' code = .ok (decide (codes.has code = true ∨ code = v.treasury))) ∧
      (version = some (ver 1 0 0) → queryIsCode codes e s' code = .ok true) := by
  obtain ⟨v, d, seg, w, hv, _, _, ht, hs⟩ := h.create hm
  have hcfg : s'.config = s.config := by rw [hs]
  have key : ∀ (e' : Env) r x, e'.registry s'.config.versioning = some r → r.versions.get (ver 1 0 0) = some x →
      queryIsCode codes e' s' v.treasury = .ok (decide (codes.has v.treasury = true ∨ v.treasury = x.treasury)) := by
    intro e' r x hr hx
    unfold queryIsCode
    by_cases hc : codes.has v.treasury = true
    · rw [if_pos hc, decide_eq_true (.inl hc)]
    · rw [if_neg hc]
      have hq : Versioning.queryVersion r (ver 1 0 0) = .ok x := by unfold Versioning.queryVersion; rw [hx]
      simp only [hr, need, bind, Except.bind, hq]
      congr 1
      rw [decide_eq_decide]
      exact ⟨fun h => .inr h.symm, fun h => by rcases h with h | h; exacts [absurd h hc, h.symm]⟩
  refine ⟨v.treasury, ⟨d.comps.treasury, some d.enterprise, 10, .treasury d.comps.controller (m.assets.getD [])
    (m.nfts.getD []), by rw [hs, Map.get_set_self], by rw [ht]; simp [creation], _, _, _, rfl⟩, key, fun h1 => ?_⟩
  subst h1
  obtain ⟨r, hr, hx⟩ := hv
  simp only [Versioning.queryVersion] at hx
  cases hg : r.versions.get (ver 1 0 0) with
  | none => rw [hg] at hx; cases hx
  | some x =>
    rw [hg] at hx
    cases hx
    rw [key e r v (by rw [hcfg]; exact hr) hg, decide_eq_true (.inr rfl)]

/-- A registry with the version of the rewrite and the sample version, which has another code for treasuries. -/
def sampleEnv2 : Env :=
  { sampleEnv with registry := fun a => if a = 6 then some (Versioning.run (Versioning.init 1)
      [⟨1, .addVersion ⟨ver 1 0 0, 0, 1, 2, 3, 4, 5, 46, 7, 8, 9, 10, 11⟩⟩, ⟨1, .addVersion sampleInfo⟩]) else none }

theorem sample_tx2 : Tx sampleEnv2 sampleInit 3 (.createDao sampleDenom) sampleAfter sampleTrace := by
  have h : ∃ s1 subs, exec sampleEnv2 sampleInit 3 (.createDao sampleDenom) = .ok (s1, subs) ∧
      ∃ s' t, Exec sampleEnv2 s1 subs s' t ∧ s' = sampleAfter ∧ t = sampleTrace := by
    refine ⟨_, _, rfl, _, _, ?_, rfl, rfl⟩
    exact .inst 101 rfl (.updateAdmin (.inst 102 rfl (.inst 103 rfl .nil (.inst 104 rfl .nil (.inst 105 rfl .nil
      (.inst 106 rfl (.inst 107 rfl .nil (.inst 108 rfl .nil .nil)) (.inst 109 rfl .nil
        (.own rfl (.finalize (.fund (.deployInitial .nil))) .nil)))))) .nil)) .nil
  obtain ⟨_, _, h1, _, _, h2, rfl, rfl⟩ := h
  exact .mk (by decide) h1 h2

/-- C113 fails for DAOs of later versions: nothing is recorded at a creation, so a new factory answers "no" for the code
of every DAO that it lists, if only treasuries got a new code since version 1.0.0. -/
theorem C113_unknown_witness : ∃ (e : Env) (s s' : State) (t : Trace) (m : CreateDao),
    s = init ⟨1, 6, 20, 21⟩ none none ∧ Tx e s 3 (.createDao m) s' t ∧
    ∃ code, ListedCode t s' 1 code ∧ queryIsCode Map.empty e s' code = .ok false ∧
      queryCodes Map.empty none none = [] := by
  refine ⟨sampleEnv2, _, _, _, _, rfl, sample_tx2, 36, ⟨106, some 101, 10, .treasury 102 [] [], by decide +kernel,
    by decide +kernel, _, _, _, rfl⟩, by decide +kernel, by decide +kernel⟩

/-- C113: the codes that are listed, page by page, are exactly those that are known, each once, and each of them is
recognised whatever the registry says. -/
theorem C113_listed (codes : Map Nat Unit) (limit : Option Nat) (hl : limit ≠ some 0) :
    (∃ ps, Reads (fun c => queryCodes codes c limit) id none ps) ∧
    (∀ ps, Reads (fun c => queryCodes codes c limit) id none ps →
      ps.flatten.Nodup ∧ ∀ code, code ∈ ps.flatten ↔ codes.has code = true) ∧
    ∀ code, codes.has code = true → ∀ (e : Env) (s : State), queryIsCode codes e s code = .ok true := by
  have hn : 0 < min (limit.getD 50) 100 := by
    cases limit with
    | none => decide
    | some n =>
      have : n ≠ 0 := fun h => hl (by rw [h])
      simp only [Option.getD_some]
      omega
  have hg : ∀ e ∈ codes.entries, (fun v : Nat => v) (id ((fun x : Nat × Unit => x.1) e)) = e.1 := fun e _ => rfl
  have hfun : (fun c => queryCodes codes c limit) =
      fun c : Option Nat => (codes.page (c.map (fun v : Nat => v)) (min (limit.getD 50) 100)).map
        (fun x : Nat × Unit => x.1) := by
    funext c
    cases c <;> simp [queryCodes]
  rw [hfun]
  refine ⟨reads_page_exists (emb := fun v : Nat => v) hg hn none, fun ps hps => ?_, fun code hc e s => ?_⟩
  · have hres := reads_page (emb := fun v : Nat => v) hg hn hps
    simp only [Option.map_none, afterL_none] at hres
    rw [hres]
    exact ⟨codes.nodup_keys, fun code => by rw [Map.has_iff]; exact codes.mem_keys⟩
  · unfold queryIsCode
    rw [if_pos hc]

example : ((Map.empty : Map Nat Unit).set 7 ()).has 7 = true ∧ (some 2 : Option Nat) ≠ some 0 := ⟨by decide, by decide⟩

end Verif.Factory
