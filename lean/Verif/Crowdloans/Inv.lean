import Verif.Crowdloans.Spec

/-! # Crowdloans: the invariant and how single-vault actions preserve it -/

set_option linter.unusedSimpArgs false

namespace Verif.Crowdloans
open Verif

/-- A request the pallet may have in flight. -/
def goodReq (c : Cfg) : Req → Prop
  | .contribute _ who _ _ => who ≠ c.acct
  | .withdraw _ _ target => target.finished

structure Inv (c : Cfg) (D : Nat → Prop) (s : State) : Prop where
  wf : s.tok.WF
  sorted : ∀ t kd, Sorted (s.child (t, kd))
  good : ∀ t kd, ∀ e ∈ s.child (t, kd), e.amt ≠ 0 ∧ e.who ≠ c.acct
  trieLt : ∀ k v, s.vaults k = some v → v.trie < s.nextTrie
  trieInj : ∀ k k' v v', s.vaults k = some v → s.vaults k' = some v' → v.trie = v'.trie → k = k'
  orphan : ∀ t kd, (∀ k v, s.vaults k = some v → v.trie ≠ t) → s.child (t, kd) = []
  pend : ∀ k v, s.vaults k = some v → v.pending = total (s.child (v.trie, .pending))
  fly : ∀ k v, s.vaults k = some v → v.flying = total (s.child (v.trie, .flying))
  cur : ∀ p l, s.leaseOf p = some l → ∃ v, s.vaults ⟨p, l.1, l.2⟩ = some v
  old : ∀ k v, s.vaults k = some v → s.leaseOf k.para = some k.lease ∨ v.phase.finished
  backed : SumLe s.owed (s.tok.bal c.relay c.acct)
  ctok : ∀ k v, s.vaults k = some v → s.ctokenOf k.lease = some v.ctoken
  ctokD : ∀ l T, s.ctokenOf l = some T → D T
  reqs : ∀ q r, s.requests q = some r → goodReq c r ∧ q < s.nextQuery
  claims : ∀ T, D T → ∃ B, SumsTo (s.unclaimed T) B ∧ SumsTo (s.invested T) (s.tok.iss T + B)
  logTrie : ∀ e ∈ s.log, e.trie < s.nextTrie
  paid : ∀ t u, logSum (Ev.paidBy t u) s.log = s.held t u + logSum (Ev.leftBy t u) s.log
  minted : ∀ k v, s.vaults k = some v →
    logSum (Ev.executedOn v.trie) s.log = v.contributed + logSum (Ev.mintedOn v.trie) s.log
  gone : ∀ t, (∀ k v, s.vaults k = some v → v.trie ≠ t) →
    logSum (Ev.executedOn t) s.log = logSum (Ev.mintedOn t) s.log

theorem held_nil {s : State} {t u : Nat} (h : ∀ kd, s.child (t, kd) = []) : s.held t u = 0 := by
  unfold State.held State.amount
  rw [h, h, h]; rfl

theorem Genesis.inv {c : Cfg} {D : Nat → Prop} {s : State} (h : Genesis D s) : Inv c D s := by
  have hv : ∀ k v, s.vaults k = some v → False := by
    intro k v hk; rw [h.vaults k] at hk; cases hk
  constructor
  · exact h.wf
  · intro t kd; rw [h.child]; exact List.Pairwise.nil
  · intro t kd e he; rw [h.child] at he; cases he
  · intro k v hk; exact (hv k v hk).elim
  · intro k k' v v' hk; exact (hv k v hk).elim
  · intro t kd _; exact h.child _
  · intro k v hk; exact (hv k v hk).elim
  · intro k v hk; exact (hv k v hk).elim
  · intro p l hl; rw [h.leases] at hl; cases hl
  · intro k v hk; exact (hv k v hk).elim
  · have : s.owed = fun _ => 0 := by
      funext k; unfold State.owed; rw [h.vaults k]
    rw [this]; exact SumLe.zero _
  · intro k v hk; exact (hv k v hk).elim
  · intro l T hl; rw [h.ctokens] at hl; cases hl
  · intro q r hq; rw [h.requests] at hq; cases hq
  · intro T hT
    have h1 : s.unclaimed T = fun _ => 0 := by
      funext k; unfold State.unclaimed; rw [h.vaults k]
    have h2 : s.invested T = fun _ => 0 := by
      funext k; unfold State.invested; rw [h.vaults k]
    refine ⟨0, ?_, ?_⟩
    · rw [h1]; exact SumsTo.zero
    · rw [h2, h.iss T hT]; exact SumsTo.zero
  · intro e he; rw [h.log] at he; cases he
  · intro t u
    rw [h.log, held_nil (fun kd => h.child _)]; rfl
  · intro k v hk; exact (hv k v hk).elim
  · intro t _; rw [h.log]; rfl

/-- Changes the invariant does not see. -/
theorem Inv.congr {c : Cfg} {D : Nat → Prop} {s s' : State} (h : Inv c D s)
    (hv : s'.vaults = s.vaults) (hct : s'.ctokenOf = s.ctokenOf) (hl : s'.leaseOf = s.leaseOf)
    (hn : s'.nextTrie = s.nextTrie) (hr : s'.requests = s.requests) (hc : s'.child = s.child)
    (hq : s.nextQuery ≤ s'.nextQuery) (hlog : s'.log = s.log) (hwf : s'.tok.WF)
    (hbal : s.tok.bal c.relay c.acct ≤ s'.tok.bal c.relay c.acct)
    (hiss : ∀ T, D T → s'.tok.iss T = s.tok.iss T) : Inv c D s' := by
  have howed : s'.owed = s.owed := by funext k; unfold State.owed; rw [hv]
  have hinv : ∀ T, s'.invested T = s.invested T := by intro T; funext k; unfold State.invested; rw [hv]
  have hun : ∀ T, s'.unclaimed T = s.unclaimed T := by intro T; funext k; unfold State.unclaimed; rw [hv, hc]
  have hheld : ∀ t u, s'.held t u = s.held t u := by
    intro t u; unfold State.held State.amount; rw [hc]
  constructor
  · exact hwf
  · rw [hc]; exact h.sorted
  · rw [hc]; exact h.good
  · rw [hv, hn]; exact h.trieLt
  · rw [hv]; exact h.trieInj
  · rw [hv, hc]; exact h.orphan
  · rw [hv, hc]; exact h.pend
  · rw [hv, hc]; exact h.fly
  · rw [hv, hl]; exact h.cur
  · rw [hv, hl]; exact h.old
  · rw [howed]; exact h.backed.mono (fun _ => Nat.le_refl _) hbal
  · rw [hv, hct]; exact h.ctok
  · rw [hct]; exact h.ctokD
  · rw [hr]
    intro q r hqr
    obtain ⟨h1, h2⟩ := h.reqs q r hqr
    exact ⟨h1, by omega⟩
  · intro T hT
    rw [hun, hinv, hiss T hT]; exact h.claims T hT
  · rw [hlog, hn]; exact h.logTrie
  · intro t u; rw [hlog, hheld]; exact h.paid t u
  · rw [hv, hlog]; exact h.minted
  · rw [hv, hlog]; exact h.gone

theorem Env.inv {c : Cfg} {D : Nat → Prop} {s s' : State} (he : Env c D s s') (h : Inv c D s) : Inv c D s' := by
  have hs := he.state
  refine h.congr ?_ ?_ ?_ ?_ ?_ ?_ he.query ?_ he.wf he.bal he.iss <;> rw [hs]

/-- An action on a single vault: everything the invariant needs to know about it. -/
structure Act (c : Cfg) (D : Nat → Prop) (s s' : State) (k : Key) (v v' : Vault) : Prop where
  here : s.vaults k = some v
  vaults : s'.vaults = upd s.vaults k (some v')
  trie : v'.trie = v.trie
  ctoken : v'.ctoken = v.ctoken
  ctokenOf : s'.ctokenOf = s.ctokenOf
  leaseOf : s'.leaseOf = s.leaseOf
  nextTrie : s'.nextTrie = s.nextTrie
  child_off : ∀ t kd, t ≠ v.trie → s'.child (t, kd) = s.child (t, kd)
  sorted : ∀ kd, Sorted (s'.child (v.trie, kd))
  pend : v'.pending + total (s.child (v.trie, .pending)) = v.pending + total (s'.child (v.trie, .pending))
  fly : v'.flying + total (s.child (v.trie, .flying)) = v.flying + total (s'.child (v.trie, .flying))
  mem : ∀ kd, ∀ e ∈ s'.child (v.trie, kd), e ∈ s.child (v.trie, kd) ∨ (e.amt ≠ 0 ∧ e.who ≠ c.acct)
  phase : v'.phase = v.phase ∨ s.leaseOf k.para = some k.lease ∨ v'.phase.finished
  reqs : ∀ q r, s'.requests q = some r → (s.requests q = some r ∨ (goodReq c r ∧ q < s'.nextQuery))
  query : s.nextQuery ≤ s'.nextQuery
  wf : s'.tok.WF
  backed : v'.pending + v'.flying + s.tok.bal c.relay c.acct ≤ v.pending + v.flying + s'.tok.bal c.relay c.acct
  issOff : ∀ T, D T → T ≠ v.ctoken → s'.tok.iss T = s.tok.iss T
  issOn : v'.contributed + s.tok.iss v.ctoken + total (s.child (v.trie, .contributed)) =
    v.contributed + s'.tok.iss v.ctoken + total (s'.child (v.trie, .contributed))
  log : ∃ ev, s'.log = s.log ++ ev ∧ (∀ e ∈ ev, e.trie = v.trie) ∧
    (∀ u, s.held v.trie u + logSum (Ev.paidBy v.trie u) ev = s'.held v.trie u + logSum (Ev.leftBy v.trie u) ev) ∧
    v.contributed + logSum (Ev.executedOn v.trie) ev = v'.contributed + logSum (Ev.mintedOn v.trie) ev

theorem logSum_off {f : Ev → Nat} {l : List Ev} (h : ∀ e ∈ l, f e = 0) : logSum f l = 0 := by
  unfold logSum
  apply List.sum_eq_zero
  intro x hx
  obtain ⟨e, he, rfl⟩ := List.mem_map.mp hx
  exact h e he

theorem paidBy_off {t u : Nat} {e : Ev} (h : e.trie ≠ t) : e.paidBy t u = 0 := by
  cases e <;> simp_all [Ev.trie, Ev.paidBy]
theorem leftBy_off {t u : Nat} {e : Ev} (h : e.trie ≠ t) : e.leftBy t u = 0 := by
  cases e <;> simp_all [Ev.trie, Ev.leftBy]
theorem executedOn_off {t : Nat} {e : Ev} (h : e.trie ≠ t) : e.executedOn t = 0 := by
  cases e <;> simp_all [Ev.trie, Ev.executedOn]
theorem mintedOn_off {t : Nat} {e : Ev} (h : e.trie ≠ t) : e.mintedOn t = 0 := by
  cases e with
  | back t' k u m => cases k <;> simp_all [Ev.trie, Ev.mintedOn]
  | _ => simp_all [Ev.trie, Ev.mintedOn]

theorem Inv.act {c : Cfg} {D : Nat → Prop} {s s' : State} {k : Key} {v v' : Vault} (h : Inv c D s)
    (a : Act c D s s' k v v') : Inv c D s' := by
  have hk : s'.vaults k = some v' := by rw [a.vaults]; exact upd_same _ _ _
  have hoff : ∀ x, x ≠ k → s'.vaults x = s.vaults x := by
    intro x hx; rw [a.vaults]; exact upd_of_ne _ _ hx
  have htr : ∀ x w, x ≠ k → s.vaults x = some w → w.trie ≠ v.trie := by
    intro x w hx hw e
    exact hx (h.trieInj x k w v hw a.here e)
  obtain ⟨ev, hlog, hev, hpaid, hmint⟩ := a.log
  have hheld : ∀ t u, t ≠ v.trie → s'.held t u = s.held t u := by
    intro t u ht; unfold State.held State.amount
    rw [a.child_off t _ ht, a.child_off t _ ht, a.child_off t _ ht]
  constructor
  · exact a.wf
  · intro t kd
    by_cases ht : t = v.trie
    · subst ht; exact a.sorted kd
    · rw [a.child_off t kd ht]; exact h.sorted t kd
  · intro t kd e he
    by_cases ht : t = v.trie
    · subst ht
      rcases a.mem kd e he with h1 | h1
      · exact h.good _ _ e h1
      · exact h1
    · rw [a.child_off t kd ht] at he; exact h.good t kd e he
  · intro x w hw
    rw [a.nextTrie]
    by_cases hx : x = k
    · subst hx; rw [hk] at hw; cases hw; rw [a.trie]; exact h.trieLt _ _ a.here
    · rw [hoff x hx] at hw; exact h.trieLt x w hw
  · intro x y w z hw hz e
    by_cases hx : x = k
    · subst hx
      rw [hk] at hw; cases hw
      by_cases hy : y = x
      · exact hy.symm
      · rw [hoff y hy] at hz
        rw [a.trie] at e
        exact absurd e.symm (htr y z hy hz)
    · rw [hoff x hx] at hw
      by_cases hy : y = k
      · subst hy
        rw [hk] at hz; cases hz
        rw [a.trie] at e
        exact absurd e (htr x w hx hw)
      · rw [hoff y hy] at hz
        exact h.trieInj x y w z hw hz e
  · intro t kd ht
    have hne : t ≠ v.trie := by
      intro e; exact ht k v' hk (by rw [a.trie]; exact e.symm)
    rw [a.child_off t kd hne]
    apply h.orphan
    intro x w hw
    by_cases hx : x = k
    · subst hx; rw [a.here] at hw; cases hw; exact Ne.symm hne
    · exact ht x w (by rw [hoff x hx]; exact hw)
  · intro x w hw
    by_cases hx : x = k
    · subst hx; rw [hk] at hw; cases hw
      have h1 := h.pend _ _ a.here
      have h2 := a.pend
      rw [a.trie]; omega
    · rw [hoff x hx] at hw
      rw [a.child_off _ _ (htr x w hx hw)]; exact h.pend x w hw
  · intro x w hw
    by_cases hx : x = k
    · subst hx; rw [hk] at hw; cases hw
      have h1 := h.fly _ _ a.here
      have h2 := a.fly
      rw [a.trie]; omega
    · rw [hoff x hx] at hw
      rw [a.child_off _ _ (htr x w hx hw)]; exact h.fly x w hw
  · intro p l hl
    rw [a.leaseOf] at hl
    obtain ⟨w, hw⟩ := h.cur p l hl
    by_cases hx : (⟨p, l.1, l.2⟩ : Key) = k
    · exact ⟨v', by rw [hx]; exact hk⟩
    · exact ⟨w, by rw [hoff _ hx]; exact hw⟩
  · intro x w hw
    rw [a.leaseOf]
    by_cases hx : x = k
    · subst hx; rw [hk] at hw; cases hw
      rcases a.phase with e | e | e
      · rcases h.old _ _ a.here with o | o
        · exact Or.inl o
        · right; rw [e]; exact o
      · exact Or.inl e
      · exact Or.inr e
    · rw [hoff x hx] at hw; exact h.old x w hw
  · apply h.backed.update k
    · intro x hx; unfold State.owed; rw [hoff x hx]
    · have e1 : s'.owed k = v'.pending + v'.flying := by unfold State.owed; rw [hk]
      have e2 : s.owed k = v.pending + v.flying := by unfold State.owed; rw [a.here]
      rw [e1, e2]; exact a.backed
  · intro x w hw
    rw [a.ctokenOf]
    by_cases hx : x = k
    · subst hx; rw [hk] at hw; cases hw; rw [a.ctoken]; exact h.ctok _ _ a.here
    · rw [hoff x hx] at hw; exact h.ctok x w hw
  · rw [a.ctokenOf]; exact h.ctokD
  · intro q r hq
    rcases a.reqs q r hq with h1 | h1
    · obtain ⟨g1, g2⟩ := h.reqs q r h1
      have := a.query
      exact ⟨g1, by omega⟩
    · exact h1
  · intro T hT
    obtain ⟨B, hB, hA⟩ := h.claims T hT
    have hu : ∀ x, x ≠ k → s'.unclaimed T x = s.unclaimed T x := by
      intro x hx
      unfold State.unclaimed
      rw [hoff x hx]
      cases hw : s.vaults x with
      | none => rfl
      | some w => dsimp only; rw [a.child_off _ _ (htr x w hx hw)]
    have hi : ∀ x, x ≠ k → s'.invested T x = s.invested T x := by
      intro x hx; unfold State.invested; rw [hoff x hx]
    have u1 : s'.unclaimed T k = if v.ctoken = T then total (s'.child (v.trie, .contributed)) else 0 := by
      unfold State.unclaimed; rw [hk]; dsimp only; rw [a.ctoken, a.trie]
    have u2 : s.unclaimed T k = if v.ctoken = T then total (s.child (v.trie, .contributed)) else 0 := by
      unfold State.unclaimed; rw [a.here]
    have i1 : s'.invested T k = if v.ctoken = T then v'.contributed else 0 := by
      unfold State.invested; rw [hk]; dsimp only; rw [a.ctoken]
    have i2 : s.invested T k = if v.ctoken = T then v.contributed else 0 := by
      unfold State.invested; rw [a.here]
    have hle : s.unclaimed T k ≤ B := hB.apply k
    have hle2 := hA.apply k
    by_cases hc : v.ctoken = T
    · rw [if_pos hc] at u1 u2 i1 i2
      have hon := a.issOn
      rw [hc] at hon
      refine ⟨B + total (s'.child (v.trie, .contributed)) - total (s.child (v.trie, .contributed)), ?_, ?_⟩
      · apply hB.update k hu; rw [u1, u2]; omega
      · apply hA.update k hi; rw [i1, i2]; omega
    · rw [if_neg hc] at u1 u2 i1 i2
      have hoff' := a.issOff T hT (Ne.symm hc)
      refine ⟨B, ?_, ?_⟩
      · apply hB.update k hu; rw [u1, u2]
      · rw [hoff']; apply hA.update k hi; rw [i1, i2]
  · intro e he
    rw [hlog] at he
    rw [a.nextTrie]
    rcases List.mem_append.mp he with he | he
    · exact h.logTrie e he
    · rw [hev e he]; exact h.trieLt _ _ a.here
  · intro t u
    rw [hlog, logSum_append, logSum_append]
    have h1 := h.paid t u
    by_cases ht : t = v.trie
    · subst ht
      have := hpaid u
      omega
    · have z1 : logSum (Ev.paidBy t u) ev = 0 :=
        logSum_off (fun e he => paidBy_off (by rw [hev e he]; exact Ne.symm ht))
      have z2 : logSum (Ev.leftBy t u) ev = 0 :=
        logSum_off (fun e he => leftBy_off (by rw [hev e he]; exact Ne.symm ht))
      rw [z1, z2, hheld t u ht]; omega
  · intro x w hw
    rw [hlog, logSum_append, logSum_append]
    by_cases hx : x = k
    · subst hx; rw [hk] at hw; cases hw
      have := h.minted _ _ a.here
      rw [a.trie]; omega
    · rw [hoff x hx] at hw
      have ht := htr x w hx hw
      have z1 : logSum (Ev.executedOn w.trie) ev = 0 :=
        logSum_off (fun e he => executedOn_off (by rw [hev e he]; exact Ne.symm ht))
      have z2 : logSum (Ev.mintedOn w.trie) ev = 0 :=
        logSum_off (fun e he => mintedOn_off (by rw [hev e he]; exact Ne.symm ht))
      rw [z1, z2]
      have := h.minted x w hw
      omega
  · intro t ht
    have hne : t ≠ v.trie := by
      intro e; exact ht k v' hk (by rw [a.trie]; exact e.symm)
    have h1 := h.gone t (by
      intro x w hw
      by_cases hx : x = k
      · subst hx; rw [a.here] at hw; cases hw; exact Ne.symm hne
      · exact ht x w (by rw [hoff x hx]; exact hw))
    have z1 : logSum (Ev.executedOn t) ev = 0 :=
      logSum_off (fun e he => executedOn_off (by rw [hev e he]; exact Ne.symm hne))
    have z2 : logSum (Ev.mintedOn t) ev = 0 :=
      logSum_off (fun e he => mintedOn_off (by rw [hev e he]; exact Ne.symm hne))
    rw [hlog, logSum_append, logSum_append, z1, z2, h1]

end Verif.Crowdloans
