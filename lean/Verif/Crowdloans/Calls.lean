import Verif.Crowdloans.Inv

/-! # Crowdloans: every call is an action on one vault (or creates or dissolves one) -/

set_option linter.unusedSimpArgs false

namespace Verif.Crowdloans
open Verif

variable {c : Cfg} {D : Nat → Prop}

/-- Only the vault's administrative fields, requests or the XCM account change. -/
theorem act_plain {s s' : State} {k : Key} {v v' : Vault} (h : Inv c D s) (hv : s.vaults k = some v)
    (vaults : s'.vaults = upd s.vaults k (some v')) (trie : v'.trie = v.trie) (ctoken : v'.ctoken = v.ctoken)
    (hcon : v'.contributed = v.contributed) (hpe : v'.pending = v.pending) (hfl : v'.flying = v.flying)
    (ctokenOf : s'.ctokenOf = s.ctokenOf) (leaseOf : s'.leaseOf = s.leaseOf) (nextTrie : s'.nextTrie = s.nextTrie)
    (child : s'.child = s.child) (log : s'.log = s.log)
    (phase : v'.phase = v.phase ∨ s.leaseOf k.para = some k.lease ∨ v'.phase.finished)
    (reqs : ∀ q r, s'.requests q = some r → (s.requests q = some r ∨ (goodReq c r ∧ q < s'.nextQuery)))
    (query : s.nextQuery ≤ s'.nextQuery) (wf : s'.tok.WF)
    (bal : s.tok.bal c.relay c.acct ≤ s'.tok.bal c.relay c.acct)
    (iss : ∀ T, D T → s'.tok.iss T = s.tok.iss T) : Act c D s s' k v v' := by
  have hD : D v.ctoken := h.ctokD _ _ (h.ctok _ _ hv)
  have hheld : ∀ t u, s'.held t u = s.held t u := by
    intro t u; unfold State.held State.amount; rw [child]
  refine ⟨hv, vaults, trie, ctoken, ctokenOf, leaseOf, nextTrie, ?_, ?_, ?_, ?_, ?_, phase, reqs, query, wf, ?_, ?_,
    ?_, ?_⟩
  · intro t kd _; rw [child]
  · intro kd; rw [child]; exact h.sorted _ _
  · rw [child, hpe]
  · rw [child, hfl]
  · intro kd e he; rw [child] at he; exact Or.inl he
  · rw [hpe, hfl]; omega
  · intro T hT _; exact iss T hT
  · rw [child, hcon, iss _ hD]
  · refine ⟨[], by rw [log, List.append_nil], ?_, ?_, ?_⟩
    · intro e he; cases he
    · intro u; rw [hheld]; rfl
    · rw [hcon]; rfl

/-- Paying an XCM fee touches neither the contributions nor the derivative tokens. -/
theorem fee_ok (hc : CfgOK c D) {l l' : Ledger} {m : Nat} (hw : l.WF)
    (h : l.burn c.relay c.xcmAcct m = .ok l') : l'.WF ∧ l'.bal c.relay c.acct = l.bal c.relay c.acct ∧
      (∀ T, D T → l'.iss T = l.iss T) ∧ (∀ w, w ≠ c.xcmAcct → l'.bal c.relay w = l.bal c.relay w) ∧
      (∀ T w, T ≠ c.relay → l'.bal T w = l.bal T w) := by
  refine ⟨Ledger.burn_wf h hw, ?_, ?_, ?_, ?_⟩
  · have := Ledger.burn_bal h c.relay c.acct
    rw [if_neg (fun e => hc.xcm e.2)] at this
    omega
  · intro T hT
    have hne : T ≠ c.relay := by rintro rfl; exact hc.relayD hT
    have := Ledger.burn_iss h T
    rw [if_neg hne] at this
    omega
  · intro w hw
    have := Ledger.burn_bal h c.relay w
    rw [if_neg (fun e => hw e.2)] at this
    omega
  · intro T w hT
    have := Ledger.burn_bal h T w
    rw [if_neg (fun e => hT e.1)] at this
    omega

theorem req_upd {s : State} {q : Nat} {r : Req} {n : Nat} (hq : q = s.nextQuery) (hr : goodReq c r)
    (hn : n = s.nextQuery + 1) : ∀ q' r', upd s.requests q (some r) q' = some r' →
      (s.requests q' = some r' ∨ (goodReq c r' ∧ q' < n)) := by
  intro q' r' h
  by_cases hx : q' = q
  · subst hx; rw [upd_same] at h; cases h
    exact Or.inr ⟨hr, by omega⟩
  · rw [upd_of_ne _ _ hx] at h; exact Or.inl h

theorem movePhase_act {s s' : State} {para : Nat} {pre post : Phase} (h : Inv c D s)
    (hx : movePhase s para pre post = .ok s') : ∃ k v, s.current para = some (k, v) ∧ v.phase = pre ∧
      s' = s.putVault k { v with phase := post } ∧ Act c D s s' k v { v with phase := post } := by
  unfold movePhase at hx
  simp only [bind_ok_iff, okOr_ok_iff, ensure_ok_iff, pure_ok_iff, Prod.exists, exists_const] at hx
  obtain ⟨k, v, hcur, hp, rfl⟩ := hx
  have hc' := current_iff.mp hcur
  refine ⟨k, v, hcur, hp, rfl, ?_⟩
  refine act_plain h hc'.2.2 rfl rfl rfl rfl rfl rfl rfl rfl rfl rfl rfl ?_ ?_ (Nat.le_refl _) h.wf (Nat.le_refl _)
    (fun _ _ => rfl)
  · right; left; rw [hc'.2.1]; exact hc'.1
  · intro q r hq; exact Or.inl hq

theorem updateVault_act {s s' : State} {para : Nat} {cap eb : Option Nat} {p : Option Bool} (h : Inv c D s)
    (hx : updateVault s para cap eb p = .ok s') : ∃ k v v', s.current para = some (k, v) ∧
      v' = { v with
        cap := cap.getD v.cap
        endBlock := eb.getD v.endBlock
        proxied := p.getD v.proxied } ∧ cap ≠ some 0 ∧ (∀ b, eb = some b → s.relayBlock ≤ b) ∧
      s' = s.putVault k v' ∧ Act c D s s' k v v' := by
  unfold updateVault checkUpdate at hx
  simp only [bind_ok_iff, okOr_ok_iff, ensure_ok_iff, pure_ok_iff, Prod.exists, exists_const] at hx
  obtain ⟨k, v, hcur, _, ⟨hcap, heb⟩, rfl⟩ := hx
  have hc' := current_iff.mp hcur
  refine ⟨k, v, _, hcur, rfl, hcap, ?_, rfl, ?_⟩
  · intro b hb; subst hb; exact ensure_ok_iff.mp heb
  · refine act_plain h hc'.2.2 rfl rfl rfl rfl rfl rfl rfl rfl rfl rfl rfl (Or.inl rfl) ?_ (Nat.le_refl _) h.wf
      (Nat.le_refl _) (fun _ _ => rfl)
    intro q r hq; exact Or.inl hq

theorem askBack_act (hc : CfgOK c D) {s s' : State} {para : Nat} {pre target : Phase} (h : Inv c D s)
    (ht : target.finished) (hx : askBack c s para pre target = .ok s') :
    ∃ k v, s.current para = some (k, v) ∧ v.phase = pre ∧
      s'.requests = upd s.requests s.nextQuery (some (.withdraw k v.contributed target)) ∧
      s'.vaults = s.vaults ∧ Act c D s s' k v v := by
  unfold askBack doWithdraw at hx
  simp only [bind_ok_iff, okOr_ok_iff, ensure_ok_iff, pure_ok_iff, Prod.exists, exists_const] at hx
  obtain ⟨k, v, hcur, hp, s1, h1, rfl⟩ := hx
  have hc' := current_iff.mp hcur
  obtain ⟨l, hl, _, rfl⟩ := sendXcm_ok h1
  obtain ⟨f1, f2, f3, _, _⟩ := fee_ok hc h.wf hl
  refine ⟨k, v, hcur, hp, rfl, ?_, ?_⟩
  · show upd s.vaults k (some v) = s.vaults
    have := congrArg State.vaults (putVault_self hc'.2.2)
    exact this
  · refine act_plain h hc'.2.2 rfl rfl rfl rfl rfl rfl rfl rfl rfl rfl rfl (Or.inl rfl) ?_ (Nat.le_succ _) f1
      (Nat.le_of_eq f2.symm) f3
    exact req_upd rfl (show goodReq c (.withdraw k v.contributed target) from ht) rfl

theorem withdrawn_act {s s' : State} {k : Key} {target : Phase} (h : Inv c D s) (ht : target.finished)
    (hx : withdrawn s k target = .ok s') : ∃ v, s.vaults k = some v ∧ s' = s.putVault k { v with phase := target } ∧
      Act c D s s' k v { v with phase := target } := by
  unfold withdrawn at hx
  simp only [bind_ok_iff, okOr_ok_iff, pure_ok_iff] at hx
  obtain ⟨v, hv, rfl⟩ := hx
  refine ⟨v, hv, rfl, ?_⟩
  refine act_plain h hv rfl rfl rfl rfl rfl rfl rfl rfl rfl rfl rfl (Or.inr (Or.inr ht)) ?_ (Nat.le_refl _) h.wf
    (Nat.le_refl _) (fun _ _ => rfl)
  intro q r hq; exact Or.inl hq

/-! ## Contributions -/

/-- The effect on what a user holds in a vault, of a change in a single child trie. -/
theorem Upd.held {s s' : State} {v v' : Vault} {who m : Nat} {add : Bool} {kd : Kind}
    (h : Upd s s' v v' who m add kd) (u : Nat) :
    s'.held v.trie u + (if add = false ∧ u = who then m else 0) =
      s.held v.trie u + (if add = true ∧ u = who then m else 0) := by
  have hoff : ∀ k', k' ≠ kd → s'.amount v.trie k' u = s.amount v.trie k' u := by
    intro k' hk; unfold State.amount; rw [h.off _ (pair_ne hk)]
  have hon : s'.amount v.trie kd u + (if add = false ∧ u = who then m else 0) =
      s.amount v.trie kd u + (if add = true ∧ u = who then m else 0) := by
    by_cases hu : u = who
    · subst hu
      cases add
      · have := h.down rfl
        simp only [and_self, if_true, Bool.false_eq_true, false_and, if_false]; omega
      · have := h.up rfl
        simp only [and_self, if_true, Bool.true_eq_false, false_and, if_false]; omega
    · rw [h.who_off u hu]; simp [hu]
  unfold State.held
  cases kd
  · rw [hoff .flying (by decide), hoff .contributed (by decide)]; omega
  · rw [hoff .pending (by decide), hoff .contributed (by decide)]; omega
  · rw [hoff .pending (by decide), hoff .flying (by decide)]; omega

theorem Mig.held {s s' : State} {v v' : Vault} {who m : Nat} {src dst : Kind} (hne : src ≠ dst)
    (h : Mig s s' v v' who m src dst) (u : Nat) : s'.held v.trie u = s.held v.trie u := by
  have hoff : ∀ k', k' ≠ src → k' ≠ dst → s'.amount v.trie k' u = s.amount v.trie k' u := by
    intro k' h1 h2; unfold State.amount; rw [h.off _ (pair_ne h1) (pair_ne h2)]
  have hon : s'.amount v.trie src u + s'.amount v.trie dst u = s.amount v.trie src u + s.amount v.trie dst u := by
    by_cases hu : u = who
    · subst hu
      have h1 := h.srcV
      have h2 := h.dstV
      omega
    · rw [h.who_off src u hu, h.who_off dst u hu]
  unfold State.held
  cases src <;> cases dst <;> first
    | exact absurd rfl hne
    | (have := hoff .contributed (by decide) (by decide); omega)
    | (have := hoff .flying (by decide) (by decide); omega)
    | (have := hoff .pending (by decide) (by decide); omega)

/-- A change of one child trie together with the ledger and the record: the general case. -/
theorem act_upd {s s1 s' : State} {k : Key} {v v' : Vault} {who m : Nat} {add : Bool} {kd : Kind} {ev : List Ev}
    (h : Inv c D s) (hv : s.vaults k = some v) (hu : Upd s1 s' v v' who m add kd)
    (hs1 : s1.child = s.child) {s2 : State} (e1 : s2.vaults = upd s.vaults k (some v'))
    (e2 : s2.child = s'.child) (e3 : s2.ctokenOf = s.ctokenOf) (e4 : s2.leaseOf = s.leaseOf)
    (e5 : s2.nextTrie = s.nextTrie) (e6 : s2.log = s.log ++ ev)
    (hwho : who ≠ c.acct ∨ add = false)
    (reqs : ∀ q r, s2.requests q = some r → (s.requests q = some r ∨ (goodReq c r ∧ q < s2.nextQuery)))
    (query : s.nextQuery ≤ s2.nextQuery) (wf : s2.tok.WF)
    (backed : v'.pending + v'.flying + s.tok.bal c.relay c.acct ≤
      v.pending + v.flying + s2.tok.bal c.relay c.acct)
    (iss : ∀ T, D T → s2.tok.iss T = s.tok.iss T)
    (hev : ∀ e ∈ ev, e.trie = v.trie)
    (hpaid : ∀ u, logSum (Ev.paidBy v.trie u) ev + (if add = false ∧ u = who then m else 0) =
      (if add = true ∧ u = who then m else 0) + logSum (Ev.leftBy v.trie u) ev)
    (hmint : v.contributed + logSum (Ev.executedOn v.trie) ev = v'.contributed + logSum (Ev.mintedOn v.trie) ev) :
    Act c D s s2 k v v' := by
  have hD : D v.ctoken := h.ctokD _ _ (h.ctok _ _ hv)
  have hsort := hu.sorted (by rw [hs1]; exact h.sorted _ _)
  have hchild : ∀ p, p ≠ (v.trie, kd) → s2.child p = s.child p := by
    intro p hp; rw [e2, hu.off p hp, hs1]
  have hget : ∀ k', v'.get k' + total (s.child (v.trie, k')) = v.get k' + total (s2.child (v.trie, k')) := by
    intro k'
    by_cases hk : k' = kd
    · subst hk
      rw [e2]
      cases add
      · have h1 := hsort.2.2 rfl
        have h2 := hu.down rfl
        rw [hs1] at h1
        omega
      · have h1 := hsort.2.1 rfl
        have h2 := hu.up rfl
        rw [hs1] at h1
        omega
    · rw [hu.oth k' hk, hchild _ (pair_ne hk)]
  refine ⟨hv, e1, hu.same.trie, hu.same.ctoken, e3, e4, e5, ?_, ?_, hget .pending, hget .flying, ?_,
    Or.inl hu.same.phase, reqs, query, wf, backed, ?_, ?_, ⟨ev, e6, hev, ?_, hmint⟩⟩
  · intro t k' ht
    exact hchild _ (fun e => ht (Prod.mk.inj e).1)
  · intro k'
    by_cases hk : k' = kd
    · subst hk; rw [e2]; exact hsort.1
    · rw [hchild _ (pair_ne hk)]; exact h.sorted _ _
  · intro k' e he
    by_cases hk : k' = kd
    · subst hk
      rw [e2] at he
      rcases hu.mem e he with h1 | h1
      · rw [hs1] at h1; exact Or.inl h1
      · refine Or.inr ⟨h1.2, ?_⟩
        rw [h1.1]
        rcases hwho with hwho | hwho
        · exact hwho
        · have h2 := (hu.down hwho).2.2.2
          have h3 := getEntry_of_mem hsort.1 he
          rw [h1.1] at h3
          have h4 : s'.amount v.trie k' who = e.amt := by unfold State.amount; rw [h3]
          have h5 : (getEntry (s.child (v.trie, k')) who).amt ≠ 0 := by
            intro h0
            have h6 : s1.amount v.trie k' who = 0 := by unfold State.amount; rw [hs1]; exact h0
            have := h1.2
            omega
          have h7 := (h.good _ _ _ (getEntry_mem h5)).2
          rw [getEntry_who] at h7
          exact h7
    · rw [hchild _ (pair_ne hk)] at he; exact Or.inl he
  · intro T hT _; exact iss T hT
  · have := hget .contributed
    rw [iss _ hD]
    have g1 : v'.get .contributed = v'.contributed := rfl
    have g2 : v.get .contributed = v.contributed := rfl
    omega
  · intro u
    have h1 := hu.held u
    have h2 : s2.held v.trie u = s'.held v.trie u := by unfold State.held State.amount; rw [e2]
    have h3 : s1.held v.trie u = s.held v.trie u := by unfold State.held State.amount; rw [hs1]
    have h4 := hpaid u
    omega

/-- A move between two child tries together with the ledger and the record. -/
theorem act_mig {s s1 s' : State} {k : Key} {v v' : Vault} {who m : Nat} {src dst : Kind} {ev : List Ev}
    (h : Inv c D s) (hv : s.vaults k = some v) (hne : src ≠ dst) (hu : Mig s1 s' v v' who m src dst)
    (hs1 : s1.child = s.child) {s2 : State} (e1 : s2.vaults = upd s.vaults k (some v'))
    (e2 : s2.child = s'.child) (e3 : s2.ctokenOf = s.ctokenOf) (e4 : s2.leaseOf = s.leaseOf)
    (e5 : s2.nextTrie = s.nextTrie) (e6 : s2.log = s.log ++ ev)
    (hwho : who ≠ c.acct)
    (reqs : ∀ q r, s2.requests q = some r → (s.requests q = some r ∨ (goodReq c r ∧ q < s2.nextQuery)))
    (query : s.nextQuery ≤ s2.nextQuery) (wf : s2.tok.WF)
    (backed : v'.pending + v'.flying + s.tok.bal c.relay c.acct ≤
      v.pending + v.flying + s2.tok.bal c.relay c.acct)
    (iss : ∀ T, D T → s2.tok.iss T = s.tok.iss T)
    (hev : ∀ e ∈ ev, e.trie = v.trie)
    (hpaid : ∀ u, logSum (Ev.paidBy v.trie u) ev = logSum (Ev.leftBy v.trie u) ev)
    (hmint : v.contributed + logSum (Ev.executedOn v.trie) ev = v'.contributed + logSum (Ev.mintedOn v.trie) ev) :
    Act c D s s2 k v v' := by
  have hD : D v.ctoken := h.ctokD _ _ (h.ctok _ _ hv)
  have hsort := hu.sorted (fun kd => by rw [hs1]; exact h.sorted _ _)
  have hchild : ∀ p, p ≠ (v.trie, src) → p ≠ (v.trie, dst) → s2.child p = s.child p := by
    intro p hp hp'; rw [e2, hu.off p hp hp', hs1]
  have hget : ∀ k', v'.get k' + total (s.child (v.trie, k')) = v.get k' + total (s2.child (v.trie, k')) := by
    intro k'
    by_cases hk : k' = src
    · subst hk
      rw [e2]
      have h1 := hsort.2.1
      have h2 := hu.srcV
      rw [hs1] at h1
      omega
    · by_cases hk' : k' = dst
      · subst hk'
        rw [e2]
        have h1 := hsort.2.2
        have h2 := hu.dstV
        rw [hs1] at h1
        omega
      · rw [hu.oth k' hk hk', hchild _ (pair_ne hk) (pair_ne hk')]
  refine ⟨hv, e1, hu.same.trie, hu.same.ctoken, e3, e4, e5, ?_, ?_, hget .pending, hget .flying, ?_,
    Or.inl hu.same.phase, reqs, query, wf, backed, ?_, ?_, ⟨ev, e6, hev, ?_, hmint⟩⟩
  · intro t k' ht
    exact hchild _ (fun e => ht (Prod.mk.inj e).1) (fun e => ht (Prod.mk.inj e).1)
  · intro k'; rw [e2]; exact hsort.1 k'
  · intro k' e he
    rw [e2] at he
    rcases hu.mem k' e he with h1 | h1
    · rw [hs1] at h1; exact Or.inl h1
    · exact Or.inr ⟨h1.2, by rw [h1.1]; exact hwho⟩
  · intro T hT _; exact iss T hT
  · have := hget .contributed
    rw [iss _ hD]
    have g1 : v'.get .contributed = v'.contributed := rfl
    have g2 : v.get .contributed = v.contributed := rfl
    omega
  · intro u
    have h1 := Mig.held hne hu u
    have h2 : s2.held v.trie u = s'.held v.trie u := by unfold State.held State.amount; rw [e2]
    have h3 : s1.held v.trie u = s.held v.trie u := by unfold State.held State.amount; rw [hs1]
    have h4 := hpaid u
    omega

/-- Transfers of relay tokens do not touch issuances. -/
theorem tr_iss {l l' : Ledger} {a x y m : Nat} {kp : Bool} (h : l.transfer a x y m kp = .ok l') (T : Nat) :
    l'.iss T = l.iss T := by rw [Ledger.transfer_iss h]

/-- What a successful `contribute` does. -/
structure Contributed (c : Cfg) (s s' : State) (who para m code : Nat) (k : Key) (v v' : Vault) : Prop where
  cur : s.current para = some (k, v)
  pos : m ≠ 0
  time : s.relayBlock ≤ v.endBlock
  phase : v.phase = .contributing ∨ v.phase = .pending
  min : c.minContribution ≤ m
  vrf : s.isVrf = false
  cap : v.contributed + v.flying + v.pending + m ≤ v.cap
  room : v.contributed + v.flying + v.pending + m ≤ maxU128
  bal : ∃ l, s.tok.transfer c.relay who c.acct m false = .ok l ∧
    (v.phase = .pending → s'.tok = l ∧ s'.requests = s.requests) ∧
    (v.phase = .contributing →
      l.burn c.relay c.xcmAcct (s.fee (if v.proxied = true then .proxyContribute else .contribute)) = .ok s'.tok ∧
      s'.requests = upd s.requests s.nextQuery (some (.contribute k who m code)) ∧ s.sendOk = true ∧
      (v.proxied = true → s.proxy ≠ none))
  vault : s'.vaults = upd s.vaults k (some v')
  upd : ∃ s1 s2 kd, s1.child = s.child ∧ s2.child = s'.child ∧ Upd s1 s2 v v' who m true kd ∧
    (kd = .flying ∧ v.phase = .contributing ∨ kd = .pending ∧ v.phase = .pending)
  log : s'.log = s.log ++ [.paid v.trie who m]

theorem contribute_act (hc : CfgOK c D) {s s' : State} {who para m code : Nat} (h : Inv c D s) (hw : who ≠ c.acct)
    (hx : contribute c s who para m code = .ok s') :
    ∃ k v v', Contributed c s s' who para m code k v v' ∧ Act c D s s' k v v' := by
  unfold contribute at hx
  simp only [bind_ok_iff, okOr_ok_iff, ensure_ok_iff, pure_ok_iff, Prod.exists, exists_const, total_ok_iff,
    cadd_ok_iff] at hx
  obtain ⟨k, v, hcur, hm, ht, hp, hmin, hvrf, t, ⟨hb1, ht1⟩, t2, ⟨hb2, ht2⟩, hcap, l, htr, s2, v2, hbook, hs⟩ := hx
  subst ht2 ht1
  have hc' := current_iff.mp hcur
  have hv := hc'.2.2
  have hbal := Ledger.transfer_bal htr c.relay c.acct
  rw [if_neg (fun e => hw e.2.symm), if_pos ⟨rfl, rfl⟩] at hbal
  unfold book at hbook
  split_ifs at hbook with hph
  · simp only [bind_ok_iff, pure_ok_iff, Prod.exists, Prod.mk.injEq] at hbook
    obtain ⟨s3, v3, cd, h3, s4, h4, rfl, rfl⟩ := hbook
    obtain ⟨hu, -⟩ := updateContribution_ok h3
    obtain ⟨l2, hl2, hok, hprox, hs4⟩ := doContribute_ok h4
    have hst := hu.state
    have e1 : s3.tok = l := by rw [hst]; rfl
    have e2 : s3.vaults = s.vaults := by rw [hst]; rfl
    have e3 : s3.ctokenOf = s.ctokenOf := by rw [hst]; rfl
    have e4 : s3.leaseOf = s.leaseOf := by rw [hst]; rfl
    have e5 : s3.nextTrie = s.nextTrie := by rw [hst]; rfl
    have e6 : s3.log = s.log := by rw [hst]; rfl
    have e7 : s3.requests = s.requests := by rw [hst]; rfl
    have e8 : s3.nextQuery = s.nextQuery := by rw [hst]; rfl
    have e9 : s3.fee = s.fee := by rw [hst]; rfl
    have e10 : s3.sendOk = s.sendOk := by rw [hst]; rfl
    have e11 : s3.proxy = s.proxy := by rw [hst]; rfl
    rw [e1] at hl2
    obtain ⟨f1, f2, f3, _, _⟩ := fee_ok hc (Ledger.transfer_wf htr h.wf) hl2
    have hup := hu.up rfl
    have hpe : v3.pending = v.pending := hu.oth .pending (by decide)
    have hco : v3.contributed = v.contributed := hu.oth .contributed (by decide)
    have hfl : v3.flying = v.flying + m := hup.1
    have tk : s'.tok = l2 := by rw [← hs, hs4]; rfl
    have hvs : s'.vaults = upd s.vaults k (some v3) := by
      rw [← hs, hs4]; show upd s3.vaults k _ = _; rw [e2]
    have hlog : s'.log = s.log ++ [.paid v.trie who m] := by
      rw [← hs, hs4]; show s3.log ++ [.paid v3.trie who m] = _; rw [e6, hu.same.trie]
    have hreq : s'.requests = upd s.requests s.nextQuery (some (.contribute k who m code)) := by
      rw [← hs, hs4]; show upd s3.requests s3.nextQuery _ = _; rw [e7, e8]
    have hnq : s'.nextQuery = s.nextQuery + 1 := by
      rw [← hs, hs4]; show s3.nextQuery + 1 = _; rw [e8]
    refine ⟨k, v, v3, ⟨hcur, hm, ht, hp, hmin, hvrf, hcap, hb2, ⟨l, htr, ?_, ?_⟩, hvs, ⟨s.withTok l, s3, .flying, rfl, ?_, hu,
      Or.inl ⟨rfl, hph⟩⟩, hlog⟩, ?_⟩
    · intro e; rw [hph] at e; cases e
    · intro _
      rw [tk]
      rw [hu.same.proxied, e9] at hl2
      rw [hu.same.proxied, e11] at hprox
      exact ⟨hl2, hreq, by rw [← e10]; exact hok, hprox⟩
    · rw [← hs, hs4]; rfl
    · refine act_upd (ev := [.paid v.trie who m]) h hv hu rfl hvs ?_ ?_ ?_ ?_ hlog (Or.inl hw) ?_ ?_ ?_ ?_ ?_ ?_ ?_ ?_
      · rw [← hs, hs4]; rfl
      · rw [← hs, hs4]; exact e3
      · rw [← hs, hs4]; exact e4
      · rw [← hs, hs4]; exact e5
      · rw [hreq, hnq]; exact req_upd rfl (show goodReq c (.contribute k who m code) from hw) rfl
      · omega
      · rw [tk]; exact f1
      · rw [tk, f2]; omega
      · intro T hT; rw [tk, f3 T hT, tr_iss htr]
      · intro e he; rw [List.mem_singleton] at he; subst he; rfl
      · intro u
        simp only [logSum_single, Ev.paidBy, Ev.leftBy, true_and, Bool.true_eq_false, false_and, if_false]
        by_cases hu' : u = who
        · subst hu'; simp
        · rw [if_neg (Ne.symm hu'), if_neg hu']
      · simp only [logSum_single, Ev.executedOn, Ev.mintedOn]; omega
  · have hph' : v.phase = .pending := by rcases hp with e | e; exacts [absurd e hph, e]
    simp only [bind_ok_iff, pure_ok_iff, Prod.exists, Prod.mk.injEq] at hbook
    obtain ⟨s3, v3, cd, h3, rfl, rfl⟩ := hbook
    obtain ⟨hu, -⟩ := updateContribution_ok h3
    have hst := hu.state
    have e1 : s3.tok = l := by rw [hst]; rfl
    have e2 : s3.vaults = s.vaults := by rw [hst]; rfl
    have e3 : s3.ctokenOf = s.ctokenOf := by rw [hst]; rfl
    have e4 : s3.leaseOf = s.leaseOf := by rw [hst]; rfl
    have e5 : s3.nextTrie = s.nextTrie := by rw [hst]; rfl
    have e6 : s3.log = s.log := by rw [hst]; rfl
    have e7 : s3.requests = s.requests := by rw [hst]; rfl
    have e8 : s3.nextQuery = s.nextQuery := by rw [hst]; rfl
    have hup := hu.up rfl
    have hpe : v3.pending = v.pending + m := hup.1
    have hco : v3.contributed = v.contributed := hu.oth .contributed (by decide)
    have hfl : v3.flying = v.flying := hu.oth .flying (by decide)
    have tk : s'.tok = l := by rw [← hs]; exact e1
    have hvs : s'.vaults = upd s.vaults k (some v3) := by
      rw [← hs]; show upd s3.vaults k _ = _; rw [e2]
    have hlog : s'.log = s.log ++ [.paid v.trie who m] := by
      rw [← hs]; show s3.log ++ [.paid v3.trie who m] = _; rw [e6, hu.same.trie]
    have hreq : s'.requests = s.requests := by rw [← hs]; exact e7
    have hnq : s'.nextQuery = s.nextQuery := by rw [← hs]; exact e8
    refine ⟨k, v, v3, ⟨hcur, hm, ht, hp, hmin, hvrf, hcap, hb2, ⟨l, htr, ?_, ?_⟩, hvs, ⟨s.withTok l, s3, .pending, rfl, ?_, hu,
      Or.inr ⟨rfl, hph'⟩⟩, hlog⟩, ?_⟩
    · intro _; exact ⟨tk, hreq⟩
    · intro e; exact absurd e hph
    · rw [← hs]; rfl
    · refine act_upd (ev := [.paid v.trie who m]) h hv hu rfl hvs ?_ ?_ ?_ ?_ hlog (Or.inl hw) ?_ ?_ ?_ ?_ ?_ ?_ ?_ ?_
      · rw [← hs]; rfl
      · rw [← hs]; exact e3
      · rw [← hs]; exact e4
      · rw [← hs]; exact e5
      · intro q r hq; rw [hreq] at hq; exact Or.inl hq
      · omega
      · rw [tk]; exact Ledger.transfer_wf htr h.wf
      · rw [tk]; omega
      · intro T hT; rw [tk, tr_iss htr]
      · intro e he; rw [List.mem_singleton] at he; subst he; rfl
      · intro u
        simp only [logSum_single, Ev.paidBy, Ev.leftBy, true_and, Bool.true_eq_false, false_and, if_false]
        by_cases hu' : u = who
        · subst hu'; simp
        · rw [if_neg (Ne.symm hu'), if_neg hu']
      · simp only [logSum_single, Ev.executedOn, Ev.mintedOn]; omega

end Verif.Crowdloans
