import Verif.Crowdloans.Calls

/-! # Crowdloans: every call is an action on one vault (continued) -/

set_option linter.unusedSimpArgs false

namespace Verif.Crowdloans
open Verif

variable {c : Cfg} {D : Nat → Prop}

/-! ## Changing the result of an action -/

theorem Act.withTok {s s' : State} {k : Key} {v v' : Vault} (a : Act c D s s' k v v') {l : Ledger} (wf : l.WF)
    (backed : v'.pending + v'.flying + s.tok.bal c.relay c.acct ≤ v.pending + v.flying + l.bal c.relay c.acct)
    (iss : ∀ T, D T → l.iss T = s'.tok.iss T) (hD : D v.ctoken) : Act c D s (s'.withTok l) k v v' :=
  ⟨a.here, a.vaults, a.trie, a.ctoken, a.ctokenOf, a.leaseOf, a.nextTrie, a.child_off, a.sorted, a.pend, a.fly, a.mem,
    a.phase, a.reqs, a.query, wf, backed, fun T hT hn => by rw [withTok_tok, iss T hT]; exact a.issOff T hT hn,
    by rw [withTok_tok, iss _ hD]; exact a.issOn, a.log⟩

theorem Act.dropReq {s s' : State} {k : Key} {v v' : Vault} (a : Act c D s s' k v v') (q : Nat) :
    Act c D s { s' with requests := upd s'.requests q none } k v v' := by
  refine ⟨a.here, a.vaults, a.trie, a.ctoken, a.ctokenOf, a.leaseOf, a.nextTrie, a.child_off, a.sorted, a.pend, a.fly,
    a.mem, a.phase, ?_, a.query, a.wf, a.backed, a.issOff, a.issOn, a.log⟩
  intro q' r hq
  by_cases hx : q' = q
  · subst hx
    have : (none : Option Req) = some r := by rw [← hq]; exact (upd_same _ _ _).symm
    cases this
  · exact a.reqs q' r (by rw [← hq]; exact (upd_of_ne _ _ hx).symm)

/-! ## Sending the pending contributions -/

/-- One step of the migration loop, as an action on the state whose stored vault is up to date. -/
theorem migrate_step (hc : CfgOK c D) {s s1 s2 : State} {k : Key} {v v1 : Vault} {e : Entry}
    (h : Inv c D (s.putVault k v)) (he : e.who ≠ c.acct)
    (h1 : migrateContribution s v e.who e.amt .pending .flying = .ok (s1, v1))
    (h2 : doContribute c s1 k v1.proxied e.who e.amt e.code = .ok s2) :
    Act c D (s.putVault k v) (s2.putVault k v1) k v v1 ∧ Mig s s1 v v1 e.who e.amt .pending .flying ∧
      ∃ l, s.tok.burn c.relay c.xcmAcct (s.fee (if v.proxied = true then .proxyContribute else .contribute)) = .ok l ∧
        s2 = { (s.withTok l) with
          child := s1.child
          requests := upd s.requests s.nextQuery (some (.contribute k e.who e.amt e.code))
          nextQuery := s.nextQuery + 1 } := by
  have hu := migrateContribution_ok (by decide) h1
  obtain ⟨l, hl, _, _, hs2⟩ := doContribute_ok h2
  have hst := hu.state
  have e1 : s1.tok = s.tok := by rw [hst]; rfl
  have e9 : s1.fee = s.fee := by rw [hst]
  rw [e1, e9, hu.same.proxied] at hl
  have hs2' : s2 = { (s.withTok l) with
          child := s1.child
          requests := upd s.requests s.nextQuery (some (.contribute k e.who e.amt e.code))
          nextQuery := s.nextQuery + 1 } := by
    rw [hs2, hst]; rfl
  obtain ⟨f1, f2, f3, _, _⟩ := fee_ok hc h.wf hl
  have hhere : (s.putVault k v).vaults k = some v := upd_same _ _ _
  have hp := hu.srcV
  have hd := hu.dstV
  have hco : v1.contributed = v.contributed := hu.oth .contributed (by decide) (by decide)
  have g1 : v1.pending = v.pending - e.amt := hp.2.1
  have g2 : v1.flying = v.flying + e.amt := hd.1
  have g3 : e.amt ≤ v.pending := hp.1
  refine ⟨?_, hu, l, hl, hs2'⟩
  refine act_mig (ev := []) h hhere (by decide) hu rfl ?_ ?_ ?_ ?_ ?_ ?_ he ?_ ?_ ?_ ?_ ?_ ?_ ?_ ?_
  · rw [hs2']; exact (upd_upd s.vaults k _ _).symm
  · rw [hs2']; rfl
  · rw [hs2']; rfl
  · rw [hs2']; rfl
  · rw [hs2']; rfl
  · rw [hs2']; exact (List.append_nil _).symm
  · rw [hs2']
    exact req_upd (s := s.putVault k v) rfl (show goodReq c (.contribute k e.who e.amt e.code) from he) rfl
  · rw [hs2']; exact Nat.le_succ _
  · rw [hs2']; exact f1
  · rw [hs2']
    show v1.pending + v1.flying + s.tok.bal c.relay c.acct ≤ v.pending + v.flying + l.bal c.relay c.acct
    have f2' : l.bal c.relay c.acct = s.tok.bal c.relay c.acct := f2
    omega
  · intro T hT; rw [hs2']; exact f3 T hT
  · intro x hx; cases hx
  · intro u; rfl
  · rw [hco]; rfl

/-- What the migration does to the vault's child tries, the requests and the balances. -/
structure Migrated (c : Cfg) (k : Key) (n : Nat) (l : List Entry) (s s' : State) (v v' : Vault) : Prop where
  same : SameVault v v'
  left : s'.child (v.trie, .pending) = l.drop n
  off : ∀ t kd, t ≠ v.trie ∨ kd = .contributed → s'.child (t, kd) = s.child (t, kd)
  held : ∀ u, s'.held v.trie u = s.held v.trie u
  query : s'.nextQuery = s.nextQuery + min n l.length
  reqs : ∀ i e, i < n → l[i]? = some e → s'.requests (s.nextQuery + i) = some (.contribute k e.who e.amt e.code)
  keep : ∀ q, q < s.nextQuery → s'.requests q = s.requests q
  contributed : v'.contributed = v.contributed
  sum : v'.pending + v'.flying = v.pending + v.flying
  bal : ∀ T w, T ≠ c.relay ∨ w ≠ c.xcmAcct → s'.tok.bal T w = s.tok.bal T w
  vaults : s'.vaults = s.vaults
  lease : s'.leaseOf = s.leaseOf
  log : s'.log = s.log

theorem migrateLoop_ok (hc : CfgOK c D) {k : Key} : ∀ (n : Nat) (l : List Entry) (s : State) (v : Vault)
    (s' : State) (v' : Vault) (b : Bool), Inv c D (s.putVault k v) → s.child (v.trie, .pending) = l →
    migrateLoop c k n l s v = .ok (s', v', b) →
      Inv c D (s'.putVault k v') ∧ Migrated c k n l s s' v v' ∧ (b = true ↔ l.drop n = []) := by
  intro n l
  induction l generalizing n with
  | nil =>
    intro s v s' v' b h hl hx
    have : migrateLoop c k n [] s v = .ok (s, v, true) := by cases n <;> rfl
    rw [this] at hx
    cases hx
    refine ⟨h, ⟨SameVault.refl v, by rw [hl, List.drop_nil], fun _ _ _ => rfl, fun _ => rfl, by simp, ?_, fun _ _ => rfl,
      rfl, rfl, fun _ _ _ => rfl, rfl, rfl, rfl⟩, by simp⟩
    intro i e _ he; simp at he
  | cons e l ih =>
    intro s v s' v' b h hl hx
    cases n with
    | zero =>
      cases hx
      refine ⟨h, ⟨SameVault.refl v, by rw [hl]; rfl, fun _ _ _ => rfl, fun _ => rfl, by simp, ?_, fun _ _ => rfl,
        rfl, rfl, fun _ _ _ => rfl, rfl, rfl, rfl⟩, by simp⟩
      intro i e hi; omega
    | succ n =>
      unfold migrateLoop at hx
      simp only [bind_ok_iff, Prod.exists] at hx
      obtain ⟨s1, v1, h1, s2, h2, h3⟩ := hx
      have hsort : Sorted (e :: l) := by rw [← hl]; exact h.sorted _ _
      have hgood : e.who ≠ c.acct := (h.good v.trie .pending e (by
        show e ∈ s.child (v.trie, .pending); rw [hl]; exact List.mem_cons_self)).2
      obtain ⟨ha, hu, l2, hl2, hs2⟩ := migrate_step hc h hgood h1 h2
      have hI := h.act ha
      have hamt : s.amount v.trie .pending e.who = e.amt := by
        unfold State.amount; rw [hl, getEntry_cons, if_pos rfl]
      have hrest : s1.child (v.trie, .pending) = l := by
        rw [hu.killed (by rw [hu.srcV.2.2.2, hamt]; omega), hl]
        unfold killEntry
        rw [List.filter_cons_of_neg (by simp)]
        apply List.filter_eq_self.mpr
        intro x hx
        have := (List.pairwise_cons.mp hsort).1 x hx
        exact decide_eq_true (by omega)
      have etr : v1.trie = v.trie := hu.same.trie
      have hl' : s2.child (v1.trie, .pending) = l := by rw [etr, hs2]; exact hrest
      obtain ⟨hI', hm, hb⟩ := ih n s2 v1 s' v' b hI hl' h3
      have hfee := fee_ok hc (show s.tok.WF from h.wf) hl2
      refine ⟨hI', ⟨hu.same.trans hm.same, ?_, ?_, ?_, ?_, ?_, ?_, ?_, ?_, ?_, ?_, ?_, ?_⟩, ?_⟩
      · have := hm.left; rw [etr] at this; rw [this]; rfl
      · intro t kd ht
        rw [hm.off t kd (by rw [etr]; exact ht), hs2]
        show s1.child (t, kd) = _
        apply hu.off
        · rintro e'; cases e'; rcases ht with ht | ht
          · exact ht rfl
          · cases ht
        · rintro e'; cases e'; rcases ht with ht | ht
          · exact ht rfl
          · cases ht
      · intro u
        have h5 := hm.held u
        rw [etr] at h5
        rw [h5, ← Mig.held (by decide) hu u, hs2]; rfl
      · rw [hm.query, hs2]; show s.nextQuery + 1 + min n l.length = _
        rw [List.length_cons]; omega
      · intro i x hi hx
        cases i with
        | zero =>
          simp at hx; subst hx
          rw [hm.keep (s.nextQuery + 0) (by rw [hs2]; show _ < s.nextQuery + 1; omega), hs2]
          exact upd_same _ _ _
        | succ i =>
          have := hm.reqs i x (by omega) (by simpa using hx)
          rw [hs2] at this
          have e5 : s.nextQuery + (i + 1) = s.nextQuery + 1 + i := by omega
          rw [e5]; exact this
      · intro q hq
        rw [hm.keep q (by rw [hs2]; show q < s.nextQuery + 1; omega), hs2]
        exact upd_of_ne _ _ (by omega)
      · rw [hm.contributed]; exact hu.oth .contributed (by decide) (by decide)
      · rw [hm.sum]
        have g1 : v1.pending = v.pending - e.amt := hu.srcV.2.1
        have g2 : v1.flying = v.flying + e.amt := hu.dstV.1
        have g3 : e.amt ≤ v.pending := hu.srcV.1
        omega
      · intro T w hTw
        rw [hm.bal T w hTw, hs2]
        show l2.bal T w = s.tok.bal T w
        by_cases hT : T = c.relay
        · subst hT
          rcases hTw with hTw | hTw
          · exact absurd rfl hTw
          · exact hfee.2.2.2.1 w hTw
        · exact hfee.2.2.2.2 T w hT
      · rw [hm.vaults, hs2]; rfl
      · rw [hm.lease, hs2]; rfl
      · rw [hm.log, hs2]; rfl
      · rw [hb, List.drop_succ_cons]

theorem migratePending_inv (hc : CfgOK c D) {s s' : State} {para : Nat} (h : Inv c D s)
    (hx : migratePending c s para = .ok s') : Inv c D s' ∧ ∃ k v s1 v', s.current para = some (k, v) ∧
      (v.phase = .pending ∨ v.phase = .contributing) ∧ s.isVrf = false ∧ s' = s1.putVault k v' ∧
      Migrated c k c.migrateLimit (s.child (v.trie, .pending)) s s1 v v' := by
  unfold migratePending at hx
  simp only [bind_ok_iff, okOr_ok_iff, ensure_ok_iff, pure_ok_iff, Prod.exists, exists_const] at hx
  obtain ⟨k, v, hcur, hp, hvrf, s1, v1, b, h1, rfl⟩ := hx
  have hv := (current_iff.mp hcur).2.2
  have h' : Inv c D (s.putVault k v) := by rw [putVault_self hv]; exact h
  obtain ⟨hI, hm, _⟩ := migrateLoop_ok hc _ _ _ _ _ _ _ h' rfl h1
  exact ⟨hI, k, v, s1, v1, hcur, hp, hvrf, rfl, hm⟩

/-! ## Refunds -/

theorem refundPay_ok (hc : CfgOK c D) {s : State} {kd : Kind} {who m : Nat} {l : Ledger} (hw : s.tok.WF)
    (h : refundPay c s kd who m = .ok l) : l.WF ∧ (∀ T, D T → l.iss T = s.tok.iss T) ∧
      (∀ T w, T ≠ c.relay → l.bal T w = s.tok.bal T w) ∧
      (∀ w, w ≠ c.acct → l.bal c.relay w = s.tok.bal c.relay w + (if w = who then m else 0)) ∧
      (kd = .contributed → s.tok.bal c.relay c.acct ≤ l.bal c.relay c.acct) ∧
      (s.tok.bal c.relay c.acct ≤ l.bal c.relay c.acct + m) := by
  unfold refundPay at h
  have hne : ∀ T, D T → T ≠ c.relay := by intro T hT e; subst e; exact hc.relayD hT
  split_ifs at h with hk
  · refine ⟨Ledger.mint_wf h hw, ?_, ?_, ?_, ?_, ?_⟩
    · intro T hT; rw [Ledger.mint_iss h, if_neg (hne T hT)]; rfl
    · intro T w hT; rw [Ledger.mint_bal h, if_neg (fun e => hT e.1)]; rfl
    · intro w _; rw [Ledger.mint_bal h]; by_cases hw : w = who <;> simp [hw]
    · intro _; rw [Ledger.mint_bal h]; omega
    · rw [Ledger.mint_bal h]; omega
  · refine ⟨Ledger.transfer_wf h hw, ?_, ?_, ?_, ?_, ?_⟩
    · intro T hT; rw [tr_iss h]
    · intro T w hT
      have := Ledger.transfer_bal h T w
      rw [if_neg (fun e => hT e.1), if_neg (fun e => hT e.1)] at this
      exact this
    · intro w hw
      have := Ledger.transfer_bal h c.relay w
      rw [if_neg (fun e => hw e.2)] at this
      by_cases hw' : w = who
      · rw [if_pos ⟨rfl, hw'⟩] at this; rw [if_pos hw']; exact this
      · rw [if_neg (fun e => hw' e.2)] at this; rw [if_neg hw']; exact this
    · intro e; exact absurd e hk
    · have := Ledger.transfer_bal h c.relay c.acct
      rw [if_pos ⟨rfl, rfl⟩] at this
      omega

theorem Upd.less {s s' : State} {v v' : Vault} {who m : Nat} {kd : Kind} (hu : Upd s s' v v' who m false kd) :
    v'.contributed ≤ v.contributed ∧ v'.flying ≤ v.flying ∧ v'.pending ≤ v.pending := by
  have h : ∀ k', v'.get k' ≤ v.get k' := by
    intro k'
    by_cases hk : k' = kd
    · subst hk; have := hu.down rfl; omega
    · rw [hu.oth k' hk]
  exact ⟨h .contributed, h .flying, h .pending⟩

theorem refund_step (hc : CfgOK c D) {s s' : State} {k : Key} {v v' : Vault} {kd : Kind} {who m : Nat}
    (h : Inv c D (s.putVault k v)) (hx : refundOne c s v kd who m = .ok (s', v')) :
    Act c D (s.putVault k v) (s'.putVault k v') k v v' ∧
      ∃ l s1, refundPay c s kd who m = .ok l ∧ Upd (s.withTok l) s1 v v' who m false kd ∧
        s' = { (s.withTok l) with
          child := s1.child
          log := s.log ++ [.back v.trie kd who m] } := by
  unfold refundOne at hx
  simp only [bind_ok_iff, pure_ok_iff, Prod.exists, Prod.mk.injEq] at hx
  obtain ⟨l, hl, s1, v1, cd, h1, hs, rfl⟩ := hx
  obtain ⟨hu, -⟩ := updateContribution_ok h1
  have hst := hu.state
  have hs' : s' = { (s.withTok l) with
          child := s1.child
          log := s.log ++ [.back v.trie kd who m] } := by
    rw [← hs, hst, hu.same.trie]; rfl
  obtain ⟨p1, p2, p3, p4, p5, p6⟩ := refundPay_ok hc (show s.tok.WF from h.wf) hl
  have hd := hu.down rfl
  refine ⟨?_, l, s1, hl, hu, hs'⟩
  refine act_upd (ev := [.back v.trie kd who m]) h (upd_same _ _ _) hu rfl ?_ ?_ ?_ ?_ ?_ ?_ (Or.inr rfl)
    ?_ ?_ ?_ ?_ ?_ ?_ ?_ ?_
  · rw [hs']; exact (upd_upd s.vaults k _ _).symm
  · rw [hs']; rfl
  · rw [hs']; rfl
  · rw [hs']; rfl
  · rw [hs']; rfl
  · rw [hs']; rfl
  · intro q r hq; rw [hs'] at hq; exact Or.inl hq
  · rw [hs']; exact Nat.le_refl _
  · rw [hs']; exact p1
  · rw [hs']
    show v1.pending + v1.flying + s.tok.bal c.relay c.acct ≤ v.pending + v.flying + l.bal c.relay c.acct
    cases kd
    · have a1 : v1.pending = v.pending - m := hd.2.1
      have a2 : m ≤ v.pending := hd.1
      have a3 : v1.flying = v.flying := hu.oth .flying (by decide)
      omega
    · have a1 : v1.flying = v.flying - m := hd.2.1
      have a2 : m ≤ v.flying := hd.1
      have a3 : v1.pending = v.pending := hu.oth .pending (by decide)
      omega
    · have a1 : v1.flying = v.flying := hu.oth .flying (by decide)
      have a3 : v1.pending = v.pending := hu.oth .pending (by decide)
      have := p5 rfl
      omega
  · intro T hT; rw [hs']; exact p2 T hT
  · intro e he; rw [List.mem_singleton] at he; subst he; rfl
  · intro u
    simp only [logSum_single, Ev.paidBy, Ev.leftBy, true_and, Bool.false_eq_true, false_and, if_false]
    by_cases hu' : u = who
    · subst hu'; simp
    · rw [if_neg (Ne.symm hu'), if_neg hu']
  · cases kd
    · have : v1.contributed = v.contributed := hu.oth .contributed (by decide)
      simp only [logSum_single, Ev.executedOn, Ev.mintedOn]; omega
    · have : v1.contributed = v.contributed := hu.oth .contributed (by decide)
      simp only [logSum_single, Ev.executedOn, Ev.mintedOn]; omega
    · have a1 : v1.contributed = v.contributed - m := hd.2.1
      have a2 : m ≤ v.contributed := hd.1
      simp only [logSum_single, Ev.executedOn, Ev.mintedOn, if_true]; omega

/-- Killing the first contribution leaves the others. -/
theorem contributions_tail {s s' : State} {t : Nat} {kd : Kind} {e : Entry} {l : List (Kind × Entry)}
    (h : s.contributions t = (kd, e) :: l) (hsort : ∀ k, Sorted (s.child (t, k)))
    (hoff : ∀ k, k ≠ kd → s'.child (t, k) = s.child (t, k))
    (hk : s'.child (t, kd) = killEntry (s.child (t, kd)) e.who) :
    e ∈ s.child (t, kd) ∧ s'.contributions t = l := by
  have kill_head : ∀ (x : Entry) (r : List Entry), Sorted (x :: r) → killEntry (x :: r) x.who = r := by
    intro x r hs
    unfold killEntry
    rw [List.filter_cons_of_neg (by simp)]
    apply List.filter_eq_self.mpr
    intro y hy
    have := (List.pairwise_cons.mp hs).1 y hy
    exact decide_eq_true (by omega)
  unfold State.contributions at h ⊢
  cases hc : s.child (t, .contributed) with
  | cons x r =>
    rw [hc] at h
    simp only [List.map_cons, List.cons_append, List.cons.injEq, Prod.mk.injEq] at h
    obtain ⟨⟨rfl, rfl⟩, rfl⟩ := h
    refine ⟨by rw [hc]; exact List.mem_cons_self, ?_⟩
    rw [hk, hoff .flying (by decide), hoff .pending (by decide), hc,
      kill_head x r (by rw [← hc]; exact hsort _)]
  | nil =>
    rw [hc] at h
    cases hf : s.child (t, .flying) with
    | cons x r =>
      rw [hf] at h
      simp only [List.map_nil, List.nil_append, List.map_cons, List.cons_append, List.cons.injEq, Prod.mk.injEq] at h
      obtain ⟨⟨rfl, rfl⟩, rfl⟩ := h
      refine ⟨by rw [hf]; exact List.mem_cons_self, ?_⟩
      rw [hk, hoff .contributed (by decide), hoff .pending (by decide), hc, hf,
        kill_head x r (by rw [← hf]; exact hsort _)]
      rfl
    | nil =>
      rw [hf] at h
      cases hp : s.child (t, .pending) with
      | nil => rw [hp] at h; cases h
      | cons x r =>
        rw [hp] at h
        simp only [List.map_nil, List.nil_append, List.map_cons, List.cons_append, List.cons.injEq,
          Prod.mk.injEq] at h
        obtain ⟨⟨rfl, rfl⟩, rfl⟩ := h
        refine ⟨by rw [hp]; exact List.mem_cons_self, ?_⟩
        rw [hk, hoff .contributed (by decide), hoff .flying (by decide), hc, hf, hp,
          kill_head x r (by rw [← hp]; exact hsort _)]
        rfl

theorem contributions_head {s : State} {t : Nat} {kd : Kind} {e : Entry} {l : List (Kind × Entry)}
    (h : s.contributions t = (kd, e) :: l) : e ∈ s.child (t, kd) := by
  have : (kd, e) ∈ s.contributions t := by rw [h]; exact List.mem_cons_self
  unfold State.contributions at this
  simp only [List.mem_append, List.mem_map, Prod.mk.injEq] at this
  rcases this with (⟨x, hx, h1, h2⟩ | ⟨x, hx, h1, h2⟩) | ⟨x, hx, h1, h2⟩ <;> subst h1 h2 <;> exact hx

/-- What a list of contributions pays to `w`. -/
def paidTo (l : List (Kind × Entry)) (w : Nat) : Nat := (l.map (fun p => if w = p.2.who then p.2.amt else 0)).sum

/-- What `refund` does. -/
structure Refunded (c : Cfg) (n : Nat) (l : List (Kind × Entry)) (s s' : State) (v v' : Vault) : Prop where
  same : SameVault v v'
  sum : v'.contributed ≤ v.contributed ∧ v'.flying ≤ v.flying ∧ v'.pending ≤ v.pending
  left : s'.contributions v.trie = l.drop n
  off : ∀ t kd, t ≠ v.trie → s'.child (t, kd) = s.child (t, kd)
  bal : ∀ w, w ≠ c.acct → s'.tok.bal c.relay w = s.tok.bal c.relay w + paidTo (l.take n) w
  balOff : ∀ T w, T ≠ c.relay → s'.tok.bal T w = s.tok.bal T w
  reqs : s'.requests = s.requests
  query : s'.nextQuery = s.nextQuery
  vaults : s'.vaults = s.vaults
  lease : s'.leaseOf = s.leaseOf
  log : s'.log = s.log ++ (l.take n).map (fun p => Ev.back v.trie p.1 p.2.who p.2.amt)

theorem refundLoop_ok (hc : CfgOK c D) {k : Key} : ∀ (n : Nat) (l : List (Kind × Entry)) (s : State) (v : Vault)
    (s' : State) (v' : Vault) (b : Bool), Inv c D (s.putVault k v) → s.contributions v.trie = l →
    refundLoop c n l s v = .ok (s', v', b) →
      Inv c D (s'.putVault k v') ∧ Refunded c n l s s' v v' ∧ (b = true ↔ l.drop n = []) := by
  intro n l
  induction l generalizing n with
  | nil =>
    intro s v s' v' b h hl hx
    have : refundLoop c n [] s v = .ok (s, v, true) := by cases n <;> rfl
    rw [this] at hx
    cases hx
    exact ⟨h, ⟨SameVault.refl v, ⟨Nat.le_refl _, Nat.le_refl _, Nat.le_refl _⟩, by rw [hl, List.drop_nil], fun _ _ _ => rfl, fun _ _ => by simp [paidTo],
      fun _ _ _ => rfl, rfl, rfl, rfl, rfl, by simp⟩, by simp⟩
  | cons p l ih =>
    obtain ⟨kd, e⟩ := p
    intro s v s' v' b h hl hx
    cases n with
    | zero =>
      cases hx
      exact ⟨h, ⟨SameVault.refl v, ⟨Nat.le_refl _, Nat.le_refl _, Nat.le_refl _⟩, by rw [hl]; rfl, fun _ _ _ => rfl, fun _ _ => by simp [paidTo],
        fun _ _ _ => rfl, rfl, rfl, rfl, rfl, by simp⟩, by simp⟩
    | succ n =>
      unfold refundLoop at hx
      simp only [bind_ok_iff, Prod.exists] at hx
      obtain ⟨s1, v1, h1, h3⟩ := hx
      obtain ⟨ha, l1, s2, hl1, hu, hs1⟩ := refund_step hc h h1
      have hI := h.act ha
      obtain ⟨p1, p2, p3, p4, p5, p6⟩ := refundPay_ok hc (show s.tok.WF from h.wf) hl1
      have etr : v1.trie = v.trie := hu.same.trie
      have hmem : e ∈ s.child (v.trie, kd) := contributions_head hl
      have hamt : (s.withTok l1).amount v.trie kd e.who = e.amt := by
        unfold State.amount; rw [withTok_child, getEntry_of_mem (show Sorted (s.child (v.trie, kd)) from h.sorted _ _) hmem]
      have hkill := hu.killed (by rw [(hu.down rfl).2.2.2, hamt]; omega)
      have hrest : s1.contributions v1.trie = l := by
        rw [etr]
        refine (contributions_tail (s' := s1) hl (fun k => h.sorted _ _) ?_ ?_).2
        · intro k' hk'; rw [hs1]; exact hu.off _ (pair_ne hk')
        · rw [hs1]; exact hkill
      obtain ⟨hI', hm, hb⟩ := ih n s1 v1 s' v' b hI hrest h3
      refine ⟨hI', ⟨hu.same.trans hm.same, ?_, ?_, ?_, ?_, ?_, ?_, ?_, ?_, ?_, ?_⟩, ?_⟩
      · obtain ⟨q1, q2, q3⟩ := hu.less
        obtain ⟨r1, r2, r3⟩ := hm.sum
        exact ⟨by omega, by omega, by omega⟩
      · have := hm.left; rw [etr] at this; rw [this]; rfl
      · intro t kd' ht
        rw [hm.off t kd' (by rw [etr]; exact ht), hs1]
        exact hu.off _ (fun e' => ht (Prod.mk.inj e').1)
      · intro w hw
        rw [hm.bal w hw, hs1]
        show l1.bal c.relay w + _ = _
        rw [p4 w hw]
        simp only [List.take_succ_cons, paidTo, List.map_cons, List.sum_cons]
        omega
      · intro T w hT; rw [hm.balOff T w hT, hs1]; exact p3 T w hT
      · rw [hm.reqs, hs1]; rfl
      · rw [hm.query, hs1]; rfl
      · rw [hm.vaults, hs1]; rfl
      · rw [hm.lease, hs1]; rfl
      · rw [hm.log, hs1, etr]
        show (s.log ++ [_]) ++ _ = _
        rw [List.append_assoc]; rfl
      · rw [hb, List.drop_succ_cons]

theorem refund_inv (hc : CfgOK c D) {s s' : State} {k : Key} (h : Inv c D s) (hx : refund c s k = .ok s') :
    Inv c D s' ∧ ∃ v s1 v', s.vaults k = some v ∧ (v.phase = .closed ∨ v.phase = .failed) ∧ s' = s1.putVault k v' ∧
      Refunded c c.removeLimit (s.contributions v.trie) s s1 v v' := by
  unfold refund at hx
  simp only [bind_ok_iff, okOr_ok_iff, ensure_ok_iff, pure_ok_iff, Prod.exists, exists_const] at hx
  obtain ⟨v, hv, hp, s1, v1, b, h1, rfl⟩ := hx
  have h' : Inv c D (s.putVault k v) := by rw [putVault_self hv]; exact h
  obtain ⟨hI, hm, _⟩ := refundLoop_ok hc _ _ _ _ _ _ _ h' rfl h1
  exact ⟨hI, v, s1, v1, hv, hp, rfl, hm⟩

theorem refundFor_act (hc : CfgOK c D) {s s' : State} {who : Nat} {k : Key} {kd : Kind} {m : Nat} (h : Inv c D s)
    (hx : refundFor c s who k kd m = .ok s') : ∃ v v' l s1, s.vaults k = some v ∧ v.phase = .closed ∧
      m ≤ s.amount v.trie kd who ∧ refundPay c s kd who m = .ok l ∧ Upd (s.withTok l) s1 v v' who m false kd ∧
      s' = { (s.withTok l).putVault k v' with
          child := s1.child
          log := s.log ++ [.back v.trie kd who m] } ∧ Act c D s s' k v v' := by
  unfold refundFor at hx
  simp only [bind_ok_iff, okOr_ok_iff, ensure_ok_iff, pure_ok_iff, Prod.exists, exists_const] at hx
  obtain ⟨v, hv, hp, hm, s1, v1, h1, rfl⟩ := hx
  have h' : Inv c D (s.putVault k v) := by rw [putVault_self hv]; exact h
  obtain ⟨ha, l, s2, hl, hu, hs1⟩ := refund_step hc h' h1
  rw [putVault_self hv] at ha
  exact ⟨v, v1, l, s2, hv, hp, hm, hl, hu, by rw [hs1]; rfl, ha⟩

end Verif.Crowdloans
