import Verif.Bridge.Registry

set_option linter.unusedSimpArgs false

/-! # Bridge: the invariant -/

namespace Verif.Bridge
open Verif

/-- `[k, k-1, …, 1]`. -/
def countdown : Nat → List Nat
  | 0 => []
  | k + 1 => (k + 1) :: countdown k

structure PropOK (c : Cfg) (now : Nat) (evs : List Event) (ch n : Nat) (call : MCall) (p : Proposal) : Prop where
  fresh : p.expiry ≤ now + c.lifetime
  nodup : (p.votesFor ++ p.votesAgainst).Nodup
  votes : ∀ v ∈ p.votesFor, ∃ b, Event.voteFor ch n v call b ∈ evs ∧ p.expiry ≤ b + c.lifetime ∧ b ≤ now

structure Inv (c : Cfg) (s : State) : Prop where
  wf : s.ledger.WF
  thr : 0 < s.threshold
  dom : ∀ ch, s.nonces ch = none ↔ s.registry ch = none
  reg : ∀ ch reg, s.registry ch = some reg →
    GoodReg reg ∧ ∀ n, Cov reg n ↔ ∃ e ∈ since ch s.events, e.resolves ch n = true
  once : ∀ ch n, (since ch s.events).countP (Event.resolves ch n) ≤ 1
  sent : ∀ ch k, s.nonces ch = some k → (since ch s.events).filterMap (Event.sentNonce ch) = countdown k
  props : ∀ ch n call p, s.props ch (n, call) = some p → PropOK c s.now s.events ch n call p
  bij : ∀ t a, s.assetIds t = some a ↔ ∃ tok, s.tokens a = some tok ∧ tok.id = t

theorem since_cons (ch : Nat) (e : Event) (evs : List Event) :
    since ch (e :: evs) = if e = .registered ch then [] else e :: since ch evs := by
  unfold since
  by_cases h : e = .registered ch <;> simp [List.takeWhile_cons, h]

theorem PropOK.mono {c : Cfg} {evs evs' : List Event} {ch n : Nat} {call : MCall} {p : Proposal}
    {now now' : Nat} (h : PropOK c now evs ch n call p) (hs : ∀ e ∈ evs, e ∈ evs') (hn : now ≤ now' := by exact Nat.le_refl _) :
    PropOK c now' evs' ch n call p :=
  ⟨Nat.le_trans h.fresh (by omega), h.nodup, fun v hv => let ⟨b, h1, h2, h3⟩ := h.votes v hv; ⟨b, hs _ h1, h2, Nat.le_trans h3 hn⟩⟩

variable {c : Cfg} {s s' : State}

/-! ### Token settings -/

theorem Inv.tokensOnly (hi : Inv c s) {tk : Nat → Option Token}
    (h : ∀ t a, s.assetIds t = some a ↔ ∃ tok, tk a = some tok ∧ tok.id = t) :
    Inv c { s with tokens := tk } :=
  ⟨hi.wf, hi.thr, hi.dom, hi.reg, hi.once, hi.sent, hi.props, h⟩

theorem Inv.token_get (hi : Inv c s) {t : Nat} (h : (s.assetIds t).isSome) :
    ∃ tok, s.assetIds t = some (s.assetId t) ∧ s.tokens (s.assetId t) = some tok ∧ tok.id = t ∧
      s.token (s.assetId t) = tok := by
  obtain ⟨a, ha⟩ := Option.isSome_iff_exists.1 h
  have e : s.assetId t = a := by simp [State.assetId, ha]
  obtain ⟨tok, h1, h2⟩ := (hi.bij t a).1 ha
  rw [e]
  exact ⟨tok, ha, h1, h2, by simp [State.token, h1]⟩

theorem bij_set (hi : Inv c s) {t : Nat} {tok tok' : Token} (h1 : s.tokens (s.assetId t) = some tok)
    (hid : tok'.id = tok.id) :
    ∀ t' a, s.assetIds t' = some a ↔ ∃ x, upd s.tokens (s.assetId t) (some tok') a = some x ∧ x.id = t' := by
  intro t' a
  rw [hi.bij]
  by_cases ha : a = s.assetId t
  · subst ha; simp [h1, hid]
  · simp [upd_of_ne _ _ ha]

theorem Inv.mutate (hi : Inv c s) {t : Nat} {f : Token → Token} (hf : ∀ x, (f x).id = x.id)
    (h : mutateToken s t f = .ok s') : Inv c s' := by
  unfold mutateToken at h
  simp only [bind_ok_iff, ensure_ok_iff, pure_ok_iff, exists_const] at h
  obtain ⟨h1, rfl⟩ := h
  obtain ⟨tok, _, h2, h3, h4⟩ := hi.token_get h1
  exact hi.tokensOnly (bij_set hi h2 (by rw [hf, h4]))

/-! ### Caps -/

theorem underCap_out {t : Token} {m n : Nat} :
    underCap t m .out = .ok n ↔ t.outAmount + m ≤ maxU128 ∧ t.outAmount + m ≤ t.outCap ∧ n = t.outAmount + m := by
  simp only [underCap, bind_ok_iff, cadd_ok_iff, ensure_ok_iff, pure_ok_iff, exists_const]
  constructor
  · rintro ⟨_, ⟨h1, rfl⟩, h2, rfl⟩; exact ⟨h1, h2, rfl⟩
  · rintro ⟨h1, h2, rfl⟩; exact ⟨_, ⟨h1, rfl⟩, h2, rfl⟩

theorem underCap_in {t : Token} {m n : Nat} :
    underCap t m .inn = .ok n ↔ t.inAmount + m ≤ maxU128 ∧ t.inAmount + m ≤ t.inCap ∧ n = t.inAmount + m := by
  simp only [underCap, bind_ok_iff, cadd_ok_iff, ensure_ok_iff, pure_ok_iff, exists_const]
  constructor
  · rintro ⟨_, ⟨h1, rfl⟩, h2, rfl⟩; exact ⟨h1, h2, rfl⟩
  · rintro ⟨h1, h2, rfl⟩; exact ⟨_, ⟨h1, rfl⟩, h2, rfl⟩

theorem updateCap_out {a m : Nat} (h : updateCap s a m .out = .ok s') :
    (s.token a).outAmount + m ≤ (s.token a).outCap ∧
    s' = { s with tokens := upd s.tokens a (some { s.token a with outAmount := (s.token a).outAmount + m }) } := by
  unfold updateCap at h
  simp only [bind_ok_iff, underCap_out, pure_ok_iff] at h
  obtain ⟨n, ⟨_, h1, rfl⟩, rfl⟩ := h
  exact ⟨h1, rfl⟩

theorem updateCap_in {a m : Nat} (h : updateCap s a m .inn = .ok s') :
    (s.token a).inAmount + m ≤ (s.token a).inCap ∧
    s' = { s with tokens := upd s.tokens a (some { s.token a with inAmount := (s.token a).inAmount + m }) } := by
  unfold updateCap at h
  simp only [bind_ok_iff, underCap_in, pure_ok_iff] at h
  obtain ⟨n, ⟨_, h1, rfl⟩, rfl⟩ := h
  exact ⟨h1, rfl⟩

/-! ### Teleport -/

theorem takeIn_wf {l l' : Ledger} {t : Token} {a w m : Nat} (h : takeIn c l t a w m = .ok l') (hw : l.WF) :
    l'.WF := by
  unfold takeIn at h
  split_ifs at h
  · simp only [bind_ok_iff] at h
    obtain ⟨l1, h1, h2⟩ := h
    exact Ledger.mint_wf h2 (Ledger.burn_wf h1 hw)
  · exact Ledger.transfer_wf h hw

theorem teleport_ok {w ch t d m : Nat} (h : teleport c s w ch t d m = .ok s') :
    ∃ k l, s.nonces ch = some k ∧ (s.assetIds t).isSome ∧ 0 < m ∧ (s.token (s.assetId t)).enable = true ∧
      (s.token (s.assetId t)).outAmount + m ≤ (s.token (s.assetId t)).outCap ∧
      (s.token (s.assetId t)).fee ≤ m ∧ k + 1 ≤ maxU64 ∧
      takeIn c s.ledger (s.token (s.assetId t)) (s.assetId t) w m = .ok l ∧
      s' = { s with
        ledger := l,
        tokens := upd s.tokens (s.assetId t) (some { s.token (s.assetId t) with
          outAmount := (s.token (s.assetId t)).outAmount + m }),
        nonces := upd s.nonces ch (some (k + 1)),
        events := .teleported w ch (k + 1) t d (m - (s.token (s.assetId t)).fee) (s.token (s.assetId t)).fee
          :: s.events } := by
  unfold teleport at h
  simp only [bind_ok_iff, ensure_ok_iff, pure_ok_iff, exists_const, csub_ok_iff] at h
  obtain ⟨h1, h2, h3, h4, s1, hs1, l, hl, x, ⟨h5, rfl⟩, h6, rfl⟩ := h
  obtain ⟨h7, rfl⟩ := updateCap_out hs1
  obtain ⟨k, hk⟩ := Option.isSome_iff_exists.1 h1
  simp only [hk, Option.getD_some] at h6 ⊢
  exact ⟨k, l, rfl, h2, h3, h4, h7, h5, h6, hl, rfl⟩

theorem Inv.teleport (hi : Inv c s) {w ch t d m : Nat} (h : teleport c s w ch t d m = .ok s') : Inv c s' := by
  obtain ⟨k, l, hk, h2, _, _, _, _, _, hl, rfl⟩ := teleport_ok h
  obtain ⟨tok, _, ht, _, ht'⟩ := hi.token_get h2
  have hne : ∀ ch', Event.teleported w ch (k + 1) t d (m - (s.token (s.assetId t)).fee) (s.token (s.assetId t)).fee
      ≠ .registered ch' := fun _ => by simp
  refine ⟨takeIn_wf hl hi.wf, hi.thr, ?_, ?_, ?_, ?_, ?_, bij_set hi ht (by rw [ht'])⟩
  · intro ch'
    by_cases he : ch' = ch
    · subst he
      have := hi.dom ch'
      simp [hk] at this ⊢
      exact this
    · simpa [upd_of_ne _ _ he] using hi.dom ch'
  · intro ch' reg hr
    obtain ⟨h1, h2⟩ := hi.reg ch' reg hr
    refine ⟨h1, fun n => ?_⟩
    rw [h2 n, since_cons, if_neg (hne ch')]
    simp [Event.resolves]
  · intro ch' n
    simp only [since_cons, if_neg (hne ch'), List.countP_cons, Event.resolves]
    simpa using hi.once ch' n
  · intro ch' k' hk'
    simp only [since_cons, if_neg (hne ch'), List.filterMap_cons, Event.sentNonce]
    by_cases he : ch' = ch
    · subst he
      simp only [upd_same, Option.some.injEq] at hk'
      subst hk'
      simp only [if_true, countdown]
      rw [hi.sent ch' k hk]
    · have he' : ¬ ch = ch' := fun e => he e.symm
      simp only [upd_of_ne _ _ he] at hk'
      simp only [he', if_false]
      exact hi.sent ch' k' hk'
  · intro ch' n call p hp
    exact (hi.props ch' n call p hp).mono (fun e he => List.mem_cons_of_mem _ he)

/-! ### Materialize -/

theorem relayMember_ok {o : Option Nat} {w : Nat} (h : relayMember c s o = .ok w) :
    (o = none ∧ w = c.rootOp) ∨ (o = some w ∧ w ∈ s.members) := by
  cases o with
  | none => simp [relayMember] at h; exact .inl ⟨rfl, h.symm⟩
  | some x =>
    simp only [relayMember, bind_ok_iff, ensure_ok_iff, pure_ok_iff, exists_const] at h
    obtain ⟨h1, rfl⟩ := h
    exact .inr ⟨rfl, h1⟩

/-- The proposal after the vote. -/
def voted (p : Proposal) (w : Nat) (favour : Bool) : Proposal :=
  if favour then { p with votesFor := p.votesFor ++ [w] } else { p with votesAgainst := p.votesAgainst ++ [w] }

/-- The event of the vote. -/
def voteEvent (s : State) (chain nonce w : Nat) (call : MCall) (favour : Bool) : Event :=
  if favour then .voteFor chain nonce w call s.now else .voteAgainst chain nonce w call s.now

theorem castVote_eq (p : Proposal) (ch n w : Nat) (call : MCall) (f : Bool) :
    castVote s p ch n w call f = { setProp s ch n call (voted p w f) with
      events := voteEvent s ch n w call f :: s.events } := by
  cases f <;> rfl

theorem updateRegistry_ok {ch n : Nat} (h : updateRegistry s ch n = .ok s') :
    (s.registry ch = none ∧ s' = s) ∨ ∃ reg reg', s.registry ch = some reg ∧ addNonce reg n = .ok reg' ∧
      s' = { s with registry := upd s.registry ch (some reg') } := by
  unfold updateRegistry at h
  cases hr : s.registry ch with
  | none => simp [hr] at h; exact .inl ⟨rfl, h.symm⟩
  | some reg =>
    simp only [hr, bind_ok_iff, pure_ok_iff] at h
    obtain ⟨reg', h1, rfl⟩ := h
    exact .inr ⟨reg, reg', rfl, h1, rfl⟩

/-- Resolving a fresh nonce of a registered chain keeps the invariant. -/
theorem Inv.resolveEvent (hi : Inv c s) {ch n : Nat} {reg reg' : List (Nat × Nat)} {e : Event} {l : Ledger}
    {tk : Nat → Option Token} (hl : l.WF)
    (htk : ∀ t a, s.assetIds t = some a ↔ ∃ tok, tk a = some tok ∧ tok.id = t)
    (hr : s.registry ch = some reg) (hb : ¬ Cov reg n) (ha : addNonce reg n = .ok reg')
    (he : (∃ call, e = .minted ch n call) ∨ e = .rejected ch n) :
    Inv c { s with
      ledger := l,
      tokens := tk,
      registry := upd s.registry ch (some reg'),
      events := e :: s.events } := by
  obtain ⟨g, hcov⟩ := hi.reg ch reg hr
  obtain ⟨g', hcov'⟩ := addNonce_spec g hb ha
  have hres : ∀ ch' n', e.resolves ch' n' = true ↔ ch = ch' ∧ n = n' := by
    rcases he with ⟨call, rfl⟩ | rfl <;> intro ch' n' <;> simp [Event.resolves]
  have hne : ∀ ch', e ≠ .registered ch' := by rcases he with ⟨call, rfl⟩ | rfl <;> simp
  have hsent : ∀ ch', Event.sentNonce ch' e = none := by rcases he with ⟨call, rfl⟩ | rfl <;> simp [Event.sentNonce]
  refine ⟨hl, hi.thr, ?_, ?_, ?_, ?_, ?_, htk⟩
  · intro ch'
    by_cases h : ch' = ch
    · subst h
      have := hi.dom ch'
      simp only [hr] at this
      simp only [upd_same, reduceCtorEq, iff_false]
      intro h0
      exact absurd (this.1 h0) (by simp)
    · simpa [upd_of_ne _ _ h] using hi.dom ch'
  · intro ch' r2 hr2
    simp only [since_cons, if_neg (hne ch'), List.exists_mem_cons_iff, hres]
    by_cases h : ch' = ch
    · subst h
      simp only [upd_same, Option.some.injEq] at hr2
      subst hr2
      refine ⟨g', fun n' => ?_⟩
      rw [hcov' n', hcov n']
      constructor
      · rintro (h | rfl)
        · exact .inr h
        · exact .inl ⟨rfl, rfl⟩
      · rintro (⟨_, rfl⟩ | h)
        · exact .inr rfl
        · exact .inl h
    · simp only [upd_of_ne _ _ h] at hr2
      obtain ⟨a, b⟩ := hi.reg ch' r2 hr2
      refine ⟨a, fun n' => ?_⟩
      rw [b n']
      have : ¬ ch = ch' := fun e => h e.symm
      simp [this]
  · intro ch' n'
    simp only [since_cons, if_neg (hne ch'), List.countP_cons]
    by_cases h : ch = ch' ∧ n = n'
    · obtain ⟨rfl, rfl⟩ := h
      have h0 : (since ch s.events).countP (Event.resolves ch n) = 0 := by
        rw [List.countP_eq_zero]
        intro x hx hx'
        exact hb ((hcov n).2 ⟨x, hx, hx'⟩)
      rw [h0]; split_ifs <;> omega
    · have : ¬ e.resolves ch' n' = true := fun h' => h ((hres ch' n').1 h')
      simp only [this, if_false]
      exact hi.once ch' n'
  · intro ch' k hk
    simp only [since_cons, if_neg (hne ch'), List.filterMap_cons, hsent ch']
    exact hi.sent ch' k hk
  · intro ch' n' call p hp
    exact (hi.props ch' n' call p hp).mono (fun e he => List.mem_cons_of_mem _ he)

theorem payOut_wf {l l' : Ledger} {t : Token} {a : Nat} {call : MCall} (h : payOut c l t a call = .ok l')
    (hw : l.WF) : l'.WF := by
  unfold payOut at h
  split_ifs at h
  · exact Ledger.mint_wf h hw
  · exact Ledger.transfer_wf h hw

theorem grantBonus_ok {l l' : Ledger} {w a m : Nat} (h : grantBonus c l w a m = .ok l') :
    l' = l ∨ ∃ g, l.transfer c.native c.gift w g false = .ok l' := by
  unfold grantBonus at h
  simp only at h
  split_ifs at h
  · simp only [bind_ok_iff, ensure_ok_iff, exists_const] at h
    exact .inr ⟨_, h.2⟩
  · cases h; exact .inl rfl

theorem grantBonus_wf {l l' : Ledger} {w a m : Nat} (h : grantBonus c l w a m = .ok l') (hw : l.WF) : l'.WF := by
  rcases grantBonus_ok h with rfl | ⟨g, h⟩
  · exact hw
  · exact Ledger.transfer_wf h hw

/-- A stored proposal replaced by one of the same kind. -/
theorem Inv.setProp (hi : Inv c s) {ch n : Nat} {call : MCall} {p : Proposal}
    (hp : PropOK c s.now s.events ch n call p) : Inv c (setProp s ch n call p) := by
  refine ⟨hi.wf, hi.thr, hi.dom, hi.reg, hi.once, hi.sent, ?_, hi.bij⟩
  intro ch' n' call' p' h
  simp only [Bridge.setProp] at h
  by_cases h1 : ch' = ch
  · subst h1
    by_cases h2 : (n', call') = (n, call)
    · cases h2; simp at h; subst h; exact hp
    · simp [upd_of_ne _ _ h2] at h; exact hi.props _ _ _ _ h
  · simp [upd_of_ne _ _ h1] at h; exact hi.props _ _ _ _ h

theorem openProp_ok {ch n : Nat} {call : MCall} {p : Proposal} (h : openProp c s ch n call = .ok p) :
    s.props ch (n, call) = some p ∨ (s.props ch (n, call) = none ∧ p = ⟨[], [], .initiated, s.now + c.lifetime⟩) := by
  unfold openProp at h
  split at h
  · rename_i p' hp; cases h; exact .inl hp
  · rename_i hp
    simp only [bind_ok_iff, ensure_ok_iff, pure_ok_iff, exists_const] at h
    exact .inr ⟨hp, h.2.symm⟩

theorem execute_ok {ch n : Nat} {call : MCall} (h : execute c s ch n call = .ok s') :
    (s.assetIds call.token).isSome ∧
    (s.token (s.assetId call.token)).inAmount + call.amount ≤ (s.token (s.assetId call.token)).inCap ∧
    ∃ l l' reg', payOut c s.ledger (s.token (s.assetId call.token)) (s.assetId call.token) call = .ok l ∧
      grantBonus c l call.dest (s.assetId call.token) call.amount = .ok l' ∧
      ((s.registry ch = none ∧ reg' = none) ∨ ∃ reg r, s.registry ch = some reg ∧ addNonce reg n = .ok r ∧ reg' = some r) ∧
      s' = { s with
        ledger := l',
        tokens := upd s.tokens (s.assetId call.token) (some { s.token (s.assetId call.token) with
          inAmount := (s.token (s.assetId call.token)).inAmount + call.amount }),
        registry := upd s.registry ch reg',
        events := .minted ch n call :: s.events } := by
  unfold execute at h
  simp only [bind_ok_iff, ensure_ok_iff, pure_ok_iff, exists_const] at h
  obtain ⟨_, h2, s1, hs1, l, hl, l', hl', s2, hs2, rfl⟩ := h
  obtain ⟨h3, rfl⟩ := updateCap_in hs1
  have ht : State.token { s with tokens := upd s.tokens (s.assetId call.token) (some { s.token (s.assetId call.token) with
      inAmount := (s.token (s.assetId call.token)).inAmount + call.amount }) } (s.assetId call.token)
      = { s.token (s.assetId call.token) with inAmount := (s.token (s.assetId call.token)).inAmount + call.amount } := by
    simp [State.token]
  rw [ht] at hl
  refine ⟨h2, h3, l, l', ?_⟩
  rcases updateRegistry_ok hs2 with ⟨h4, rfl⟩ | ⟨reg, r, h4, h5, rfl⟩
  · refine ⟨none, hl, hl', .inl ⟨h4, rfl⟩, ?_⟩
    simp only at h4
    simp [← h4]
  · exact ⟨some r, hl, hl', .inr ⟨reg, r, h4, h5, rfl⟩, rfl⟩

/-- The state right after the vote was recorded and the proposal got status `st`. -/
def afterVote (s : State) (p : Proposal) (ch n w : Nat) (call : MCall) (f : Bool) (st : Status) : State :=
  { setProp s ch n call { voted p w f with status := st } with
    events := voteEvent s ch n w call f :: s.events }

/-- Everything a successful `materialize` call does. -/
theorem materialize_ok {o : Option Nat} {ch n : Nat} {call : MCall} {f : Bool}
    (h : materialize c s o ch n call f = .ok s') :
    ∃ w p, relayMember c s o = .ok w ∧ (s.nonces ch).isSome ∧ hasBridged s ch n = false ∧
      openProp c s ch n call = .ok p ∧ p.status = .initiated ∧ s.now < p.expiry ∧ p.hasVoted w = false ∧
      ((s.threshold ≤ (voted p w f).votesFor.length ∧
          execute c (afterVote s p ch n w call f .approved) ch n call = .ok s') ∨
        ((voted p w f).votesFor.length < s.threshold ∧ s.threshold ≤ s.members.length ∧
          s.members.length < (voted p w f).votesAgainst.length + s.threshold ∧
          cancelMat (afterVote s p ch n w call f .rejected) ch n = .ok s') ∨
        ((voted p w f).votesFor.length < s.threshold ∧ s' = afterVote s p ch n w call f .initiated)) := by
  unfold materialize at h
  simp only [bind_ok_iff, ensure_ok_iff, exists_const] at h
  obtain ⟨w, hw, h1, h2, u, _, p, hp, h3, h4, h5, h6⟩ := h
  refine ⟨w, p, hw, h1, h2, hp, h3, h4, h5, ?_⟩
  rw [castVote_eq] at h6
  unfold resolve at h6
  simp only [bind_ok_iff, ensure_ok_iff, okOr_ok_iff, exists_const, setProp, upd_same, Option.some.injEq] at h6
  obtain ⟨q, rfl, h6⟩ := h6
  obtain ⟨_, _, _, h7⟩ := h6
  unfold Proposal.tryComplete at h7
  have hst : (voted p w f).status = .initiated := by unfold voted; split_ifs <;> exact h3
  split_ifs at h7 with h8 h9
  · left
    refine ⟨h8, ?_⟩
    simpa [afterVote, setProp] using h7
  · right; left
    refine ⟨by omega, h9.1, h9.2, ?_⟩
    simpa [afterVote, setProp] using h7
  · right; right
    refine ⟨by omega, ?_⟩
    rw [pure_ok_iff] at h7
    rw [← h7]
    have : ({ voted p w f with status := Status.initiated } : Proposal) = voted p w f := by rw [← hst]
    simp [afterVote, setProp, this]

theorem voted_ok (hi : Inv c s) {ch n w : Nat} {call : MCall} {p : Proposal} {f : Bool} {st : Status}
    (hp : openProp c s ch n call = .ok p) (hv : p.hasVoted w = false) :
    PropOK c s.now (voteEvent s ch n w call f :: s.events) ch n call { voted p w f with status := st } := by
  have hpo : PropOK c s.now s.events ch n call p := by
    rcases openProp_ok hp with h | ⟨_, rfl⟩
    · exact hi.props _ _ _ _ h
    · exact ⟨Nat.le_refl _, by simp, by simp⟩
  simp only [Proposal.hasVoted, Bool.or_eq_false_iff, List.contains_eq_mem, decide_eq_false_iff_not] at hv
  obtain ⟨h1, h2⟩ := hv
  have hnd := hpo.nodup
  have hfr := hpo.fresh
  cases f with
  | true =>
    refine ⟨hfr, ?_, ?_⟩
    · simp only [voted, if_true, List.append_assoc, List.singleton_append]
      rw [List.nodup_middle, List.nodup_cons]
      exact ⟨by simp [h1, h2], hnd⟩
    · intro v hv
      simp only [voted, if_true, List.mem_append, List.mem_singleton] at hv
      rcases hv with hv | rfl
      · obtain ⟨b, hb, hb'⟩ := hpo.votes v hv
        exact ⟨b, List.mem_cons_of_mem _ hb, hb'⟩
      · exact ⟨s.now, by simp [voteEvent], hfr, Nat.le_refl _⟩
  | false =>
    refine ⟨hfr, ?_, ?_⟩
    · simp only [voted, Bool.false_eq_true, if_false, ← List.append_assoc]
      rw [List.nodup_append]
      refine ⟨hnd, by simp, ?_⟩
      intro a ha b hb
      simp only [List.mem_singleton] at hb
      subst hb
      rintro rfl
      rcases List.mem_append.1 ha with h | h
      · exact h1 h
      · exact h2 h
    · intro v hv
      obtain ⟨b, hb, hb'⟩ := hpo.votes v hv
      exact ⟨b, List.mem_cons_of_mem _ hb, hb'⟩

/-- A vote, on its own, keeps the invariant. -/
theorem Inv.afterVote (hi : Inv c s) {ch n w : Nat} {call : MCall} {p : Proposal} {f : Bool} {st : Status}
    (hp : openProp c s ch n call = .ok p) (hv : p.hasVoted w = false) :
    Inv c (afterVote s p ch n w call f st) := by
  have hne : ∀ ch', voteEvent s ch n w call f ≠ .registered ch' := by intro; cases f <;> simp [voteEvent]
  have hres : ∀ ch' n', (voteEvent s ch n w call f).resolves ch' n' = false := by
    intro; cases f <;> simp [voteEvent, Event.resolves]
  have hsent : ∀ ch', Event.sentNonce ch' (voteEvent s ch n w call f) = none := by
    intro; cases f <;> simp [voteEvent, Event.sentNonce]
  have h0 : Inv c { s with events := voteEvent s ch n w call f :: s.events } := by
    refine ⟨hi.wf, hi.thr, hi.dom, ?_, ?_, ?_, ?_, hi.bij⟩
    · intro ch' reg hr
      obtain ⟨h1, h2⟩ := hi.reg ch' reg hr
      refine ⟨h1, fun n => ?_⟩
      rw [h2 n, since_cons, if_neg (hne ch')]
      simp [hres]
    · intro ch' n
      simp only [since_cons, if_neg (hne ch'), List.countP_cons, hres]
      simpa using hi.once ch' n
    · intro ch' k' hk'
      simp only [since_cons, if_neg (hne ch'), List.filterMap_cons, hsent]
      exact hi.sent ch' k' hk'
    · intro ch' n call p hp
      exact (hi.props ch' n call p hp).mono (fun e he => List.mem_cons_of_mem _ he)
  exact h0.setProp (voted_ok hi hp hv)

theorem hasBridged_iff {ch n : Nat} {reg : List (Nat × Nat)} (h : s.registry ch = some reg) :
    hasBridged s ch n = true ↔ Cov reg n := by
  unfold hasBridged; rw [h]; exact inReg_iff

theorem Inv.execute (hi : Inv c s) {ch n : Nat} {call : MCall} (hn : (s.nonces ch).isSome)
    (hb : hasBridged s ch n = false) (h : execute c s ch n call = .ok s') : Inv c s' := by
  obtain ⟨h1, _, l, l', reg', hl, hl', hr, rfl⟩ := execute_ok h
  obtain ⟨tok, _, ht, _, ht'⟩ := hi.token_get h1
  rcases hr with ⟨h0, _⟩ | ⟨reg, r, h0, ha, rfl⟩
  · rw [(hi.dom ch).2 h0] at hn; cases hn
  · refine hi.resolveEvent (grantBonus_wf hl' (payOut_wf hl hi.wf)) (bij_set hi ht (by rw [ht'])) h0 ?_ ha
      (.inl ⟨call, rfl⟩)
    rw [← hasBridged_iff h0, hb]; simp

theorem cancelMat_ok {ch n : Nat} (h : cancelMat s ch n = .ok s') :
    ∃ reg', ((s.registry ch = none ∧ reg' = none) ∨ ∃ reg r, s.registry ch = some reg ∧ addNonce reg n = .ok r ∧ reg' = some r) ∧
      s' = { s with
        registry := upd s.registry ch reg',
        events := .rejected ch n :: s.events } := by
  unfold cancelMat at h
  simp only [bind_ok_iff, pure_ok_iff] at h
  obtain ⟨s2, hs2, rfl⟩ := h
  rcases updateRegistry_ok hs2 with ⟨h4, rfl⟩ | ⟨reg, r, h4, h5, rfl⟩
  · exact ⟨none, .inl ⟨h4, rfl⟩, by simp [← h4]⟩
  · exact ⟨some r, .inr ⟨reg, r, h4, h5, rfl⟩, rfl⟩

theorem Inv.cancelMat (hi : Inv c s) {ch n : Nat} (hn : (s.nonces ch).isSome)
    (hb : hasBridged s ch n = false) (h : cancelMat s ch n = .ok s') : Inv c s' := by
  obtain ⟨reg', hr, rfl⟩ := cancelMat_ok h
  rcases hr with ⟨h0, _⟩ | ⟨reg, r, h0, ha, rfl⟩
  · rw [(hi.dom ch).2 h0] at hn; cases hn
  · refine hi.resolveEvent (l := s.ledger) (tk := s.tokens) hi.wf hi.bij h0 ?_ ha (.inr rfl)
    rw [← hasBridged_iff h0, hb]; simp

theorem Inv.materialize (hi : Inv c s) {o : Option Nat} {ch n : Nat} {call : MCall} {f : Bool}
    (h : materialize c s o ch n call f = .ok s') : Inv c s' := by
  obtain ⟨w, p, _, hn, hb, hp, _, _, hv, h⟩ := materialize_ok h
  rcases h with ⟨_, h⟩ | ⟨_, _, _, h⟩ | ⟨_, rfl⟩
  · exact (hi.afterVote hp hv).execute hn hb h
  · exact (hi.afterVote hp hv).cancelMat hn hb h
  · exact hi.afterVote hp hv

/-! ### Chains and tokens -/

theorem Inv.registerChain (hi : Inv c s) {ch : Nat} (h : registerChain c s ch = .ok s') : Inv c s' := by
  unfold Bridge.registerChain at h
  simp only [bind_ok_iff, ensure_ok_iff, pure_ok_iff, exists_const] at h
  obtain ⟨⟨_, h1⟩, rfl⟩ := h
  refine ⟨hi.wf, hi.thr, ?_, ?_, ?_, ?_, ?_, hi.bij⟩
  · intro ch'
    by_cases he : ch' = ch
    · subst he; simp
    · simpa [upd_of_ne _ _ he] using hi.dom ch'
  · intro ch' reg hr
    by_cases he : ch' = ch
    · subst he
      simp only [upd_same, Option.some.injEq] at hr
      subst hr
      refine ⟨⟨by simp, by simp⟩, fun n => ?_⟩
      simp [since_cons, Cov]
    · have he' : ¬ Event.registered ch = .registered ch' := by simpa using fun e => he e.symm
      simp only [upd_of_ne _ _ he] at hr
      obtain ⟨h1, h2⟩ := hi.reg ch' reg hr
      refine ⟨h1, fun n => ?_⟩
      rw [h2 n, since_cons, if_neg he']
      simp [Event.resolves]
  · intro ch' n
    simp only [since_cons]
    split_ifs
    · simp
    · simp only [List.countP_cons, Event.resolves]
      simpa using hi.once ch' n
  · intro ch' k hk
    by_cases he : ch' = ch
    · subst he
      simp only [upd_same, Option.some.injEq] at hk
      subst hk
      simp [since_cons, countdown]
    · have he' : ¬ Event.registered ch = .registered ch' := by simpa using fun e => he e.symm
      simp only [upd_of_ne _ _ he] at hk
      simp only [since_cons, if_neg he', List.filterMap_cons, Event.sentNonce]
      exact hi.sent ch' k hk
  · intro ch' n call p hp
    exact (hi.props ch' n call p hp).mono (fun e he => List.mem_cons_of_mem _ he)

theorem Inv.unregisterChain (hi : Inv c s) {ch : Nat} (h : unregisterChain s ch = .ok s') : Inv c s' := by
  unfold Bridge.unregisterChain at h
  simp only [bind_ok_iff, ensure_ok_iff, pure_ok_iff, exists_const] at h
  obtain ⟨_, rfl⟩ := h
  have hne : ∀ ch', Event.removed ch ≠ .registered ch' := by simp
  refine ⟨hi.wf, hi.thr, ?_, ?_, ?_, ?_, ?_, hi.bij⟩
  · intro ch'
    by_cases he : ch' = ch
    · subst he; simp
    · simpa [upd_of_ne _ _ he] using hi.dom ch'
  · intro ch' reg hr
    by_cases he : ch' = ch
    · subst he; simp at hr
    · simp only [upd_of_ne _ _ he] at hr
      obtain ⟨h1, h2⟩ := hi.reg ch' reg hr
      refine ⟨h1, fun n => ?_⟩
      rw [h2 n, since_cons, if_neg (hne ch')]
      simp [Event.resolves]
  · intro ch' n
    simp only [since_cons, if_neg (hne ch'), List.countP_cons, Event.resolves]
    simpa using hi.once ch' n
  · intro ch' k hk
    by_cases he : ch' = ch
    · subst he; simp at hk
    · simp only [upd_of_ne _ _ he] at hk
      simp only [since_cons, if_neg (hne ch'), List.filterMap_cons, Event.sentNonce]
      exact hi.sent ch' k hk
  · intro ch' n call p hp
    exact (hi.props ch' n call p hp).mono (fun e he => List.mem_cons_of_mem _ he)

theorem Inv.registerToken (hi : Inv c s) {a : Nat} {t : Token} (h : registerToken s a t = .ok s') : Inv c s' := by
  unfold Bridge.registerToken at h
  simp only [bind_ok_iff, ensure_ok_iff, pure_ok_iff, exists_const] at h
  obtain ⟨⟨h1, h2⟩, rfl⟩ := h
  refine ⟨hi.wf, hi.thr, hi.dom, hi.reg, hi.once, hi.sent, hi.props, ?_⟩
  intro t' a'
  have hb := hi.bij t' a'
  by_cases ha : a' = a
  · subst ha
    simp only [h1] at hb
    by_cases ht : t' = t.id
    · subst ht; simp
    · have : ¬ t.id = t' := fun e => ht e.symm
      simp [upd_of_ne _ _ ht, this]
      simpa using hb
  · by_cases ht : t' = t.id
    · subst ht
      have : ¬ a = a' := fun e => ha e.symm
      simp only [h2] at hb
      simp [upd_of_ne _ _ ha, this]
      simpa using hb
    · simpa [upd_of_ne _ _ ha, upd_of_ne _ _ ht] using hb

theorem Inv.unregisterToken (hi : Inv c s) {t : Nat} (h : unregisterToken s t = .ok s') : Inv c s' := by
  unfold Bridge.unregisterToken at h
  simp only [bind_ok_iff, ensure_ok_iff, pure_ok_iff, exists_const] at h
  obtain ⟨h1, rfl⟩ := h
  obtain ⟨tok, ht0, ht1, ht2, _⟩ := hi.token_get h1
  refine ⟨hi.wf, hi.thr, hi.dom, hi.reg, hi.once, hi.sent, hi.props, ?_⟩
  intro t' a'
  have hb := hi.bij t' a'
  by_cases ht : t' = t
  · subst ht
    by_cases ha : a' = s.assetId t'
    · subst ha; simp
    · have : ¬ s.assetId t' = a' := fun e => ha e.symm
      simp only [ht0, Option.some.injEq, this, false_iff] at hb
      simp [upd_of_ne _ _ ha]
      simpa using hb
  · by_cases ha : a' = s.assetId t
    · subst ha
      have h3 : ¬ tok.id = t' := fun e => ht (by rw [← e, ht2])
      simp only [ht1, Option.some.injEq, exists_eq_left', h3, iff_false] at hb
      simp [upd_of_ne _ _ ht, hb]
    · simpa [upd_of_ne _ _ ha, upd_of_ne _ _ ht] using hb

/-! ### Blocks, members and the rest of the chain -/

theorem Inv.newBlock (hi : Inv c s) : Inv c (newBlock s) := by
  refine ⟨hi.wf, hi.thr, hi.dom, hi.reg, hi.once, hi.sent, ?_, hi.bij⟩
  intro ch n call p hp
  simp only [Bridge.newBlock] at hp
  split at hp
  · rename_i q hq
    split_ifs at hp
    cases hp
    exact (hi.props ch n call _ hq).mono (fun _ h => h) (by simp [Bridge.newBlock])
  · cases hp

theorem changeThreshold_ok (h : changeThreshold c s = .ok s') :
    validThreshold c (pmulCeil (min million (c.pct * 10000)) s.members.length) s.members.length ∧
      s' = { s with threshold := pmulCeil (min million (c.pct * 10000)) s.members.length } := by
  unfold changeThreshold at h
  generalize pmulCeil (min million (c.pct * 10000)) s.members.length = thr at h ⊢
  simp only [bind_ok_iff, ensure_ok_iff, pure_ok_iff, exists_const] at h
  exact ⟨h.1, h.2.symm⟩

theorem validThreshold_pos {a b : Nat} (h : validThreshold c a b) : 0 < a ∧ a ≤ b := by
  unfold validThreshold at h
  exact h.2

theorem Inv.setThreshold (hi : Inv c s) {ms : List Nat} {thr : Nat} (h : 0 < thr) :
    Inv c { s with
      members := ms,
      threshold := thr } :=
  ⟨hi.wf, h, hi.dom, hi.reg, hi.once, hi.sent, hi.props, hi.bij⟩

theorem Inv.changeMembers (hi : Inv c s) (ms : List Nat) : Inv c (changeMembers c s ms) := by
  unfold Bridge.changeMembers
  cases h : changeThreshold c { s with members := ms } with
  | error e => exact hi.setThreshold hi.thr
  | ok s' =>
    obtain ⟨h1, rfl⟩ := changeThreshold_ok h
    exact hi.setThreshold (validThreshold_pos h1).1

theorem Inv.step (hi : Inv c s) (h : Step c s s') : Inv c s' := by
  cases h with
  | call k h =>
    cases k with
    | registerChain ch => exact hi.registerChain h
    | unregisterChain ch => exact hi.unregisterChain h
    | registerToken a t => exact hi.registerToken h
    | unregisterToken t => exact hi.unregisterToken h
    | setFee t f => exact hi.mutate (f := fun x => { x with fee := f }) (fun _ => rfl) h
    | setStatus t b => exact hi.mutate (f := fun x => { x with enable := b }) (fun _ => rfl) h
    | setCap t d x =>
      simp only [exec, setCap] at h
      exact hi.mutate (fun _ => by cases d <;> rfl) h
    | cleanCap t d =>
      simp only [exec, cleanCap] at h
      exact hi.mutate (fun _ => by cases d <;> rfl) h
    | teleport w ch t d m => exact hi.teleport h
    | materialize o ch n call f => exact hi.materialize h
  | block => exact hi.newBlock
  | members ms => exact hi.changeMembers ms
  | env h =>
    rw [h.eq]
    exact ⟨h.wf, hi.thr, hi.dom, hi.reg, hi.once, hi.sent, hi.props, hi.bij⟩

theorem Reach.inv (h : Reach c s) : Inv c s := by
  induction h with
  | init l ms now hw =>
    refine ⟨hw, by simp, by simp, by simp, by simp [since], ?_, by simp, by simp⟩
    intro ch k h; cases h
  | step _ hs ih => exact ih.step hs

end Verif.Bridge
