import Verif.Crowdloans.Calls2

/-! # Crowdloans: every call keeps the invariant (end) -/

set_option linter.unusedSimpArgs false

namespace Verif.Crowdloans
open Verif

variable {c : Cfg} {D : Nat → Prop}

/-! ## Claims, withdrawals, redemptions -/

/-- A contribution leaves the books: the child entry is killed. -/
theorem held_kill {s s' : State} {t who : Nat}
    (hs : s'.child = upd s.child (t, .contributed) (killEntry (s.child (t, .contributed)) who)) (u : Nat) :
    s'.held t u + (if u = who then s.amount t .contributed who else 0) = s.held t u := by
  have h1 : s'.child (t, .contributed) = killEntry (s.child (t, .contributed)) who := by rw [hs]; exact upd_same _ _ _
  have h2 : s'.child (t, .pending) = s.child (t, .pending) := by
    rw [hs]; exact upd_of_ne _ _ (pair_ne (by decide))
  have h3 : s'.child (t, .flying) = s.child (t, .flying) := by
    rw [hs]; exact upd_of_ne _ _ (pair_ne (by decide))
  unfold State.held State.amount
  rw [h1, h2, h3]
  by_cases hu : u = who
  · subst hu; rw [getEntry_kill, if_pos rfl]; dsimp only; omega
  · rw [getEntry_kill_ne hu, if_neg hu]; rfl

/-- What a successful claim does. -/
structure Claimed (c : Cfg) (s s' : State) (who : Nat) (k : Key) (force : Bool) (v : Vault) (m : Nat) : Prop where
  vault : s.vaults k = some v
  phase : force = true ∨ v.phase = .succeeded
  amount : m = s.amount v.trie .contributed who
  pos : m ≠ 0
  bal : ∃ l, s.tok.mint v.ctoken who m = .ok l ∧
    l.transfer c.native c.acct c.streaming.acct (streamed c s k.lease m) false = .ok s'.tok
  state : s' = { s with
    str := s'.str
    child := upd s.child (v.trie, .contributed) (killEntry (s.child (v.trie, .contributed)) who)
    log := s.log ++ [.claimed v.trie who m] }

theorem claim_act (hc : CfgOK c D) {s s' : State} {who : Nat} {k : Key} {f : Bool} (h : Inv c D s)
    (hx : claim c s who k f = .ok s') : ∃ v m, Claimed c s s' who k f v m ∧ Act c D s s' k v v := by
  unfold claim at hx
  simp only [bind_ok_iff, okOr_ok_iff, ensure_ok_iff, pure_ok_iff, exists_const] at hx
  obtain ⟨ct, hct, v, hv, hp, hm, l, hl, s1, h1, hs⟩ := hx
  have hcv := h.ctok _ _ hv
  rw [hct] at hcv
  cases hcv
  obtain ⟨hs1, hb⟩ := payBonus_ok h1
  have hst : s' = { s with
    str := s'.str
    child := upd s.child (v.trie, .contributed) (killEntry (s.child (v.trie, .contributed)) who)
    log := s.log ++ [.claimed v.trie who (getEntry (s.child (v.trie, .contributed)) who).amt] } := by
    rw [← hs, hs1]; rfl
  have htok : s'.tok = s1.tok := by rw [← hs]; rfl
  have hb' : l.transfer c.native c.acct c.streaming.acct
      (streamed c s k.lease (getEntry (s.child (v.trie, .contributed)) who).amt) false = .ok s'.tok := by
    rw [htok]; exact hb
  have hD : D v.ctoken := h.ctokD _ _ hct
  have hne : v.ctoken ≠ c.relay := by intro e; rw [e] at hD; exact hc.relayD hD
  have hgood : who ≠ c.acct := by
    have := (h.good _ _ _ (getEntry_mem hm)).2
    rw [getEntry_who] at this; exact this
  have hcl : Claimed c s s' who k f v (getEntry (s.child (v.trie, .contributed)) who).amt :=
    ⟨hv, hp, rfl, hm, ⟨l, hl, hb'⟩, hst⟩
  refine ⟨v, _, hcl, ?_⟩
  have hch : s'.child = upd s.child (v.trie, .contributed) (killEntry (s.child (v.trie, .contributed)) who) := by
    rw [hst]
  have hoff : ∀ p, p ≠ (v.trie, .contributed) → s'.child p = s.child p := by
    intro p hp; rw [hch]; exact upd_of_ne _ _ hp
  have hon : s'.child (v.trie, .contributed) = killEntry (s.child (v.trie, .contributed)) who := by
    rw [hch]; exact upd_same _ _ _
  have htot := total_kill (h.sorted v.trie .contributed) who
  have hiss : ∀ T, s'.tok.iss T = s.tok.iss T +
      (if T = v.ctoken then (getEntry (s.child (v.trie, .contributed)) who).amt else 0) := by
    intro T; rw [tr_iss hb', Ledger.mint_iss hl]
  refine ⟨hv, ?_, rfl, rfl, by rw [hst], by rw [hst], by rw [hst], ?_, ?_, ?_, ?_, ?_, Or.inl rfl, ?_, ?_, ?_, ?_, ?_, ?_,
    ⟨[.claimed v.trie who (getEntry (s.child (v.trie, .contributed)) who).amt], by rw [hst], ?_, ?_, rfl⟩⟩
  · rw [hst]; exact (congrArg State.vaults (putVault_self hv)).symm
  · intro t kd ht; exact hoff _ (fun e => ht (Prod.mk.inj e).1)
  · intro kd
    by_cases hk : kd = .contributed
    · subst hk; rw [hon]; exact (h.sorted _ _).kill _
    · rw [hoff _ (pair_ne hk)]; exact h.sorted _ _
  · rw [hoff _ (pair_ne (by decide))]
  · rw [hoff _ (pair_ne (by decide))]
  · intro kd e he
    by_cases hk : kd = .contributed
    · subst hk; rw [hon] at he; exact Or.inl (mem_killEntry he).1
    · rw [hoff _ (pair_ne hk)] at he; exact Or.inl he
  · intro q r hq; rw [hst] at hq; exact Or.inl hq
  · rw [hst]
  · exact Ledger.transfer_wf hb' (Ledger.mint_wf hl h.wf)
  · have h1 := Ledger.transfer_bal hb' c.relay c.acct
    have h2 := Ledger.mint_bal hl c.relay c.acct
    rw [if_neg (fun e => hc.native e.1.symm), if_neg (fun e => hc.native e.1.symm)] at h1
    omega
  · intro T hT hTn; rw [hiss, if_neg hTn]; rfl
  · rw [hiss, if_pos rfl, hon]; omega
  · intro e he; rw [List.mem_singleton] at he; subst he; rfl
  · intro u
    have := held_kill hch u
    simp only [logSum_single, Ev.paidBy, Ev.leftBy, true_and]
    unfold State.amount at this
    by_cases hu : u = who
    · subst hu; rw [if_pos rfl] at this ⊢; omega
    · rw [if_neg hu] at this; rw [if_neg (Ne.symm hu)]; omega

/-- What a successful withdrawal does. -/
structure Withdrew (c : Cfg) (s s' : State) (who : Nat) (k : Key) (v : Vault) (m : Nat) : Prop where
  vault : s.vaults k = some v
  phase : v.phase = .failed
  amount : m = s.amount v.trie .contributed who
  pos : m ≠ 0
  le : m ≤ v.contributed
  bal : s.tok.mint c.relay who m = .ok s'.tok
  state : s' = { s.putVault k { v with contributed := v.contributed - m } with
    str := s'.str
    child := upd s.child (v.trie, .contributed) (killEntry (s.child (v.trie, .contributed)) who)
    log := s.log ++ [.withdrew v.trie who m] }

theorem withdraw_act (hc : CfgOK c D) {s s' : State} {who : Nat} {k : Key} (h : Inv c D s)
    (hx : withdraw c s who k = .ok s') :
    ∃ v m, Withdrew c s s' who k v m ∧ Act c D s s' k v { v with contributed := v.contributed - m } := by
  unfold withdraw at hx
  simp only [bind_ok_iff, okOr_ok_iff, ensure_ok_iff, pure_ok_iff, exists_const, csub_ok_iff] at hx
  obtain ⟨v, hv, hp, hm, x, ⟨hle, rfl⟩, l, hl, hs⟩ := hx
  have htok : s'.tok = l := by rw [← hs]; rfl
  have hst : s' = { s.putVault k { v with
      contributed := v.contributed - (getEntry (s.child (v.trie, .contributed)) who).amt } with
    str := s'.str
    child := upd s.child (v.trie, .contributed) (killEntry (s.child (v.trie, .contributed)) who)
    log := s.log ++ [.withdrew v.trie who (getEntry (s.child (v.trie, .contributed)) who).amt] } := by
    rw [← hs]; rfl
  have hD : D v.ctoken := h.ctokD _ _ (h.ctok _ _ hv)
  have hne : ∀ T, D T → T ≠ c.relay := by intro T hT e; subst e; exact hc.relayD hT
  refine ⟨v, (getEntry (s.child (v.trie, .contributed)) who).amt, ⟨hv, hp, rfl, hm, hle, by rw [htok]; exact hl, hst⟩, ?_⟩
  have hch : s'.child = upd s.child (v.trie, .contributed) (killEntry (s.child (v.trie, .contributed)) who) := by
    rw [hst]
  have hoff : ∀ p, p ≠ (v.trie, .contributed) → s'.child p = s.child p := by
    intro p hp; rw [hch]; exact upd_of_ne _ _ hp
  have hon : s'.child (v.trie, .contributed) = killEntry (s.child (v.trie, .contributed)) who := by
    rw [hch]; exact upd_same _ _ _
  have htot := total_kill (h.sorted v.trie .contributed) who
  refine ⟨hv, by rw [hst]; rfl, rfl, rfl, by rw [hst]; rfl, by rw [hst]; rfl, by rw [hst]; rfl, ?_, ?_, ?_, ?_, ?_,
    Or.inl rfl, ?_, ?_, ?_, ?_, ?_, ?_,
    ⟨[.withdrew v.trie who (getEntry (s.child (v.trie, .contributed)) who).amt], by rw [hst], ?_, ?_, ?_⟩⟩
  · intro t kd ht; exact hoff _ (fun e => ht (Prod.mk.inj e).1)
  · intro kd
    by_cases hk : kd = .contributed
    · subst hk; rw [hon]; exact (h.sorted _ _).kill _
    · rw [hoff _ (pair_ne hk)]; exact h.sorted _ _
  · rw [hoff _ (pair_ne (by decide))]
  · rw [hoff _ (pair_ne (by decide))]
  · intro kd e he
    by_cases hk : kd = .contributed
    · subst hk; rw [hon] at he; exact Or.inl (mem_killEntry he).1
    · rw [hoff _ (pair_ne hk)] at he; exact Or.inl he
  · intro q r hq; rw [hst] at hq; exact Or.inl hq
  · rw [hst]; exact Nat.le_refl _
  · rw [htok]; exact Ledger.mint_wf hl h.wf
  · rw [htok, Ledger.mint_bal hl]
    show v.pending + v.flying + _ ≤ _
    omega
  · intro T hT _; rw [htok, Ledger.mint_iss hl, if_neg (hne T hT)]; rfl
  · rw [htok, Ledger.mint_iss hl, if_neg (hne _ hD), hon]
    show v.contributed - _ + _ + _ = _
    omega
  · intro e he; rw [List.mem_singleton] at he; subst he; rfl
  · intro u
    have := held_kill hch u
    simp only [logSum_single, Ev.paidBy, Ev.leftBy, true_and]
    unfold State.amount at this
    by_cases hu : u = who
    · subst hu; rw [if_pos rfl] at this ⊢; omega
    · rw [if_neg hu] at this; rw [if_neg (Ne.symm hu)]; omega
  · simp only [logSum_single, Ev.executedOn, Ev.mintedOn, if_true]
    omega

/-- What a successful redemption does. -/
structure Redeemed (c : Cfg) (s s' : State) (who : Nat) (k : Key) (m : Nat) (v : Vault) : Prop where
  vault : s.vaults k = some v
  phase : v.phase = .expired
  le : m ≤ v.contributed
  bal : ∃ l, s.tok.burn v.ctoken who m = .ok l ∧ l.mint c.relay who m = .ok s'.tok
  state : s' = { s.putVault k { v with contributed := v.contributed - m } with
    str := s'.str
    log := s.log ++ [.redeemed v.trie who m] }

theorem redeem_act (hc : CfgOK c D) {s s' : State} {who : Nat} {k : Key} {m : Nat} (h : Inv c D s)
    (hx : redeem c s who k m = .ok s') :
    ∃ v, Redeemed c s s' who k m v ∧ Act c D s s' k v { v with contributed := v.contributed - m } := by
  unfold redeem at hx
  simp only [bind_ok_iff, okOr_ok_iff, ensure_ok_iff, pure_ok_iff, exists_const, csub_ok_iff] at hx
  obtain ⟨ct, hct, v, hv, hp, hm, x, ⟨hle, rfl⟩, l, hl, l2, hl2, hs⟩ := hx
  have hcv := h.ctok _ _ hv
  rw [hct] at hcv
  cases hcv
  have htok : s'.tok = l2 := by rw [← hs]; rfl
  have hst : s' = { s.putVault k { v with contributed := v.contributed - m } with
    str := s'.str
    log := s.log ++ [.redeemed v.trie who m] } := by rw [← hs]; rfl
  have hD : D v.ctoken := h.ctokD _ _ hct
  have hne : ∀ T, D T → T ≠ c.relay := by intro T hT e; subst e; exact hc.relayD hT
  refine ⟨v, ⟨hv, hp, hle, ⟨l, hl, by rw [htok]; exact hl2⟩, hst⟩, ?_⟩
  have hch : s'.child = s.child := by rw [hst]; rfl
  have hheld : ∀ t u, s'.held t u = s.held t u := by
    intro t u; unfold State.held State.amount; rw [hch]
  have hb := Ledger.burn_le hl
  have hb2 := Ledger.bal_le_iss h.wf v.ctoken who
  refine ⟨hv, by rw [hst]; rfl, rfl, rfl, by rw [hst]; rfl, by rw [hst]; rfl, by rw [hst]; rfl, ?_, ?_, ?_, ?_, ?_,
    Or.inl rfl, ?_, ?_, ?_, ?_, ?_, ?_,
    ⟨[.redeemed v.trie who m], by rw [hst], ?_, ?_, ?_⟩⟩
  · intro t kd ht; rw [hch]
  · intro kd; rw [hch]; exact h.sorted _ _
  · rw [hch]
  · rw [hch]
  · intro kd e he; rw [hch] at he; exact Or.inl he
  · intro q r hq; rw [hst] at hq; exact Or.inl hq
  · rw [hst]; exact Nat.le_refl _
  · rw [htok]; exact Ledger.mint_wf hl2 (Ledger.burn_wf hl h.wf)
  · have h1 := Ledger.burn_bal hl c.relay c.acct
    rw [if_neg (fun e => hne _ hD e.1.symm)] at h1
    rw [htok, Ledger.mint_bal hl2]
    show v.pending + v.flying + _ ≤ _
    omega
  · intro T hT hTn
    rw [htok, Ledger.mint_iss hl2, if_neg (hne T hT), Ledger.burn_iss hl, if_neg hTn]; rfl
  · rw [htok, Ledger.mint_iss hl2, if_neg (hne _ hD), Ledger.burn_iss hl, if_pos rfl, hch]
    show v.contributed - m + _ + _ = _
    omega
  · intro e he; rw [List.mem_singleton] at he; subst he; rfl
  · intro u
    rw [hheld]; rfl
  · simp only [logSum_single, Ev.executedOn, Ev.mintedOn, if_true]
    omega

theorem redeemAndLend_act (hc : CfgOK c D) {s s' : State} {who : Nat} {k : Key} {m : Nat} (h : Inv c D s)
    (hx : redeemAndLend c s who k m = .ok s') :
    ∃ v s1, Redeemed c s s1 who k m v ∧ s1.tok.transfer c.relay who c.loansAcct m false = .ok s'.tok ∧
      0 < s.nonce who ∧ s' = s1.withTok s'.tok ∧
      Act c D s s' k v { v with contributed := v.contributed - m } := by
  unfold redeemAndLend at hx
  simp only [bind_ok_iff, ensure_ok_iff, pure_ok_iff, exists_const] at hx
  obtain ⟨hn, s1, h1, l, hl, rfl⟩ := hx
  obtain ⟨v, hr, ha⟩ := redeem_act hc h h1
  have hD : D v.ctoken := h.ctokD _ _ (h.ctok _ _ hr.vault)
  refine ⟨v, s1, hr, hl, hn, rfl, ?_⟩
  refine ha.withTok (Ledger.transfer_wf hl ha.wf) ?_ (fun T hT => tr_iss hl T) hD
  obtain ⟨l0, hb, hmt⟩ := hr.bal
  have h2 := Ledger.mint_bal hmt c.relay c.acct
  have h3 := Ledger.burn_bal hb c.relay c.acct
  rw [if_neg (fun e => by rw [← e.1] at hD; exact hc.relayD hD)] at h3
  have h4 := Ledger.transfer_bal hl c.relay c.acct
  show v.pending + v.flying + _ ≤ _
  simp only [true_and] at h2 h4
  by_cases hw : c.acct = who
  · rw [if_pos hw] at h2 h4; omega
  · rw [if_neg hw] at h2 h4; omega

/-! ## Answers from the relay chain -/

/-- What a confirmed contribution does. -/
structure Confirmed (c : Cfg) (s s' : State) (k : Key) (who m : Nat) (v v' : Vault) : Prop where
  vault : s.vaults k = some v
  bal : s.tok.burn c.relay c.acct m = .ok s'.tok
  mig : ∃ s1, Mig (s.withTok s'.tok) s1 v v' who m .flying .contributed ∧ s'.child = s1.child
  state : s' = { s.putVault k v' with
    str := s'.str
    child := s'.child
    log := s.log ++ [.executed v.trie who m] }

theorem contributed_act (hc : CfgOK c D) {s s' : State} {k : Key} {who m : Nat} (h : Inv c D s) (hw : who ≠ c.acct)
    (hx : contributed c s k who m = .ok s') : ∃ v v', Confirmed c s s' k who m v v' ∧ Act c D s s' k v v' := by
  unfold contributed at hx
  simp only [bind_ok_iff, okOr_ok_iff, pure_ok_iff, Prod.exists, exists_const] at hx
  obtain ⟨v, hv, l, hl, s1, v1, h1, hs⟩ := hx
  have hu := migrateContribution_ok (by decide) h1
  have hst1 := hu.state
  have htok : s'.tok = l := by rw [← hs]; show s1.tok = l; rw [hst1]; rfl
  have hch : s'.child = s1.child := by rw [← hs]; rfl
  have hst : s' = { s.putVault k v1 with
    str := s'.str
    child := s'.child
    log := s.log ++ [.executed v.trie who m] } := by
    rw [← hs, hst1, hu.same.trie]; rfl
  have hb := Ledger.burn_bal hl c.relay c.acct
  rw [if_pos ⟨rfl, rfl⟩] at hb
  have hle := Ledger.burn_le hl
  have a1 : v1.flying = v.flying - m := hu.srcV.2.1
  have a2 : m ≤ v.flying := hu.srcV.1
  have a3 : v1.contributed = v.contributed + m := hu.dstV.1
  have a4 : v1.pending = v.pending := hu.oth .pending (by decide) (by decide)
  have hne : ∀ T, D T → T ≠ c.relay := by intro T hT e; subst e; exact hc.relayD hT
  refine ⟨v, v1, ⟨hv, by rw [htok]; exact hl, ⟨s1, by rw [htok]; exact hu, hch⟩, hst⟩, ?_⟩
  refine act_mig (ev := [.executed v.trie who m]) h hv (by decide) hu rfl ?_ hch ?_ ?_ ?_ ?_ hw ?_ ?_ ?_ ?_ ?_ ?_ ?_ ?_
  · rw [hst]; rfl
  · rw [hst]; rfl
  · rw [hst]; rfl
  · rw [hst]; rfl
  · rw [hst]
  · intro q r hq; rw [hst] at hq; exact Or.inl hq
  · rw [hst]; exact Nat.le_refl _
  · rw [htok]; exact Ledger.burn_wf hl h.wf
  · rw [htok]; omega
  · intro T hT; rw [htok, Ledger.burn_iss hl, if_neg (hne T hT)]; rfl
  · intro e he; rw [List.mem_singleton] at he; subst he; rfl
  · intro u; rfl
  · simp only [logSum_single, Ev.executedOn, Ev.mintedOn, if_true]
    omega

theorem bounced_eq {s : State} {k : Key} {v : Vault} {who m : Nat} (hv : s.vaults k = some v) :
    bounced c s k who m = (refundOne c s v .flying who m).bind (fun p => .ok (p.1.putVault k p.2)) := by
  unfold bounced refundOne refundPay
  rw [hv, if_neg (by decide)]
  show _ = _
  cases h1 : s.tok.transfer c.relay c.acct who m false with
  | error e => rfl
  | ok l =>
    cases h2 : updateContribution (s.withTok l) v who m none false .flying with
    | error e =>
      show ((updateContribution (s.withTok l) v who m none false .flying).bind _) =
        ((updateContribution (s.withTok l) v who m none false .flying).bind _).bind _
      rw [h2]; rfl
    | ok p =>
      show ((updateContribution (s.withTok l) v who m none false .flying).bind _) =
        ((updateContribution (s.withTok l) v who m none false .flying).bind _).bind _
      rw [h2]; rfl

theorem bounced_act (hc : CfgOK c D) {s s' : State} {k : Key} {who m : Nat} (h : Inv c D s)
    (hx : bounced c s k who m = .ok s') : ∃ v v' l s1, s.vaults k = some v ∧
      s.tok.transfer c.relay c.acct who m false = .ok l ∧ Upd (s.withTok l) s1 v v' who m false .flying ∧
      s' = { (s.withTok l).putVault k v' with
          child := s1.child
          log := s.log ++ [.back v.trie .flying who m] } ∧ Act c D s s' k v v' := by
  have hv : ∃ v, s.vaults k = some v := by
    unfold bounced at hx
    simp only [bind_ok_iff, okOr_ok_iff] at hx
    obtain ⟨v, hv, _⟩ := hx
    exact ⟨v, hv⟩
  obtain ⟨v, hv⟩ := hv
  rw [bounced_eq hv] at hx
  cases h1 : refundOne c s v .flying who m with
  | error e => rw [h1] at hx; cases hx
  | ok p =>
    rw [h1] at hx
    obtain ⟨s1, v1⟩ := p
    cases hx
    have h' : Inv c D (s.putVault k v) := by rw [putVault_self hv]; exact h
    obtain ⟨ha, l, s2, hl, hu, hs1⟩ := refund_step hc h' h1
    rw [putVault_self hv] at ha
    unfold refundPay at hl
    rw [if_neg (by decide)] at hl
    exact ⟨v, v1, l, s2, hv, hl, hu, by dsimp only; rw [hs1]; rfl, ha⟩

theorem notify_inv (hc : CfgOK c D) {s s' : State} {q : Nat} {e : Bool} (h : Inv c D s)
    (hx : notify c s q e = .ok s') : s' = s ∨ ∃ k v v', Act c D s s' k v v' := by
  unfold notify at hx
  split at hx
  · cases hx; exact Or.inl rfl
  · rename_i k who m code hr
    rw [bind_ok_iff] at hx
    obtain ⟨s1, h1, h2⟩ := hx
    rw [pure_ok_iff] at h2
    subst h2
    obtain ⟨v, v', _, ha⟩ := contributed_act hc h (h.reqs _ _ hr).1 h1
    exact Or.inr ⟨k, v, v', ha.dropReq q⟩
  · rename_i k who m code hr
    obtain ⟨v, v', _, _, _, _, _, _, ha⟩ := bounced_act hc h hx
    exact Or.inr ⟨k, v, v', ha⟩
  · rename_i k m target hr
    rw [bind_ok_iff] at hx
    obtain ⟨s1, h1, h2⟩ := hx
    rw [pure_ok_iff] at h2
    subst h2
    obtain ⟨v, _, _, ha⟩ := withdrawn_act h (h.reqs _ _ hr).1 h1
    exact Or.inr ⟨k, v, _, ha.dropReq q⟩
  · cases hx; exact Or.inl rfl

/-! ## Creating and dissolving vaults -/

theorem createVault_ok {s s' : State} {k : Key} {ct : Nat} {p : Bool} {cap eb : Nat}
    (hx : createVault s k ct p cap eb = .ok s') : cap ≠ 0 ∧ k.start ≤ k.stop ∧
      (s.ctokenOf k.lease = none ∨ s.ctokenOf k.lease = some ct) ∧ s.vaults k = none ∧
      (∀ k' v, s.current k.para = some (k', v) → v.phase.finished) ∧ s.relayBlock ≤ eb ∧ s.nextTrie + 1 ≤ maxU32 ∧
      s' = { s with
        nextTrie := s.nextTrie + 1
        vaults := upd s.vaults k (some ⟨ct, .pending, 0, 0, 0, p, cap, eb, s.nextTrie⟩)
        ctokenOf := upd s.ctokenOf k.lease (some ct)
        leaseOf := upd s.leaseOf k.para (some k.lease) } := by
  unfold createVault at hx
  simp only [bind_ok_iff, ensure_ok_iff, pure_ok_iff, exists_const] at hx
  obtain ⟨h1, h2, h3, h4, _, h5, h6, h7, rfl⟩ := hx
  refine ⟨h1, h2, h3, h4, ?_, h6, h7, rfl⟩
  intro k' v hcur
  unfold prevFinished at h5
  rw [hcur] at h5
  have h8 := ensure_ok_iff.mp h5
  exact h8

theorem createVault_inv {s s' : State} {k : Key} {ct : Nat} {p : Bool} {cap eb : Nat} (h : Inv c D s) (hD : D ct)
    (hx : createVault s k ct p cap eb = .ok s') : Inv c D s' := by
  obtain ⟨_, _, hct, hnone, hprev, _, _, rfl⟩ := createVault_ok hx
  have hnew : ∀ kd, s.child (s.nextTrie, kd) = [] := by
    intro kd
    apply h.orphan
    intro x w hw e
    have := h.trieLt x w hw
    omega
  have hkey : ∀ {x : Key} {w : Vault},
      upd s.vaults k (some (⟨ct, .pending, 0, 0, 0, p, cap, eb, s.nextTrie⟩ : Vault)) x = some w →
      (x = k ∧ w = ⟨ct, .pending, 0, 0, 0, p, cap, eb, s.nextTrie⟩) ∨ (x ≠ k ∧ s.vaults x = some w) := by
    intro x w hw
    by_cases hxk : x = k
    · subst hxk; rw [upd_same] at hw; cases hw; exact Or.inl ⟨rfl, rfl⟩
    · rw [upd_of_ne _ _ hxk] at hw; exact Or.inr ⟨hxk, hw⟩
  constructor
  · exact h.wf
  · exact h.sorted
  · exact h.good
  · intro x w hw
    show w.trie < s.nextTrie + 1
    rcases hkey hw with ⟨_, rfl⟩ | ⟨_, hw⟩
    · exact Nat.lt_succ_self _
    · have := h.trieLt x w hw; omega
  · intro x y w z hw hz e
    rcases hkey hw with ⟨rfl, rfl⟩ | ⟨hxk, hw'⟩ <;> rcases hkey hz with ⟨rfl, rfl⟩ | ⟨hyk, hz'⟩
    · rfl
    · have := h.trieLt y z hz'; simp only at e; omega
    · have := h.trieLt x w hw'; simp only at e; omega
    · exact h.trieInj x y w z hw' hz' e
  · intro t kd ht
    apply h.orphan
    intro x w hw
    by_cases hxk : x = k
    · subst hxk; rw [hnone] at hw; cases hw
    · exact ht x w (by rw [← hw]; exact upd_of_ne _ _ hxk)
  · intro x w hw
    rcases hkey hw with ⟨_, rfl⟩ | ⟨_, hw⟩
    · show 0 = total (s.child (s.nextTrie, .pending)); rw [hnew]; rfl
    · exact h.pend x w hw
  · intro x w hw
    rcases hkey hw with ⟨_, rfl⟩ | ⟨_, hw⟩
    · show 0 = total (s.child (s.nextTrie, .flying)); rw [hnew]; rfl
    · exact h.fly x w hw
  · intro q l hl
    by_cases hq : q = k.para
    · subst hq
      have : some k.lease = some l := by rw [← hl]; exact (upd_same _ _ _).symm
      cases this
      exact ⟨_, upd_same _ _ _⟩
    · have hl' : s.leaseOf q = some l := by rw [← hl]; exact (upd_of_ne _ _ hq).symm
      obtain ⟨w, hw⟩ := h.cur q l hl'
      refine ⟨w, ?_⟩
      rw [← hw]
      exact upd_of_ne _ _ (by intro e; rw [← e] at hq; exact hq rfl)
  · intro x w hw
    rcases hkey hw with ⟨rfl, rfl⟩ | ⟨hxk, hw⟩
    · exact Or.inl (upd_same _ _ _)
    · by_cases hq : x.para = k.para
      · right
        rcases h.old x w hw with o | o
        · exact hprev x w (by rw [current_iff]; rw [← hq]; exact ⟨o, rfl, hw⟩)
        · exact o
      · rcases h.old x w hw with o | o
        · left; rw [← o]; exact upd_of_ne _ _ hq
        · exact Or.inr o
  · apply h.backed.update k
    · intro x hxk
      unfold State.owed
      dsimp only
      rw [upd_of_ne _ _ hxk]
    · unfold State.owed
      dsimp only
      rw [upd_same, hnone]
      show 0 + 0 + s.tok.bal c.relay c.acct ≤ 0 + s.tok.bal c.relay c.acct
      omega
  · intro x w hw
    rcases hkey hw with ⟨rfl, rfl⟩ | ⟨hxk, hw⟩
    · exact upd_same _ _ _
    · have hcx := h.ctok x w hw
      by_cases hq : x.lease = k.lease
      · rw [hq] at hcx
        rw [hq]
        show upd s.ctokenOf k.lease (some ct) k.lease = _
        rw [upd_same]
        rcases hct with hct | hct
        · rw [hct] at hcx; cases hcx
        · rw [hct] at hcx; exact hcx
      · rw [← hcx]; exact upd_of_ne _ _ hq
  · intro l T hl
    by_cases hq : l = k.lease
    · subst hq
      have : some ct = some T := by rw [← hl]; exact (upd_same _ _ _).symm
      cases this
      exact hD
    · exact h.ctokD l T (by rw [← hl]; exact (upd_of_ne _ _ hq).symm)
  · exact h.reqs
  · intro T hT
    obtain ⟨B, hB, hA⟩ := h.claims T hT
    refine ⟨B, ?_, ?_⟩
    · apply hB.update k
      · intro x hxk
        unfold State.unclaimed
        dsimp only
        rw [upd_of_ne _ _ hxk]
      · unfold State.unclaimed
        dsimp only
        rw [upd_same, hnone]
        dsimp only
        rw [hnew]
        simp only [total_nil]
        split_ifs <;> rfl
    · apply hA.update k
      · intro x hxk
        unfold State.invested
        dsimp only
        rw [upd_of_ne _ _ hxk]
      · unfold State.invested
        dsimp only
        rw [upd_same, hnone]
        dsimp only
        split_ifs <;> rfl
  · intro e he
    have := h.logTrie e he
    show e.trie < s.nextTrie + 1
    omega
  · exact h.paid
  · intro x w hw
    rcases hkey hw with ⟨rfl, rfl⟩ | ⟨hxk, hw⟩
    · show logSum (Ev.executedOn s.nextTrie) s.log = 0 + logSum (Ev.mintedOn s.nextTrie) s.log
      have hne : ∀ e ∈ s.log, e.trie ≠ s.nextTrie := by
        intro e he; have := h.logTrie e he; omega
      rw [logSum_off (fun e he => executedOn_off (hne e he)), logSum_off (fun e he => mintedOn_off (hne e he))]
    · exact h.minted x w hw
  · intro t ht
    apply h.gone
    intro x w hw
    by_cases hxk : x = k
    · subst hxk; rw [hnone] at hw; cases hw
    · exact ht x w (by rw [← hw]; exact upd_of_ne _ _ hxk)

theorem contributions_nil {s : State} {t : Nat} (h : s.contributions t = []) (kd : Kind) : s.child (t, kd) = [] := by
  unfold State.contributions at h
  simp only [List.append_eq_nil_iff, List.map_eq_nil_iff] at h
  cases kd
  exacts [h.2, h.1.2, h.1.1]

theorem dissolve_ok {s s' : State} {k : Key} (hx : dissolve s k = .ok s') : ∃ v, s.vaults k = some v ∧
    (v.phase = .closed ∨ v.phase = .failed ∨ v.phase = .expired) ∧ s.contributions v.trie = [] ∧
    v.contributed = 0 ∧ v.flying = 0 ∧ v.pending = 0 ∧
    s' = { s with
      vaults := upd s.vaults k none
      leaseOf := if s.leaseOf k.para = some k.lease then upd s.leaseOf k.para none else s.leaseOf } := by
  unfold dissolve at hx
  simp only [bind_ok_iff, okOr_ok_iff, ensure_ok_iff, pure_ok_iff, exists_const, total_ok_iff] at hx
  obtain ⟨v, hv, hp, hc, t, ⟨_, ht⟩, h0, rfl⟩ := hx
  exact ⟨v, hv, hp, hc, by omega, by omega, by omega, rfl⟩

theorem dissolve_inv {s s' : State} {k : Key} (h : Inv c D s) (hx : dissolve s k = .ok s') : Inv c D s' := by
  obtain ⟨v, hv, _, hcon, z1, z2, z3, rfl⟩ := dissolve_ok hx
  have hkey : ∀ {x : Key} {w : Vault}, upd s.vaults k none x = some w → x ≠ k ∧ s.vaults x = some w := by
    intro x w hw
    by_cases hxk : x = k
    · subst hxk; rw [upd_same] at hw; cases hw
    · rw [upd_of_ne _ _ hxk] at hw; exact ⟨hxk, hw⟩
  constructor
  · exact h.wf
  · exact h.sorted
  · exact h.good
  · intro x w hw; exact h.trieLt x w (hkey hw).2
  · intro x y w z hw hz e; exact h.trieInj x y w z (hkey hw).2 (hkey hz).2 e
  · intro t kd ht
    by_cases e : t = v.trie
    · subst e; exact contributions_nil hcon kd
    · apply h.orphan
      intro x w hw
      by_cases hxk : x = k
      · subst hxk; rw [hv] at hw; cases hw; exact Ne.symm e
      · exact ht x w (by rw [← hw]; exact upd_of_ne _ _ hxk)
  · intro x w hw; exact h.pend x w (hkey hw).2
  · intro x w hw; exact h.fly x w (hkey hw).2
  · intro q l hl
    have hl' : s.leaseOf q = some l ∧ (⟨q, l.1, l.2⟩ : Key) ≠ k := by
      dsimp only at hl
      split_ifs at hl with hc
      · by_cases hq : q = k.para
        · subst hq; rw [upd_same] at hl; cases hl
        · rw [upd_of_ne _ _ hq] at hl
          exact ⟨hl, by intro e; rw [← e] at hq; exact hq rfl⟩
      · refine ⟨hl, ?_⟩
        intro e
        apply hc
        rw [← e]; exact hl
    obtain ⟨w, hw⟩ := h.cur q l hl'.1
    exact ⟨w, by rw [← hw]; exact upd_of_ne _ _ hl'.2⟩
  · intro x w hw
    obtain ⟨hxk, hw⟩ := hkey hw
    rcases h.old x w hw with o | o
    · left
      dsimp only
      split_ifs with hc
      · by_cases hq : x.para = k.para
        · exfalso
          apply hxk
          rw [hq, hc] at o
          have : k.lease = x.lease := Option.some.inj o
          cases x; cases k
          simp only [Key.lease, Prod.mk.injEq] at this hq
          obtain ⟨rfl, rfl⟩ := this
          subst hq; rfl
        · rw [upd_of_ne _ _ hq]; exact o
      · exact o
    · exact Or.inr o
  · apply h.backed.mono
    · intro x
      unfold State.owed
      dsimp only
      by_cases hxk : x = k
      · subst hxk; rw [upd_same]; exact Nat.zero_le _
      · rw [upd_of_ne _ _ hxk]
    · exact Nat.le_refl _
  · intro x w hw; exact h.ctok x w (hkey hw).2
  · exact h.ctokD
  · exact h.reqs
  · intro T hT
    obtain ⟨B, hB, hA⟩ := h.claims T hT
    refine ⟨B, ?_, ?_⟩
    · apply hB.congr
      intro x
      unfold State.unclaimed
      dsimp only
      by_cases hxk : x = k
      · subst hxk
        rw [upd_same, hv]
        dsimp only
        rw [contributions_nil hcon]
        simp
      · rw [upd_of_ne _ _ hxk]
    · apply hA.congr
      intro x
      unfold State.invested
      dsimp only
      by_cases hxk : x = k
      · subst hxk
        rw [upd_same, hv]
        simp [z1]
      · rw [upd_of_ne _ _ hxk]
  · exact h.logTrie
  · exact h.paid
  · intro x w hw; exact h.minted x w (hkey hw).2
  · intro t ht
    by_cases e : t = v.trie
    · subst e
      have := h.minted _ _ hv
      show logSum (Ev.executedOn v.trie) s.log = logSum (Ev.mintedOn v.trie) s.log
      omega
    · apply h.gone
      intro x w hw
      by_cases hxk : x = k
      · subst hxk; rw [hv] at hw; cases hw; exact Ne.symm e
      · exact ht x w (by rw [← hw]; exact upd_of_ne _ _ hxk)

/-! ## The invariant -/

theorem exec_inv (hc : CfgOK c D) {s s' : State} {x : Call} (h : Inv c D s) (hx : callOK c D x)
    (he : exec c s x = .ok s') : Inv c D s' := by
  cases x with
  | createVault k ct p cap eb => exact createVault_inv h hx he
  | updateVault para cap eb p => obtain ⟨k, v, v', _, _, _, _, _, ha⟩ := updateVault_act h he; exact h.act ha
  | «open» para => obtain ⟨k, v, _, _, _, ha⟩ := movePhase_act h he; exact h.act ha
  | contribute who para m code => obtain ⟨k, v, v', _, ha⟩ := contribute_act hc h hx he; exact h.act ha
  | setVrf f =>
    cases he
    exact h.congr rfl rfl rfl rfl rfl rfl (Nat.le_refl _) rfl h.wf (Nat.le_refl _) (fun _ _ => rfl)
  | close para => obtain ⟨k, v, _, _, _, ha⟩ := movePhase_act h he; exact h.act ha
  | reopen para => obtain ⟨k, v, _, _, _, ha⟩ := movePhase_act h he; exact h.act ha
  | auctionSucceeded para => obtain ⟨k, v, _, _, _, ha⟩ := movePhase_act h he; exact h.act ha
  | auctionFailed para => obtain ⟨k, v, _, _, _, _, ha⟩ := askBack_act hc h (Or.inl rfl) he; exact h.act ha
  | claim who k => obtain ⟨v, m, _, ha⟩ := claim_act hc h he; exact h.act ha
  | withdraw who k => obtain ⟨v, m, _, ha⟩ := withdraw_act hc h he; exact h.act ha
  | redeem who k m => obtain ⟨v, _, ha⟩ := redeem_act hc h he; exact h.act ha
  | slotExpired para => obtain ⟨k, v, _, _, _, _, ha⟩ := askBack_act hc h (Or.inr rfl) he; exact h.act ha
  | migratePending para => exact (migratePending_inv hc h he).1
  | notify q e =>
    rcases notify_inv hc h he with rfl | ⟨k, v, v', ha⟩
    · exact h
    · exact h.act ha
  | refund k => exact (refund_inv hc h he).1
  | dissolve k => exact dissolve_inv h he
  | refundFor who k kd m => obtain ⟨v, v', l, s1, _, _, _, _, _, _, ha⟩ := refundFor_act hc h he; exact h.act ha
  | updateProxy p =>
    cases he
    exact h.congr rfl rfl rfl rfl rfl rfl (Nat.le_refl _) rfl h.wf (Nat.le_refl _) (fun _ _ => rfl)
  | updateBonus lease b =>
    have he' : updateBonus s lease b = .ok s' := he
    unfold updateBonus at he'
    simp only [bind_ok_iff, ensure_ok_iff, pure_ok_iff, exists_const] at he'
    obtain ⟨_, _, rfl⟩ := he'
    exact h.congr rfl rfl rfl rfl rfl rfl (Nat.le_refl _) rfl h.wf (Nat.le_refl _) (fun _ _ => rfl)
  | forceClaim who k => obtain ⟨v, m, _, ha⟩ := claim_act hc h he; exact h.act ha
  | redeemAndLend who k m => obtain ⟨v, s1, _, _, _, _, ha⟩ := redeemAndLend_act hc h he; exact h.act ha

theorem Reach.inv (hc : CfgOK c D) {s : State} (h : Reach c D s) : Inv c D s := by
  induction h with
  | init h => exact h.inv
  | call _ hx he ih => exact exec_inv hc ih hx he
  | env _ he ih => exact he.inv ih

end Verif.Crowdloans
