import Verif.Crowdloans.Props2

/-! # C100–C105: phases, vault identity, answers, progress, dissolution, lease progress -/

set_option linter.unusedSimpArgs false

namespace Verif.Crowdloans
open Verif

variable {c : Cfg} {D : Nat → Prop}

/-! ## C100: the phases of a vault -/

/-- The intended life of a vault. -/
inductive Edge : Phase → Phase → Prop
  | «open» : Edge .pending .contributing
  | close : Edge .contributing .closed
  | reopen : Edge .closed .contributing
  | won : Edge .closed .succeeded
  | lost : Edge .closed .failed
  | expired : Edge .succeeded .expired

/-- What the code guarantees: a phase changes only by `open`, `close`, `reopen` and `auction_succeeded` of its parachain
along the intended edges, or when the relay chain confirms a withdrawal that was requested for this vault, and then only
to the target of the request, which is `Failed` or `Expired`. -/
theorem C100_phase_partial (hc : CfgOK c D) {s s' : State} (hr : Reach c D s) {x : Call} (hx : callOK c D x)
    (he : exec c s x = .ok s') {k : Key} {v v' : Vault} (hv : s.vaults k = some v) (hv' : s'.vaults k = some v')
    (hne : v'.phase ≠ v.phase) :
    (x = .open k.para ∧ v.phase = .pending ∧ v'.phase = .contributing) ∨
    (x = .close k.para ∧ v.phase = .contributing ∧ v'.phase = .closed) ∨
    (x = .reopen k.para ∧ v.phase = .closed ∧ v'.phase = .contributing) ∨
    (x = .auctionSucceeded k.para ∧ v.phase = .closed ∧ v'.phase = .succeeded) ∨
    (∃ q m, x = .notify q true ∧ s.requests q = some (.withdraw k m v'.phase) ∧
      (v'.phase = .failed ∨ v'.phase = .expired)) := by
  have h := hr.inv hc
  have key : ∀ {k0 : Key} {v0 v1 : Vault}, Act c D s s' k0 v0 v1 → v1.phase = v0.phase → False := by
    intro k0 v0 v1 ha hle
    by_cases hk : k = k0
    · subst hk
      rw [ha.here] at hv; cases hv
      rw [ha.vaults, upd_same] at hv'; cases hv'
      exact hne hle
    · rw [ha.vaults, upd_of_ne _ _ hk, hv] at hv'; cases hv'; exact hne rfl
  have same : s'.vaults = s.vaults → False := by
    intro e; rw [e, hv] at hv'; cases hv'; exact hne rfl
  have put : ∀ {k0 : Key} {v0 v1 : Vault}, s.vaults k0 = some v0 → s'.vaults = upd s.vaults k0 (some v1) →
      v1.phase = v0.phase → False := by
    intro k0 v0 v1 h0 h1 h2
    by_cases hk : k = k0
    · subst hk
      rw [h0] at hv; cases hv
      rw [h1, upd_same] at hv'; cases hv'
      exact hne h2
    · rw [h1, upd_of_ne _ _ hk, hv] at hv'; cases hv'; exact hne rfl
  have move : ∀ {para : Nat} {pre post : Phase}, movePhase s para pre post = .ok s' →
      para = k.para ∧ v.phase = pre ∧ v'.phase = post := by
    intro para pre post hx
    obtain ⟨k0, v0, hcur, hp, rfl, ha⟩ := movePhase_act h hx
    by_cases hk : k = k0
    · subst hk
      rw [ha.here] at hv; cases hv
      rw [ha.vaults, upd_same] at hv'; cases hv'
      exact ⟨(current_iff.mp hcur).2.1.symm, hp, rfl⟩
    · rw [ha.vaults, upd_of_ne _ _ hk, hv] at hv'; cases hv'; exact absurd rfl hne
  cases x with
  | createVault k0 ct p cap eb =>
    exfalso
    obtain ⟨_, _, _, hn, _, _, _, rfl⟩ := createVault_ok he
    have hk : k ≠ k0 := by rintro rfl; rw [hn] at hv; cases hv
    have : upd s.vaults k0 _ k = some v' := hv'
    rw [upd_of_ne _ _ hk, hv] at this; cases this; exact hne rfl
  | updateVault para cap eb p =>
    obtain ⟨k0, v0, v1, _, e, _, _, _, ha⟩ := updateVault_act h he
    exact (key ha (by rw [e])).elim
  | «open» para => obtain ⟨rfl, h1, h2⟩ := move he; exact Or.inl ⟨rfl, h1, h2⟩
  | contribute who para m code =>
    obtain ⟨k0, v0, v1, hC, ha⟩ := contribute_act hc h hx he
    obtain ⟨_, _, _, _, _, hu, _⟩ := hC.upd
    exact (key ha hu.same.phase).elim
  | setVrf f => cases he; exact (same rfl).elim
  | close para => obtain ⟨rfl, h1, h2⟩ := move he; exact Or.inr (Or.inl ⟨rfl, h1, h2⟩)
  | reopen para => obtain ⟨rfl, h1, h2⟩ := move he; exact Or.inr (Or.inr (Or.inl ⟨rfl, h1, h2⟩))
  | auctionSucceeded para => obtain ⟨rfl, h1, h2⟩ := move he; exact Or.inr (Or.inr (Or.inr (Or.inl ⟨rfl, h1, h2⟩)))
  | auctionFailed para =>
    obtain ⟨k0, v0, _, _, _, _, ha⟩ := askBack_act hc h (Or.inl rfl) he; exact (key ha rfl).elim
  | claim who k0 => obtain ⟨v0, m, _, ha⟩ := claim_act hc h he; exact (key ha rfl).elim
  | withdraw who k0 => obtain ⟨v0, m, _, ha⟩ := withdraw_act hc h he; exact (key ha rfl).elim
  | redeem who k0 m => obtain ⟨v0, _, ha⟩ := redeem_act hc h he; exact (key ha rfl).elim
  | slotExpired para =>
    obtain ⟨k0, v0, _, _, _, _, ha⟩ := askBack_act hc h (Or.inr rfl) he; exact (key ha rfl).elim
  | migratePending para =>
    obtain ⟨_, k0, v0, s1, v1, hcur, _, _, rfl, hm⟩ := migratePending_inv hc h he
    have hs : (s1.putVault k0 v1).vaults = upd s.vaults k0 (some v1) := by
      show upd s1.vaults k0 _ = _; rw [hm.vaults]
    exact (put (current_iff.mp hcur).2.2 hs hm.same.phase).elim
  | notify q e =>
    have he' : notify c s q e = .ok s' := he
    unfold notify at he'
    split at he'
    · cases he'; exact (same rfl).elim
    · rename_i k0 who m code hq
      rw [bind_ok_iff] at he'
      obtain ⟨s1, h1, h2⟩ := he'
      rw [pure_ok_iff] at h2; subst h2
      obtain ⟨v0, v1, hC, ha⟩ := contributed_act hc h (h.reqs _ _ hq).1 h1
      obtain ⟨s2, hu, _⟩ := hC.mig
      exact (key (ha.dropReq q) hu.same.phase).elim
    · obtain ⟨v0, v1, _, _, _, _, hu, _, ha⟩ := bounced_act hc h he'
      exact (key ha hu.same.phase).elim
    · rename_i k0 m target hq
      rw [bind_ok_iff] at he'
      obtain ⟨s1, h1, h2⟩ := he'
      rw [pure_ok_iff] at h2; subst h2
      obtain ⟨v0, hv0, _, ha⟩ := withdrawn_act h (h.reqs _ _ hq).1 h1
      by_cases hk : k = k0
      · subst hk
        have hb := ha.dropReq q
        rw [hb.vaults, upd_same] at hv'; cases hv'
        exact Or.inr (Or.inr (Or.inr (Or.inr ⟨q, m, rfl, hq, (h.reqs _ _ hq).1⟩)))
      · have hb := ha.dropReq q
        rw [hb.vaults, upd_of_ne _ _ hk, hv] at hv'; cases hv'; exact absurd rfl hne
    · cases he'; exact (same rfl).elim
  | refund k0 =>
    obtain ⟨_, v0, s1, v1, hv0, _, rfl, hm⟩ := refund_inv hc h he
    have hs : (s1.putVault k0 v1).vaults = upd s.vaults k0 (some v1) := by
      show upd s1.vaults k0 _ = _; rw [hm.vaults]
    exact (put hv0 hs hm.same.phase).elim
  | dissolve k0 =>
    exfalso
    obtain ⟨v0, hv0, _, _, _, _, _, rfl⟩ := dissolve_ok he
    have hs : upd s.vaults k0 none k = some v' := hv'
    by_cases hk : k = k0
    · subst hk; rw [upd_same] at hs; cases hs
    · rw [upd_of_ne _ _ hk, hv] at hs; cases hs; exact hne rfl
  | refundFor who k0 kd m =>
    obtain ⟨v0, v1, l, s1, _, _, _, _, hu, _, ha⟩ := refundFor_act hc h he
    exact (key ha hu.same.phase).elim
  | updateProxy p => cases he; exact (same rfl).elim
  | updateBonus lease b =>
    have he' : updateBonus s lease b = .ok s' := he
    unfold updateBonus at he'
    simp only [bind_ok_iff, ensure_ok_iff, pure_ok_iff, exists_const] at he'
    obtain ⟨_, _, rfl⟩ := he'
    exact (same rfl).elim
  | forceClaim who k0 => obtain ⟨v0, m, _, ha⟩ := claim_act hc h he; exact (key ha rfl).elim
  | redeemAndLend who k0 m => obtain ⟨v0, s1, _, _, _, _, ha⟩ := redeemAndLend_act hc h he; exact (key ha rfl).elim

/-- The full expectation: phases change only along the intended edges. -/
def C100_statement : Prop :=
  ∀ (c : Cfg) (D : Nat → Prop) (s s' : State) (x : Call) (k : Key) (v v' : Vault), CfgOK c D → Reach c D s →
    callOK c D x → exec c s x = .ok s' → s.vaults k = some v → s'.vaults k = some v' → v'.phase ≠ v.phase →
    Edge v.phase v'.phase

/-- The auction is first declared lost, then won before the relay chain's answer arrives. -/
def exCalls5 : List Call :=
  [.createVault exK 50 false 1000 100, .open 2000, .contribute 7 2000 100 0, .notify 0 true, .close 2000,
   .auctionFailed 2000, .auctionSucceeded 2000]

def ex5 : State := runAll exC ex0 exCalls5

theorem ex5_reach : Reach exC exD ex5 := by
  apply runAll_reach (Reach.init ex0_genesis)
  intro x hx
  simp only [exCalls5, List.mem_cons, List.not_mem_nil, or_false] at hx
  rcases hx with rfl | rfl | rfl | rfl | rfl | rfl | rfl <;> simp [callOK, exC, exD]

theorem C100_refuted : ¬ C100_statement := by
  intro h
  have h1 : okAnd (exec exC ex5 (.notify 1 true))
      (fun s => s.vaults exK = some ⟨50, .failed, 100, 0, 0, false, 1000, 100, 0⟩) = true := by decide +kernel
  obtain ⟨s', hs, hv'⟩ := okAnd_iff.mp h1
  have hv : ex5.vaults exK = some ⟨50, .succeeded, 100, 0, 0, false, 1000, 100, 0⟩ := by decide +kernel
  have := h exC exD ex5 s' (.notify 1 true) exK _ _ exC_ok ex5_reach trivial hs hv (of_decide_eq_true hv') (by decide)
  cases this

/-! ## C101: identity of vaults -/

/-- A parachain has at most one vault that is not over. -/
theorem C101_one_vault (hc : CfgOK c D) {s : State} (hr : Reach c D s) {k k' : Key} {v v' : Vault}
    (hv : s.vaults k = some v) (hv' : s.vaults k' = some v') (hp : k.para = k'.para)
    (h1 : ¬ (v.phase = .failed ∨ v.phase = .expired)) (h2 : ¬ (v'.phase = .failed ∨ v'.phase = .expired)) : k = k' := by
  have h := hr.inv hc
  rcases h.old k v hv with e | e
  · rcases h.old k' v' hv' with e' | e'
    · rw [hp, e'] at e
      have := Option.some.inj e
      cases k; cases k'
      simp only [Key.lease, Prod.mk.injEq] at this hp
      obtain ⟨rfl, rfl⟩ := this
      subst hp; rfl
    · exact absurd e' h2
  · exact absurd e h1

/-- Two vaults never share their contribution storage. -/
theorem C101_own_storage (hc : CfgOK c D) {s : State} (hr : Reach c D s) {k k' : Key} {v v' : Vault}
    (hv : s.vaults k = some v) (hv' : s.vaults k' = some v') (hne : k ≠ k') : v.trie ≠ v'.trie :=
  fun e => hne ((hr.inv hc).trieInj k k' v v' hv hv' e)

/-- Every call touches at most one vault: all other vaults keep their data and everybody's contributions. -/
theorem C101_isolated (hc : CfgOK c D) {s s' : State} (hr : Reach c D s) {x : Call} (hx : callOK c D x)
    (he : exec c s x = .ok s') : ∃ k0, ∀ k v, k ≠ k0 → s.vaults k = some v →
      s'.vaults k = some v ∧ ∀ kd u, s'.amount v.trie kd u = s.amount v.trie kd u := by
  have h := hr.inv hc
  have key : ∀ {k0 : Key} {v0 v1 : Vault}, Act c D s s' k0 v0 v1 → ∃ k0, ∀ k v, k ≠ k0 → s.vaults k = some v →
      s'.vaults k = some v ∧ ∀ kd u, s'.amount v.trie kd u = s.amount v.trie kd u := by
    intro k0 v0 v1 ha
    refine ⟨k0, ?_⟩
    intro k v hk hv
    refine ⟨by rw [ha.vaults, upd_of_ne _ _ hk]; exact hv, ?_⟩
    intro kd u
    unfold State.amount
    rw [ha.child_off _ _ (fun e => hk (h.trieInj _ _ _ _ hv ha.here e))]
  have same : s'.vaults = s.vaults → s'.child = s.child → ∃ k0, ∀ k v, k ≠ k0 → s.vaults k = some v →
      s'.vaults k = some v ∧ ∀ kd u, s'.amount v.trie kd u = s.amount v.trie kd u := by
    intro e1 e2
    refine ⟨⟨0, 0, 0⟩, ?_⟩
    intro k v _ hv
    exact ⟨by rw [e1]; exact hv, fun kd u => by unfold State.amount; rw [e2]⟩
  cases x with
  | createVault k0 ct p cap eb =>
    obtain ⟨_, _, _, hn, _, _, _, rfl⟩ := createVault_ok he
    exact ⟨k0, fun k v hk hv => ⟨by rw [← hv]; exact upd_of_ne _ _ hk, fun _ _ => rfl⟩⟩
  | updateVault para cap eb p => obtain ⟨k0, v0, v1, _, e, _, _, _, ha⟩ := updateVault_act h he; exact key ha
  | «open» para => obtain ⟨k0, v0, _, _, _, ha⟩ := movePhase_act h he; exact key ha
  | contribute who para m code => obtain ⟨k0, v0, v1, hC, ha⟩ := contribute_act hc h hx he; exact key ha
  | setVrf f => cases he; exact same rfl rfl
  | close para => obtain ⟨k0, v0, _, _, _, ha⟩ := movePhase_act h he; exact key ha
  | reopen para => obtain ⟨k0, v0, _, _, _, ha⟩ := movePhase_act h he; exact key ha
  | auctionSucceeded para => obtain ⟨k0, v0, _, _, _, ha⟩ := movePhase_act h he; exact key ha
  | auctionFailed para => obtain ⟨k0, v0, _, _, _, _, ha⟩ := askBack_act hc h (Or.inl rfl) he; exact key ha
  | claim who k0 => obtain ⟨v0, m, _, ha⟩ := claim_act hc h he; exact key ha
  | withdraw who k0 => obtain ⟨v0, m, _, ha⟩ := withdraw_act hc h he; exact key ha
  | redeem who k0 m => obtain ⟨v0, _, ha⟩ := redeem_act hc h he; exact key ha
  | slotExpired para => obtain ⟨k0, v0, _, _, _, _, ha⟩ := askBack_act hc h (Or.inr rfl) he; exact key ha
  | migratePending para =>
    obtain ⟨_, k0, v0, s1, v1, hcur, _, _, rfl, hm⟩ := migratePending_inv hc h he
    refine ⟨k0, ?_⟩
    intro k v hk hv
    refine ⟨?_, ?_⟩
    · rw [← hv, ← hm.vaults]; exact upd_of_ne _ _ hk
    · intro kd u
      have hne : v.trie ≠ v0.trie := fun e => hk (h.trieInj _ _ _ _ hv (current_iff.mp hcur).2.2 e)
      have := hm.off v.trie kd (Or.inl hne)
      show (getEntry (s1.child (v.trie, kd)) u).amt = (getEntry (s.child (v.trie, kd)) u).amt
      rw [this]
  | notify q e =>
    rcases notify_inv hc h he with rfl | ⟨k, v, v', ha⟩
    · exact same rfl rfl
    · exact key ha
  | refund k0 =>
    obtain ⟨_, v0, s1, v1, hv0, _, rfl, hm⟩ := refund_inv hc h he
    refine ⟨k0, ?_⟩
    intro k v hk hv
    refine ⟨?_, ?_⟩
    · rw [← hv, ← hm.vaults]; exact upd_of_ne _ _ hk
    · intro kd u
      have hne : v.trie ≠ v0.trie := fun e => hk (h.trieInj _ _ _ _ hv hv0 e)
      have := hm.off v.trie kd hne
      show (getEntry (s1.child (v.trie, kd)) u).amt = (getEntry (s.child (v.trie, kd)) u).amt
      rw [this]
  | dissolve k0 =>
    obtain ⟨v0, hv0, _, _, _, _, _, rfl⟩ := dissolve_ok he
    exact ⟨k0, fun k v hk hv => ⟨by rw [← hv]; exact upd_of_ne _ _ hk, fun _ _ => rfl⟩⟩
  | refundFor who k0 kd m => obtain ⟨v0, v1, l, s1, _, _, _, _, hu, _, ha⟩ := refundFor_act hc h he; exact key ha
  | updateProxy p => cases he; exact same rfl rfl
  | updateBonus lease b =>
    have he' : updateBonus s lease b = .ok s' := he
    unfold updateBonus at he'
    simp only [bind_ok_iff, ensure_ok_iff, pure_ok_iff, exists_const] at he'
    obtain ⟨_, _, rfl⟩ := he'
    exact same rfl rfl
  | forceClaim who k0 => obtain ⟨v0, m, _, ha⟩ := claim_act hc h he; exact key ha
  | redeemAndLend who k0 m => obtain ⟨v0, s1, _, _, _, _, ha⟩ := redeemAndLend_act hc h he; exact key ha

example : ex4.vaults exK ≠ none ∧ ex4.vaults exK2 ≠ none ∧ ex4.amount 0 .contributed 7 = 100 ∧
    ex4.amount 1 .contributed 8 = 100 := by decide +kernel

/-! ## C102: answers of the relay chain -/

/-- A confirmation is booked once: afterwards the query is unknown, and any further answer to it changes nothing. -/
theorem C102_confirm_once {s s' : State} {q : Nat} (he : notify c s q true = .ok s') (hq : s.requests q ≠ none) :
    s'.requests q = none ∧ ∀ e, notify c s' q e = .ok s' := by
  have hn : s'.requests q = none := by
    unfold notify at he
    split at he
    · rename_i h; exact absurd h hq
    · rw [bind_ok_iff] at he
      obtain ⟨s1, _, h2⟩ := he
      rw [pure_ok_iff] at h2; subst h2
      exact upd_same _ _ _
    · rename_i h; cases h
    · rw [bind_ok_iff] at he
      obtain ⟨s1, _, h2⟩ := he
      rw [pure_ok_iff] at h2; subst h2
      exact upd_same _ _ _
    · rename_i h; cases h
  refine ⟨hn, ?_⟩
  intro e
  unfold notify
  rw [hn]

/-- A confirmed contribution moves exactly its amount from the user's flying to its confirmed contributions and burns
the same amount of relay tokens from the pallet account. -/
theorem C102_confirmed (hc : CfgOK c D) {s s' : State} (hr : Reach c D s) {q : Nat} {k : Key} {who m code : Nat}
    (hq : s.requests q = some (.contribute k who m code)) (he : notify c s q true = .ok s') :
    ∃ v v', s.vaults k = some v ∧ s'.vaults k = some v' ∧
      s'.amount v.trie .flying who + m = s.amount v.trie .flying who ∧
      s'.amount v.trie .contributed who = s.amount v.trie .contributed who + m ∧
      v'.flying + m = v.flying ∧ v'.contributed = v.contributed + m ∧
      s'.tok.bal c.relay c.acct + m = s.tok.bal c.relay c.acct ∧
      s'.tok.iss c.relay + m = s.tok.iss c.relay := by
  have h := hr.inv hc
  unfold notify at he
  rw [hq] at he
  dsimp only at he
  rw [bind_ok_iff] at he
  obtain ⟨s1, h1, h2⟩ := he
  rw [pure_ok_iff] at h2; subst h2
  obtain ⟨v, v', hC, ha⟩ := contributed_act hc h (h.reqs _ _ hq).1 h1
  obtain ⟨s2, hu, hch⟩ := hC.mig
  have g1 := hu.srcV
  have g2 := hu.dstV
  have b1 := Ledger.burn_bal hC.bal c.relay c.acct
  have b2 := Ledger.burn_iss hC.bal c.relay
  have b3 := Ledger.burn_le hC.bal
  have b4 := Ledger.bal_le_iss h.wf c.relay c.acct
  rw [if_pos ⟨rfl, rfl⟩] at b1
  rw [if_pos rfl] at b2
  have a1 : ∀ kd u, s1.amount v.trie kd u = s2.amount v.trie kd u := by
    intro kd u; unfold State.amount; rw [hch]
  have e1 : (s.withTok s1.tok).amount v.trie .flying who = s.amount v.trie .flying who := rfl
  have e2 : (s.withTok s1.tok).amount v.trie .contributed who = s.amount v.trie .contributed who := rfl
  refine ⟨v, v', hC.vault, ?_, ?_, ?_, ?_, ?_, ?_, ?_⟩
  · show s1.vaults k = _
    rw [ha.vaults]; exact upd_same _ _ _
  · show s1.amount v.trie .flying who + m = _
    rw [a1]; omega
  · show s1.amount v.trie .contributed who = _
    rw [a1]; omega
  · have q1 : v'.flying = v.flying - m := g1.2.1
    have q2 : m ≤ v.flying := g1.1
    omega
  · exact g2.1
  · exact b1
  · show s1.tok.iss c.relay + m = _
    omega

/-- A rejected contribution is paid back exactly, out of what the user has in flight in that vault. -/
theorem C102_rejected (hc : CfgOK c D) {s s' : State} (hr : Reach c D s) {q : Nat} {k : Key} {who m code : Nat}
    (hq : s.requests q = some (.contribute k who m code)) (he : notify c s q false = .ok s') :
    ∃ v, s.vaults k = some v ∧ s'.amount v.trie .flying who + m = s.amount v.trie .flying who ∧
      s'.tok.bal c.relay who = s.tok.bal c.relay who + m ∧
      s'.tok.bal c.relay c.acct + m = s.tok.bal c.relay c.acct := by
  have h := hr.inv hc
  have hw : who ≠ c.acct := (h.reqs _ _ hq).1
  unfold notify at he
  rw [hq] at he
  dsimp only at he
  obtain ⟨v, v', l, s1, hv, htr, hu, rfl, _⟩ := bounced_act hc h he
  have hd := hu.down rfl
  have b1 := Ledger.transfer_bal htr c.relay who
  have b2 := Ledger.transfer_bal htr c.relay c.acct
  rw [if_neg (fun e => hw e.2), if_pos ⟨rfl, rfl⟩] at b1
  rw [if_pos ⟨rfl, rfl⟩, if_neg (fun e => hw e.2.symm)] at b2
  have e1 : (s.withTok l).amount v.trie .flying who = s.amount v.trie .flying who := rfl
  refine ⟨v, hv, ?_, b1, b2⟩
  show s1.amount v.trie .flying who + m = _
  omega

/-- The full expectation: after a rejection has been answered, further answers to the same query change nothing. -/
def C102_statement : Prop :=
  ∀ (c : Cfg) (D : Nat → Prop) (s s1 s2 : State) (q : Nat) (e e' : Bool), CfgOK c D → Reach c D s →
    s.requests q ≠ none → notify c s q e = .ok s1 → notify c s1 q e' = .ok s2 → s2.tok = s1.tok

/-- User 7 contributes 100 twice. -/
def exCalls6 : List Call :=
  [.createVault exK 50 false 1000 100, .open 2000, .contribute 7 2000 100 0, .contribute 7 2000 100 0]

def ex6 : State := runAll exC ex0 exCalls6

theorem ex6_reach : Reach exC exD ex6 := by
  apply runAll_reach (Reach.init ex0_genesis)
  intro x hx
  simp only [exCalls6, List.mem_cons, List.not_mem_nil, or_false] at hx
  rcases hx with rfl | rfl | rfl | rfl <;> simp [callOK, exC, exD]

/-- The first contribution is rejected twice: both are paid back, and the confirmation of the second one fails. -/
theorem C102_refuted : ¬ C102_statement := by
  intro h
  have h1 : okAnd (notify exC ex6 0 false) (fun s1 => okAnd (notify exC s1 0 false)
      (fun s2 => s1.tok.bal 1 7 == 900 && s2.tok.bal 1 7 == 1000 && errIs (notify exC s2 1 true) .noFunds)) =
      true := by decide +kernel
  obtain ⟨s1, hs1, h2⟩ := okAnd_iff.mp h1
  obtain ⟨s2, hs2, h3⟩ := okAnd_iff.mp h2
  have h4 := h exC exD ex6 s1 s2 0 false false exC_ok ex6_reach (by decide +kernel) hs1 hs2
  rw [h4] at h3
  simp only [Bool.and_eq_true, beq_iff_eq] at h3
  omega

end Verif.Crowdloans
