import Verif.Crowdloans.Calls3

/-! # C93–C97: crowdloan contributions -/

set_option linter.unusedSimpArgs false

namespace Verif.Crowdloans
open Verif

variable {c : Cfg} {D : Nat → Prop}

/-! ## A concrete chain -/

/-- A runtime: relay token 1, native token 0. -/
def exC : Cfg := ⟨100, 101, 102, 1, 0, 10, 2, 2, 10, 0, 4, ⟨103, 10, 10, 0, 1⟩, true⟩

/-- The derivative tokens of the example. -/
def exD (T : Nat) : Prop := T = 50 ∨ T = 51

theorem exC_ok : CfgOK exC exD :=
  ⟨by decide, by decide, by unfold exD exC; decide, by unfold exD exC; decide⟩

/-- Starting balances: the contributors 7, 8 and 9, the XCM account and the bonus pot. -/
@[irreducible] def exL : Ledger :=
  Ledger.ofList [(1, 7, 1000), (1, 8, 1000), (1, 9, 1000), (1, 101, 1000), (0, 100, 1000)]

/-- The chain before the pallet is used. -/
def ex0 : State :=
  { str := ⟨exL, fun _ => none, 0, fun _ => [], fun _ => none, 0, []⟩
    vaults := fun _ => none
    isVrf := false
    ctokenOf := fun _ => none
    leaseOf := fun _ => none
    nextTrie := 0
    requests := fun _ => none
    proxy := some 200
    bonus := fun _ => ⟨0, 0, 0⟩
    child := fun _ => []
    nextQuery := 0
    relayBlock := 5
    fee := fun _ => 1
    sendOk := true
    decimal := fun _ => some 12
    nonce := fun _ => 1
    log := [] }

theorem ex0_genesis : Genesis exD ex0 := by
  refine ⟨fun _ => rfl, fun _ => rfl, fun _ => rfl, fun _ => rfl, fun _ => rfl, rfl, ?_, ?_⟩
  · show exL.WF; unfold exL; exact Ledger.ofList_wf _
  · rintro T (rfl | rfl)
    · show exL.iss 50 = 0; decide +kernel
    · show exL.iss 51 = 0; decide +kernel

/-- A list of calls, skipping those that fail. -/
def runAll (c : Cfg) (s : State) : List Call → State
  | [] => s
  | x :: l => match exec c s x with
    | .ok s' => runAll c s' l
    | .error _ => runAll c s l

theorem runAll_reach {s : State} (h : Reach c D s) : ∀ l : List Call, (∀ x ∈ l, callOK c D x) →
    Reach c D (runAll c s l) := by
  intro l
  induction l generalizing s with
  | nil => intro _; exact h
  | cons x l ih =>
    intro hl
    unfold runAll
    have hx := hl x List.mem_cons_self
    have hr : ∀ y ∈ l, callOK c D y := fun y hy => hl y (List.mem_cons_of_mem _ hy)
    cases he : exec c s x with
    | ok s' => exact ih (h.call hx he) hr
    | error e => exact ih h hr

/-- The vault of parachain 2000, lease periods 1 to 8. -/
def exK : Key := ⟨2000, 1, 8⟩

/-- Vault 2000 is created with cap 1000, users 7, 8 and 9 contribute while it is pending, two contributions are sent. -/
def exCalls : List Call :=
  [.createVault exK 50 false 1000 100, .contribute 7 2000 100 0, .contribute 8 2000 200 0, .contribute 9 2000 300 0,
   .migratePending 2000, .open 2000]

def ex1 : State := runAll exC ex0 exCalls

theorem ex1_reach : Reach exC exD ex1 := by
  apply runAll_reach (Reach.init ex0_genesis)
  intro x hx
  simp only [exCalls, List.mem_cons, List.not_mem_nil, or_false] at hx
  rcases hx with rfl | rfl | rfl | rfl | rfl | rfl <;> simp [callOK, exC, exD]

/-- The vault in the example: 300 pending, 300 in flight. -/
def exV : Vault := ⟨50, .contributing, 0, 300, 300, false, 1000, 100, 0⟩

theorem ex1_vault : ex1.vaults exK = some exV := by decide +kernel

/-! ## C93: contributions are on the books and in the account -/

/-- The running totals of every vault are the sums of the contributions recorded for it. -/
theorem C93_books (hc : CfgOK c D) {s : State} (hr : Reach c D s) {k : Key} {v : Vault} (hv : s.vaults k = some v) :
    v.pending = ((s.child (v.trie, .pending)).map Entry.amt).sum ∧
    v.flying = ((s.child (v.trie, .flying)).map Entry.amt).sum :=
  ⟨(hr.inv hc).pend k v hv, (hr.inv hc).fly k v hv⟩

/-- The pallet account holds everything that is pending or in flight, over all vaults together. -/
theorem C93_backed (hc : CfgOK c D) {s : State} (hr : Reach c D s) (S : Finset Key) :
    (S.sum fun k => match s.vaults k with
      | some v => v.pending + v.flying
      | none => 0) ≤ s.tok.bal c.relay c.acct :=
  (hr.inv hc).backed S

/-- In a closed vault any part of a pending or flying contribution can be refunded at once. -/
theorem C93_refundable (hc : CfgOK c D) {s : State} (hr : Reach c D s) {k : Key} {v : Vault}
    (hv : s.vaults k = some v) (hp : v.phase = .closed) {kd : Kind} (hk : kd ≠ .contributed) {who m : Nat}
    (hm : m ≤ s.amount v.trie kd who) :
    ∃ s', refundFor c s who k kd m = .ok s' ∧
      (who ≠ c.acct → s'.tok.bal c.relay who = s.tok.bal c.relay who + m) ∧
      s'.amount v.trie kd who = s.amount v.trie kd who - m := by
  have h := hr.inv hc
  have hle : s.amount v.trie kd who ≤ v.get kd := by
    have h1 := getEntry_le_total (s.child (v.trie, kd)) who
    cases kd
    · exact Nat.le_trans h1 (Nat.le_of_eq (h.pend k v hv).symm)
    · exact Nat.le_trans h1 (Nat.le_of_eq (h.fly k v hv).symm)
    · exact absurd rfl hk
  have hget : v.get kd ≤ v.pending + v.flying := by
    cases kd
    · exact Nat.le_add_right _ _
    · exact Nat.le_add_left _ _
    · exact absurd rfl hk
  have hown : v.pending + v.flying ≤ s.tok.bal c.relay c.acct := by
    have := h.backed.apply k
    unfold State.owed at this
    rw [hv] at this
    exact this
  obtain ⟨l, hl⟩ := Ledger.transfer_succeeds (l := s.tok) (a := c.relay) (s := c.acct) (d := who) (m := m) (k := false)
    (by omega) (fun e => by cases e)
  have hpay : refundPay c s kd who m = .ok l := by
    unfold refundPay; rw [if_neg hk]; exact hl
  have hgm : m ≤ (getEntry ((s.withTok l).child (v.trie, kd)) who).amt := hm
  have h1 : bump false (v.get kd) m = .ok (v.get kd - m) := bump_ok_iff.mpr (Or.inr ⟨rfl, by omega, rfl⟩)
  have h2 : bump false (getEntry ((s.withTok l).child (v.trie, kd)) who).amt m =
      .ok ((getEntry ((s.withTok l).child (v.trie, kd)) who).amt - m) :=
    bump_ok_iff.mpr (Or.inr ⟨rfl, hgm, rfl⟩)
  have hex : ∃ s', refundFor c s who k kd m = .ok s' := by
    unfold refundFor refundOne updateContribution
    simp only [bind_ok_iff, okOr_ok_iff, ensure_ok_iff, pure_ok_iff, Prod.exists, exists_const, Prod.mk.injEq]
    exact ⟨_, v, hv, hp, hm, _, _, ⟨l, hpay, _, _, _, ⟨_, h1, _, h2, rfl, rfl, rfl⟩, rfl, rfl⟩, rfl⟩
  obtain ⟨s', hx⟩ := hex
  refine ⟨s', hx, ?_⟩
  obtain ⟨v0, v', l', s1, hv0, _, _, hl', hu, hs', _⟩ := refundFor_act hc h hx
  rw [hv] at hv0; cases hv0
  rw [hpay] at hl'; cases hl'
  obtain ⟨_, _, _, p4, _, _⟩ := refundPay_ok hc h.wf hpay
  refine ⟨?_, ?_⟩
  · intro hw
    rw [hs']
    show l.bal c.relay who = _
    rw [p4 who hw, if_pos rfl]
  · rw [hs']
    exact (hu.down rfl).2.2.2

example : ex1.tok.bal 1 100 = 600 ∧ (exV.pending + exV.flying = 600) ∧ ex1.amount 0 .pending 9 = 300 ∧
    ex1.amount 0 .flying 8 = 200 := by decide +kernel

/-! ## C94: contributions -/

/-- A contribution is accepted exactly when the parachain has an open (or still pending) vault before its end block,
the amount is not too small, the VRF delay is off, the cap leaves room, the contributor owns the amount, and — when it
is sent at once — the message can be paid for and sent. -/
theorem C94_iff (hc : CfgOK c D) {s : State} (hr : Reach c D s) {who para m code : Nat} (hw : who ≠ c.acct)
    (hx : who ≠ c.xcmAcct) :
    (∃ s', contribute c s who para m code = .ok s') ↔
      ∃ k v, s.current para = some (k, v) ∧ m ≠ 0 ∧ s.relayBlock ≤ v.endBlock ∧
        (v.phase = .contributing ∨ v.phase = .pending) ∧ c.minContribution ≤ m ∧ s.isVrf = false ∧
        v.contributed + v.flying + v.pending + m ≤ v.cap ∧ v.contributed + v.flying + v.pending + m ≤ maxU128 ∧
        m ≤ s.tok.bal c.relay who ∧
        (v.phase = .contributing → s.sendOk = true ∧ (v.proxied = true → s.proxy ≠ none) ∧
          s.fee (if v.proxied = true then .proxyContribute else .contribute) ≤ s.tok.bal c.relay c.xcmAcct) := by
  have h := hr.inv hc
  constructor
  · rintro ⟨s', hs⟩
    obtain ⟨k, v, v', hC, _⟩ := contribute_act hc h hw hs
    obtain ⟨l, htr, _, hcon⟩ := hC.bal
    refine ⟨k, v, hC.cur, hC.pos, hC.time, hC.phase, hC.min, hC.vrf, hC.cap, hC.room, Ledger.transfer_le htr, ?_⟩
    intro hp
    obtain ⟨h1, _, h2, h3⟩ := hcon hp
    refine ⟨h2, h3, ?_⟩
    have h4 := Ledger.burn_le h1
    have h5 := Ledger.transfer_bal htr c.relay c.xcmAcct
    rw [if_neg (fun e => hx e.2.symm), if_neg (fun e => hc.xcm e.2.symm)] at h5
    omega
  · rintro ⟨k, v, hcur, hm, ht, hp, hmin, hvrf, hcap, hroom, hbal, hsend⟩
    have hv := (current_iff.mp hcur).2.2
    obtain ⟨l, htr⟩ := Ledger.transfer_succeeds (l := s.tok) (a := c.relay) (s := who) (d := c.acct) (m := m)
      (k := false) hbal (fun e => by cases e)
    have hent : ∀ kd, kd ≠ .contributed → s.amount v.trie kd who ≤ v.get kd := by
      intro kd hk
      have h1 := getEntry_le_total (s.child (v.trie, kd)) who
      cases kd
      · exact Nat.le_trans h1 (Nat.le_of_eq (h.pend k v hv).symm)
      · exact Nat.le_trans h1 (Nat.le_of_eq (h.fly k v hv).symm)
      · exact absurd rfl hk
    have hupd : ∀ kd, kd ≠ .contributed → ∃ s1 v1, updateContribution (s.withTok l) v who m (some code) true kd =
        .ok (s1, v1, code) := by
      intro kd hk
      have h1 := hent kd hk
      have h2 : v.get kd + m ≤ maxU128 := by
        cases kd
        · show v.pending + m ≤ _; omega
        · show v.flying + m ≤ _; omega
        · exact absurd rfl hk
      unfold updateContribution
      simp only [bind_ok_iff, pure_ok_iff, Prod.mk.injEq]
      refine ⟨_, _, _, bump_ok_iff.mpr (Or.inl ⟨rfl, h2, rfl⟩), _, bump_ok_iff.mpr (Or.inl ⟨rfl, ?_, rfl⟩),
        rfl, rfl, rfl⟩
      show s.amount v.trie kd who + m ≤ _
      omega
    have hbook : ∃ s2 v2, book c (s.withTok l) k v who m code = .ok (s2, v2) := by
      unfold book
      by_cases hph : v.phase = .contributing
      · rw [if_pos hph]
        obtain ⟨s1, v1, h1⟩ := hupd .flying (by decide)
        obtain ⟨hu, -⟩ := updateContribution_ok h1
        obtain ⟨ho, hpr, hfee⟩ := hsend hph
        have hst := hu.state
        have e1 : s1.tok = l := by rw [hst]; rfl
        have e2 : s1.fee = s.fee := by rw [hst]; rfl
        have e3 : s1.sendOk = s.sendOk := by rw [hst]; rfl
        have e4 : s1.proxy = s.proxy := by rw [hst]; rfl
        have h5 := Ledger.transfer_bal htr c.relay c.xcmAcct
        rw [if_neg (fun e => hx e.2.symm), if_neg (fun e => hc.xcm e.2.symm)] at h5
        have hsend' : ∀ f r, f = (if v.proxied = true then Fee.proxyContribute else Fee.contribute) →
            ∃ s3, sendXcm c s1 f r = .ok s3 := by
          intro f r hf
          subst hf
          obtain ⟨l2, hl2⟩ := Ledger.burn_succeeds (l := l) (a := c.relay) (w := c.xcmAcct)
            (m := s.fee (if v.proxied = true then .proxyContribute else .contribute)) (by omega)
          have hb : burnFee c s1 (if v.proxied = true then .proxyContribute else .contribute) = .ok l2 := by
            unfold burnFee; rw [e1, e2, hl2]
          unfold sendXcm
          simp only [bind_ok_iff, ensure_ok_iff, pure_ok_iff, exists_const]
          exact ⟨_, l2, hb, by rw [e3]; exact ho, rfl⟩
        have hdo : ∃ s3, doContribute c s1 k v1.proxied who m code = .ok s3 := by
          unfold doContribute
          rw [hu.same.proxied]
          by_cases hpx : v.proxied = true
          · rw [if_pos hpx]
            obtain ⟨s3, h3⟩ := hsend' .proxyContribute (.contribute k who m code) (by rw [if_pos hpx])
            cases hq : s.proxy with
            | none => exact absurd hq (hpr hpx)
            | some p =>
              refine ⟨s3, ?_⟩
              rw [bind_ok_iff]
              exact ⟨p, by rw [e4, hq]; rfl, h3⟩
          · rw [if_neg hpx]
            exact hsend' .contribute (.contribute k who m code) (by rw [if_neg hpx])
        obtain ⟨s3, h3⟩ := hdo
        refine ⟨s3, v1, ?_⟩
        simp only [bind_ok_iff, pure_ok_iff, Prod.exists]
        exact ⟨s1, v1, code, h1, s3, h3, rfl⟩
      · rw [if_neg hph]
        obtain ⟨s1, v1, h1⟩ := hupd .pending (by decide)
        refine ⟨s1, v1, ?_⟩
        simp only [bind_ok_iff, pure_ok_iff, Prod.exists]
        exact ⟨s1, v1, code, h1, rfl⟩
    obtain ⟨s2, v2, hb⟩ := hbook
    unfold contribute
    simp only [bind_ok_iff, okOr_ok_iff, ensure_ok_iff, pure_ok_iff, Prod.exists, exists_const, total_ok_iff,
      cadd_ok_iff]
    exact ⟨_, k, v, hcur, hm, ht, hp, hmin, hvrf, _, ⟨by omega, rfl⟩, _, ⟨hroom, rfl⟩, hcap, l, htr, s2, v2, hb, rfl⟩

/-- An accepted contribution takes exactly the amount from the contributor, puts it into the pallet account, and adds
it to what the contributor has in the vault; nobody else's contribution changes. -/
theorem C94_effect (hc : CfgOK c D) {s s' : State} (hr : Reach c D s) {who para m code : Nat} (hw : who ≠ c.acct)
    (hx : who ≠ c.xcmAcct) (h : contribute c s who para m code = .ok s') :
    ∃ k v, s.current para = some (k, v) ∧ s'.tok.bal c.relay who + m = s.tok.bal c.relay who ∧
      s'.tok.bal c.relay c.acct = s.tok.bal c.relay c.acct + m ∧
      s'.held v.trie who = s.held v.trie who + m ∧
      (∀ t u, t ≠ v.trie ∨ u ≠ who → s'.held t u = s.held t u) ∧
      (v.phase = .pending → s'.requests = s.requests) ∧
      (v.phase = .contributing → s'.requests = upd s.requests s.nextQuery (some (.contribute k who m code))) := by
  have hI := hr.inv hc
  obtain ⟨k, v, v', hC, ha⟩ := contribute_act hc hI hw h
  obtain ⟨l, htr, hpen, hcon⟩ := hC.bal
  have hb : ∀ w, w ≠ c.xcmAcct → s'.tok.bal c.relay w = l.bal c.relay w := by
    intro w hwx
    rcases hC.phase with hp | hp
    · exact (fee_ok hc (Ledger.transfer_wf htr hI.wf) (hcon hp).1).2.2.2.1 w hwx
    · rw [(hpen hp).1]
  refine ⟨k, v, hC.cur, ?_, ?_, ?_, ?_, fun hp => (hpen hp).2, fun hp => (hcon hp).2.1⟩
  · rw [hb who hx]
    have := Ledger.transfer_bal htr c.relay who
    rw [if_pos ⟨rfl, rfl⟩, if_neg (fun e => hw e.2)] at this
    exact this
  · rw [hb c.acct hc.xcm]
    have := Ledger.transfer_bal htr c.relay c.acct
    rw [if_neg (fun e => hw e.2.symm), if_pos ⟨rfl, rfl⟩] at this
    omega
  all_goals
    obtain ⟨s1, s2, kd, e1, e2, hu, _⟩ := hC.upd
    have hh : ∀ t u, s'.held t u = s2.held t u := by intro t u; unfold State.held State.amount; rw [e2]
    have hh1 : ∀ t u, s1.held t u = s.held t u := by intro t u; unfold State.held State.amount; rw [e1]
  · have := hu.held who
    simp only [and_self, if_true, Bool.true_eq_false, false_and, if_false] at this
    rw [hh, ← hh1]; omega
  · intro t u htu
    by_cases ht : t = v.trie
    · subst ht
      rcases htu with htu | htu
      · exact absurd rfl htu
      · have := hu.held u
        rw [if_neg (fun e => htu e.2), if_neg (fun e => htu e.2)] at this
        rw [hh, ← hh1]; omega
    · unfold State.held State.amount
      rw [ha.child_off t _ ht, ha.child_off t _ ht, ha.child_off t _ ht]

example : okAnd (contribute exC ex1 7 2000 400 0) (fun s => s.amount 0 .flying 7 == 500) = true ∧
    errIs (contribute exC ex1 7 2000 401 0) .capExceeded = true := by decide +kernel

/-! ## C95: the cap -/

/-- The money in a vault. -/
def Vault.sum (v : Vault) : Nat := v.contributed + v.flying + v.pending

/-- No call increases the money in a vault, except a contribution to it, which then is still within the cap. -/
theorem C95_cap (hc : CfgOK c D) {s s' : State} (hr : Reach c D s) {x : Call} (hx : callOK c D x)
    (he : exec c s x = .ok s') {k : Key} {v v' : Vault} (hv : s.vaults k = some v) (hv' : s'.vaults k = some v') :
    v'.sum ≤ v.sum ∨ ∃ who m code, x = .contribute who k.para m code ∧ v'.sum = v.sum + m ∧ v'.sum ≤ v.cap := by
  have h := hr.inv hc
  have key : ∀ {k0 : Key} {v0 v1 : Vault}, Act c D s s' k0 v0 v1 → v1.sum ≤ v0.sum → v'.sum ≤ v.sum := by
    intro k0 v0 v1 ha hle
    by_cases hk : k = k0
    · subst hk
      rw [ha.here] at hv; cases hv
      rw [ha.vaults, upd_same] at hv'; cases hv'
      exact hle
    · rw [ha.vaults, upd_of_ne _ _ hk, hv] at hv'; cases hv'; exact Nat.le_refl _
  have same : s'.vaults = s.vaults → v'.sum ≤ v.sum := by
    intro e; rw [e, hv] at hv'; cases hv'; exact Nat.le_refl _
  cases x with
  | createVault k0 ct p cap eb =>
    left
    obtain ⟨_, _, _, hn, _, _, _, rfl⟩ := createVault_ok he
    have hk : k ≠ k0 := by rintro rfl; rw [hn] at hv; cases hv
    have : upd s.vaults k0 _ k = some v' := hv'
    rw [upd_of_ne _ _ hk, hv] at this; cases this; exact Nat.le_refl _
  | updateVault para cap eb p =>
    left
    obtain ⟨k0, v0, v1, _, e, _, _, _, ha⟩ := updateVault_act h he
    exact key ha (by rw [e]; exact Nat.le_refl _)
  | «open» para => left; obtain ⟨k0, v0, _, _, _, ha⟩ := movePhase_act h he; exact key ha (Nat.le_refl _)
  | contribute who para m code =>
    obtain ⟨k0, v0, v1, hC, ha⟩ := contribute_act hc h hx he
    by_cases hk : k = k0
    · subst hk
      right
      rw [ha.here] at hv; cases hv
      rw [ha.vaults, upd_same] at hv'; cases hv'
      have hsum : v'.sum = v.sum + m := by
        obtain ⟨s1, s2, kd, _, _, hu, hkd⟩ := hC.upd
        have hup := hu.up rfl
        unfold Vault.sum
        rcases hkd with ⟨rfl, _⟩ | ⟨rfl, _⟩
        · have a1 : v'.flying = v.flying + m := hup.1
          have a2 : v'.pending = v.pending := hu.oth .pending (by decide)
          have a3 : v'.contributed = v.contributed := hu.oth .contributed (by decide)
          omega
        · have a1 : v'.pending = v.pending + m := hup.1
          have a2 : v'.flying = v.flying := hu.oth .flying (by decide)
          have a3 : v'.contributed = v.contributed := hu.oth .contributed (by decide)
          omega
      refine ⟨who, m, code, ?_, hsum, ?_⟩
      · rw [(current_iff.mp hC.cur).2.1]
      · rw [hsum]; exact hC.cap
    · left
      rw [ha.vaults, upd_of_ne _ _ hk, hv] at hv'; cases hv'; exact Nat.le_refl _
  | setVrf f => left; cases he; exact same rfl
  | close para => left; obtain ⟨k0, v0, _, _, _, ha⟩ := movePhase_act h he; exact key ha (Nat.le_refl _)
  | reopen para => left; obtain ⟨k0, v0, _, _, _, ha⟩ := movePhase_act h he; exact key ha (Nat.le_refl _)
  | auctionSucceeded para => left; obtain ⟨k0, v0, _, _, _, ha⟩ := movePhase_act h he; exact key ha (Nat.le_refl _)
  | auctionFailed para =>
    left; obtain ⟨k0, v0, _, _, _, _, ha⟩ := askBack_act hc h (Or.inl rfl) he; exact key ha (Nat.le_refl _)
  | claim who k0 => left; obtain ⟨v0, m, _, ha⟩ := claim_act hc h he; exact key ha (Nat.le_refl _)
  | withdraw who k0 =>
    left; obtain ⟨v0, m, _, ha⟩ := withdraw_act hc h he
    exact key ha (by unfold Vault.sum; dsimp only; omega)
  | redeem who k0 m =>
    left; obtain ⟨v0, _, ha⟩ := redeem_act hc h he
    exact key ha (by unfold Vault.sum; dsimp only; omega)
  | slotExpired para =>
    left; obtain ⟨k0, v0, _, _, _, _, ha⟩ := askBack_act hc h (Or.inr rfl) he; exact key ha (Nat.le_refl _)
  | migratePending para =>
    left
    obtain ⟨_, k0, v0, s1, v1, hcur, _, _, rfl, hm⟩ := migratePending_inv hc h he
    have hs : (s1.putVault k0 v1).vaults = upd s.vaults k0 (some v1) := by
      show upd s1.vaults k0 _ = _; rw [hm.vaults]
    rw [hs] at hv'
    by_cases hk : k = k0
    · subst hk
      rw [(current_iff.mp hcur).2.2] at hv; cases hv
      rw [upd_same] at hv'; cases hv'
      have := hm.sum
      have := hm.contributed
      unfold Vault.sum; omega
    · rw [upd_of_ne _ _ hk, hv] at hv'; cases hv'; exact Nat.le_refl _
  | notify q e =>
    left
    have he' : notify c s q e = .ok s' := he
    unfold notify at he'
    split at he'
    · cases he'; exact same rfl
    · rename_i k0 who m code hq
      rw [bind_ok_iff] at he'
      obtain ⟨s1, h1, h2⟩ := he'
      rw [pure_ok_iff] at h2; subst h2
      obtain ⟨v0, v1, hC, ha⟩ := contributed_act hc h (h.reqs _ _ hq).1 h1
      obtain ⟨s2, hu, _⟩ := hC.mig
      refine key (ha.dropReq q) ?_
      have a1 : v1.flying = v0.flying - m := hu.srcV.2.1
      have a2 : m ≤ v0.flying := hu.srcV.1
      have a3 : v1.contributed = v0.contributed + m := hu.dstV.1
      have a4 : v1.pending = v0.pending := hu.oth .pending (by decide) (by decide)
      unfold Vault.sum; omega
    · obtain ⟨v0, v1, _, _, _, _, hu, _, ha⟩ := bounced_act hc h he'
      obtain ⟨q1, q2, q3⟩ := hu.less
      exact key ha (by unfold Vault.sum; omega)
    · rename_i k0 m target hq
      rw [bind_ok_iff] at he'
      obtain ⟨s1, h1, h2⟩ := he'
      rw [pure_ok_iff] at h2; subst h2
      obtain ⟨v0, _, _, ha⟩ := withdrawn_act h (h.reqs _ _ hq).1 h1
      exact key (ha.dropReq q) (Nat.le_refl _)
    · cases he'; exact same rfl
  | refund k0 =>
    left
    obtain ⟨_, v0, s1, v1, hv0, _, rfl, hm⟩ := refund_inv hc h he
    have hs : (s1.putVault k0 v1).vaults = upd s.vaults k0 (some v1) := by
      show upd s1.vaults k0 _ = _; rw [hm.vaults]
    rw [hs] at hv'
    by_cases hk : k = k0
    · subst hk
      rw [hv0] at hv; cases hv
      rw [upd_same] at hv'; cases hv'
      obtain ⟨q1, q2, q3⟩ := hm.sum
      unfold Vault.sum; omega
    · rw [upd_of_ne _ _ hk, hv] at hv'; cases hv'; exact Nat.le_refl _
  | dissolve k0 =>
    left
    obtain ⟨v0, hv0, _, _, _, _, _, rfl⟩ := dissolve_ok he
    have hs : upd s.vaults k0 none k = some v' := hv'
    by_cases hk : k = k0
    · subst hk; rw [upd_same] at hs; cases hs
    · rw [upd_of_ne _ _ hk, hv] at hs; cases hs; exact Nat.le_refl _
  | refundFor who k0 kd m =>
    left
    obtain ⟨v0, v1, l, s1, _, _, _, _, hu, _, ha⟩ := refundFor_act hc h he
    obtain ⟨q1, q2, q3⟩ := hu.less
    exact key ha (by unfold Vault.sum; omega)
  | updateProxy p => left; cases he; exact same rfl
  | updateBonus lease b =>
    left
    have he' : updateBonus s lease b = .ok s' := he
    unfold updateBonus at he'
    simp only [bind_ok_iff, ensure_ok_iff, pure_ok_iff, exists_const] at he'
    obtain ⟨_, _, rfl⟩ := he'
    exact same rfl
  | forceClaim who k0 => left; obtain ⟨v0, m, _, ha⟩ := claim_act hc h he; exact key ha (Nat.le_refl _)
  | redeemAndLend who k0 m =>
    left; obtain ⟨v0, s1, _, _, _, _, ha⟩ := redeemAndLend_act hc h he
    exact key ha (by unfold Vault.sum; dsimp only; omega)

example : (ex1.vaults exK).map Vault.sum = some 600 ∧
    okAnd (contribute exC ex1 7 2000 400 0) (fun s => (s.vaults exK).map Vault.sum == some 1000) = true := by
  decide +kernel

/-! ## C96: every contributor's money is accounted for -/

/-- At any time, what a user ever paid into a vault is what it still has there (pending, in flight or confirmed) plus
what was returned, claimed as derivative tokens, or withdrawn. -/
theorem C96_conservation (hc : CfgOK c D) {s : State} (hr : Reach c D s) (t u : Nat) :
    logSum (Ev.paidBy t u) s.log =
      s.amount t .pending u + s.amount t .flying u + s.amount t .contributed u + logSum (Ev.leftBy t u) s.log :=
  (hr.inv hc).paid t u

example : logSum (Ev.paidBy 0 8) ex1.log = 200 ∧ ex1.amount 0 .flying 8 = 200 := by decide +kernel

/-! ## C97: relay tokens are never minted out of nothing -/

/-- The relay tokens minted for a vault (refunds of confirmed contributions, withdrawals, redemptions) never exceed the
relay tokens burned for it when the relay chain confirmed contributions; the difference is the vault's `contributed`.
This also holds for vaults that were dissolved. -/
theorem C97_minted (hc : CfgOK c D) {s : State} (hr : Reach c D s) (t : Nat) :
    logSum (Ev.mintedOn t) s.log ≤ logSum (Ev.executedOn t) s.log ∧
    ∀ k v, s.vaults k = some v → v.trie = t →
      logSum (Ev.executedOn t) s.log = v.contributed + logSum (Ev.mintedOn t) s.log := by
  have h := hr.inv hc
  refine ⟨?_, ?_⟩
  · by_cases he : ∃ k v, s.vaults k = some v ∧ v.trie = t
    · obtain ⟨k, v, hv, rfl⟩ := he
      have := h.minted k v hv
      omega
    · push Not at he
      exact Nat.le_of_eq (h.gone t he).symm
  · rintro k v hv rfl
    exact h.minted k v hv

end Verif.Crowdloans
