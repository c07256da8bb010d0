import Verif.Crowdloans.Props3

/-!
# Crowdloans: properties C103-C105 (migration, refunds, dissolving, lease progress)
-/

namespace Verif.Crowdloans
open Verif

variable {c : Cfg} {D : Nat → Prop}

/-! ## C103: migration and refunds make progress and pay exactly -/

/-- `migrate_pending` sends the first `limit` pending contributions in order, one request each with the amount and the
referral code of its contributor; the others stay pending; nobody's total in the vault changes, nor does any balance
but the fee account's. -/
theorem C103_migrate (hc : CfgOK c D) {s s' : State} (hr : Reach c D s) {para : Nat}
    (he : migratePending c s para = .ok s') :
    ∃ k v v', s.current para = some (k, v) ∧ s'.vaults k = some v' ∧
      s'.child (v.trie, .pending) = (s.child (v.trie, .pending)).drop c.migrateLimit ∧
      (∀ i e, i < c.migrateLimit → (s.child (v.trie, .pending))[i]? = some e →
        s'.requests (s.nextQuery + i) = some (.contribute k e.who e.amt e.code)) ∧
      s'.nextQuery = s.nextQuery + min c.migrateLimit (s.child (v.trie, .pending)).length ∧
      v'.pending + v'.flying = v.pending + v.flying ∧ v'.contributed = v.contributed ∧
      v'.pending = (((s.child (v.trie, .pending)).drop c.migrateLimit).map Entry.amt).sum ∧
      (∀ u, s'.amount v.trie .pending u + s'.amount v.trie .flying u =
        s.amount v.trie .pending u + s.amount v.trie .flying u) ∧
      (∀ T w, w ≠ c.xcmAcct → s'.tok.bal T w = s.tok.bal T w) := by
  have h := hr.inv hc
  obtain ⟨hI, k, v, s1, v', hcur, _, _, rfl, hm⟩ := migratePending_inv hc h he
  have hv' : (s1.putVault k v').vaults k = some v' := upd_same _ _ _
  have hst : v'.trie = v.trie := hm.same.trie
  have hleft : (s1.putVault k v').child (v.trie, .pending) = (s.child (v.trie, .pending)).drop c.migrateLimit := hm.left
  refine ⟨k, v, v', hcur, hv', hleft, hm.reqs, hm.query, hm.sum, hm.contributed, ?_, ?_, ?_⟩
  · have hp := hI.pend k v' hv'
    rw [hst, hleft] at hp
    exact hp
  · intro u
    have h1 := hm.held u
    have h2 : s1.amount v.trie .contributed u = s.amount v.trie .contributed u := by
      unfold State.amount
      rw [hm.off v.trie .contributed (Or.inr rfl)]
    unfold State.held at h1
    show s1.amount v.trie .pending u + s1.amount v.trie .flying u = _
    omega
  · intro T w hw
    exact hm.bal T w (Or.inr hw)

/-- `refund` pays the first `limit` contributions of the vault exactly (confirmed ones first, then those in flight,
then pending ones) and removes them; nothing else is touched. -/
theorem C103_refund (hc : CfgOK c D) {s s' : State} (hr : Reach c D s) {k : Key} (he : refund c s k = .ok s') :
    ∃ v, s.vaults k = some v ∧ (v.phase = .closed ∨ v.phase = .failed) ∧
      s'.contributions v.trie = (s.contributions v.trie).drop c.removeLimit ∧
      (∀ w, w ≠ c.acct → s'.tok.bal c.relay w = s.tok.bal c.relay w +
        (((s.contributions v.trie).take c.removeLimit).map (fun p => if w = p.2.who then p.2.amt else 0)).sum) ∧
      (∀ T w, T ≠ c.relay → s'.tok.bal T w = s.tok.bal T w) ∧
      (∀ t kd, t ≠ v.trie → s'.child (t, kd) = s.child (t, kd)) := by
  have h := hr.inv hc
  obtain ⟨_, v, s1, v', hv, hp, rfl, hm⟩ := refund_inv hc h he
  exact ⟨v, hv, hp, hm.left, hm.bal, hm.balOff, hm.off⟩

/-- `n` calls of `refund` in a row. -/
inductive Refunds (c : Cfg) (k : Key) : Nat → State → State → Prop
  | none (s : State) : Refunds c k 0 s s
  | more {n : Nat} {s s1 s2 : State} (h : refund c s k = .ok s1) (hs : Refunds c k n s1 s2) : Refunds c k (n + 1) s s2

/-- Enough calls of `refund` return every contribution of the vault. -/
theorem C103_refund_all (hc : CfgOK c D) {s s' : State} {n : Nat} {k : Key} {v : Vault} (hr : Reach c D s)
    (hv : s.vaults k = some v) (hR : Refunds c k n s s')
    (hn : (s.contributions v.trie).length ≤ n * c.removeLimit) :
    s'.contributions v.trie = [] ∧ (∀ u, s'.held v.trie u = 0) ∧
      ∀ w, w ≠ c.acct → s'.tok.bal c.relay w = s.tok.bal c.relay w + s.held v.trie w := by
  have key : ∀ {n : Nat} {s s' : State} {v : Vault}, Reach c D s → s.vaults k = some v → Refunds c k n s s' →
      Reach c D s' ∧ s'.contributions v.trie = (s.contributions v.trie).drop (n * c.removeLimit) ∧
      ∀ w, w ≠ c.acct → s'.tok.bal c.relay w + s'.held v.trie w = s.tok.bal c.relay w + s.held v.trie w := by
    intro n
    induction n with
    | zero =>
      intro s s' v hr _ hR
      cases hR
      exact ⟨hr, by simp, fun _ _ => rfl⟩
    | succ n ih =>
      intro s s' v hr hv hR
      cases hR with
      | @more _ _ s1 _ h hs =>
      have hI := hr.inv hc
      have hr1 : Reach c D s1 := Reach.call (x := .refund k) hr trivial h
      have hI1 := hr1.inv hc
      obtain ⟨_, v0, s2, v', hv0, hp, e, hm⟩ := refund_inv hc hI h
      rw [hv] at hv0; cases hv0
      have hv1 : s1.vaults k = some v' := by rw [e]; exact upd_same _ _ _
      have ht : v'.trie = v.trie := hm.same.trie
      obtain ⟨hr', hl, hb⟩ := ih hr1 hv1 hs
      rw [ht] at hl hb
      have hl1 : s1.contributions v.trie = (s.contributions v.trie).drop c.removeLimit := by rw [e]; exact hm.left
      refine ⟨hr', ?_, ?_⟩
      · rw [hl, hl1, List.drop_drop]; congr 1; rw [Nat.add_mul]; omega
      · intro w hw
        rw [hb w hw]
        have hb1 : s1.tok.bal c.relay w = s.tok.bal c.relay w +
            paidTo ((s.contributions v.trie).take c.removeLimit) w := by rw [e]; exact hm.bal w hw
        have p0 := hI.paid v.trie w
        have p1 := hI1.paid v.trie w
        have hlog : s1.log = s.log ++ ((s.contributions v.trie).take c.removeLimit).map
            (fun p => Ev.back v.trie p.1 p.2.who p.2.amt) := by rw [e]; exact hm.log
        have hleft : ∀ l : List (Kind × Entry), logSum (Ev.leftBy v.trie w)
            (l.map (fun p => Ev.back v.trie p.1 p.2.who p.2.amt)) = paidTo l w := by
          intro l
          unfold logSum paidTo
          rw [List.map_map]
          congr 1
          apply List.map_congr_left
          intro p _
          simp [Ev.leftBy, eq_comm]
        have hpaid : ∀ l : List (Kind × Entry), logSum (Ev.paidBy v.trie w)
            (l.map (fun p => Ev.back v.trie p.1 p.2.who p.2.amt)) = 0 := by
          intro l
          induction l with
          | nil => rfl
          | cons a l ih => simpa [logSum, Ev.paidBy] using ih
        rw [hlog, logSum_append, logSum_append, hleft, hpaid] at p1
        omega
  obtain ⟨hr', hl, hb⟩ := key hr hv hR
  have h0 : s'.contributions v.trie = [] := by rw [hl]; exact List.drop_eq_nil_of_le hn
  have hz : ∀ u, s'.held v.trie u = 0 := by
    intro u
    unfold State.held State.amount
    rw [contributions_nil h0, contributions_nil h0, contributions_nil h0]
    rfl
  refine ⟨h0, hz, ?_⟩
  intro w hw
  have := hb w hw
  rw [hz w] at this
  exact this

/-- Contributions of three users, one of them confirmed; the vault is closed. -/
def exCalls7 : List Call :=
  [.createVault exK 50 false 1000 100, .contribute 9 2000 50 7, .open 2000, .contribute 7 2000 100 0, .notify 0 true,
   .contribute 8 2000 200 0, .close 2000]

def ex7 : State := runAll exC ex0 exCalls7

example : ex7.contributions 0 = [(.contributed, ⟨7, 100, 0⟩), (.flying, ⟨8, 200, 0⟩), (.pending, ⟨9, 50, 7⟩)] ∧
    okAnd (refund exC ex7 exK) (fun s => decide (s.contributions 0 = [(.pending, ⟨9, 50, 7⟩)]) &&
      okAnd (refund exC s exK) (fun s => decide (s.contributions 0 = []) &&
        s.tok.bal 1 7 == 1000 && s.tok.bal 1 8 == 1000 && s.tok.bal 1 9 == 1000)) = true := by decide +kernel

/-! ## C104: dissolving a vault loses nothing -/

/-- A vault can be dissolved exactly when it is closed, failed or expired, holds no contribution, and nothing of what it
contributed is outstanding. -/
theorem C104_iff (s : State) (k : Key) : (∃ s', dissolve s k = .ok s') ↔
    ∃ v, s.vaults k = some v ∧ (v.phase = .closed ∨ v.phase = .failed ∨ v.phase = .expired) ∧
      (∀ kd, s.child (v.trie, kd) = []) ∧ v.contributed = 0 ∧ v.flying = 0 ∧ v.pending = 0 := by
  constructor
  · rintro ⟨s', h⟩
    obtain ⟨v, hv, hp, hcon, z1, z2, z3, _⟩ := dissolve_ok h
    exact ⟨v, hv, hp, fun kd => contributions_nil hcon kd, z1, z2, z3⟩
  · rintro ⟨v, hv, hp, hcon, z1, z2, z3⟩
    have h0 : s.contributions v.trie = [] := by unfold State.contributions; simp [hcon]
    unfold dissolve
    simp only [bind_ok_iff, okOr_ok_iff, ensure_ok_iff, pure_ok_iff, total_ok_iff, exists_const]
    refine ⟨_, v, hv, hp, h0, 0, ⟨?_, ?_⟩, rfl, rfl⟩
    · rw [z1, z2, z3]; decide
    · rw [z1, z2, z3]

/-- When a vault is dissolved everybody has got back, claimed or withdrawn exactly what they paid in, and everything the
relay chain confirmed has been paid out again. -/
theorem C104_settled (hc : CfgOK c D) {s s' : State} (hr : Reach c D s) {k : Key} (he : dissolve s k = .ok s') :
    ∃ v, s.vaults k = some v ∧ s'.vaults k = none ∧
      (∀ u, logSum (Ev.paidBy v.trie u) s.log = logSum (Ev.leftBy v.trie u) s.log) ∧
      logSum (Ev.executedOn v.trie) s.log = logSum (Ev.mintedOn v.trie) s.log ∧
      s'.tok = s.tok := by
  obtain ⟨v, hv, _, hcon, z1, z2, z3, rfl⟩ := dissolve_ok he
  refine ⟨v, hv, upd_same _ _ _, ?_, ?_, rfl⟩
  · intro u
    have hp := (hr.inv hc).paid v.trie u
    have hz : ∀ kd, s.amount v.trie kd u = 0 := by
      intro kd
      unfold State.amount
      rw [contributions_nil hcon kd]
      rfl
    unfold State.held at hp
    rw [hz, hz, hz] at hp
    omega
  · have := (C97_minted hc hr v.trie).2 k v hv rfl
    omega

/-- The vault of `ex7` after it was refunded completely. -/
example : okAnd (refund exC ex7 exK) (fun s => okAnd (refund exC s exK) (fun s => okAnd (dissolve s exK) (fun s =>
    decide (s.vaults exK = none) && logSum (Ev.leftBy 0 8) s.log == 200 && logSum (Ev.mintedOn 0) s.log == 100))) = true := by
  decide +kernel

/-! ## C105: the reported progress of a lease -/

/-- The relay block a lease period starts at. -/
def leaseBlock (c : Cfg) (n : Nat) : Nat := min maxU32 (min maxU32 (c.leasePeriod * n) + c.leaseOffset)

/-- The reported progress is 0 before the lease starts, 1 from its end on, and in between never more than the elapsed
share, rounded down; it never exceeds 1. -/
theorem C105_progress {s : State} {lease : Nat × Nat} {t y : Nat} (h : termRate c s lease = .ok (some (t, y))) :
    t ≤ DIV ∧ (s.relayBlock < leaseBlock c lease.1 → t = 0) ∧
    (leaseBlock c lease.1 ≤ s.relayBlock → leaseBlock c (lease.2 + 1) ≤ s.relayBlock → t = DIV) ∧
    (leaseBlock c lease.1 ≤ s.relayBlock → s.relayBlock < leaseBlock c (lease.2 + 1) →
      t * min maxU32 (c.leasePeriod * (lease.2 - lease.1 + 1)) ≤ (s.relayBlock - leaseBlock c lease.1) * DIV ∧
      (s.relayBlock - leaseBlock c lease.1) * DIV < (t + 1) * min maxU32 (c.leasePeriod * (lease.2 - lease.1 + 1))) := by
  unfold termRate at h
  split at h
  · cases h
  rename_i hb0
  split at h
  · cases h
  rename_i hr
  push Not at hr
  obtain ⟨_, hle, _⟩ := hr
  simp only [bind_ok_iff, fixSatFromRational_ok_iff] at h
  obtain ⟨y', ⟨hy0, hy⟩, h⟩ := h
  have e1 : leaseBlock c lease.1 = min maxU32 (min maxU32 (c.leasePeriod * lease.1) + c.leaseOffset) := rfl
  have e2 : leaseBlock c (lease.2 + 1) = min maxU32 (min maxU32 (c.leasePeriod * (lease.2 + 1)) + c.leaseOffset) := rfl
  rw [← e1, ← e2] at h
  -- the window is never longer than the reported length
  have hlen : leaseBlock c (lease.2 + 1) ≤ leaseBlock c lease.1 + min maxU32 (c.leasePeriod * (lease.2 - lease.1 + 1)) := by
    have hm : c.leasePeriod * (lease.2 + 1) = c.leasePeriod * lease.1 + c.leasePeriod * (lease.2 - lease.1 + 1) := by
      rw [← Nat.mul_add]; congr 1; omega
    rw [e1, e2, hm]
    generalize c.leasePeriod * lease.1 = A
    generalize c.leasePeriod * (lease.2 - lease.1 + 1) = B
    omega
  have hDpos : 0 < DIV := by decide
  have hDM : DIV ≤ maxU128 := by decide
  generalize min maxU32 (c.leasePeriod * (lease.2 - lease.1 + 1)) = L at *
  generalize leaseBlock c lease.1 = S at *
  generalize leaseBlock c (lease.2 + 1) = E at *
  split_ifs at h with h1 h2
  · rw [pure_ok_iff] at h
    cases h
    exact ⟨Nat.zero_le _, fun _ => rfl, fun g => absurd g (by omega), fun g => absurd g (by omega)⟩
  · simp only [bind_ok_iff, fixSatFromRational_ok_iff, pure_ok_iff] at h
    obtain ⟨t', ⟨hL, ht'⟩, h⟩ := h
    cases h
    have hq : (s.relayBlock - S) * DIV / L ≤ DIV := by
      apply Nat.div_le_of_le_mul
      apply Nat.mul_le_mul_right
      omega
    have ht : t = (s.relayBlock - S) * DIV / L := by rw [ht', Nat.min_eq_right (Nat.le_trans hq hDM)]
    refine ⟨by rw [ht]; exact hq, fun g => absurd g h1, fun _ g => absurd h2 (by omega), fun _ _ => ⟨?_, ?_⟩⟩
    · rw [ht]; exact Nat.div_mul_le_self _ _
    · rw [ht]
      have := Nat.lt_div_mul_add (a := (s.relayBlock - S) * DIV) (b := L) (Nat.pos_of_ne_zero hL)
      rw [Nat.add_mul, Nat.one_mul]
      exact this
  · rw [pure_ok_iff] at h
    cases h
    exact ⟨Nat.le_refl _, fun g => absurd g h1, fun _ _ => rfl, fun _ g => absurd g h2⟩

/-- The reported progress never decreases. -/
theorem C105_monotone {s s' : State} {lease : Nat × Nat} {t y t' y' : Nat} (hb : s.relayBlock ≤ s'.relayBlock)
    (h : termRate c s lease = .ok (some (t, y))) (h' : termRate c s' lease = .ok (some (t', y'))) :
    t ≤ t' ∧ y = y' := by
  have hy : ∀ {s : State} {t y : Nat}, termRate c s lease = .ok (some (t, y)) →
      y = min maxU128 (min maxU32 (c.leasePeriod * (lease.2 - lease.1 + 1)) * DIV /
        min maxU32 (c.leasePerYear * c.leasePeriod)) := by
    intro s t y h
    unfold termRate at h
    split at h
    · cases h
    split at h
    · cases h
    simp only [bind_ok_iff, fixSatFromRational_ok_iff] at h
    obtain ⟨y', ⟨hy0, hy⟩, h⟩ := h
    rw [← hy]
    split_ifs at h
    · rw [pure_ok_iff] at h; cases h; rfl
    · simp only [bind_ok_iff, fixSatFromRational_ok_iff, pure_ok_iff] at h
      obtain ⟨_, _, h⟩ := h
      cases h; rfl
    · rw [pure_ok_iff] at h; cases h; rfl
  refine ⟨?_, by rw [hy h, hy h']⟩
  obtain ⟨a1, a2, a3, a4⟩ := C105_progress h
  obtain ⟨b1, b2, b3, b4⟩ := C105_progress h'
  generalize min maxU32 (c.leasePeriod * (lease.2 - lease.1 + 1)) = L at *
  generalize leaseBlock c lease.1 = S at *
  generalize leaseBlock c (lease.2 + 1) = E at *
  by_cases g1 : s.relayBlock < S
  · rw [a2 g1]; exact Nat.zero_le _
  · by_cases g2 : E ≤ s'.relayBlock
    · rw [b3 (by omega) g2]; exact a1
    · obtain ⟨u1, u2⟩ := a4 (by omega) (by omega)
      obtain ⟨v1, v2⟩ := b4 (by omega) (by omega)
      have hm : (s.relayBlock - S) * DIV ≤ (s'.relayBlock - S) * DIV := Nat.mul_le_mul_right _ (by omega)
      by_contra hlt
      have : (t' + 1) * L ≤ t * L := Nat.mul_le_mul_right _ (by omega)
      omega

/-- One quarter of the lease of periods 1..4 (blocks 10..50) has passed at block 20. -/
example : termRate exC { ex0 with relayBlock := 20 } (1, 4) = .ok (some (DIV / 4, DIV)) := by decide +kernel

end Verif.Crowdloans
