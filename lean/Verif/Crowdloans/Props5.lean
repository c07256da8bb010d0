import Verif.Crowdloans.Props4
import Verif.Streaming.Lib

/-!
# Crowdloans: property C119 (the bonus stream) and C120 (settings)
-/

set_option linter.unusedSimpArgs false
set_option linter.unusedVariables false

namespace Verif.Crowdloans
open Verif

variable {c : Cfg} {D : Nat → Prop}

/-! ## C119: the bonus -/

/-- `x` is the amount `m` of a token with `r` decimals, expressed in units of a token with `n` decimals, rounded down. -/
def Converts (r n m x : Nat) : Prop := x * 10 ^ r ≤ m * 10 ^ n ∧ m * 10 ^ n < (x + 1) * 10 ^ r

/-- **C119.** A conversion of an amount from relay to native decimals keeps its value, rounded down. -/
theorem C119_conversion {s : State} {m x : Nat} (h : normalizedAmount c s m = some x) :
    ∃ r n, s.decimal c.relay = some r ∧ s.decimal c.native = some n ∧ Converts r n m x := by
  unfold normalizedAmount at h
  simp only [Option.bind_eq_bind, Option.bind_eq_some_iff] at h
  obtain ⟨r, hr, n, hn, h⟩ := h
  refine ⟨r, n, hr, hn, ?_⟩
  have p10 : ∀ k : Nat, 0 < 10 ^ k := fun k => Nat.pow_pos (by decide)
  split_ifs at h with h1 h2 h3 h4
  · cases h
    have e : 10 ^ n = 10 ^ (n - r) * 10 ^ r := by rw [← Nat.pow_add]; congr 1; omega
    unfold Converts
    rw [e, ← Nat.mul_assoc]
    exact ⟨Nat.le_refl _, Nat.mul_lt_mul_of_pos_right (Nat.lt_succ_self _) (p10 r)⟩
  · cases h
    subst h3
    exact ⟨Nat.le_refl _, Nat.mul_lt_mul_of_pos_right (Nat.lt_succ_self _) (p10 r)⟩
  · cases h
    have e : 10 ^ r = 10 ^ (r - n) * 10 ^ n := by rw [← Nat.pow_add]; congr 1; omega
    unfold Converts
    rw [e, ← Nat.mul_assoc, ← Nat.mul_assoc]
    refine ⟨Nat.mul_le_mul_right _ (Nat.div_mul_le_self _ _), Nat.mul_lt_mul_of_pos_right ?_ (p10 n)⟩
    rw [Nat.mul_comm]
    exact Nat.lt_mul_div_succ _ (p10 _)

/-- **C119.** The conversion answers whenever both decimals are known (to be at most 38 apart) and the result fits. -/
theorem C119_conversion_answers {s : State} {m r n : Nat} (hr : s.decimal c.relay = some r)
    (hn : s.decimal c.native = some n) (hnr : n ≤ r + 38) (hrn : r ≤ n + 38)
    (hm : ∀ x, Converts r n m x → x ≤ maxU128) : ∃ x, normalizedAmount c s m = some x := by
  have p10 : ∀ k : Nat, 0 < 10 ^ k := fun k => Nat.pow_pos (by decide)
  have big : ∀ k, k ≤ 38 → 10 ^ k ≤ maxU128 := by
    intro k hk
    exact (Nat.pow_le_pow_right (by decide) hk).trans (by decide)
  unfold normalizedAmount
  rw [hr, hn]
  simp only [Option.bind_eq_bind, Option.bind_some]
  split_ifs with h1 h2 h3 h4
  · exact ⟨_, rfl⟩
  · exfalso
    apply h2
    refine ⟨big _ (by omega), hm _ ?_⟩
    have e : 10 ^ n = 10 ^ (n - r) * 10 ^ r := by rw [← Nat.pow_add]; congr 1; omega
    unfold Converts
    rw [e, ← Nat.mul_assoc]
    exact ⟨Nat.le_refl _, Nat.mul_lt_mul_of_pos_right (Nat.lt_succ_self _) (p10 r)⟩
  · exact ⟨_, rfl⟩
  · exact ⟨_, rfl⟩
  · exact absurd (big _ (by omega)) h4

/-- The exact record of a new stream. -/
theorem doCreate_stream {c : Streaming.Cfg} {s s' : Streaming.State} {sd rc d a start stop id : Nat} {cl : Bool}
    (hl : Streaming.LibInv s) (hf : s.streams s.next = none)
    (hd : Streaming.doCreate c s sd rc d a start stop cl = .ok (s', id)) :
    id = s.next ∧ s'.streams id = some ⟨d, d, a, d / (stop - start), sd, rc, start, stop, .ongoing, cl⟩ ∧
    s'.next = s.next + 1 ∧
    (∀ i st, s.streams i = some st → s'.streams i = some st ∨ (s'.streams i = none ∧ ¬ st.live)) := by
  unfold Streaming.doCreate at hd
  simp only [bind_ok_iff, ensure_ok_iff, csub_ok_iff, cdiv_ok_iff, cadd_ok_iff, pure_ok_iff,
    Prod.mk.injEq] at hd
  obtain ⟨_, hsr, dur, ⟨hle, rfl⟩, rate, ⟨hdur, rfl⟩, _, hrate, l, htr, nx, ⟨_, rfl⟩, s2, hu, rfl, rfl⟩ := hd
  set st : Streaming.Stream := ⟨d, d, a, d / (stop - start), sd, rc, start, stop, .ongoing, cl⟩ with hst
  have hlib : Streaming.LibInv { s with
      ledger := l, next := s.next + 1, streams := upd s.streams s.next (some st) } := by
    constructor
    · intro b k x hx
      obtain ⟨t, ht, hp⟩ := hl.ref b k x hx
      refine ⟨t, ?_, hp⟩
      show upd s.streams s.next (some st) x = _
      rw [upd_of_ne _ _ (by rintro rfl; rw [hf] at ht; cases ht)]
      exact ht
    · exact hl.nodup
  obtain ⟨s3, e3, i3, f3, a3, l3, _⟩ := Streaming.updateFinished_spec (c := c) hlib sd rc
  rw [e3] at hu; cases hu
  refine ⟨rfl, ?_, f3.next, ?_⟩
  · rcases a3 s.next with e | ⟨e, t, ht, hnl⟩
    · show s2.streams s.next = _; rw [e]; exact upd_same _ _ _
    · exfalso
      rw [show ({ s with ledger := l, next := s.next + 1, streams := upd s.streams s.next (some st) } :
        Streaming.State).streams s.next = some st from upd_same _ _ _] at ht
      cases ht
      exact hnl rfl
  · intro i t hti
    have hne : i ≠ s.next := by rintro rfl; rw [hf] at hti; cases hti
    have he : ({ s with ledger := l, next := s.next + 1, streams := upd s.streams s.next (some st) } :
        Streaming.State).streams i = s.streams i := upd_of_ne _ _ hne
    rcases a3 i with e | ⟨e, t', ht', hnl⟩
    · left; show s2.streams i = _; rw [e, he]; exact hti
    · right
      rw [he, hti] at ht'; cases ht'
      exact ⟨e, hnl⟩

/-- The bonus of a claim of `m`: the contribution times the bonus per token (capped at the largest balance), converted
from relay to native decimals; nothing if it cannot be converted. -/
structure Bonussed (c : Cfg) (s : State) (lease : Nat × Nat) (m b : Nat) : Prop where
  some : ∀ r n, s.decimal c.relay = Option.some r → s.decimal c.native = Option.some n → n ≤ r + 38 → r ≤ n + 38 →
    min maxU128 (m * (s.bonus lease).perToken) * 10 ^ (n - r) ≤ maxU128 →
    Converts r n (min maxU128 (m * (s.bonus lease).perToken)) b
  no_relay : s.decimal c.relay = none → b = 0
  no_native : s.decimal c.native = none → b = 0
  fits : b ≠ 0 → ∃ r n, s.decimal c.relay = Option.some r ∧ s.decimal c.native = Option.some n ∧
    Converts r n (min maxU128 (m * (s.bonus lease).perToken)) b

/-- A converted amount is determined by the value. -/
theorem Converts.unique {r n m x y : Nat} (hx : Converts r n m x) (hy : Converts r n m y) : x = y := by
  have p : 0 < 10 ^ r := Nat.pow_pos (by decide)
  have h1 : x < y + 1 := Nat.lt_of_mul_lt_mul_right (Nat.lt_of_le_of_lt hx.1 hy.2)
  have h2 : y < x + 1 := Nat.lt_of_mul_lt_mul_right (Nat.lt_of_le_of_lt hy.1 hx.2)
  omega

/-- **C119.** The bonus is the contribution times the configured rate, in native decimals. -/
theorem C119_bonus_amount (s : State) (lease : Nat × Nat) (m : Nat) : Bonussed c s lease m (bonusOf c s lease m) := by
  unfold bonusOf
  refine ⟨?_, ?_, ?_, ?_⟩
  all_goals try generalize hv : min maxU128 (m * (s.bonus lease).perToken) = v
  · intro r n hr hn h1 h2 h3
    have : ∃ x, normalizedAmount c s v = Option.some x := by
      refine C119_conversion_answers hr hn h1 h2 ?_
      intro x hx
      by_contra hcon
      have p : 0 < 10 ^ r := Nat.pow_pos (by decide)
      have hvm : v ≤ maxU128 := by rw [← hv]; exact Nat.min_le_left _ _
      have : x ≤ v * 10 ^ (n - r) := by
        have := hx.1
        by_contra hlt
        have h4 : (v * 10 ^ (n - r) + 1) * 10 ^ r ≤ x * 10 ^ r := Nat.mul_le_mul_right _ (by omega)
        have h5 : v * 10 ^ n ≤ v * 10 ^ (n - r) * 10 ^ r := by
          rw [Nat.mul_assoc, ← Nat.pow_add]
          exact Nat.mul_le_mul_left _ (Nat.pow_le_pow_right (by decide) (by omega))
        rw [Nat.add_mul] at h4
        omega
      omega
    obtain ⟨x, hx⟩ := this
    rw [hx]
    obtain ⟨r', n', hr', hn', hc⟩ := C119_conversion hx
    rw [hr] at hr'; rw [hn] at hn'
    cases hr'; cases hn'
    exact hc
  · intro h
    have : normalizedAmount c s v = none := by unfold normalizedAmount; rw [h]; rfl
    rw [this]; rfl
  · intro h
    have : normalizedAmount c s v = none := by
      unfold normalizedAmount
      rw [h]
      cases s.decimal c.relay <;> rfl
    rw [this]; rfl
  · intro h
    cases hx : normalizedAmount c s v with
    | none => rw [hx] at h; exact absurd rfl h
    | some x =>
      have := C119_conversion hx
      exact this

/-- **C119.** A claim with a bonus opens exactly one stream: from the crowdloan account to the claimant, over the bonus
amount in the native token, between the configured times, and it cannot be cancelled; a claim without a bonus opens none.
No other running stream changes. -/
theorem C119_claim_stream (hc : CfgOK c D) (hst : c.streams = true) {s s' : State} (hr : Reach c D s) {who : Nat} {k : Key} {f : Bool}
    (hl : Streaming.LibInv s.str) (hf : s.str.streams s.str.next = none) (he : claim c s who k f = .ok s') :
    ∃ v b, s.vaults k = some v ∧ Bonussed c s k.lease (s.amount v.trie .contributed who) b ∧
      (b = 0 → s'.str.streams = s.str.streams ∧ s'.str.next = s.str.next) ∧
      (b ≠ 0 → s'.str.next = s.str.next + 1 ∧ s'.str.streams s.str.next = some ⟨b, b, c.native,
        b / ((s.bonus k.lease).stop - (s.bonus k.lease).start), c.acct, who, (s.bonus k.lease).start,
        (s.bonus k.lease).stop, .ongoing, false⟩) ∧
      (∀ i st, s.str.streams i = some st → st.live → s'.str.streams i = some st) := by
  unfold claim at he
  simp only [bind_ok_iff, okOr_ok_iff, ensure_ok_iff, pure_ok_iff, exists_const] at he
  obtain ⟨ct, hct, v, hv, hp, hm, l, hl', s1, h1, rfl⟩ := he
  refine ⟨v, _, hv, C119_bonus_amount s k.lease _, ?_⟩
  unfold payBonus at h1
  have hb : bonusOf c { s.withTok l with
      child := upd s.child (v.trie, .contributed) (killEntry (s.child (v.trie, .contributed)) who) } k.lease
        (getEntry (s.child (v.trie, .contributed)) who).amt =
      bonusOf c s k.lease (s.amount v.trie .contributed who) := rfl
  rw [hb] at h1
  generalize bonusOf c s k.lease (s.amount v.trie .contributed who) = b at *
  simp only [hst, Bool.true_eq_false, or_false] at h1
  split_ifs at h1 with h0
  · cases h1
    exact ⟨fun _ => ⟨rfl, rfl⟩, fun h => absurd h0 h, fun i st h _ => h⟩
  · simp only [bind_ok_iff, pure_ok_iff] at h1
    obtain ⟨str, h2, rfl⟩ := h1
    unfold Streaming.traitCreate at h2
    simp only [bind_ok_iff, ensure_ok_iff, Prod.exists, exists_const] at h2
    obtain ⟨_, s2, id, h3, h4⟩ := h2
    have hl2 : Streaming.LibInv { s.str with ledger := l } := ⟨hl.ref, hl.nodup⟩
    obtain ⟨rfl, e1, e2, e3⟩ := doCreate_stream hl2 hf h3
    obtain ⟨fr, e4⟩ := Streaming.pushLib_frame h4
    refine ⟨fun h => absurd h h0, fun _ => ⟨?_, ?_⟩, ?_⟩
    · show str.next = _; rw [fr.next, e2]
    · show str.streams s.str.next = _; rw [e4]; exact e1
    · intro i st hi hlive
      show str.streams i = _
      rw [e4]
      rcases e3 i st hi with e | ⟨_, e⟩
      · exact e
      · exact absurd hlive e

/-- **C119, finding.** On the runtimes that do not connect the streaming pallet (heiko, vanilla) a claim pays no bonus,
whatever bonus is configured: no stream is opened, nothing leaves the crowdloan account. -/
theorem C119_no_streaming (hst : c.streams = false) {s s' : State} {who : Nat} {k : Key} {f : Bool}
    (he : claim c s who k f = .ok s') :
    s'.str.streams = s.str.streams ∧ s'.str.next = s.str.next ∧ ∀ a, s.tok.bal a c.acct ≤ s'.tok.bal a c.acct := by
  unfold claim at he
  simp only [bind_ok_iff, okOr_ok_iff, ensure_ok_iff, pure_ok_iff, exists_const] at he
  obtain ⟨ct, hct, v, hv, hp, hm, l, hl', s1, h1, rfl⟩ := he
  unfold payBonus at h1
  rw [if_pos (.inr hst)] at h1
  cases h1
  refine ⟨rfl, rfl, fun a => ?_⟩
  have := Ledger.mint_bal hl' a c.acct
  show s.tok.bal a c.acct ≤ l.bal a c.acct
  split_ifs at this <;> omega

/-- **C119.** What a claim with a bonus needs beyond a claim without: the bonus pot covers it, the configured times are in
order and the bonus is at least one unit per second of the stream. -/
theorem C119_bonus_conditions {s s' : State} {who : Nat} {k : Key} {f : Bool} {v : Vault} (hst : c.streams = true)
    (hv : s.vaults k = some v) (he : claim c s who k f = .ok s') (hb : bonusOf c s k.lease (s.amount v.trie .contributed who) ≠ 0) :
    who ≠ c.acct ∧ (s.bonus k.lease).start < (s.bonus k.lease).stop ∧
      (s.bonus k.lease).stop - (s.bonus k.lease).start ≤ bonusOf c s k.lease (s.amount v.trie .contributed who) ∧
      s.str.minDep c.native ≠ none := by
  unfold claim at he
  simp only [bind_ok_iff, okOr_ok_iff, ensure_ok_iff, pure_ok_iff, exists_const] at he
  obtain ⟨ct, hct, v', hv', hp, hm, l, hl', s1, h1, rfl⟩ := he
  rw [hv] at hv'; cases hv'
  unfold payBonus at h1
  have hb' : bonusOf c { s.withTok l with
      child := upd s.child (v.trie, .contributed) (killEntry (s.child (v.trie, .contributed)) who) } k.lease
        (getEntry (s.child (v.trie, .contributed)) who).amt =
      bonusOf c s k.lease (s.amount v.trie .contributed who) := rfl
  rw [hb'] at h1
  generalize bonusOf c s k.lease (s.amount v.trie .contributed who) = b at *
  rw [if_neg (by simp only [hst, Bool.true_eq_false, or_false]; exact hb)] at h1
  simp only [bind_ok_iff, pure_ok_iff] at h1
  obtain ⟨str, h2, rfl⟩ := h1
  unfold Streaming.traitCreate Streaming.doCreate at h2
  simp only [bind_ok_iff, ensure_ok_iff, csub_ok_iff, cdiv_ok_iff, cadd_ok_iff, pure_ok_iff, Prod.exists, exists_const,
    Prod.mk.injEq] at h2
  obtain ⟨hmd, s2, id, ⟨hne, dur, ⟨hle, rfl⟩, rate, ⟨hdur, rfl⟩, hrate, _⟩, h4⟩ := h2
  have hle' : (s.bonus k.lease).start ≤ (s.bonus k.lease).stop := hle
  have hdur' : (s.bonus k.lease).stop - (s.bonus k.lease).start ≠ 0 := hdur
  have hrate' : b / ((s.bonus k.lease).stop - (s.bonus k.lease).start) ≠ 0 := hrate
  refine ⟨fun e => hne e.symm, by omega, ?_, ?_⟩
  · by_contra hcon
    exact hrate' (Nat.div_eq_of_lt (by omega))
  · exact Option.isSome_iff_ne_none.mp hmd

/-- The state of the example just before the claims, with an enabled native asset. -/
def exM : State := { ex4 with str := { ex4.str with minDep := fun _ => some 1 } }

theorem exM_reach : Reach exC exD exM := by
  refine Reach.env ex4_reach ⟨rfl, ?_, Nat.le_refl _, fun _ _ => rfl, Nat.le_refl _⟩
  have := (ex4_reach.inv exC_ok).wf
  exact this

/-- A bonus of 5 native units per contributed unit, streamed over `d` seconds. -/
def exB (d : Nat) : State := { exM with bonus := upd exM.bonus exK.lease ⟨5, 10, 10 + d⟩ }

theorem exB_reach {d : Nat} (hd : 0 < d) : Reach exC exD (exB d) := by
  refine Reach.call (x := .updateBonus exK.lease ⟨5, 10, 10 + d⟩) exM_reach trivial ?_
  simp only [exec, updateBonus, bind_ok_iff, ensure_ok_iff, exists_const, pure_ok_iff]
  exact ⟨by decide, by omega, rfl⟩

/-- User 7 contributed 100 and gets a stream of 500. -/
example : okAnd (claim exC (exB 100) 7 exK false) (fun s => decide (s.tok.bal 50 7 = 100 ∧ s.str.streams 0 =
    some ⟨500, 500, 0, 5, 100, 7, 10, 110, .ongoing, false⟩)) = true := by decide +kernel

/-- Without the streaming pallet the same claim succeeds and the 500 units stay where they are. -/
example : okAnd (claim { exC with streams := false } (exB 100) 7 exK false) (fun s => decide (s.tok.bal 50 7 = 100 ∧
    s.str.streams 0 = none ∧ s.tok.bal 0 100 = (exB 100).tok.bal 0 100)) = true := by decide +kernel

/-- **C119.** A finding: with a bonus below one unit per second (here 500 units over 501 seconds) the whole claim fails, and
the contributor of a won auction gets nothing at all. -/
theorem C119_small_bonus_blocks : ∃ (c : Cfg) (D : Nat → Prop) (s : State) (k : Key) (v : Vault), CfgOK c D ∧ Reach c D s ∧
    s.vaults k = some v ∧ v.phase = .succeeded ∧ s.amount v.trie .contributed 7 = 100 ∧
    errIs (claim c s 7 k false) .invalidRatePerSecond = true := by
  obtain ⟨v, hv⟩ : ∃ v, (exB 501).vaults exK = some v := by
    rw [← Option.isSome_iff_exists]; decide +kernel
  refine ⟨exC, exD, exB 501, exK, v, exC_ok, exB_reach (by decide), hv, ?_, ?_, by decide +kernel⟩
  · have : ((exB 501).vaults exK).map Vault.phase = some .succeeded := by decide +kernel
    rw [hv] at this
    exact Option.some.inj this
  · have : ((exB 501).vaults exK).map Vault.trie = some 0 := by decide +kernel
    rw [hv] at this
    rw [Option.some.inj this]
    decide +kernel

/-! ## C120: settings -/

/-- **C120.** The settings change exactly what they name; a bonus is accepted exactly for a lease whose first period is
not after its last and for a stream that ends after it starts. -/
theorem C120_settings {s s' : State} :
    (∀ f, exec c s (.setVrf f) = .ok s' ↔ s' = { s with isVrf := f }) ∧
    (∀ p, exec c s (.updateProxy p) = .ok s' ↔ s' = { s with proxy := some p }) ∧
    (∀ lease b, exec c s (.updateBonus lease b) = .ok s' ↔ lease.1 ≤ lease.2 ∧ b.start < b.stop ∧
      s' = { s with bonus := upd s.bonus lease b }) := by
  refine ⟨fun f => ?_, fun p => ?_, fun lease b => ?_⟩
  · constructor
    · intro h; cases h; rfl
    · rintro rfl; rfl
  · constructor
    · intro h; cases h; rfl
    · rintro rfl; rfl
  · simp only [exec, updateBonus, bind_ok_iff, ensure_ok_iff, exists_const, pure_ok_iff, @eq_comm _ s']

/-! ## Exact versions of earlier claims -/

/-- **C99, users.** A contributor (or anyone for them) can claim only once the auction is won. -/
theorem C99_claim_phase {s s' : State} {who : Nat} {k : Key} (h : exec c s (.claim who k) = .ok s') :
    ∃ v, s.vaults k = some v ∧ v.phase = .succeeded := by
  have h : claim c s who k false = .ok s' := h
  unfold claim at h
  simp only [bind_ok_iff, okOr_ok_iff, ensure_ok_iff, exists_const] at h
  obtain ⟨_, _, v, hv, hp, _⟩ := h
  refine ⟨v, hv, ?_⟩
  rcases hp with e | e
  · cases e
  · exact e

/-- **C99, governance.** Governance can hand out the derivative tokens of a confirmed contribution in any phase. -/
theorem C99_force_claim_iff (hc : CfgOK c D) {s : State} (hr : Reach c D s) {who : Nat} {k : Key}
    (hbon : c.streams = true → ∀ m, bonusOf c s k.lease m = 0) :
    (∃ s', exec c s (.forceClaim who k) = .ok s') ↔ ∃ v, s.vaults k = some v ∧
      s.amount v.trie .contributed who ≠ 0 ∧ s.tok.iss v.ctoken + s.amount v.trie .contributed who ≤ maxU128 := by
  have h := hr.inv hc
  constructor
  · rintro ⟨s', hs⟩
    obtain ⟨v, m, hC, _⟩ := claim_act hc h (show claim c s who k true = .ok s' from hs)
    obtain ⟨l, hl, _⟩ := hC.bal
    refine ⟨v, hC.vault, ?_, ?_⟩
    · rw [← hC.amount]; exact hC.pos
    · rw [← hC.amount]; exact Ledger.mint_le hl
  · rintro ⟨v, hv, hm, hov⟩
    obtain ⟨l, hl⟩ := Ledger.mint_succeeds (l := s.tok) (a := v.ctoken) (w := who)
      (m := s.amount v.trie .contributed who) hov
    show ∃ s', claim c s who k true = .ok s'
    unfold claim
    simp only [bind_ok_iff, okOr_ok_iff, ensure_ok_iff, pure_ok_iff, exists_const]
    exact ⟨_, v.ctoken, h.ctok k v hv, v, hv, Or.inl trivial, hm, l, hl, _, payBonus_zero (fun e => hbon e _), rfl⟩

/-- **C105, when.** On a relay chain with lease periods (both constants positive) the progress is unknown exactly while no
relay block has been seen; it is reported for every lease whose first period is not after its last, up to the last number
of a period but one; for any other lease the query traps. -/
theorem C105_when {s : State} {lease : Nat × Nat} (hp : 0 < c.leasePeriod) (hy : 0 < c.leasePerYear) :
    (termRate c s lease = .ok none ↔ s.relayBlock = 0) ∧
    ((∃ r, termRate c s lease = .ok (some r)) ↔ s.relayBlock ≠ 0 ∧ lease.1 ≤ lease.2 ∧ lease.2 < maxU32) := by
  have hM : 0 < maxU32 := by decide
  have e1 : min maxU32 (c.leasePerYear * c.leasePeriod) ≠ 0 := by
    exact Nat.ne_of_gt (lt_min hM (Nat.mul_pos hy hp))
  have e2 : min maxU32 (c.leasePeriod * (lease.2 - lease.1 + 1)) ≠ 0 := by
    have : 0 < c.leasePeriod * (lease.2 - lease.1 + 1) := Nat.mul_pos hp (Nat.succ_pos _)
    exact Nat.ne_of_gt (lt_min hM this)
  unfold termRate
  by_cases hb : s.relayBlock = 0
  · rw [if_pos hb]
    refine ⟨⟨fun _ => hb, fun _ => rfl⟩, ⟨?_, fun h => absurd hb h.1⟩⟩
    rintro ⟨r, h⟩
    cases h
  rw [if_neg hb]
  by_cases hl : maxU32 < lease.2 + 1 ∨ lease.2 < lease.1 ∨ maxU32 < lease.2 - lease.1 + 1
  · rw [if_pos hl]
    refine ⟨⟨fun h => (by cases h), fun h => absurd h hb⟩, ⟨?_, ?_⟩⟩
    · rintro ⟨r, h⟩; cases h
    · rintro ⟨_, h1, h2⟩; omega
  rw [if_neg hl]
  generalize min maxU32 (c.leasePerYear * c.leasePeriod) = A at *
  generalize min maxU32 (c.leasePeriod * (lease.2 - lease.1 + 1)) = L at *
  generalize min maxU32 (min maxU32 (c.leasePeriod * lease.1) + c.leaseOffset) = S at *
  generalize min maxU32 (min maxU32 (c.leasePeriod * (lease.2 + 1)) + c.leaseOffset) = E at *
  have key : ∃ r, (do
      let year ← fixSatFromRational L A
      if s.relayBlock < S then pure (some (0, year))
      else if s.relayBlock < E then do
        let t ← fixSatFromRational (s.relayBlock - S) L
        pure (some (t, year))
      else pure (some (DIV, year)) : R (Option (Nat × Nat))) = .ok (some r) := by
    have f1 : fixSatFromRational L A = .ok (min maxU128 (L * DIV / A)) := fixSatFromRational_ok_iff.2 ⟨e1, rfl⟩
    have f2 : fixSatFromRational (s.relayBlock - S) L = .ok (min maxU128 ((s.relayBlock - S) * DIV / L)) :=
      fixSatFromRational_ok_iff.2 ⟨e2, rfl⟩
    rw [f1, ok_bind]
    split
    · exact ⟨_, rfl⟩
    split
    · rw [f2, ok_bind]; exact ⟨_, rfl⟩
    · exact ⟨_, rfl⟩
  obtain ⟨r, hr⟩ := key
  refine ⟨⟨fun h => ?_, fun h => absurd h hb⟩, ⟨fun _ => ⟨hb, by omega, by omega⟩, fun _ => ⟨r, hr⟩⟩⟩
  have := hr.symm.trans h
  cases this

example : 0 < exC.leasePeriod ∧ 0 < exC.leasePerYear := by decide

/-- User 7 has a confirmed contribution of 100. Before the auction is won only governance can hand out the tokens. -/
example : ((ex7.vaults exK).map Vault.phase ≠ some .succeeded) ∧
    okAnd (exec exC ex7 (.forceClaim 7 exK)) (fun s => decide (s.tok.bal 50 7 = 100)) = true ∧
    errIs (exec exC ex7 (.claim 7 exK)) .incorrectVaultPhase = true ∧
    okAnd (exec exC exM (.claim 7 exK)) (fun s => decide (s.tok.bal 50 7 = 100)) = true := by decide +kernel

end Verif.Crowdloans
