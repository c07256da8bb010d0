import Verif.System.Feed
import Verif.System.DeployedValues
import Verif.Prices.Props3
import Verif.Loans.OpsExact

/-!
# C218: what the liquid and the collateral currency are worth on the runtimes.  C219: redeeming and lending for a user.
-/

namespace Verif.System
open Verif Chain

/-! ## C218 -/

variable {H : List Nat → Nat} {dec : Nat → Nat} {ch : Chain} {F : Feed} {s : State}

/-- The feed of a runtime: the prices pallet knows the chain's relay currency, and there is some stack. -/
structure Feeds (ch : Chain) (F : Feed) : Prop where
  relay : F.cfg.relay = ch.relay
  stack : 0 < F.cfg.stack

/-- No emergency price is set for an asset with `d ≤ 18` decimals. -/
structure Usual (F : Feed) (a d : Nat) : Prop where
  emergency : F.emergency a = none
  decimal : F.decimal a = some d
  small : d ≤ 18

/-- **C218, relay currency.** The price of a unit of DOT or KSM is the oracle's price per token, scaled to its decimals. -/
theorem C218_relay {d v t : Nat} (hf : Feeds ch F) (hu : Usual F ch.relay d) (hx : F.foreign ch.relay = none)
    (ho : F.oracle ch.relay = some ⟨v, t⟩) (hv : v * 10 ^ (18 - d) ≤ maxU128) :
    F.price (ch.cfg H dec) s ch.relay = some (v * 10 ^ (18 - d)) := by
  have hr : Prices.Raw F.cfg (F.ask (ch.cfg H dec) s) ch.relay ⟨v, t⟩ := by
    unfold Prices.Raw
    rw [Prices.C91_plain_assets (c := F.cfg) (s := F.ask (ch.cfg H dec) s) hf.stack
      (by cases ch <;> exact ⟨by decide, by decide, by decide, by decide⟩) hx]
    exact congrArg Except.ok ho
  have h := (Prices.C91_normalised (c := F.cfg) (s := F.ask (ch.cfg H dec) s) hu.emergency hu.decimal hu.small hr hv).1
  exact Feed.price_iff.2 ⟨_, h, rfl⟩

/-- **C218, liquid currency.** The price of a unit of sDOT or sKSM is the oracle's price of DOT or KSM times the current
exchange rate of liquid staking (rounded down), scaled to its decimals; whatever oracle price exists for it is ignored. -/
theorem C218_liquid {d v t : Nat} (hf : Feeds ch F) (hu : Usual F ch.liquid d) (ho : F.oracle ch.relay = some ⟨v, t⟩)
    (hv : v * s.stk.rate / 10 ^ 18 * 10 ^ (18 - d) ≤ maxU128) :
    F.price (ch.cfg H dec) s ch.liquid = some (v * s.stk.rate / 10 ^ 18 * 10 ^ (18 - d)) := by
  have hD : DIV = 10 ^ 18 := by decide
  rw [← hD] at hv ⊢
  have hl : (F.ask (ch.cfg H dec) s).world.liquid = some ch.liquid := by
    show (if (F.decimal ch.liquid).isSome = true then some ch.liquid else none) = some ch.liquid
    rw [hu.decimal]; rfl
  have hw : (F.ask (ch.cfg H dec) s).world.oracle F.cfg.relay = some ⟨v, t⟩ := by rw [hf.relay]; exact ho
  have hr : Prices.Raw F.cfg (F.ask (ch.cfg H dec) s) ch.liquid ⟨v * s.stk.rate / DIV, t⟩ :=
    Prices.C91_liquid (c := F.cfg) (s := F.ask (ch.cfg H dec) s) hf.stack (by cases ch <;> decide) hw hl rfl
      (Nat.le_trans (Nat.le_mul_of_pos_right _ (Nat.pow_pos (by decide))) hv)
  have h := (Prices.C91_normalised (c := F.cfg) (s := F.ask (ch.cfg H dec) s) hu.emergency hu.decimal hu.small hr hv).1
  exact Feed.price_iff.2 ⟨_, h, rfl⟩

/-- **C218, collateral currency.** The auxiliary currency liquid staking lends against costs exactly what DOT or KSM costs. -/
theorem C218_collateral {d v t : Nat} (hf : Feeds ch F) (hu : Usual F ch.collateral d)
    (ho : F.oracle ch.relay = some ⟨v, t⟩) (hv : v * 10 ^ (18 - d) ≤ maxU128) :
    F.price (ch.cfg H dec) s ch.collateral = some (v * 10 ^ (18 - d)) := by
  have hw : (F.ask (ch.cfg H dec) s).world.oracle F.cfg.relay = some ⟨v, t⟩ := by rw [hf.relay]; exact ho
  have hr := Prices.C91_auxiliary (c := F.cfg) (s := F.ask (ch.cfg H dec) s) (a := ch.collateral) hf.stack
    (by cases ch <;> decide) hw
  have h := (Prices.C91_normalised (c := F.cfg) (s := F.ask (ch.cfg H dec) s) hu.emergency hu.decimal hu.small hr hv).1
  exact Feed.price_iff.2 ⟨_, h, rfl⟩

/-- **C218, order.** With the same decimals and an exchange rate of at least 1 the liquid currency is never worth less than
the relay currency, and at most the rate times as much. -/
theorem C218_order {d v t pr pl : Nat} (hf : Feeds ch F) (hu : Usual F ch.relay d) (hu' : Usual F ch.liquid d)
    (hx : F.foreign ch.relay = none) (ho : F.oracle ch.relay = some ⟨v, t⟩)
    (hv : v * s.stk.rate / 10 ^ 18 * 10 ^ (18 - d) ≤ maxU128) (hrate : 10 ^ 18 ≤ s.stk.rate)
    (h1 : F.price (ch.cfg H dec) s ch.relay = some pr) (h2 : F.price (ch.cfg H dec) s ch.liquid = some pl) :
    pr ≤ pl ∧ pl * 10 ^ 18 ≤ pr * s.stk.rate := by
  have hle : v ≤ v * s.stk.rate / 10 ^ 18 := by
    rw [Nat.le_div_iff_mul_le (by decide)]
    exact Nat.mul_le_mul_left _ hrate
  have e1 := C218_relay (H := H) (dec := dec) (s := s) hf hu hx ho (Nat.le_trans (Nat.mul_le_mul_right _ hle) hv)
  have e2 := C218_liquid (H := H) (dec := dec) (s := s) hf hu' ho hv
  rw [h1] at e1
  rw [h2] at e2
  cases e1
  cases e2
  refine ⟨Nat.mul_le_mul_right _ hle, ?_⟩
  calc v * s.stk.rate / 10 ^ 18 * 10 ^ (18 - d) * 10 ^ 18
      = v * s.stk.rate / 10 ^ 18 * 10 ^ 18 * 10 ^ (18 - d) := Nat.mul_right_comm _ _ _
    _ ≤ v * s.stk.rate * 10 ^ (18 - d) := Nat.mul_le_mul_right _ (Nat.div_mul_le_self _ _)
    _ = v * 10 ^ (18 - d) * s.stk.rate := Nat.mul_right_comm _ _ _

/-- DOT at 7 dollars, sDOT with the same decimals. -/
def exFeed : Feed where
  cfg := ⟨101, 5⟩
  emergency := fun _ => none
  foreign := fun _ => none
  oracle := fun a => if a = 101 then some ⟨7000000000000000000, 5⟩ else none
  decimal := fun a => if a = 101 ∨ a = 1001 ∨ a = 4294957296 then some 10 else none
  yield := fun _ _ => none
  findLp := fun _ _ => none
  findVault := fun _ _ => none
example : Feeds .parallel exFeed ∧ Usual exFeed 101 10 ∧ Usual exFeed 1001 10 ∧ Usual exFeed 4294957296 10 ∧
    exFeed.oracle Chain.parallel.relay = some ⟨7000000000000000000, 5⟩ ∧
    7000000000000000000 * 1100000000000000000 / 10 ^ 18 * 10 ^ (18 - 10) ≤ maxU128 :=
  ⟨⟨rfl, by decide⟩, ⟨rfl, by decide, by decide⟩, ⟨rfl, by decide, by decide⟩, ⟨rfl, by decide, by decide⟩, by decide, by decide⟩

/-! ## C219 -/

variable {c : Cfg} {D : Nat → Prop} {s' : State}

/-- **C219.** Redeeming and lending for a user: only for an account that has sent a transaction before and a vault that has
expired; takes exactly `m` derivative tokens from the user, creates `m` relay tokens for them in the lending pool, and
gives the user exactly the ptokens a supply of `m` earns at the rate after accrual; the user's relay tokens and all other
balances stay. -/
theorem C219_lend_for (hc : c.OK D) (h : Reach c D s) {w m : Nat} {k : Crowdloans.Key} (hw : w ≠ c.lo.acct)
    (he : exec c s (.crowdloans (.redeemAndLend w k m)) = .ok s') :
    0 < s.cl.nonce w ∧ ∃ v ct x q, s.cl.vaults k = some v ∧ v.phase = .expired ∧ s.cl.ctokenOf k.lease = some ct ∧
      ct ≠ c.cl.relay ∧
      Loans.accrue c.lo { s.loV with ledger := x } c.cl.relay = .ok q ∧
      (∀ a u, s'.ledger.bal a u + (if a = ct ∧ u = w then m else 0) =
        s.ledger.bal a u + (if a = c.cl.relay ∧ u = c.lo.acct then m else 0)) ∧
      (∀ a u, (s'.lo.dep a u).vouchers = (s.lo.dep a u).vouchers +
        (if a = c.cl.relay ∧ u = w then m * DIV / Loans.xrate c.lo q c.cl.relay else 0)) ∧
      s'.lo.debts = s.lo.debts := by
  simp only [exec, crowd, redeemAndLend, bind_ok_iff, pure_ok_iff, ensure_ok_iff, exists_const] at he
  obtain ⟨hn, x, hx, y, hy, rfl⟩ := he
  refine ⟨hn, ?_⟩
  have hinv := (h.inv hc).cl.inv hc.cl
  unfold Crowdloans.redeem at hx
  simp only [bind_ok_iff, okOr_ok_iff, ensure_ok_iff, pure_ok_iff, exists_const, csub_ok_iff] at hx
  obtain ⟨ct, hct, v, hv, hp, _, z, _, l1, h1, l2, h2, rfl⟩ := hx
  have hD : D ct := hinv.ctokD _ _ hct
  have hne : ct ≠ c.cl.relay := fun e => hc.cl.relayD (e ▸ hD)
  have hmint : Loans.exec c.lo ({ s.loV with ledger := l2 }) (.mint w c.cl.relay m) = .ok y := hy
  obtain ⟨q, vv, hq, rfl, _, hmv, hdep, _, hdebt, _⟩ := Loans.C116_mint hmint
  refine ⟨v, ct, l2, q, hv, hp, hct, hne, hq, ?_, ?_, hdebt⟩
  · intro a u
    have b1 := Ledger.burn_bal h1 a u
    have b2 := Ledger.mint_bal h2 a u
    have b3 := hmv a u
    show y.ledger.bal a u + _ = s.ledger.bal a u + _
    have b1' : l1.bal a u + (if a = ct ∧ u = w then m else 0) = s.ledger.bal a u := b1
    have b3' : y.ledger.bal a u + (if a = c.cl.relay ∧ u = w then m else 0) =
        l2.bal a u + (if a = c.cl.relay ∧ u = c.lo.acct then m else 0) := b3
    by_cases g1 : a = c.cl.relay
    · subst g1
      by_cases g2 : u = w
      · subst g2
        simp [hne.symm, hw] at b1' b2 b3' ⊢
        omega
      · simp [hne.symm, g2] at b1' b2 b3' ⊢
        omega
    · simp [g1] at b1' b2 b3' ⊢
      omega
  · intro a u
    have := hdep a u
    show (y.dep a u).vouchers = _
    rw [this]
    by_cases g : a = c.cl.relay ∧ u = w
    · obtain ⟨rfl, rfl⟩ := g
      rw [if_pos ⟨rfl, rfl⟩, if_pos ⟨rfl, rfl⟩]
      rfl
    · rw [if_neg g, if_neg g]
      rfl

example : exC.OK exD ∧ Reach exC exD ex3 ∧ (7 : Nat) ≠ exC.lo.acct ∧
    exec exC ex3 (.crowdloans (.redeemAndLend 7 exK 90)) = .ok ex4 ∧ 0 < ex3.cl.nonce 7 :=
  ⟨exC_ok, ex3_reach, by decide, ex4_step, by decide +kernel⟩

end Verif.System
