import Verif.Stable.Inv
import Verif.Stable.Curve

/-!
# Stableswap properties C17, C18, C58, C59, C60
-/

set_option linter.unusedSimpArgs false

namespace Verif.Stable
open Verif
open Verif.Amm (Pool Pool.new claimOf)

/-! ### Concrete reachable histories -/

/-- Accounts 1 and 2 own plenty of assets 10 and 20 (account 1 also of 30). -/
def exList : List (Nat × Nat × Nat) :=
  [(10, 1, 10 ^ 20), (20, 1, 10 ^ 20), (10, 2, 10 ^ 20), (20, 2, 10 ^ 20),
   (30, 1, 10 ^ 20)]

@[irreducible] def exL : Ledger := Ledger.ofList exList

theorem exL_wf : exL.WF := by
  unfold exL; exact Ledger.ofList_wf exList

def ex0 : State := ⟨exL, fun _ => none, 1⟩

theorem ex0_reach : Reach vanilla ex0 :=
  .init _ (fun _ => rfl) exL_wf

theorem ex_reach {ks : List Call} {s : State} (hk : ∀ k ∈ ks, k.signerOK vanilla)
    (h : run vanilla ex0 ks = .ok s) : Reach vanilla s := run_reach ex0_reach hk h

/-! ### C18 -/

/-- **C18.**  A successful trade of `x` units of `a` for `y` units of `b` pays out at most the recorded
reserve of `b`, moves the two reserves by exactly `x` and `y`, and moves exactly these tokens between the
trader and the pool account (the trader being somebody else than the pool account). -/
theorem C18_swap_exact {c : Cfg} {s s' : State} {who a b x y : Nat} (hw : who ≠ c.acct)
    (h : doSwap c s who a b x = .ok (s', y)) :
    ∃ ra rb, view s a b = some (ra, rb) ∧ y ≤ rb ∧ view s' a b = some (ra + x, rb - y) ∧
      (∀ k, k ≠ (a, b) → k ≠ (b, a) → s'.pools k = s.pools k) ∧ a ≠ b ∧
      s'.ledger.bal a who + x = s.ledger.bal a who ∧ s'.ledger.bal b who = s.ledger.bal b who + y ∧
      s'.ledger.bal a c.acct = s.ledger.bal a c.acct + x ∧
      s'.ledger.bal b c.acct + y = s.ledger.bal b c.acct := by
  obtain ⟨k, p, p', l1, l2, ra, rb, m, hp, rfl, hcase, hlp, _, _, hm, hmx, hrb, hout, hov, hyr, e1, e2⟩ :=
    doSwap_ok h
  have hab : a ≠ b := by rcases hcase with ⟨h, _⟩ | ⟨h, _⟩ <;> omega
  have t1 := Ledger.transfer_bal e1 a who
  have t2 := Ledger.transfer_bal e2 a who
  have t3 := Ledger.transfer_bal e1 b who
  have t4 := Ledger.transfer_bal e2 b who
  have t5 := Ledger.transfer_bal e1 a c.acct
  have t6 := Ledger.transfer_bal e2 a c.acct
  have t7 := Ledger.transfer_bal e1 b c.acct
  have t8 := Ledger.transfer_bal e2 b c.acct
  simp only [hab, hab.symm, hw, hw.symm, true_and, and_true, and_false, false_and, if_true, if_false,
    Nat.add_zero] at t1 t2 t3 t4 t5 t6 t7 t8
  refine ⟨ra, rb, ?_, hyr, ?_, ?_, hab, by dsimp only; omega, by dsimp only; omega, by dsimp only; omega,
    by dsimp only; omega⟩
  · unfold view
    rcases hcase with ⟨hlt, rfl, rfl, rfl, _⟩ | ⟨hlt, rfl, rfl, rfl, _⟩
    · rw [if_pos hlt, hp]; rfl
    · rw [if_neg (by omega), if_pos hlt, hp]; rfl
  · unfold view
    rcases hcase with ⟨hlt, rfl, rfl, rfl, hb, hq⟩ | ⟨hlt, rfl, rfl, rfl, hq, hb⟩
    · rw [if_pos hlt]; simp [hb, hq]
    · rw [if_neg (by omega), if_pos hlt]; simp [hb, hq]
  · intro k' h1 h2
    rcases hcase with ⟨hlt, rfl, _⟩ | ⟨hlt, rfl, _⟩
    · exact upd_of_ne _ _ h1
    · exact upd_of_ne _ _ h2

/-- The hypothesis of C18 is met by a trade of 1000 units in a pool with a million of each asset. -/
example : okAnd (run vanilla ex0 [.create (20, 10) (1000000, 1000000) 1 77]) (fun s =>
    okAnd (doSwap vanilla s 2 20 10 1000) (fun r => decide (r.2 = 997))) = true := by
  decide +kernel

/-! ### C58 -/

/-- **C58.**  In every reachable state the pool account owns, of every asset, at least the sum of the
reserves recorded for all pools, and the minimum liquidity of every pool is still locked. -/
theorem C58_solvent {c : Cfg} (hc : c.OK) {s : State} (h : Reach c s) :
    (∀ x (S : Finset (Nat × Nat)), ∑ k ∈ S, claimOf x k (s.pools k) ≤ s.ledger.bal x c.acct) ∧
    (∀ k p, s.pools k = some p → c.minLiq ≤ s.ledger.bal p.lp c.lock ∧ c.minLiq ≤ s.ledger.iss p.lp) :=
  ⟨fun x S => ((h.inv hc).backed x) S,
   fun k p hp => ⟨((h.inv hc).pool k p hp).1,
    ((h.inv hc).pool k p hp).1.trans (Ledger.bal_le_iss (h.inv hc).wf _ _)⟩⟩

/-- A reachable state with two pools sharing asset 10, after a deposit, a trade and a withdrawal. -/
theorem C58_example : ∃ s, Reach vanilla s ∧ (s.pools (20, 10)).isSome ∧ (s.pools (30, 10)).isSome := by
  have h : okAnd (run vanilla ex0 [.create (20, 10) (1000000, 1000000) 1 77,
      .create (10, 30) (3000000, 2000000) 1 78,
      .add 2 (10, 20) (500000, 500000) (1, 1), .swap 2 20 10 1000, .remove 1 (20, 10) 1000])
      (fun s => decide ((s.pools (20, 10)).isSome ∧ (s.pools (30, 10)).isSome)) = true := by decide +kernel
  obtain ⟨s, hs, hp⟩ := okAnd_iff.1 h
  refine ⟨s, ex_reach ?_ hs, by simpa using hp⟩
  simp [Call.signerOK, vanilla]

/-! ### C17 -/

/-- The LP tokens account `who` gained between two states. -/
def gained (s s' : State) (lp who : Nat) : Nat := s'.ledger.bal lp who - s.ledger.bal lp who

/-- **C17, the property as one would want it**: adding liquidity and removing the received LP tokens at
once leaves the provider with at most what they had. -/
def C17_statement : Prop := ∀ (c : Cfg), c.OK → ∀ (s s1 s2 : State) (who a b lp : Nat) (d m : Nat × Nat),
  Reach c s → who ≠ c.acct → who ≠ c.lock → who ≠ c.feeTo → lpOf s a b = some lp → lp ≠ a → lp ≠ b →
  addLiquidity c s who (a, b) d m = .ok s1 →
  removeLiquidity c s1 who (a, b) (gained s s1 lp who) = .ok s2 →
  s2.ledger.bal a who ≤ s.ledger.bal a who ∧ s2.ledger.bal b who ≤ s.ledger.bal b who

/-- **C17 is false.**  In a pool of a million units of each asset, doubling the pool mints two thirds of all
LP tokens to the newcomer, who walks away with a third of a million units of each asset of the others. -/
theorem C17_refuted : ¬ C17_statement := by
  intro H
  have h : okAnd (run vanilla ex0 [.create (20, 10) (1000000, 1000000) 1 77]) (fun s =>
      decide (lpOf s 20 10 = some 77) &&
      okAnd (addLiquidity vanilla s 2 (20, 10) (1000000, 1000000) (1, 1)) (fun s1 =>
        okAnd (removeLiquidity vanilla s1 2 (20, 10) (gained s s1 77 2)) (fun s2 =>
          decide (s2.ledger.bal 20 2 = s.ledger.bal 20 2 + 333333)))) = true := by decide +kernel
  obtain ⟨s, hs, hp⟩ := okAnd_iff.1 h
  simp only [Bool.and_eq_true, decide_eq_true_eq] at hp
  obtain ⟨hlp, hp⟩ := hp
  obtain ⟨s1, h1, hp⟩ := okAnd_iff.1 hp
  obtain ⟨s2, h2, hp⟩ := okAnd_iff.1 hp
  simp only [decide_eq_true_eq] at hp
  have hr := ex_reach (by simp [Call.signerOK, vanilla]) hs
  have := (H vanilla vanilla_ok s s1 s2 2 20 10 77 _ _ hr (by decide) (by decide) (by decide) hlp (by decide)
    (by decide) h1 h2).1
  omega

/-- Where the excess comes from: a deposit into an existing pool that is worth `L` LP tokens by its share of
the reserves is paid `L + L·(d1 - d0)/d0` LP tokens, where `d0`, `d1` are the curve invariants before and
after. -/
theorem C17_overmint {c : Cfg} {s s' : State} {who b q ib iq : Nat} {p p' p0 : Pool}
    (h : doAdd c s who p ib iq b q = .ok (s', p')) (hp : s.pools (b, q) = some p0)
    (hts : s.ledger.iss p.lp ≠ 0) (hb : p.lp ≠ b) (hq : p.lp ≠ q) :
    ∃ d0 d1, delta c p0.base p0.quote = .ok d0 ∧ delta c p'.base p'.quote = .ok d1 ∧ d0 ≤ d1 ∧
      s'.ledger.bal p.lp who = s.ledger.bal p.lp who +
        (min (ib * s.ledger.iss p.lp / p.base) (iq * s.ledger.iss p.lp / p.quote) +
         min (ib * s.ledger.iss p.lp / p.base) (iq * s.ledger.iss p.lp / p.quote) * (d1 - d0) / d0) := by
  obtain ⟨d0, l0, liq, d1, m, l1, l2, l3, hd0, hliq, hd1, hm, e1, e2, e3, rfl, hpb, hpq, _⟩ := doAdd_ok h
  rcases liquidityFor_ok hliq with ⟨h0, _⟩ | ⟨_, rfl, _, _, hl⟩
  · exact absurd h0 hts
  simp only [hp, d0Of, unwrapR_ok_iff] at hd0
  simp only [hp, d1Of, bind_ok_iff, unwrapR_ok_iff, ensure_ok_iff, exists_const, pure_ok_iff] at hd1
  obtain ⟨d1', hd1, hle, rfl⟩ := hd1
  simp only [boostedLiquidity, if_pos (Nat.pos_of_ne_zero hts), bind_ok_iff, csub_ok_iff, cmul_ok_iff,
    cdiv_ok_iff, cadd_ok_iff] at hm
  obtain ⟨_, ⟨_, rfl⟩, _, ⟨_, rfl⟩, _, ⟨_, rfl⟩, _, rfl⟩ := hm
  refine ⟨d0, d1', hd0, by rw [hpb, hpq]; exact hd1, hle, ?_⟩
  have t1 := Ledger.mint_bal e1 p.lp who
  have t2 := Ledger.transfer_bal e2 p.lp who
  have t3 := Ledger.transfer_bal e3 p.lp who
  simp only [hb, hq, and_self, if_true, false_and, if_false, Nat.add_zero] at t1 t2 t3
  dsimp only
  rw [t3, t2, t1, hl]

/-- **C17, the part that holds**: the removing half never takes more than the proportional share: the
payment times the LP supply is at most the burnt LP tokens times the reserve, for both assets; and what one
LP token of the remaining holders is worth does not go down.  (Missing: the adding half, which gives away
other providers' reserves, `C17_refuted`.)  `t` is the LP supply at the time of the payment, i.e. including
a protocol fee minted first. -/
theorem C17_remove_partial {c : Cfg} {s s' : State} {who a b liq lp ra rb : Nat}
    (hwf : s.ledger.WF) (hlp : lpOf s a b = some lp) (hv : view s a b = some (ra, rb)) (hla : lp ≠ a) (hlb : lp ≠ b)
    (hw : who ≠ c.acct) (h : removeLiquidity c s who (a, b) liq = .ok s') :
    ∃ t pa pb, s.ledger.iss lp ≤ t ∧ liq ≤ t ∧ s'.ledger.iss lp = t - liq ∧
      s'.ledger.bal a who = s.ledger.bal a who + pa ∧ s'.ledger.bal b who = s.ledger.bal b who + pb ∧
      view s' a b = some (ra - pa, rb - pb) ∧ pa ≤ ra ∧ pb ≤ rb ∧
      pa * t ≤ liq * ra ∧ pb * t ≤ liq * rb ∧
      ra * (t - liq) ≤ (ra - pa) * t ∧ rb * (t - liq) ≤ (rb - pb) * t := by
  obtain ⟨kb, kq, p, s1, p1, s2, p2, hpair, hp, hfee, hrem, rfl⟩ := removeLiquidity_ok h
  obtain ⟨f1, f2, f3, f6, f7, hfe⟩ := mintProtocolFee_ok hfee
  obtain ⟨ob, oq, l1, l2, l3, hz, hob, hoq, e1, e2, e3, rfl, hob', hoq', eb, eq', elp, _⟩ := doRemove_ok hrem
  have hlpe : p1.lp = lp := by
    rw [f3]
    unfold lpOf at hlp
    rcases hpair with ⟨hlt, rfl, rfl⟩ | ⟨hlt, rfl, rfl⟩
    · rw [if_pos hlt, hp] at hlp; simpa using hlp
    · rw [if_neg (by dsimp only at hlt; omega), if_pos hlt, hp] at hlp; simpa using hlp
  have hne : kb ≠ kq := by rcases hpair with ⟨hlt, rfl, rfl⟩ | ⟨hlt, rfl, rfl⟩ <;> dsimp only at * <;> omega
  have hlkb : lp ≠ kb := by rcases hpair with ⟨hlt, rfl, rfl⟩ | ⟨hlt, rfl, rfl⟩ <;> assumption
  have hlkq : lp ≠ kq := by rcases hpair with ⟨hlt, rfl, rfl⟩ | ⟨hlt, rfl, rfl⟩ <;> assumption
  have biss := Ledger.burn_iss e1 lp
  have ble := Ledger.burn_le e1
  rw [hlpe] at e1 ble hob hoq hz biss
  have i2 := Ledger.transfer_iss e2
  have i3 := Ledger.transfer_iss e3
  have hfb : ∀ x, x ≠ lp → ∀ w, s1.ledger.bal x w = s.ledger.bal x w := by
    intro x hx w
    rcases hfe with ⟨_, _, f, _, hm⟩ | ⟨_, rfl⟩
    · have := Ledger.mint_bal hm x w
      rw [← f3, hlpe] at this
      simpa [hx] using this
    · rfl
  have hfi : s.ledger.iss lp ≤ s1.ledger.iss lp := by
    rcases hfe with ⟨_, _, f, _, hm⟩ | ⟨_, rfl⟩
    · have := Ledger.mint_iss hm lp
      omega
    · exact Nat.le_refl _
  have t1b := Ledger.burn_bal e1 kb who
  have t2b := Ledger.transfer_bal e2 kb who
  have t3b := Ledger.transfer_bal e3 kb who
  have t1q := Ledger.burn_bal e1 kq who
  have t2q := Ledger.transfer_bal e2 kq who
  have t3q := Ledger.transfer_bal e3 kq who
  simp only [hne, hne.symm, hlkb.symm, hlkq.symm, hw, and_self, and_false, false_and, if_true, if_false,
    Nat.add_zero] at t1b t2b t3b t1q t2q t3q
  rw [hfb kb hlkb.symm] at t1b
  rw [hfb kq hlkq.symm] at t1q
  have g1 : ∀ {o r : Nat}, o = liq * r / s1.ledger.iss lp → o * s1.ledger.iss lp ≤ liq * r := by
    intro o r ho; rw [ho]; exact Nat.div_mul_le_self _ _
  have hlt : liq ≤ s1.ledger.iss lp := ble.trans (Ledger.bal_le_iss (mintProtocolFee_wf hfee hwf) _ _)
  have g2 : ∀ {o r : Nat}, o * s1.ledger.iss lp ≤ liq * r → r * (s1.ledger.iss lp - liq) ≤
      (r - o) * s1.ledger.iss lp := by
    intro o r ho
    rw [Nat.mul_sub, Nat.sub_mul, Nat.mul_comm r liq]
    omega
  have hiss : (l3.iss lp) = s1.ledger.iss lp - liq := by
    rw [i3, i2]
    simpa using biss
  have hb := g1 hob
  have hq := g1 hoq
  rw [f1] at hb
  rw [f2] at hq
  rcases hpair with ⟨hlt', rfl, rfl⟩ | ⟨hlt', rfl, rfl⟩
  · have hv' : ra = p.base ∧ rb = p.quote := by
      unfold view at hv; rw [if_pos hlt', hp] at hv; simp at hv; exact ⟨hv.1.symm, hv.2.symm⟩
    obtain ⟨rfl, rfl⟩ := hv'
    refine ⟨s1.ledger.iss lp, ob, oq, hfi, hlt, hiss, by dsimp only at *; omega, by dsimp only at *; omega, ?_,
      by omega, by omega, hb, hq, g2 hb, g2 hq⟩
    unfold view; rw [if_pos hlt']; simp [eb, eq', f1, f2]
  · have hv' : ra = p.quote ∧ rb = p.base := by
      unfold view at hv
      rw [if_neg (by dsimp only at hlt'; omega), if_pos hlt', hp] at hv
      simp at hv; exact ⟨hv.1.symm, hv.2.symm⟩
    obtain ⟨rfl, rfl⟩ := hv'
    refine ⟨s1.ledger.iss lp, oq, ob, hfi, hlt, hiss, by dsimp only at *; omega, by dsimp only at *; omega, ?_,
      by omega, by omega, hq, hb, g2 hq, g2 hb⟩
    unfold view; rw [if_neg (by dsimp only at hlt'; omega), if_pos hlt']; simp [eb, eq', f1, f2]

/-- The hypotheses of `C17_remove_partial` are met by a provider withdrawing half of their LP tokens. -/
example : okAnd (run vanilla ex0 [.create (20, 10) (1000000, 1000000) 1 77, .swap 2 20 10 5000]) (fun s =>
    decide (lpOf s 20 10 = some 77 ∧ (view s 20 10).isSome) &&
    okAnd (removeLiquidity vanilla s 1 (20, 10) 500000) (fun _ => true)) = true := by decide +kernel

/-! ### C59 -/

/-- **C59, the property as one would want it**: in a pool with equal reserves a trader never receives more
units than they pay. -/
def C59_statement : Prop := ∀ (s s' : State) (who a b x y r : Nat), Reach vanilla s →
  who ≠ vanilla.acct → who ≠ vanilla.lock → view s a b = some (r, r) →
  doSwap vanilla s who a b x = .ok (s', y) → y ≤ x

/-- **C59 is false.**  With 10^13 units of each asset (ten tokens of twelve decimals) an intermediate product
of `compute_base` no longer fits `u128` and counts as zero: a trade of 1000 units pays 58 billion. -/
theorem C59_refuted : ¬ C59_statement := by
  intro H
  have h : okAnd (run vanilla ex0 [.create (20, 10) (10 ^ 13, 10 ^ 13) 1 77]) (fun s =>
      decide (view s 20 10 = some (10 ^ 13, 10 ^ 13)) &&
      okAnd (doSwap vanilla s 2 20 10 1000) (fun r => decide (r.2 = 58823530409))) = true := by
    decide +kernel
  obtain ⟨s, hs, hp⟩ := okAnd_iff.1 h
  simp only [Bool.and_eq_true, decide_eq_true_eq] at hp
  obtain ⟨hv, hp⟩ := hp
  obtain ⟨⟨s', y⟩, h1, hp⟩ := okAnd_iff.1 hp
  simp only [decide_eq_true_eq] at hp
  have hr := ex_reach (by simp [Call.signerOK, vanilla]) hs
  have := H s s' 2 20 10 1000 y _ hr (by decide) (by decide) hv h1
  omega

/-- In large pools practically the whole output reserve can be bought for next to nothing: with 10^18 units of
each asset (a million tokens of twelve decimals) the invariant itself is computed as 0. -/
theorem C59_drain : ∃ (s s' : State) (y : Nat), Reach vanilla s ∧ view s 20 10 = some (10 ^ 18, 10 ^ 18 + 1) ∧
    doSwap vanilla s 2 20 10 1000 = .ok (s', y) ∧ y = 10 ^ 18 := by
  have h : okAnd (run vanilla ex0 [.create (20, 10) (10 ^ 18, 10 ^ 18 + 1) 1 77]) (fun s =>
      decide (view s 20 10 = some (10 ^ 18, 10 ^ 18 + 1)) &&
      okAnd (doSwap vanilla s 2 20 10 1000) (fun r => decide (r.2 = 10 ^ 18))) = true := by
    decide +kernel
  obtain ⟨s, hs, hp⟩ := okAnd_iff.1 h
  simp only [Bool.and_eq_true, decide_eq_true_eq] at hp
  obtain ⟨hv, hp⟩ := hp
  obtain ⟨⟨s', y⟩, h1, hp⟩ := okAnd_iff.1 hp
  simp only [decide_eq_true_eq] at hp
  exact ⟨s, s', y, ex_reach (by simp [Call.signerOK, vanilla]) hs, hv, h1, hp⟩

theorem doSwap_view {c : Cfg} {s s' : State} {who a b x y ra rb : Nat}
    (hv : view s a b = some (ra, rb)) (h : doSwap c s who a b x = .ok (s', y)) :
    amountOut c x ra rb = .ok y ∧ (∃ m, precipFloor c.lpFee 1 = .ok m ∧ m ≤ x) ∧ rb ≠ 0 ∧
      ra + x ≤ maxU128 := by
  obtain ⟨k, p, p', l1, l2, ra', rb', m, hp, rfl, hcase, hlp, _, _, hm, hmx, hrb, hout, hov, _⟩ := doSwap_ok h
  have : ra' = ra ∧ rb' = rb := by
    unfold view at hv
    rcases hcase with ⟨hlt, rfl, rfl, rfl, _⟩ | ⟨hlt, rfl, rfl, rfl, _⟩
    · rw [if_pos hlt, hp] at hv; simpa using hv
    · rw [if_neg (by omega), if_pos hlt, hp] at hv; simpa using hv
  obtain ⟨rfl, rfl⟩ := this
  exact ⟨hout, ⟨m, hm, hmx⟩, hrb, hov⟩

/-- Any trade, as long as no intermediate product overflows: the reserve that the curve leaves of one asset
plus the increased reserve of the other is at least the invariant minus one unit, so that the payment is at
most the net amount, plus one, plus the distance of the invariant from the sum of the reserves. -/
theorem C59_curve_bound {c : Cfg} (hc : c.OK) {x ra rb y d : Nat}
    (hd : delta c ra rb = .ok d) (h : amountOut c x ra rb = .ok y) (hrb : 0 < rb)
    (hbig : d / 2 * (d / 2) * d + c.amp * 2 * 2 * (2 + (rb + x)) + d ≤ maxU128) :
    y + d ≤ ra + rb + (x - pmulFloor (c.lpFee + c.fee) x) + 1 := by
  unfold amountOut feeSum at h
  rw [if_pos hc.fee] at h
  simp only [ok_bind, bind_ok_iff, csub_ok_iff, cadd_ok_iff] at h
  obtain ⟨net, ⟨_, rfl⟩, d', hd', nq, ⟨hnq, rfl⟩, nb, hnb, hle, rfl⟩ := h
  rw [hd] at hd'
  injection hd' with hd'
  subst hd'
  generalize hnet : x - pmulFloor (c.lpFee + c.fee) x = net at *
  have hnx : net ≤ x := by omega
  have e1 : c.amp * 2 * 2 * (2 + (rb + net)) ≤ c.amp * 2 * 2 * (2 + (rb + x)) :=
    Nat.mul_le_mul_left _ (by omega)
  have e2 : c.amp * 2 * 2 ≤ c.amp * 2 * 2 * (2 + (rb + x)) := Nat.le_mul_of_pos_right _ (by omega)
  have e3 : d / 2 * (d / 2) * d / (rb + net) ≤ d / 2 * (d / 2) * d := Nat.div_le_self _ _
  have := computeBase_ge hnb (by omega) hc.amp hnq (by omega) (by omega) (by omega) (by omega)
  omega

/-- **C59, the part that holds**: it is true while the reserves are so small that no product overflows
(up to 5.5·10^12 units in the vanilla runtime) and the trade is not absurdly large.  (Missing: larger pools,
where it is false, `C59_refuted`.) -/
theorem C59_balanced_partial {s s' : State} {who a b x y r : Nat} (hv : view s a b = some (r, r))
    (hr : 2 * (r * r * r) ≤ 10 ^ 38) (hx : x ≤ 10 ^ 30) (h : doSwap vanilla s who a b x = .ok (s', y)) :
    y ≤ x := by
  obtain ⟨hout, ⟨m, hm, hmx⟩, hr0, _⟩ := doSwap_view hv h
  have hr1 : 0 < r := Nat.pos_of_ne_zero hr0
  have hrs : r ≤ 10 ^ 13 := by
    by_contra hcon
    have h1 : 10 ^ 13 * 10 ^ 13 * 10 ^ 13 ≤ r * r * r :=
      Nat.mul_le_mul (Nat.mul_le_mul (by omega) (by omega)) (by omega)
    omega
  have hrr : r * r ≤ 10 ^ 13 * 10 ^ 13 := Nat.mul_le_mul hrs hrs
  have hamp : vanilla.amp = 85 := rfl
  have hD : delta vanilla r r = .ok (r + r) := by
    unfold delta
    refine computeD_balanced hr1 (by rw [hamp]; decide) ?_
    rw [hamp]
    unfold maxU128
    ring_nf
    ring_nf at hrr
    omega
  have hb := C59_curve_bound vanilla_ok hD hout hr1 (by
    rw [hamp]
    have e : (r + r) / 2 = r := by omega
    rw [e]
    have e2 : r * r * (r + r) = 2 * (r * r * r) := by ring
    rw [e2]
    unfold maxU128
    omega)
  have hf : vanilla.lpFee + vanilla.fee = 3000 := rfl
  have hm400 : 400 ≤ x := by
    have hl : vanilla.lpFee = 2500 := rfl
    rw [hl, precipFloor_ok_iff] at hm
    have : m = 400 := by rw [hm.2]; decide
    omega
  have hfee : 1 ≤ pmulFloor (vanilla.lpFee + vanilla.fee) x := by
    rw [hf]; unfold pmulFloor million; omega
  omega

/-- The hypotheses of `C59_balanced_partial` are met by a pool of a million units of each asset. -/
example : okAnd (run vanilla ex0 [.create (20, 10) (1000000, 1000000) 1 77]) (fun s =>
    decide (view s 20 10 = some (1000000, 1000000)) &&
    okAnd (doSwap vanilla s 2 20 10 1000) (fun r => decide (r.2 = 997))) = true := by
  decide +kernel

/-! ### C60 -/

/-- **C60.**  A successful `add_liquidity` takes from the provider an amount of each asset between the stated
minimum and the stated desired amount, puts exactly that into the pool account and the recorded reserves,
and leaves every other pool alone. -/
theorem C60_add_slippage {c : Cfg} {s s' : State} {who a b lp ra rb : Nat} {d m : Nat × Nat}
    (hlp : lpOf s a b = some lp) (hv : view s a b = some (ra, rb)) (hla : lp ≠ a) (hlb : lp ≠ b)
    (hw : who ≠ c.acct) (h : addLiquidity c s who (a, b) d m = .ok s') :
    ∃ ta tb, m.1 ≤ ta ∧ ta ≤ d.1 ∧ m.2 ≤ tb ∧ tb ≤ d.2 ∧
      s'.ledger.bal a who + ta = s.ledger.bal a who ∧ s'.ledger.bal b who + tb = s.ledger.bal b who ∧
      s'.ledger.bal a c.acct = s.ledger.bal a c.acct + ta ∧
      s'.ledger.bal b c.acct = s.ledger.bal b c.acct + tb ∧
      view s' a b = some (ra + ta, rb + tb) ∧
      (∀ k, k ≠ (a, b) → k ≠ (b, a) → s'.pools k = s.pools k) := by
  obtain ⟨kb, kq, p, ib, iq, s1, p1, s2, p2, db, dq, mb, mq, hpair, hp, _, h1, h2, h3, h4, hfee, hadd, rfl⟩ :=
    addLiquidity_ok h
  obtain ⟨f1, f2, f3, f6, f7, hfe⟩ := mintProtocolFee_ok hfee
  obtain ⟨d0, l0, liq, d1, mm, l1, l2, l3, _, e0, _, _, e1, e2, e3, rfl, eb, eq', elp, _⟩ := doAdd_ok hadd
  have hlpe : p.lp = lp := by
    unfold lpOf at hlp
    rcases hpair with ⟨hlt, rfl, rfl, _⟩ | ⟨hlt, rfl, rfl, _⟩
    · rw [if_pos hlt, hp] at hlp; simpa using hlp
    · rw [if_neg (by dsimp only at hlt; omega), if_pos hlt, hp] at hlp; simpa using hlp
  have hne : kb ≠ kq := by
    rcases hpair with ⟨hlt, rfl, rfl, _⟩ | ⟨hlt, rfl, rfl, _⟩ <;> dsimp only at * <;> omega
  have hlkb : kb ≠ lp := by rcases hpair with ⟨hlt, rfl, rfl, _⟩ | ⟨hlt, rfl, rfl, _⟩ <;> exact Ne.symm ‹_›
  have hlkq : kq ≠ lp := by rcases hpair with ⟨hlt, rfl, rfl, _⟩ | ⟨hlt, rfl, rfl, _⟩ <;> exact Ne.symm ‹_›
  have hfb : ∀ x, x ≠ lp → ∀ w, l1.bal x w = s.ledger.bal x w := by
    intro x hx w
    have g1 : s1.ledger.bal x w = s.ledger.bal x w := by
      rcases hfe with ⟨_, _, f, _, hm⟩ | ⟨_, rfl⟩
      · have := Ledger.mint_bal hm x w
        rw [hlpe] at this
        simpa [hx] using this
      · rfl
    have g2 : l0.bal x w = s1.ledger.bal x w := by
      rcases liquidityFor_ok e0 with ⟨_, hm, _⟩ | ⟨_, rfl, _⟩
      · have := Ledger.mint_bal hm x w
        rw [f3, hlpe] at this
        simpa [hx] using this
      · rfl
    have := Ledger.mint_bal e1 x w
    rw [f3, hlpe] at this
    simp [hx] at this
    rw [this, g2, g1]
  have t2b := Ledger.transfer_bal e2 kb who
  have t3b := Ledger.transfer_bal e3 kb who
  have t2q := Ledger.transfer_bal e2 kq who
  have t3q := Ledger.transfer_bal e3 kq who
  have u2b := Ledger.transfer_bal e2 kb c.acct
  have u3b := Ledger.transfer_bal e3 kb c.acct
  have u2q := Ledger.transfer_bal e2 kq c.acct
  have u3q := Ledger.transfer_bal e3 kq c.acct
  simp only [hne, hne.symm, hw, hw.symm, and_self, and_false, false_and, if_true, if_false,
    Nat.add_zero, hfb kb hlkb, hfb kq hlkq] at t2b t3b t2q t3q u2b u3b u2q u3q
  rcases hpair with ⟨hlt, rfl, rfl, rfl, rfl, rfl, rfl⟩ | ⟨hlt, rfl, rfl, rfl, rfl, rfl, rfl⟩
  · have hv' : ra = p.base ∧ rb = p.quote := by
      unfold view at hv; rw [if_pos hlt, hp] at hv; simp at hv; exact ⟨hv.1.symm, hv.2.symm⟩
    obtain ⟨rfl, rfl⟩ := hv'
    refine ⟨ib, iq, h3, h1, h4, h2, by dsimp only at *; omega, by dsimp only at *; omega,
      by dsimp only at *; omega, by dsimp only at *; omega, ?_, ?_⟩
    · unfold view; rw [if_pos hlt]; simp [eb, eq', f1, f2]
    · intro k k1 k2
      dsimp only
      rw [upd_of_ne _ _ k1, f6]
  · have hv' : ra = p.quote ∧ rb = p.base := by
      unfold view at hv
      rw [if_neg (by dsimp only at hlt; omega), if_pos hlt, hp] at hv
      simp at hv; exact ⟨hv.1.symm, hv.2.symm⟩
    obtain ⟨rfl, rfl⟩ := hv'
    refine ⟨iq, ib, h4, h2, h3, h1, by dsimp only at *; omega, by dsimp only at *; omega,
      by dsimp only at *; omega, by dsimp only at *; omega, ?_, ?_⟩
    · unfold view; rw [if_neg (by dsimp only at hlt; omega), if_pos hlt]; simp [eb, eq', f1, f2]
    · intro k k1 k2
      dsimp only
      rw [upd_of_ne _ _ k2, f6]

/-- The hypotheses of C60 are met by a deposit into an unbalanced pool, which takes less than desired. -/
example : okAnd (run vanilla ex0 [.create (20, 10) (1000000, 2000000) 1 77]) (fun s =>
    decide (lpOf s 20 10 = some 77 ∧ view s 20 10 = some (1000000, 2000000)) &&
    okAnd (addLiquidity vanilla s 2 (20, 10) (500, 5000) (1, 1)) (fun s' =>
      decide (view s' 20 10 = some (1000500, 2001000)))) = true := by decide +kernel

end Verif.Stable
