import Verif.Stable.Props2

set_option linter.unusedSimpArgs false

/-!
# Stableswap properties C84–C85: exact quotes, exact deposits and protocol-fee bookkeeping
-/

namespace Verif.Stable
open Verif
open Verif.Amm (Pool Pool.new idealDeposit)

/-! ## C84: the curve computation and the quotes -/

/-- Two numbers are at most one apart. -/
def Near (x y : Nat) : Prop := x ≤ y + 1 ∧ y ≤ x + 1

theorem close_iff {a b : Nat} : close a b ↔ Near a b := by
  unfold close Near; omega

/-- `v` is the first iterate of `f` from `x` that is near its predecessor, reached within `n` rounds. -/
inductive Settles (f : Nat → R Nat) : Nat → Nat → Nat → Prop
  | stop {n x v : Nat} (h : f x = .ok v) (hn : Near v x) (hfit : v ≤ maxU128) : Settles f (n + 1) x v
  | go {n x y v : Nat} (h : f x = .ok y) (hn : ¬ Near y x) (hr : Settles f n y v) : Settles f (n + 1) x v

theorem dLoop_iff {b q ann n x v : Nat} :
    dLoop b q ann n x = .ok v ↔ Settles (dStep b q ann) n x v := by
  induction n generalizing x with
  | zero => simp only [dLoop, reduceCtorEq, false_iff]; intro h; cases h
  | succ n ih =>
    simp only [dLoop, bind_ok_iff]
    constructor
    · rintro ⟨y, hy, h⟩
      split_ifs at h with hc
      · obtain ⟨h1, rfl⟩ := toU128_ok_iff.1 h
        exact .stop hy (close_iff.1 hc) h1
      · exact .go hy (fun h' => hc (close_iff.2 h')) (ih.1 h)
    · intro h
      cases h with
      | stop h hn hfit => exact ⟨v, h, by rw [if_pos (close_iff.2 hn)]; exact toU128_ok_iff.2 ⟨hfit, rfl⟩⟩
      | go h hn hr => exact ⟨_, h, by rw [if_neg (fun h' => hn (close_iff.1 h'))]; exact ih.2 hr⟩

theorem yLoop_iff {s ann d t n x v : Nat} :
    yLoop s ann d t n x = .ok v ↔ Settles (yStep s ann d t) n x v := by
  induction n generalizing x with
  | zero => simp only [yLoop, reduceCtorEq, false_iff]; intro h; cases h
  | succ n ih =>
    simp only [yLoop, bind_ok_iff]
    constructor
    · rintro ⟨y, hy, h⟩
      split_ifs at h with hc
      · obtain ⟨h1, rfl⟩ := toU128_ok_iff.1 h
        exact .stop hy (close_iff.1 hc) h1
      · exact .go hy (fun h' => hc (close_iff.2 h')) (ih.1 h)
    · intro h
      cases h with
      | stop h hn hfit => exact ⟨v, h, by rw [if_pos (close_iff.2 hn)]; exact toU128_ok_iff.2 ⟨hfit, rfl⟩⟩
      | go h hn hr => exact ⟨_, h, by rw [if_neg (fun h' => hn (close_iff.1 h'))]; exact ih.2 hr⟩

/-- Division as the pallet's helper does it: an operand that does not fit 128 bits counts as zero, and so does a
division by zero. -/
def lossyDiv (a b : Nat) : Nat := if a ≤ maxU128 ∧ b ≤ maxU128 then a / b else 0

theorem hdiv_eq (a b : Nat) : hdiv a b = lossyDiv a b := by
  unfold hdiv fit lossyDiv
  split_ifs <;> simp_all

/-- Newton's step for the invariant `D` of the curve with `4·amp = ann`. -/
def newtonD (b q ann d : Nat) : Nat :=
  let dp := lossyDiv (lossyDiv (d * d) (b * 2) * d) (q * 2)
  lossyDiv ((ann * (b + q) + dp * 2) * d) (ann * d + 3 * dp - d)

/-- Newton's step for the reserve `y` on the curve with the other reserve `s`. -/
def newtonY (s ann d y : Nat) : Nat :=
  lossyDiv (ann * y * y + lossyDiv (lossyDiv d 2 * lossyDiv d 2 * d) s) (ann * (2 * y + s - d) + d)

theorem dStep_iff {b q ann d v : Nat} (hann : 0 < ann) : dStep b q ann d = .ok v ↔ v = newtonD b q ann d := by
  unfold dStep newtonD
  simp only [bind_ok_iff, csub_ok_iff, pure_ok_iff, hdiv_eq]
  have : d ≤ ann * d + 3 * lossyDiv (lossyDiv (d * d) (b * 2) * d) (q * 2) := by
    have : d ≤ ann * d := Nat.le_mul_of_pos_left _ hann
    omega
  constructor
  · rintro ⟨_, ⟨_, rfl⟩, rfl⟩; rfl
  · rintro rfl; exact ⟨_, ⟨this, rfl⟩, rfl⟩

theorem yStep_iff {s ann d y v : Nat} :
    yStep s ann d (hdiv (hdiv d 2 * hdiv d 2 * d) s) y = .ok v ↔ d ≤ 2 * y + s ∧ v = newtonY s ann d y := by
  unfold yStep newtonY
  simp only [bind_ok_iff, csub_ok_iff, pure_ok_iff, hdiv_eq]
  constructor
  · rintro ⟨_, ⟨h, rfl⟩, rfl⟩; exact ⟨h, rfl⟩
  · rintro ⟨h, rfl⟩; exact ⟨_, ⟨h, rfl⟩, rfl⟩

/-- `v` is the first value of the sequence `x, f x, f (f x), …` at distance at most one from its predecessor; it
comes within `n` steps, fits 128 bits, and every step up to it is allowed. -/
def SettlesAt (f : Nat → Nat) (ok : Nat → Prop) (n x v : Nat) : Prop :=
  ∃ m, m < n ∧ v = f^[m + 1] x ∧ Near (f^[m + 1] x) (f^[m] x) ∧ v ≤ maxU128 ∧
    (∀ i, i < m → ¬ Near (f^[i + 1] x) (f^[i] x)) ∧ (∀ i, i ≤ m → ok (f^[i] x))

theorem settles_iff {g : Nat → R Nat} {f : Nat → Nat} {ok : Nat → Prop}
    (hg : ∀ x v, g x = .ok v ↔ ok x ∧ v = f x) {n x v : Nat} : Settles g n x v ↔ SettlesAt f ok n x v := by
  induction n generalizing x with
  | zero => exact ⟨fun h => by (cases h), fun ⟨m, h, _⟩ => absurd h (Nat.not_lt_zero m)⟩
  | succ n ih =>
    constructor
    · intro h
      cases h with
      | stop h hn hfit =>
        obtain ⟨h1, rfl⟩ := (hg _ _).1 h
        refine ⟨0, Nat.succ_pos _, rfl, hn, hfit, fun i hi => absurd hi (Nat.not_lt_zero i), fun i hi => ?_⟩
        obtain rfl : i = 0 := Nat.le_zero.1 hi
        exact h1
      | go h hn hr =>
        obtain ⟨h1, rfl⟩ := (hg _ _).1 h
        obtain ⟨m, e1, e2, e3, e4, e5, e6⟩ := ih.1 hr
        refine ⟨m + 1, Nat.succ_lt_succ e1, e2, e3, e4, fun i hi => ?_, fun i hi => ?_⟩
        · cases i with
          | zero => exact hn
          | succ i => exact e5 i (Nat.lt_of_succ_lt_succ hi)
        · cases i with
          | zero => exact h1
          | succ i => exact e6 i (Nat.le_of_succ_le_succ hi)
    · rintro ⟨m, e1, e2, e3, e4, e5, e6⟩
      cases m with
      | zero =>
        exact .stop ((hg _ _).2 ⟨e6 0 (Nat.le_refl _), e2⟩) (by rw [e2]; exact e3) e4
      | succ m =>
        refine .go ((hg _ _).2 ⟨e6 0 (Nat.zero_le _), rfl⟩) (e5 0 (Nat.succ_pos _)) (ih.2 ⟨m, Nat.lt_of_succ_lt_succ e1, e2, e3, e4, ?_, ?_⟩)
        · intro i hi; exact e5 (i + 1) (Nat.succ_lt_succ hi)
        · intro i hi; exact e6 (i + 1) (Nat.succ_le_succ hi)

/-- C84 (a): the curve invariant of reserves `(b, q)` is 0 for an empty pool and otherwise the first Newton iterate
from `b + q`, among at most 255, that moved by at most one; nothing else is ever answered. -/
theorem C84_invariant_iff {b q amp d : Nat} (hamp : 0 < amp) :
    computeD b q amp = .ok d ↔
      (b + q = 0 ∧ d = 0) ∨
      (b + q ≠ 0 ∧ SettlesAt (newtonD b q (4 * amp)) (fun _ => True) 255 (b + q) d) := by
  have e4 : amp * 2 * 2 = 4 * amp := by omega
  unfold computeD
  split_ifs with h0
  · simp [h0, eq_comm]
  · rw [dLoop_iff, e4, settles_iff (f := newtonD b q (4 * amp)) (ok := fun _ => True)]
    · constructor
      · exact fun h => Or.inr ⟨h0, h⟩
      · rintro (⟨h, _⟩ | ⟨_, h⟩)
        · exact absurd h h0
        · exact h
    · intro x v; rw [dStep_iff (by omega)]; simp

/-- C84 (b): the output quoted (and paid by a swap) for `x` units is what the curve leaves over: the reserve minus
the first Newton iterate, started from the invariant, that moved by at most one, where the input enters net of both
fees, each trade's fee being rounded down. -/
theorem C84_amount_out_iff {c : Cfg} (hc : c.OK) {x ra rb y : Nat} :
    amountOut c x ra rb = .ok y ↔
      ∃ d v, computeD ra rb c.amp = .ok d ∧ rb + (x - x * (c.lpFee + c.fee) / million) ≤ maxU128 ∧
        SettlesAt (newtonY (rb + (x - x * (c.lpFee + c.fee) / million)) (4 * c.amp) d)
          (fun z => d ≤ 2 * z + (rb + (x - x * (c.lpFee + c.fee) / million))) 255 d v ∧
        v ≤ ra ∧ y = ra - v := by
  have e4 : c.amp * 2 * 2 = 4 * c.amp := by omega
  have hle : x * (c.lpFee + c.fee) / million ≤ x := pmulFloor_le hc.fee
  unfold amountOut feeSum pmulFloor delta computeBase
  rw [if_pos hc.fee]
  simp only [ok_bind, bind_ok_iff, csub_ok_iff, cadd_ok_iff, e4, yLoop_iff]
  constructor
  · rintro ⟨_, ⟨_, rfl⟩, d, hd, _, ⟨h1, rfl⟩, v, hv, h2, rfl⟩
    exact ⟨d, v, hd, h1, (settles_iff fun z w => yStep_iff).1 hv, h2, rfl⟩
  · rintro ⟨d, v, hd, h1, hv, h2, rfl⟩
    exact ⟨_, ⟨hle, rfl⟩, d, hd, _, ⟨h1, rfl⟩, v, (settles_iff fun z w => yStep_iff).2 hv, h2, rfl⟩

/-- C84 (c): the input quoted for an output of `y` units: rejected unless `y` is below the reserve; otherwise the
constant-product amount `⌊ra·y/(rb - y)⌋`, grossed up by the fees with the quotient rounded down, plus one. -/
theorem C84_amount_in_iff {c : Cfg} (hfee : c.lpFee + c.fee < million) {y ra rb x : Nat} :
    amountIn c y ra rb = .ok x ↔
      y < rb ∧ ra * y ≤ maxU128 ∧
      x = min maxU128 (ra * y / (rb - y) * million / (million - (c.lpFee + c.fee))) + 1 ∧ x ≤ maxU128 := by
  unfold amountIn feeSum
  rw [if_pos hfee.le]
  simp only [bind_ok_iff, ensure_ok_iff, exists_const, cmul_ok_iff, cdiv_ok_iff, ok_bind, precipFloor_ok_iff,
    cadd_ok_iff]
  constructor
  · rintro ⟨h1, _, ⟨h2, rfl⟩, _, ⟨_, rfl⟩, _, ⟨_, rfl⟩, h3, rfl⟩
    exact ⟨h1, h2, rfl, h3⟩
  · rintro ⟨h1, h2, rfl, h3⟩
    exact ⟨h1, _, ⟨h2, rfl⟩, _, ⟨by omega, rfl⟩, _, ⟨by omega, rfl⟩, h3, rfl⟩

/-- C84 (d): the quote for a trade of the pair `{a, b}` reads the two reserves in the order of the trade. -/
theorem C84_quotes_pair {c : Cfg} {s : State} {a b x : Nat} {ys : List Nat} :
    amountsOut c s x [a, b] = .ok ys ↔
      ∃ ra rb y, view s a b = some (ra, rb) ∧ amountOut c x ra rb = .ok y ∧ ys = [x, y] := by
  simp only [amountsOut, amountsOutFrom, bind_ok_iff, Prod.exists, reserves_ok_iff, pure_ok_iff, Except.ok.injEq]
  constructor
  · rintro ⟨_, ⟨ra, rb, hv, y, hy, _, rfl, rfl⟩, rfl⟩; exact ⟨ra, rb, y, hv, hy, rfl⟩
  · rintro ⟨ra, rb, y, hv, hy, rfl⟩; exact ⟨_, ⟨ra, rb, hv, y, hy, _, rfl, rfl⟩, rfl⟩

theorem C84_quotes_pair_in {c : Cfg} {s : State} {a b y : Nat} {xs : List Nat} :
    amountsIn c s y [a, b] = .ok xs ↔
      ∃ ra rb x, view s a b = some (ra, rb) ∧ amountIn c y ra rb = .ok x ∧ xs = [x, y] := by
  simp only [amountsIn, bind_ok_iff, Prod.exists, reserves_ok_iff, pure_ok_iff, Except.ok.injEq]
  constructor
  · rintro ⟨_, rfl, ra, rb, hv, x, hx, rfl⟩; exact ⟨ra, rb, x, hv, hx, rfl⟩
  · rintro ⟨ra, rb, x, hv, hx, rfl⟩; exact ⟨_, rfl, ra, rb, hv, x, hx, rfl⟩

-- one Newton step from the sum of the reserves, and the fixed point
example : computeD 1000 3000 85 = .ok 3996 ∧ newtonD 1000 3000 340 4000 = 3996 ∧ newtonD 1000 3000 340 3996 = 3996 := by
  decide +kernel

/-- C84 (e), a limitation: the two quotes do not fit together.  In a pool of 1 000 000 : 1 100 000 the price quoted
for buying 1000 units is 912, but paying 912 buys only 910. -/
theorem C84_quotes_disagree : ∃ s, Reach vanilla s ∧ amountsIn vanilla s 1000 [20, 10] = .ok [912, 1000] ∧
    amountsOut vanilla s 912 [20, 10] = .ok [912, 910] := by
  have h : okAnd (run vanilla ex0 [.create (20, 10) (1000000, 1100000) 1 77]) (fun s =>
      decide (amountsIn vanilla s 1000 [20, 10] = .ok [912, 1000]) &&
      decide (amountsOut vanilla s 912 [20, 10] = .ok [912, 910])) = true := by decide +kernel
  obtain ⟨s, hs, hp⟩ := okAnd_iff.1 h
  simp only [Bool.and_eq_true, decide_eq_true_eq] at hp
  exact ⟨s, ex_reach (by simp [Call.signerOK, vanilla]) hs, hp.1, hp.2⟩

/-! ## C85: exact deposits and protocol-fee bookkeeping -/

/-- The pool's curve invariant. -/
def Curve (c : Cfg) (ra rb d : Nat) : Prop := computeD ra rb c.amp = .ok d

theorem idealAmounts_eq {p : Pool} {da db ib iq : Nat} (h : idealAmounts p da db = .ok (ib, iq)) :
    (ib, iq) = idealDeposit p.base p.quote da db := by
  unfold idealAmounts at h
  unfold idealDeposit
  by_cases he : p.base = 0 ∧ p.quote = 0
  · have : p.isEmpty = true := by simp [Pool.isEmpty, he.1, he.2]
    rw [if_pos this] at h
    rw [if_pos he]
    simp only [Except.ok.injEq] at h; exact h.symm
  · have : ¬ p.isEmpty = true := by simpa [Pool.isEmpty] using he
    rw [if_neg this] at h
    rw [if_neg he]
    simp only [quote, bind_ok_iff, cdiv_ok_iff, cmul_ok_iff] at h
    obtain ⟨i, ⟨_, ⟨_, rfl⟩, hb0, rfl⟩, h⟩ := h
    split_ifs at h with hle
    · simp only [pure_ok_iff] at h
      rw [if_pos hle]; exact h.symm
    · simp only [bind_ok_iff, cdiv_ok_iff, cmul_ok_iff, pure_ok_iff] at h
      obtain ⟨_, ⟨_, ⟨_, rfl⟩, _, rfl⟩, h⟩ := h
      rw [if_neg hle]; exact h.symm

theorem boosted_zero {liq d1 m : Nat} (h : boostedLiquidity 0 liq 0 d1 = .ok m) : m = liq + d1 := by
  unfold boostedLiquidity at h
  simp only [Nat.lt_irrefl, if_false, cadd_ok_iff] at h
  exact h.2

/-- C85 (a): `create_pool` takes exactly the two given amounts from the receiver, records exactly them as reserves,
locks the minimum liquidity and gives the receiver the rest of `⌊√(x·y)⌋` LP tokens; nobody else's balance changes.
The new pool has zero price accumulators. -/
theorem C85_create_exact {c : Cfg} {s s' : State} {a b x y rcv lp : Nat}
    (h : createPool c s (a, b) (x, y) rcv lp = .ok s') :
    a ≠ b ∧ poolAt s a b = none ∧ view s' a b = some (x, y) ∧ lpOf s' a b = some lp ∧
    (∃ p, poolAt s' a b = some p ∧ p.price0 = 0 ∧ p.price1 = 0 ∧ p.blockLast = 0) ∧
    s.ledger.iss lp = 0 ∧ c.minLiq ≤ Nat.sqrt (x * y) ∧ s'.ledger.iss lp = Nat.sqrt (x * y) ∧
    (∀ z w, s'.ledger.bal z w + (if z = a ∧ w = rcv then x else 0) + (if z = b ∧ w = rcv then y else 0) =
      s.ledger.bal z w + (if z = lp ∧ w = c.lock then c.minLiq else 0)
        + (if z = lp ∧ w = rcv then Nat.sqrt (x * y) - c.minLiq else 0)
        + (if z = a ∧ w = c.acct then x else 0) + (if z = b ∧ w = c.acct then y else 0)) := by
  obtain ⟨kb, kq, ba, qa, s2, p2, hpair, hnone, hiss, hadd, rfl⟩ := createPool_ok h
  obtain ⟨d0, l0, liq, d1, m, l1, l2, l3, hd0, e0, hd1, hm, e1, e2, e3, rfl, eb, eq', elp, _⟩ := doAdd_ok hadd
  have eor := doAdd_oracle hadd
  simp only [Pool.oracle, Pool.new, Prod.mk.injEq] at eor
  have elp' : p2.lp = lp := elp
  have eb' : p2.base = ba := by rw [eb]; simp [Pool.new]
  have eq'' : p2.quote = qa := by rw [eq']; simp [Pool.new]
  have e1' : l0.mint lp rcv m = .ok l1 := e1
  simp only [hnone, d0Of, Except.ok.injEq] at hd0
  simp only [hnone, d1Of, Except.ok.injEq] at hd1
  subst hd0; subst hd1
  have hm' : boostedLiquidity (s.ledger.iss lp) liq 0 0 = .ok m := hm
  rw [hiss] at hm'
  have hml : m = liq := boosted_zero hm'
  subst hml
  rcases liquidityFor_ok e0 with ⟨_, hm, hmin, hliq⟩ | ⟨hne, _⟩
  · have hm' : s.ledger.mint lp c.lock c.minLiq = .ok l0 := hm
    have hmul : ba * qa = x * y := by
      rcases hpair with ⟨_, _, _, rfl, rfl⟩ | ⟨_, _, _, rfl, rfl⟩
      · rfl
      · exact Nat.mul_comm _ _
    rw [hmul] at hmin hliq
    have hissF : l3.iss lp = Nat.sqrt (x * y) := by
      rw [Ledger.transfer_iss e3, Ledger.transfer_iss e2, Ledger.mint_iss e1', Ledger.mint_iss hm']
      simp only [if_true]; omega
    have hbal : ∀ z w, l3.bal z w + (if z = kb ∧ w = rcv then ba else 0) + (if z = kq ∧ w = rcv then qa else 0) =
      s.ledger.bal z w + (if z = lp ∧ w = c.lock then c.minLiq else 0)
        + (if z = lp ∧ w = rcv then Nat.sqrt (x * y) - c.minLiq else 0)
        + (if z = kb ∧ w = c.acct then ba else 0) + (if z = kq ∧ w = c.acct then qa else 0) := by
      intro z w
      have g1 := Ledger.mint_bal hm' z w
      have g2 := Ledger.mint_bal e1' z w
      have g3 := Ledger.transfer_bal e2 z w
      have g4 := Ledger.transfer_bal e3 z w
      rw [hliq] at g2
      omega
    rcases hpair with ⟨hlt, rfl, rfl, rfl, rfl⟩ | ⟨hlt, rfl, rfl, rfl, rfl⟩
    · simp only at hlt hnone hbal ⊢
      refine ⟨by omega, by simp [poolAt, hlt, hnone], by simp [view, hlt, eb', eq''], by simp [lpOf, hlt, elp'],
        ⟨p2, by simp [poolAt, hlt], eor⟩, hiss, hmin, hissF, hbal⟩
    · simp only at hlt hnone hbal ⊢
      have hn := Nat.lt_asymm hlt
      refine ⟨by omega, by simp [poolAt, hlt, hn, hnone], by simp [view, hlt, hn, eb', eq''],
        by simp [lpOf, hlt, hn, elp'], ⟨p2, by simp [poolAt, hlt, hn], eor⟩, hiss, hmin, hissF, fun z w => ?_⟩
      have := hbal z w
      omega
  · exact absurd hiss hne

/-- The LP tokens the protocol is due on a liquidity event with `T` LP tokens in circulation, where `D` is the curve
invariant of the present and `D₀` that of the remembered reserves: zero unless the invariant grew; otherwise
`(D - D₀)·T / (D·(n - 1) + D₀)`, `n` being the number of times the protocol's share of the fees (in whole parts per
million) goes into one. -/
def FeeDue (c : Cfg) (T ra rb la lb f : Nat) : Prop :=
  ∃ D D0, Curve c ra rb D ∧ Curve c la lb D0 ∧
    f = if D ≤ D0 then 0
      else (D - D0) * T / (D * (million / (c.fee * million / (c.lpFee + c.fee)) - 1) + D0)

theorem permillFromRational_small {p q : Nat} (hq : q ≤ million) (hpq : p ≤ q) (h0 : 0 < q) :
    permillFromRational p q = p * million / q := by
  unfold permillFromRational
  rw [if_neg (by omega)]
  have h1 : ceilDiv q million ≤ 1 := by
    rw [ceilDiv_le_iff million_pos]; omega
  have h2 : max 1 (ceilDiv q million) = 1 := Nat.max_eq_left h1
  dsimp only
  rw [h2, Nat.div_one, Nat.div_one]

theorem protocolFees_eq {c : Cfg} (hc : c.OK) (hf : c.fee ≠ 0) {l : Ledger} {p : Pool} {f : Nat}
    (h : protocolFees c l p = .ok f) : FeeDue c (l.iss p.lp) p.base p.quote p.baseLast p.quoteLast f := by
  unfold protocolFees at h
  simp only [bind_ok_iff, unwrapR_ok_iff] at h
  obtain ⟨D0, h0, D, h1, h⟩ := h
  refine ⟨D, D0, h1, h0, ?_⟩
  split_ifs at h ⊢ with hle
  · simp only [pure_ok_iff] at h; exact h.symm
  · unfold feeReciprocal feeSum at h
    rw [if_pos hc.fee, ok_bind, permillFromRational_small hc.fee (by omega) (by omega)] at h
    simp only [bind_ok_iff, precipFloor_ok_iff, csub_ok_iff, cdiv_ok_iff, toU128_ok_iff, Nat.one_mul] at h
    obtain ⟨r, ⟨_, rfl⟩, sc, ⟨_, rfl⟩, g, ⟨_, rfl⟩, _, rfl⟩ := h
    have : million / (c.fee * million / (c.lpFee + c.fee)) ≤ maxU128 :=
      (Nat.div_le_self _ _).trans (by decide)
    rw [Nat.min_eq_right this]

theorem feeOn_iff {c : Cfg} : feeOn c = true ↔ c.fee ≠ 0 := by simp [feeOn]

theorem feeOn_false {c : Cfg} : feeOn c = false ↔ c.fee = 0 := by simp [feeOn]

theorem mintProtocolFee_eff {c : Cfg} (hc : c.OK) {s s' : State} {p p' : Pool}
    (h : mintProtocolFee c s p = .ok (s', p')) :
    ∃ f, (c.fee = 0 → f = 0) ∧ (c.fee ≠ 0 → FeeDue c (s.ledger.iss p.lp) p.base p.quote p.baseLast p.quoteLast f) ∧
      s'.ledger.iss p.lp = s.ledger.iss p.lp + f ∧
      ∀ z w, s'.ledger.bal z w = s.ledger.bal z w + if z = p.lp ∧ w = c.feeTo then f else 0 := by
  obtain ⟨_, _, _, _, _, hcase⟩ := mintProtocolFee_ok h
  rcases hcase with ⟨hon, _, f, hf, hm⟩ | ⟨hoff, rfl⟩
  · refine ⟨f, fun e => absurd e (feeOn_iff.1 hon), fun e => protocolFees_eq hc e hf, ?_, fun z w => ?_⟩
    · rw [Ledger.mint_iss hm, if_pos rfl]
    · exact Ledger.mint_bal hm z w
  · exact ⟨0, fun _ => rfl, fun e => absurd (feeOn_false.1 hoff) e, rfl, fun z w => by simp⟩

theorem doAdd_last_off {c : Cfg} {s s' : State} {who : Nat} {p p' : Pool} {ib iq b q : Nat}
    (h : doAdd c s who p ib iq b q = .ok (s', p')) (hoff : feeOn c = false) :
    p'.baseLast = p.baseLast ∧ p'.quoteLast = p.quoteLast := by
  unfold doAdd at h
  simp only [bind_ok_iff, Prod.exists, pure_ok_iff, Prod.mk.injEq, hoff, Bool.false_eq_true, if_false] at h
  obtain ⟨_, _, _, _, _, _, _, _, _, _, _, _, _, _, _, _, _, _, _, _, _, rfl⟩ := h
  exact ⟨rfl, rfl⟩

theorem doRemove_last_off {c : Cfg} {s s' : State} {who : Nat} {p p' : Pool} {liq b q : Nat}
    (h : doRemove c s who p liq b q = .ok (s', p')) (hoff : feeOn c = false) :
    p'.baseLast = p.baseLast ∧ p'.quoteLast = p.quoteLast := by
  unfold doRemove at h
  simp only [bind_ok_iff, Prod.exists, pure_ok_iff, Prod.mk.injEq, hoff, Bool.false_eq_true, if_false] at h
  obtain ⟨_, _, _, _, _, _, _, _, _, _, _, _, _, _, _, rfl⟩ := h
  exact ⟨rfl, rfl⟩

theorem mintProtocolFee_last {c : Cfg} {s s' : State} {p p' : Pool} (h : mintProtocolFee c s p = .ok (s', p'))
    (hz : p.baseLast = 0 ∧ p.quoteLast = 0) : p'.baseLast = 0 ∧ p'.quoteLast = 0 := by
  unfold mintProtocolFee at h
  split_ifs at h
  · simp only [bind_ok_iff, pure_ok_iff, Prod.mk.injEq] at h
    obtain ⟨_, _, _, _, _, rfl⟩ := h; exact hz
  · simp only [Except.ok.injEq, Prod.mk.injEq] at h; obtain ⟨_, rfl⟩ := h; exact ⟨rfl, rfl⟩
  · simp only [Except.ok.injEq, Prod.mk.injEq] at h; obtain ⟨_, rfl⟩ := h; exact hz

/-- The reserves a pool remembers for the protocol fee, seen as (of `a`, of `b`). -/
def lastView (s : State) (a b : Nat) : Option (Nat × Nat) :=
  if b < a then (s.pools (a, b)).map (fun p => (p.baseLast, p.quoteLast))
  else if a < b then (s.pools (b, a)).map (fun p => (p.quoteLast, p.baseLast))
  else none

/-- C85 (b): `add_liquidity` on a pool of positive supply takes exactly the ideal deposit, mints the protocol's due `f`
first, then mints `L + ⌊L·(D₁ - D₀)/D₀⌋` LP tokens to the caller, `L` being the share formula and `D₀`, `D₁` the curve
invariants before and after; and remembers the new reserves if the protocol fee is on. -/
theorem C85_add_exact {c : Cfg} (hc : c.OK) {s s' : State} {who a b da db ma mb ra rb la lb lp : Nat} (hab : b < a)
    (hv : view s a b = some (ra, rb)) (hlp : lpOf s a b = some lp) (hlast : lastView s a b = some (la, lb))
    (hpos : s.ledger.iss lp ≠ 0)
    (h : addLiquidity c s who (a, b) (da, db) (ma, mb) = .ok s') :
    ∃ xa xb f T L D0 D1 liq, (xa, xb) = idealDeposit ra rb da db ∧ xa ≤ da ∧ xb ≤ db ∧ ma ≤ xa ∧ mb ≤ xb ∧
      (c.fee = 0 → f = 0) ∧ (c.fee ≠ 0 → FeeDue c (s.ledger.iss lp) ra rb la lb f) ∧ T = s.ledger.iss lp + f ∧
      Curve c ra rb D0 ∧ Curve c (ra + xa) (rb + xb) D1 ∧ D0 ≠ 0 ∧ D0 ≤ D1 ∧
      L = min (xa * T / ra) (xb * T / rb) ∧ liq = L + L * (D1 - D0) / D0 ∧ s'.ledger.iss lp = T + liq ∧
      view s' a b = some (ra + xa, rb + xb) ∧ lpOf s' a b = some lp ∧
      (c.fee ≠ 0 → lastView s' a b = some (ra + xa, rb + xb)) ∧
      (∀ z w, s'.ledger.bal z w + (if z = a ∧ w = who then xa else 0) + (if z = b ∧ w = who then xb else 0) =
        s.ledger.bal z w + (if z = lp ∧ w = c.feeTo then f else 0) + (if z = lp ∧ w = who then liq else 0)
          + (if z = a ∧ w = c.acct then xa else 0) + (if z = b ∧ w = c.acct then xb else 0)) := by
  obtain ⟨kb, kq, p, ib, iq, s1, p1, s2, p2, db', dq, mb', mq, hpair, hp, hid, h1, h2, h3, h4, hfee, hadd, rfl⟩ :=
    addLiquidity_ok h
  rcases hpair with ⟨_, rfl, rfl, rfl, rfl, rfl, rfl⟩ | ⟨hlt, _⟩
  swap
  · exact absurd hlt (Nat.lt_asymm hab)
  simp only at hp hid h1 h2 h3 h4 hadd ⊢
  simp only [view, hab, if_true, hp, Option.map_some, Option.some.injEq, Prod.mk.injEq] at hv
  obtain ⟨rfl, rfl⟩ := hv
  simp only [lpOf, hab, if_true, hp, Option.map_some, Option.some.injEq] at hlp
  subst hlp
  simp only [lastView, hab, if_true, hp, Option.map_some, Option.some.injEq, Prod.mk.injEq] at hlast
  obtain ⟨rfl, rfl⟩ := hlast
  obtain ⟨f1, f2, f3, f6, _, _⟩ := mintProtocolFee_ok hfee
  obtain ⟨f, g1, g2, g3, g5⟩ := mintProtocolFee_eff hc hfee
  obtain ⟨d0, l0, liq, d1, m, l1, l2, l3, hd0, e0, hd1, hm, e1, e2, e3, rfl, eb, eq', elp, _, _, hl⟩ := doAdd_ok hadd
  have hne' : s1.ledger.iss p1.lp ≠ 0 := by rw [f3, g3]; omega
  rcases liquidityFor_ok e0 with ⟨hz, _⟩ | ⟨_, rfl, hb0, hq0, hliq⟩
  · exact absurd hz hne'
  rw [f6] at hd0 hd1
  simp only [hp, d0Of, unwrapR_ok_iff] at hd0
  simp only [hp, d1Of, bind_ok_iff, unwrapR_ok_iff, ensure_ok_iff, exists_const, pure_ok_iff] at hd1
  obtain ⟨d1', hd1, hle, rfl⟩ := hd1
  simp only [boostedLiquidity, if_pos (Nat.pos_of_ne_zero hne'), bind_ok_iff, csub_ok_iff, cmul_ok_iff,
    cdiv_ok_iff, cadd_ok_iff] at hm
  obtain ⟨_, ⟨_, rfl⟩, _, ⟨_, rfl⟩, _, ⟨hd00, rfl⟩, _, rfl⟩ := hm
  rw [f3, g3, f1, f2] at hliq
  rw [f3] at e1
  rw [f1, f2] at hd1
  refine ⟨ib, iq, f, s.ledger.iss p.lp + f, liq, d0, d1', _, idealAmounts_eq hid, h1, h2, h3, h4, g1, g2, rfl,
    hd0, hd1, hd00, hle, hliq, rfl, ?_, ?_, ?_, ?_, ?_⟩
  · show l3.iss p.lp = _
    rw [Ledger.transfer_iss e3, Ledger.transfer_iss e2, Ledger.mint_iss e1, if_pos rfl, g3]
  · simp [view, hab, eb, eq', f1, f2]
  · simp [lpOf, hab, elp, f3]
  · intro e
    obtain ⟨i1, i2⟩ := hl (feeOn_iff.2 e)
    simp [lastView, hab, i1, i2, eb, eq', f1, f2]
  · intro z w
    have i1 := Ledger.mint_bal e1 z w
    have i2 := Ledger.transfer_bal e2 z w
    have i3 := Ledger.transfer_bal e3 z w
    have i4 := g5 z w
    show l3.bal z w + _ + _ = _
    omega

/-- C85 (c): `remove_liquidity` first mints the protocol's due `f`, then burns exactly `liq` LP tokens of the caller
and pays exactly the share `⌊liq·r/T⌋` of each reserve, `T` including `f`; and remembers the new reserves if the
protocol fee is on. -/
theorem C85_remove_exact {c : Cfg} (hc : c.OK) {s s' : State} {who a b liq ra rb la lb lp : Nat} (hab : b < a)
    (hv : view s a b = some (ra, rb)) (hlp : lpOf s a b = some lp) (hlast : lastView s a b = some (la, lb))
    (h : removeLiquidity c s who (a, b) liq = .ok s') :
    ∃ f T xa xb, (c.fee = 0 → f = 0) ∧ (c.fee ≠ 0 → FeeDue c (s.ledger.iss lp) ra rb la lb f) ∧
      T = s.ledger.iss lp + f ∧ T ≠ 0 ∧ xa = liq * ra / T ∧ xb = liq * rb / T ∧ xa ≤ ra ∧ xb ≤ rb ∧
      view s' a b = some (ra - xa, rb - xb) ∧ lpOf s' a b = some lp ∧
      (c.fee ≠ 0 → lastView s' a b = some (ra - xa, rb - xb)) ∧
      (∀ z w, s'.ledger.bal z w + (if z = lp ∧ w = who then liq else 0)
          + (if z = a ∧ w = c.acct then xa else 0) + (if z = b ∧ w = c.acct then xb else 0) =
        s.ledger.bal z w + (if z = lp ∧ w = c.feeTo then f else 0)
          + (if z = a ∧ w = who then xa else 0) + (if z = b ∧ w = who then xb else 0)) := by
  obtain ⟨kb, kq, p, s1, p1, s2, p2, hpair, hp, hfee, hrem, rfl⟩ := removeLiquidity_ok h
  rcases hpair with ⟨_, rfl, rfl⟩ | ⟨hlt, _⟩
  swap
  · exact absurd hlt (Nat.lt_asymm hab)
  simp only at hp hrem ⊢
  simp only [view, hab, if_true, hp, Option.map_some, Option.some.injEq, Prod.mk.injEq] at hv
  obtain ⟨rfl, rfl⟩ := hv
  simp only [lpOf, hab, if_true, hp, Option.map_some, Option.some.injEq] at hlp
  subst hlp
  simp only [lastView, hab, if_true, hp, Option.map_some, Option.some.injEq, Prod.mk.injEq] at hlast
  obtain ⟨rfl, rfl⟩ := hlast
  obtain ⟨f1, f2, f3, f6, _, _⟩ := mintProtocolFee_ok hfee
  obtain ⟨f, g1, g2, g3, g5⟩ := mintProtocolFee_eff hc hfee
  obtain ⟨ob, oq, l1, l2, l3, hz, hob, hoq, e1, e2, e3, rfl, hb, hq, eb, eq', elp, hl⟩ := doRemove_ok hrem
  rw [f3, g3] at hz hob hoq
  rw [f1] at hob hb eb
  rw [f2] at hoq hq eq'
  rw [f3] at e1
  refine ⟨f, s.ledger.iss p.lp + f, ob, oq, g1, g2, rfl, hz, hob, hoq, hb, hq, ?_, ?_, ?_, ?_⟩
  · simp [view, hab, eb, eq']
  · simp [lpOf, hab, elp, f3]
  · intro e
    obtain ⟨i1, i2⟩ := hl (feeOn_iff.2 e)
    simp [lastView, hab, i1, i2, eb, eq']
  · intro z w
    have i1 := Ledger.burn_bal e1 z w
    have i2 := Ledger.transfer_bal e2 z w
    have i3 := Ledger.transfer_bal e3 z w
    have i4 := g5 z w
    show l3.bal z w + _ + _ + _ = _
    omega

/-- C85 (d): on a chain whose protocol fee is zero no pool ever remembers reserves (so nothing is ever due). -/
theorem C85_fee_off {c : Cfg} (hf : c.fee = 0) {s : State} (h : Reach c s) {a b : Nat} {v : Nat × Nat}
    (hv : lastView s a b = some v) : v = (0, 0) := by
  have hoff := feeOn_false.2 hf
  have key : ∀ k p, s.pools k = some p → p.baseLast = 0 ∧ p.quoteLast = 0 := by
    clear hv
    induction h with
    | init s h _ => intro k p hp; rw [h] at hp; cases hp
    | @step s s' hr hs ih =>
      intro k p hp
      cases hs with
      | env e => rw [e.pools] at hp; exact ih k p hp
      | call call hk h =>
        have put : ∀ j q' t, s'.pools = upd t j (some q') → t = s.pools → (q'.baseLast = 0 ∧ q'.quoteLast = 0) →
            p.baseLast = 0 ∧ p.quoteLast = 0 := by
          intro j q' t e et hq'
          rw [e, et] at hp
          by_cases ek : k = j
          · subst ek; simp only [upd_same, Option.some.injEq] at hp; subst hp; exact hq'
          · rw [upd_of_ne _ _ ek] at hp; exact ih k p hp
        cases call with
        | add who pair d m =>
          obtain ⟨b, q, q0, ib, iq, s1, p1, s2, p2, _, _, _, _, hpair, hq0, _, _, _, _, _, hfee, hadd, rfl⟩ :=
            addLiquidity_ok h
          obtain ⟨f1, f2, f3, f6, f7, _⟩ := mintProtocolFee_ok hfee
          obtain ⟨_, _, _, _, _, _, _, _, _, _, _, _, _, _, _, rfl, _⟩ := doAdd_ok hadd
          refine put (b, q) p2 s1.pools rfl f6 ?_
          obtain ⟨i1, i2⟩ := doAdd_last_off hadd hoff
          rw [i1, i2]; exact mintProtocolFee_last hfee (ih _ _ hq0)
        | remove who pair liq =>
          obtain ⟨b, q, q0, s1, p1, s2, p2, hpair, hq0, hfee, hrem, rfl⟩ := removeLiquidity_ok h
          obtain ⟨f1, f2, f3, f6, f7, _⟩ := mintProtocolFee_ok hfee
          obtain ⟨_, _, _, _, _, _, _, _, _, _, _, rfl, _⟩ := doRemove_ok hrem
          refine put (b, q) p2 s1.pools rfl f6 ?_
          obtain ⟨i1, i2⟩ := doRemove_last_off hrem hoff
          rw [i1, i2]; exact mintProtocolFee_last hfee (ih _ _ hq0)
        | create pair am rcv lp =>
          obtain ⟨b, q, ba, qa, s2, p2, hpair, hnone, hiss, hadd, rfl⟩ := createPool_ok h
          obtain ⟨_, _, _, _, _, _, _, _, _, _, _, _, _, _, _, rfl, _⟩ := doAdd_ok hadd
          refine put (b, q) p2 s.pools rfl rfl ?_
          obtain ⟨i1, i2⟩ := doAdd_last_off hadd hoff
          rw [i1, i2]; exact ⟨rfl, rfl⟩
        | swap who x y z =>
          simp only [exec, bind_ok_iff, Prod.exists, pure_ok_iff] at h
          obtain ⟨s1, y, hsw, rfl⟩ := h
          obtain ⟨k', q, q', _, hq, hpools, _, _, e1, e2, _⟩ := doSwap_oracle hsw
          refine put k' q' s.pools hpools rfl ?_
          rw [e1, e2]; exact ih _ _ hq
  unfold lastView at hv
  split_ifs at hv <;> rw [Option.map_eq_some_iff] at hv <;> obtain ⟨p, hp, rfl⟩ := hv <;>
    obtain ⟨i1, i2⟩ := key _ _ hp <;> rw [i1, i2]

/-- C85 (e): swaps never touch the remembered reserves. -/
theorem C85_swap_keeps_last {c : Cfg} {s s' : State} {who x y n out a b : Nat}
    (h : doSwap c s who x y n = .ok (s', out)) : lastView s' a b = lastView s a b := by
  obtain ⟨k', q, q', _, hq, hpools, _, _, e1, e2, _⟩ := doSwap_oracle h
  unfold lastView
  rw [hpools]
  split_ifs
  · by_cases e : (a, b) = k'
    · subst e; simp [hq, e1, e2]
    · rw [upd_of_ne _ _ e]
  · by_cases e : (b, a) = k'
    · subst e; simp [hq, e1, e2]
    · rw [upd_of_ne _ _ e]
  · rfl

/-- C85 (f): `create_pool` remembers the deposited reserves if the fee is on. -/
theorem C85_create_remembers {c : Cfg} {s s' : State} {a b x y rcv lp : Nat} (hf : c.fee ≠ 0) (hab : b < a)
    (h : createPool c s (a, b) (x, y) rcv lp = .ok s') : lastView s' a b = some (x, y) := by
  obtain ⟨kb, kq, ba, qa, s2, p2, hpair, hnone, hiss, hadd, rfl⟩ := createPool_ok h
  obtain ⟨d0, l0, liq, d1, m, l1, l2, l3, hd0, e0, hd1, hm, e1, e2, e3, rfl, eb, eq', elp, _, _, hlast⟩ := doAdd_ok hadd
  rcases hpair with ⟨_, rfl, rfl, rfl, rfl⟩ | ⟨hlt, _⟩
  · obtain ⟨i1, i2⟩ := hlast (feeOn_iff.2 hf)
    simp [lastView, hab, i1, i2, eb, eq', Pool.new]
  · exact absurd hlt (Nat.lt_asymm hab)

-- a deposit into a pool that grew by trading: the protocol gets its due, the provider the boosted amount
example : okAnd (run vanilla ex0 [.create (20, 10) (1000000, 1000000) 1 77, .swap 2 20 10 300000,
      .add 2 (20, 10) (100000, 100000) (1, 1)]) (fun s =>
    decide (lastView s 20 10 = view s 20 10) && decide (s.ledger.bal 77 1002 = 74)) = true := by decide +kernel

end Verif.Stable
