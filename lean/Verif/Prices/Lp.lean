import Verif.Prices.Props3

/-!
# LP tokens as collateral (C202), and what moves prices (C203, C204)
-/

namespace Verif.Prices
open Verif

variable {c : Cfg} {s s' : State} {a : Nat} {bp q q' : TSP} {w w' : World}

/-- What a price of an LP token is made of. -/
theorem lpPrice_ok (h : lpPrice c w a bp = .ok (some q)) : ∃ m bm p vp v1,
    mantissa w a = some m ∧ w.lpPool a = some p ∧ p.quote = c.relay ∧ w.isCtoken p.base = true ∧
    mantissa w p.base = some bm ∧ w.supply a ≠ 0 ∧ vaultPrice w p.base bp = some vp ∧
    2 * Nat.sqrt (p.baseAmount * p.quoteAmount) ≤ maxU128 ∧
    v1 = vp.value * min maxU128 (2 * Nat.sqrt (p.baseAmount * p.quoteAmount) * DIV / w.supply a) / DIV ∧
    v1 ≤ maxU128 ∧ q.value = v1 * min maxU128 (m / bm * DIV) / DIV ∧ q.value ≤ maxU128 ∧ q.time = vp.time := by
  unfold lpPrice lpPoolOf at h
  cases hm : mantissa w a with
  | none => rw [hm] at h; cases h
  | some m =>
    rw [hm] at h
    cases hp : w.lpPool a with
    | none => rw [hp] at h; cases h
    | some p =>
      rw [hp] at h
      dsimp only at h
      by_cases hk : p.quote = c.relay ∧ w.isCtoken p.base = true
      · rw [if_pos hk] at h
        dsimp only at h
        cases hb : mantissa w p.base with
        | none => rw [hb] at h; cases h
        | some bm =>
          rw [hb] at h
          dsimp only at h
          by_cases hl : 2 * Nat.sqrt (p.baseAmount * p.quoteAmount) ≤ maxU128
          · rw [if_pos hl] at h
            simp only [bind_ok_iff, fixSatFromRational_ok_iff, pure_ok_iff] at h
            obtain ⟨rate, ⟨hs, hr⟩, hv⟩ := h
            unfold lpValue at hv
            simp only [Option.bind_eq_bind, Option.bind_eq_some_iff, fixMul_iff, Option.some.injEq] at hv
            obtain ⟨vp, hvp, v1, ⟨h1, h1'⟩, v3, ⟨h2, h2'⟩, rfl⟩ := hv
            subst hr
            exact ⟨m, bm, p, vp, v1, rfl, rfl, hk.1, hk.2, hb, hs, hvp, hl, h1', by omega, h2', le_of_eq_of_le h2' h2, rfl⟩
          · rw [if_neg hl] at h
            cases h
      · rw [if_neg hk] at h
        cases h

theorem mantissa_iff {m : Nat} : mantissa w a = some m ↔ ∃ d, w.decimal a = some d ∧ m = 10 ^ d ∧ m ≤ maxU128 := by
  unfold mantissa
  simp only [Option.bind_eq_bind, Option.bind_eq_some_iff, Option.ite_none_right_eq_some, Option.some.injEq]
  constructor
  · rintro ⟨d, h1, h2, rfl⟩
    exact ⟨d, h1, rfl, h2⟩
  · rintro ⟨d, h1, rfl, h2⟩
    exact ⟨d, h1, h2, rfl⟩

/-- The answer of `get_price` without an emergency price. -/
theorem getPrice_iff (he : s.emergency a = none) : getPrice c s a = .ok (some q) ↔
    ∃ m r, mantissa s.world a = some m ∧ sourced c s a = .ok (some r) ∧ r.value * DIV / m ≤ maxU128 ∧
      q = ⟨r.value * DIV / m, r.time⟩ := by
  unfold getPrice
  rw [emergencyPrice_none he]
  dsimp only
  cases hm : mantissa s.world a with
  | none => simp
  | some m =>
    have hm0 : m ≠ 0 := by
      obtain ⟨d, _, rfl, _⟩ := mantissa_iff.1 hm
      exact (Nat.pow_pos (by omega)).ne'
    simp only [bind_ok_iff, pure_ok_iff, Option.bind_eq_some_iff, normalize, Option.bind_eq_bind, fixDiv_iff,
      Option.some.injEq]
    constructor
    · rintro ⟨o, ho, r, rfl, v, ⟨_, h1, rfl⟩, rfl⟩
      exact ⟨m, r, rfl, ho, h1, rfl⟩
    · rintro ⟨m', r, rfl, ho, h1, rfl⟩
      exact ⟨_, ho, r, rfl, _, ⟨hm0, h1, rfl⟩, rfl⟩

theorem two_sqrt_le (x y : Nat) : 2 * Nat.sqrt (x * y) ≤ x + y := by
  have h := Nat.sqrt_le' (x * y)
  by_contra hc
  push Not at hc
  have h2 : (x + y) ^ 2 < (2 * Nat.sqrt (x * y)) ^ 2 := Nat.pow_lt_pow_left hc (by omega)
  have h3 : (2 * Nat.sqrt (x * y)) ^ 2 = 4 * Nat.sqrt (x * y) ^ 2 := by ring
  have h4 : 4 * (x * y) ≤ (x + y) ^ 2 := by
    rcases Nat.le_total x y with h | h
    · obtain ⟨d, rfl⟩ := Nat.exists_eq_add_of_le h
      nlinarith [Nat.zero_le (d * d)]
    · obtain ⟨d, rfl⟩ := Nat.exists_eq_add_of_le h
      nlinarith [Nat.zero_le (d * d)]
  omega

/-- **C202** An LP token of a (crowdloan derivative, relay token) pool is never valued above its share of what is in the
pool: the value `⌊price·n⌋` that the money market sees for any `n` units, times the supply, is at most `n` times the
value of the reserves at the derivative's and the relay token's own prices.  (`vp` and `bp` are the prices of a whole
derivative and a whole relay token; both have `d` decimals; the derivative, a claim on a relay token in the future, is
not dearer than the relay token.) -/
theorem C202_never_overstated {p : LpPool} {vp : TSP} {d n : Nat} (hs : 0 < c.stack) (ha : isLfLp a = true)
    (he : s.emergency a = none) (hr : s.world.oracle c.relay = some bp) (ho : s.world.oracle a = none)
    (hp : s.world.lpPool a = some p) (hv : isVault p.base = true) (hd : s.world.decimal p.base = some d)
    (_hd : s.world.decimal p.quote = some d) (hraw : Raw c s p.base vp) (hle : vp.value ≤ bp.value)
    (h : getPrice c s a = .ok (some q)) :
    p.quote = c.relay ∧
    q.value * n / DIV * s.world.supply a * 10 ^ d ≤ n * (vp.value * p.baseAmount + bp.value * p.quoteAmount) := by
  obtain ⟨k, hk⟩ : ∃ k, c.stack = k + 1 := ⟨c.stack - 1, by omega⟩
  obtain ⟨m, r, hm, hsrc, _, rfl⟩ := (getPrice_iff he).1 h
  have hl : lpPrice c s.world a bp = .ok (some r) := by
    unfold sourced at hsrc
    rw [hr] at hsrc
    dsimp only at hsrc
    rw [hk, special_lp ha] at hsrc
    simp only [bind_ok_iff, pure_ok_iff] at hsrc
    obtain ⟨o, h1, h2⟩ := hsrc
    rw [ho] at h2
    cases o with
    | none => cases h2
    | some x =>
      rw [h1]
      exact congrArg Except.ok h2
  obtain ⟨m', bm, p', vp', v1, hm', hp', hq, _, hbm, hS, hvp, _, hv1, _, hr3, _, _⟩ := lpPrice_ok hl
  rw [hm] at hm'
  cases hm'
  rw [hp] at hp'
  cases hp'
  refine ⟨hq, ?_⟩
  have hvv : vp' = vp := by
    unfold Raw sourced at hraw
    rw [hr] at hraw
    dsimp only at hraw
    rw [hk, special_vault hv, hvp] at hraw
    simp only [bind_ok_iff, pure_ok_iff] at hraw
    obtain ⟨o, h1, h2⟩ := hraw
    cases h1
    cases h2
    rfl
  subst hvv
  obtain ⟨d1, e1, rfl, _⟩ := mantissa_iff.1 hm
  obtain ⟨d2, e2, rfl, _⟩ := mantissa_iff.1 hbm
  rw [hd] at e2
  cases e2
  dsimp only
  have hM : 0 < 10 ^ d1 := Nat.pow_pos (by omega)
  have hB : 0 < 10 ^ d := Nat.pow_pos (by omega)
  generalize 10 ^ d1 = M at *
  generalize 10 ^ d = B at *
  generalize hsq : 2 * Nat.sqrt (p.baseAmount * p.quoteAmount) = L at *
  have hL : L ≤ p.baseAmount + p.quoteAmount := hsq ▸ two_sqrt_le _ _
  generalize s.world.supply a = S at *
  have hDIV := DIV_pos
  generalize hrt : min maxU128 (L * DIV / S) = rate at *
  have hrate : rate * S ≤ L * DIV := by
    have : rate ≤ L * DIV / S := by rw [← hrt]; exact Nat.min_le_right _ _
    exact (Nat.mul_le_mul_right S this).trans (Nat.div_mul_le_self _ _)
  generalize hdf : min maxU128 (M / B * DIV) = diff at *
  have hdiff : diff * B ≤ M * DIV := by
    have : diff ≤ M / B * DIV := by rw [← hdf]; exact Nat.min_le_right _ _
    calc diff * B ≤ M / B * DIV * B := Nat.mul_le_mul_right _ this
      _ = M / B * B * DIV := by ring
      _ ≤ M * DIV := Nat.mul_le_mul_right _ (Nat.div_mul_le_self _ _)
  have k1 : r.value * DIV / M * M ≤ r.value * DIV := Nat.div_mul_le_self _ _
  have k2 : r.value * DIV / M * n / DIV * DIV ≤ r.value * DIV / M * n := Nat.div_mul_le_self _ _
  have k3 : r.value * DIV ≤ v1 * diff := by rw [hr3]; exact Nat.div_mul_le_self _ _
  have k4 : v1 * DIV ≤ vp'.value * rate := by rw [hv1]; exact Nat.div_mul_le_self _ _
  generalize r.value * DIV / M = P at *
  generalize P * n / DIV = V at *
  generalize r.value = r3 at *
  generalize vp'.value = vv at *
  generalize DIV = K at *
  -- V·M ≤ r3·n
  have c1 : V * M ≤ r3 * n := by
    refine Nat.le_of_mul_le_mul_right ?_ hDIV
    calc V * M * K = V * K * M := by ring
      _ ≤ P * n * M := Nat.mul_le_mul_right _ k2
      _ = P * M * n := by ring
      _ ≤ r3 * K * n := Nat.mul_le_mul_right _ k1
      _ = r3 * n * K := by ring
  -- r3·B ≤ v1·M
  have c2 : r3 * B ≤ v1 * M := by
    refine Nat.le_of_mul_le_mul_right ?_ hDIV
    calc r3 * B * K = r3 * K * B := by ring
      _ ≤ v1 * diff * B := Nat.mul_le_mul_right _ k3
      _ = v1 * (diff * B) := by ring
      _ ≤ v1 * (M * K) := Nat.mul_le_mul_left _ hdiff
      _ = v1 * M * K := by ring
  have c3 : V * B ≤ v1 * n := by
    refine Nat.le_of_mul_le_mul_right ?_ hM
    calc V * B * M = V * M * B := by ring
      _ ≤ r3 * n * B := Nat.mul_le_mul_right _ c1
      _ = r3 * B * n := by ring
      _ ≤ v1 * M * n := Nat.mul_le_mul_right _ c2
      _ = v1 * n * M := by ring
  have c4 : v1 * S ≤ vv * L := by
    refine Nat.le_of_mul_le_mul_right ?_ hDIV
    calc v1 * S * K = v1 * K * S := by ring
      _ ≤ vv * rate * S := Nat.mul_le_mul_right _ k4
      _ = vv * (rate * S) := by ring
      _ ≤ vv * (L * K) := Nat.mul_le_mul_left _ hrate
      _ = vv * L * K := by ring
  calc V * S * B = V * B * S := by ring
    _ ≤ v1 * n * S := Nat.mul_le_mul_right _ c3
    _ = n * (v1 * S) := by ring
    _ ≤ n * (vv * L) := Nat.mul_le_mul_left _ c4
    _ ≤ n * (vv * (p.baseAmount + p.quoteAmount)) := Nat.mul_le_mul_left _ (Nat.mul_le_mul_left _ hL)
    _ = n * (vv * p.baseAmount + vv * p.quoteAmount) := by ring
    _ ≤ _ := Nat.mul_le_mul_left _ (Nat.add_le_add_left (Nat.mul_le_mul_right _ hle) _)

/-! ## Comparing two moments -/

/-- Between the two moments everything prices are made of is the same, except perhaps pools and token supplies. -/
structure SameBut (w w' : World) : Prop where
  oracle : w'.oracle = w.oracle
  decimal : w'.decimal = w.decimal
  liquid : w'.liquid = w.liquid
  lsRate : w'.lsRate = w.lsRate
  fullRate : w'.fullRate = w.fullRate
  isCtoken : w'.isCtoken = w.isCtoken
  vaultRate : w'.vaultRate = w.vaultRate

/-- In addition every pool is the same pool with at least the same product of reserves, and LP tokens have the same
supply, which is not zero. -/
structure Grown (w w' : World) : Prop extends SameBut w w' where
  pool : ∀ a p', w'.lpPool a = some p' → ∃ p, w.lpPool a = some p ∧ p'.base = p.base ∧ p'.quote = p.quote ∧
    p.baseAmount * p.quoteAmount ≤ p'.baseAmount * p'.quoteAmount ∧ w'.supply a = w.supply a ∧ w.supply a ≠ 0
  nopool : ∀ a, w'.lpPool a = none → w.lpPool a = none

theorem SameBut.mantissa (h : SameBut w w') : Prices.mantissa w' = Prices.mantissa w := by
  funext a
  unfold Prices.mantissa
  rw [h.decimal]

theorem SameBut.vault (h : SameBut w w') : Prices.vaultPrice w' = Prices.vaultPrice w := by
  funext a bp
  unfold Prices.vaultPrice
  rw [h.fullRate, h.isCtoken, h.vaultRate]

theorem SameBut.staking (h : SameBut w w') : Prices.stakingPrice w' = Prices.stakingPrice w := by
  funext a bp
  unfold Prices.stakingPrice
  rw [h.liquid, h.lsRate]

/-- `o'` is no price, or a price that is not lower than `o`. -/
def NotLower (o o' : Option TSP) : Prop := ∀ q', o' = some q' → ∃ q, o = some q ∧ q.value ≤ q'.value

theorem NotLower.refl (o : Option TSP) : NotLower o o := fun q h => ⟨q, h, Nat.le_refl _⟩

theorem lpPrice_grown (h : Grown w w') {o' : Option TSP} (h' : lpPrice c w' a bp = .ok o') :
    ∃ o, lpPrice c w a bp = .ok o ∧ NotLower o o' := by
  cases hp' : w'.lpPool a with
  | none =>
    have hp := h.nopool a hp'
    refine ⟨o', ?_, .refl _⟩
    rw [← h']
    unfold lpPrice lpPoolOf
    rw [hp, hp', h.mantissa]
    cases mantissa w a <;> rfl
  | some p' =>
    obtain ⟨p, hp, hb, hq, hxy, hsup, hsup0⟩ := h.pool a p' hp'
    have hsq : Nat.sqrt (p.baseAmount * p.quoteAmount) ≤ Nat.sqrt (p'.baseAmount * p'.quoteAmount) :=
      Nat.sqrt_le_sqrt hxy
    have hok : ∃ o, lpPrice c w a bp = .ok o := by
      unfold lpPrice lpPoolOf
      cases mantissa w a with
      | none => exact ⟨_, rfl⟩
      | some m =>
        rw [hp]
        dsimp only
        by_cases hk : p.quote = c.relay ∧ w.isCtoken p.base = true
        · rw [if_pos hk]
          dsimp only
          cases mantissa w p.base with
          | none => exact ⟨_, rfl⟩
          | some bm =>
            dsimp only
            by_cases hl : 2 * Nat.sqrt (p.baseAmount * p.quoteAmount) ≤ maxU128
            · rw [if_pos hl]
              simp only [bind_ok_iff, fixSatFromRational_ok_iff, pure_ok_iff]
              exact ⟨_, _, ⟨hsup0, rfl⟩, rfl⟩
            · rw [if_neg hl]
              exact ⟨_, rfl⟩
        · rw [if_neg hk]
          exact ⟨_, rfl⟩
    obtain ⟨o, ho⟩ := hok
    refine ⟨o, ho, fun q' hq' => ?_⟩
    subst hq'
    obtain ⟨m, bm, p2, vp, v1, e1, e2, e3, e4, e5, e6, e7, e8, e9, e10, e11, e12, e13⟩ := lpPrice_ok h'
    rw [hp'] at e2
    cases e2
    rw [h.mantissa] at e1 e5
    rw [h.isCtoken] at e4
    rw [h.vault] at e7
    rw [hb] at e4 e5 e7
    rw [hsup] at e9
    have hk : p.quote = c.relay ∧ w.isCtoken p.base = true := ⟨hq ▸ e3, e4⟩
    have hl : 2 * Nat.sqrt (p.baseAmount * p.quoteAmount) ≤ maxU128 := by omega
    have hrate : min maxU128 (2 * Nat.sqrt (p.baseAmount * p.quoteAmount) * DIV / w.supply a) ≤
        min maxU128 (2 * Nat.sqrt (p'.baseAmount * p'.quoteAmount) * DIV / w.supply a) := by
      refine min_le_min (Nat.le_refl _) (Nat.div_le_div_right (Nat.mul_le_mul_right _ ?_))
      omega
    have g1 : vp.value * min maxU128 (2 * Nat.sqrt (p.baseAmount * p.quoteAmount) * DIV / w.supply a) / DIV ≤ v1 := by
      rw [e9]
      exact Nat.div_le_div_right (Nat.mul_le_mul_left _ hrate)
    have g2 := g1.trans e10
    have g3 : vp.value * min maxU128 (2 * Nat.sqrt (p.baseAmount * p.quoteAmount) * DIV / w.supply a) / DIV *
        min maxU128 (m / bm * DIV) / DIV ≤ q'.value := by
      rw [e11]
      exact Nat.div_le_div_right (Nat.mul_le_mul_right _ g1)
    have g4 := g3.trans e12
    refine ⟨⟨_, vp.time⟩, ?_, g3⟩
    have : lpPrice c w a bp = .ok (some
        ⟨vp.value * min maxU128 (2 * Nat.sqrt (p.baseAmount * p.quoteAmount) * DIV / w.supply a) / DIV *
          min maxU128 (m / bm * DIV) / DIV, vp.time⟩) := by
      unfold lpPrice lpPoolOf
      rw [e1, hp]
      dsimp only
      rw [if_pos hk]
      dsimp only
      rw [e5]
      dsimp only
      rw [if_pos hl]
      simp only [bind_ok_iff, fixSatFromRational_ok_iff, pure_ok_iff]
      refine ⟨_, ⟨hsup0, rfl⟩, ?_⟩
      unfold lpValue
      simp only [Option.bind_eq_bind, Option.bind_eq_some_iff, fixMul_iff]
      exact ⟨vp, e7, _, ⟨g2, rfl⟩, _, ⟨g4, rfl⟩, rfl⟩
    rw [ho] at this
    exact Except.ok.inj this

theorem special_grown (h : Grown s.world s'.world) (hf : s'.foreign = s.foreign) : ∀ (n : Nat) {a : Nat} {o' : Option TSP},
    special c s' n a bp = .ok o' → ∃ o, special c s n a bp = .ok o ∧ NotLower o o'
  | 0, _, _, h' => by cases h'
  | n + 1, a, o', h' => by
    rw [special] at h' ⊢
    by_cases c1 : isLs a = true
    · rw [if_pos c1] at h' ⊢
      rw [h.staking] at h'
      exact ⟨o', h', .refl _⟩
    rw [if_neg c1] at h' ⊢
    by_cases c2 : isVault a = true
    · rw [if_pos c2] at h' ⊢
      rw [h.vault] at h'
      exact ⟨o', h', .refl _⟩
    rw [if_neg c2] at h' ⊢
    by_cases c3 : isLfLp a = true
    · rw [if_pos c3] at h' ⊢
      exact lpPrice_grown h h'
    rw [if_neg c3] at h' ⊢
    by_cases c4 : isAux a = true
    · rw [if_pos c4] at h' ⊢
      exact ⟨o', h', .refl _⟩
    rw [if_neg c4] at h' ⊢
    rw [hf] at h'
    cases hfa : s.foreign a with
    | none =>
      rw [hfa] at h'
      exact ⟨o', h', .refl _⟩
    | some b =>
      rw [hfa] at h'
      exact special_grown h hf n h'

/-- The asset's own answer of the oracle is only a fallback where no price is derived; the runtime feeds none for LP tokens
and mapped assets. -/
def Unfed (s : State) : Prop := ∀ a, isLfLp a = true ∨ s.foreign a ≠ none → s.world.oracle a = none

/-- **C203** Whenever pools only grow at constant supply (as in trades), no price falls: after it every asset has no price
or one at least as high as before. -/
theorem C203_growth_never_lowers (h : Grown s.world s'.world) (he : s'.emergency = s.emergency)
    (hf : s'.foreign = s.foreign) (hu : Unfed s) (h' : getPrice c s' a = .ok (some q')) :
    ∃ q, getPrice c s a = .ok (some q) ∧ q.value ≤ q'.value := by
  have hmant := h.mantissa
  cases hea : emergencyPrice s' a with
  | some p =>
    have : emergencyPrice s a = some p := by
      rw [← hea]
      unfold emergencyPrice
      rw [he, hmant]
    unfold getPrice at h' ⊢
    rw [hea] at h'
    rw [this]
    exact ⟨q', h', Nat.le_refl _⟩
  | none =>
    have hea2 : emergencyPrice s a = none := by
      rw [← hea]
      unfold emergencyPrice
      rw [he, hmant]
    unfold getPrice at h' ⊢
    rw [hea, hmant] at h'
    rw [hea2]
    dsimp only at h' ⊢
    cases hm : mantissa s.world a with
    | none => rw [hm] at h'; cases h'
    | some m =>
      rw [hm] at h'
      simp only [bind_ok_iff, pure_ok_iff, Option.bind_eq_some_iff, normalize, Option.bind_eq_bind, fixDiv_iff,
        Option.some.injEq] at h' ⊢
      obtain ⟨o', hs', r', rfl, v', ⟨hm0, hv1, rfl⟩, rfl⟩ := h'
      have key : ∃ r, sourced c s a = .ok (some r) ∧ r.value ≤ r'.value := by
        unfold sourced at hs' ⊢
        rw [h.oracle] at hs'
        cases hr : s.world.oracle c.relay with
        | none =>
          rw [hr] at hs'
          exact ⟨r', hs', Nat.le_refl _⟩
        | some bp =>
          rw [hr] at hs'
          dsimp only at hs' ⊢
          simp only [bind_ok_iff, pure_ok_iff] at hs' ⊢
          obtain ⟨o', ho', hor⟩ := hs'
          obtain ⟨o, ho, hn⟩ := special_grown h hf _ ho'
          cases o' with
          | some x =>
            obtain ⟨y, rfl, hy⟩ := hn x rfl
            cases hor
            exact ⟨y, ⟨_, ho, rfl⟩, hy⟩
          | none =>
            have hor' : s.world.oracle a = some r' := hor
            cases o with
            | none => exact ⟨r', ⟨_, ho, hor'⟩, Nat.le_refl _⟩
            | some y =>
              exfalso
              have hu' := hu a
              rw [hor'] at hu'
              have hna : isLfLp a = false ∧ s.foreign a = none := by
                constructor
                · by_contra hx
                  exact absurd (hu' (Or.inl (by simpa using hx))) (by simp)
                · by_contra hx
                  exact absurd (hu' (Or.inr hx)) (by simp)
              have : special c s' c.stack a bp = special c s c.stack a bp := by
                cases c.stack with
                | zero => rfl
                | succ n =>
                  rw [special, special, h.staking, h.vault, hf, hna.1, hna.2]
                  simp
              rw [this, ho] at ho'
              cases ho'
      obtain ⟨r, hr, hle⟩ := key
      have hd : r.value * DIV / m ≤ r'.value * DIV / m := Nat.div_le_div_right (Nat.mul_le_mul_right _ hle)
      exact ⟨⟨_, r.time⟩, ⟨_, hr, r, rfl, _, ⟨hm0, hd.trans hv1, rfl⟩, rfl⟩, hd⟩

/-- The asset is not an LP token and not mapped to one. -/
def NoLp (s : State) (a : Nat) : Prop := ∀ n b, Leads s n a b → isLfLp b = false

theorem special_same (h : SameBut s.world s'.world) (hf : s'.foreign = s.foreign) : ∀ (n : Nat) {a : Nat},
    NoLp s a → special c s' n a bp = special c s n a bp
  | 0, _, _ => rfl
  | n + 1, a, hn => by
    have c3 : ¬ isLfLp a = true := by simp [hn 0 a (.refl a)]
    rw [special, special, h.staking, h.vault, hf]
    by_cases c1 : isLs a = true
    · rw [if_pos c1, if_pos c1]
    rw [if_neg c1, if_neg c1]
    by_cases c2 : isVault a = true
    · rw [if_pos c2, if_pos c2]
    rw [if_neg c2, if_neg c2, if_neg c3, if_neg c3]
    by_cases c4 : isAux a = true
    · rw [if_pos c4, if_pos c4]
    rw [if_neg c4, if_neg c4]
    cases hfa : s.foreign a with
    | none => rfl
    | some b =>
      dsimp only
      have ho : Ordinary a := ⟨by simpa using c1, by simpa using c2, hn 0 a (.refl a), by simpa using c4⟩
      exact special_same h hf n (fun k e hl => hn (k + 1) e (.hop ho hfa hl))

/-- **C204** The price of anything that is not an LP token (or mapped to one) depends on no pool and no supply. -/
theorem C204_only_lp_depends_on_pools (h : SameBut s.world s'.world) (he : s'.emergency = s.emergency)
    (hf : s'.foreign = s.foreign) (hn : NoLp s a) : getPrice c s' a = getPrice c s a := by
  have hmant := h.mantissa
  have hea : emergencyPrice s' a = emergencyPrice s a := by
    unfold emergencyPrice
    rw [he, hmant]
  have hso : sourced c s' a = sourced c s a := by
    unfold sourced
    rw [h.oracle]
    cases s.world.oracle c.relay with
    | none => rfl
    | some bp =>
      dsimp only
      rw [special_same h hf _ hn]
  unfold getPrice
  rw [hea, hmant, hso]

/-- `exP` with 12 decimals everywhere. -/
def exE : State := { exP with world := { exP.world with decimal := fun _ => some 12 } }

/-- Non-vacuity of C202: the vault token costs 1, the relay token 2, the pool holds 400 and 100 of them (worth 600), there
are 100 LP tokens, and one LP token is priced 4. -/
example : isLfLp 6004 = true ∧ exE.emergency 6004 = none ∧ exE.world.oracle 101 = some ⟨2 * DIV, 5⟩ ∧
    exE.world.oracle 6004 = none ∧ exE.world.lpPool 6004 = some ⟨100000001, 101, 400, 100⟩ ∧
    isVault 100000001 = true ∧ Raw ⟨101, 5⟩ exE 100000001 ⟨DIV, 5⟩ ∧
    getPrice ⟨101, 5⟩ exE 6004 = .ok (some ⟨4 * DIV * 10 ^ 6, 5⟩) := by
  refine ⟨rfl, rfl, rfl, rfl, rfl, rfl, ?_, ?_⟩
  · unfold Raw sourced
    decide +kernel
  · unfold getPrice sourced
    decide +kernel

end Verif.Prices
