import Verif.Prices.Props

/-!
# C91, C92: derived prices

`Raw s c a q`: in the absence of an emergency price, `q` is the price of a whole token `a` before it is normalised to
the smallest unit.  The theorems give that price in closed form for every kind of asset.
-/

namespace Verif.Prices
open Verif

/-- The price of `a` per whole token, as served without an emergency price, is `q`. -/
def Raw (c : Cfg) (s : State) (a : Nat) (q : TSP) : Prop := sourced c s a = .ok (some q)

/-! ## Lemmas -/

theorem special_direct {c : Cfg} {s : State} {n : Nat} {a : Nat} {bp : TSP} (ho : Ordinary a) :
    special c s (n + 1) a bp = match s.foreign a with
      | some b => special c s n b bp
      | none => .ok none := by
  rw [special]
  rw [if_neg (by simp [ho.1]), if_neg (by simp [ho.2.1]), if_neg (by simp [ho.2.2.1]), if_neg (by simp [ho.2.2.2])]
  cases s.foreign a <;> rfl

theorem special_ls {c : Cfg} {s : State} {n : Nat} {a : Nat} {bp : TSP} (h : isLs a = true) :
    special c s (n + 1) a bp = .ok (stakingPrice s.world a bp) := by
  rw [special, if_pos h]

theorem isLs_not_vault {a : Nat} (h : isVault a = true) : isLs a = false := by
  simp only [isVault, isLs, Bool.and_eq_true, decide_eq_true_eq, Bool.or_eq_false_iff, beq_eq_false_iff_ne] at *
  omega
theorem lfLp_kind {a : Nat} (h : isLfLp a = true) : isLs a = false ∧ isVault a = false := by
  simp only [isVault, isLs, isLfLp, Bool.or_eq_true, Bool.and_eq_true, decide_eq_true_eq, Bool.or_eq_false_iff,
    Bool.and_eq_false_iff, decide_eq_false_iff_not, beq_eq_false_iff_ne] at *
  omega
theorem aux_kind {a : Nat} (h : isAux a = true) : isLs a = false ∧ isVault a = false ∧ isLfLp a = false := by
  have h0 : 300000000 ≤ maxU32 - 10000 := by decide +kernel
  unfold isAux at h
  have h1 : 300000000 ≤ a := Nat.le_trans h0 (of_decide_eq_true h)
  clear h h0
  simp only [isVault, isLs, isLfLp, Bool.or_eq_false_iff, Bool.and_eq_false_iff, decide_eq_false_iff_not,
    beq_eq_false_iff_ne]
  omega

theorem special_vault {c : Cfg} {s : State} {n : Nat} {a : Nat} {bp : TSP} (h : isVault a = true) :
    special c s (n + 1) a bp = .ok (vaultPrice s.world a bp) := by
  rw [special, if_neg (by simp [isLs_not_vault h]), if_pos h]

theorem special_lp {c : Cfg} {s : State} {n : Nat} {a : Nat} {bp : TSP} (h : isLfLp a = true) :
    special c s (n + 1) a bp = lpPrice c s.world a bp := by
  have hk := lfLp_kind h
  rw [special, if_neg (by simp [hk.1]), if_neg (by simp [hk.2]), if_pos h]

theorem special_aux {c : Cfg} {s : State} {n : Nat} {a : Nat} {bp : TSP} (h : isAux a = true) :
    special c s (n + 1) a bp = .ok (some bp) := by
  have hk := aux_kind h
  rw [special, if_neg (by simp [hk.1]), if_neg (by simp [hk.2.1]), if_neg (by simp [hk.2.2]), if_pos h]

theorem special_leads {c : Cfg} {s : State} {n k a e : Nat} {bp : TSP} (h : Leads s n a e) :
    special c s (n + k) a bp = special c s k e bp := by
  induction h with
  | refl a => rw [Nat.zero_add]
  | @hop n a b e ho hf hl ih =>
    rw [Nat.add_right_comm, special_direct ho, hf]
    exact ih

theorem sourced_special {c : Cfg} {s : State} {a : Nat} {bp : TSP} {o : Option TSP}
    (hr : s.world.oracle c.relay = some bp) (h : special c s c.stack a bp = .ok o) :
    sourced c s a = .ok (o.orElse (fun _ => s.world.oracle a)) := by
  unfold sourced; rw [hr]; dsimp only; rw [h]; rfl

theorem fixMul_eq {a b : Nat} (h : a * b / DIV ≤ maxU128) : fixMul a b = some (a * b / DIV) := by
  unfold fixMul; exact if_pos h

theorem scale_eq {bp : TSP} {r : Nat} (h : bp.value * r / DIV ≤ maxU128) :
    scale bp r = some ⟨bp.value * r / DIV, bp.time⟩ := by
  unfold scale; rw [fixMul_eq h]; rfl

/-! ## Normalisation -/

/-- C91: every answer without an emergency price is the price per whole token times `10^(18-d)`, exactly (for
`d ≤ 18` decimals), with the timestamp of the source. -/
theorem C91_normalised {c : Cfg} {s : State} {a d : Nat} {q : TSP} (he : s.emergency a = none)
    (hd : s.world.decimal a = some d) (h18 : d ≤ 18) (hq : Raw c s a q) (hf : q.value * 10 ^ (18 - d) ≤ maxU128) :
    getPrice c s a = .ok (some ⟨q.value * 10 ^ (18 - d), q.time⟩) ∧ getNoOp c s a = .ok (some q) := by
  have hm := mantissa_eq hd (ten18 d h18)
  rw [← scale18 _ d h18] at hf ⊢
  unfold Raw at hq
  constructor
  · unfold getPrice
    rw [emergencyPrice_none he, hm]
    dsimp only
    rw [hq]
    have hn : normalize q (10 ^ d) = some ⟨q.value * DIV / 10 ^ d, q.time⟩ := by
      unfold normalize; rw [fixDiv_ten hf]; rfl
    exact congrArg Except.ok hn
  · unfold getNoOp
    rw [hm]
    exact hq

/-- C91, consequence the money market relies on: the value of `n` smallest units at the served price is the value of
`n / 10^d` whole tokens at the price per token: `n · served = n · 10^(18-d) · price`, with no rounding. -/
theorem C91_value_of_units {c : Cfg} {s : State} {a d n v t : Nat} {q : TSP} (he : s.emergency a = none)
    (hd : s.world.decimal a = some d) (h18 : d ≤ 18) (hq : Raw c s a q)
    (h : getPrice c s a = .ok (some ⟨v, t⟩)) : n * v * 10 ^ d = n * q.value * 10 ^ 18 := by
  have hm := mantissa_eq hd (ten18 d h18)
  unfold Raw at hq
  unfold getPrice at h
  rw [emergencyPrice_none he, hm] at h
  dsimp only at h
  rw [hq] at h
  have h : normalize q (10 ^ d) = some ⟨v, t⟩ := Except.ok.inj h
  unfold normalize at h
  simp only [Option.bind_eq_bind, Option.bind_eq_some_iff, Option.some.injEq, fixDiv_iff, TSP.mk.injEq] at h
  obtain ⟨x, ⟨_, _, hx⟩, hv, _⟩ := h
  rw [← hv, hx, scale18 _ d h18]
  rw [Nat.mul_assoc, Nat.mul_assoc, ← Nat.pow_add, Nat.sub_add_cancel h18, ← Nat.mul_assoc]

/-- C91: an asset whose decimals are unknown (or exceed 38) never has a price, emergency or not. -/
theorem C91_no_decimals_no_price {c : Cfg} {s : State} {a : Nat}
    (hd : ∀ d, s.world.decimal a = some d → 38 < d) : getPrice c s a = .ok none ∧ getNoOp c s a = .ok none := by
  have hm : mantissa s.world a = none := by
    cases h : mantissa s.world a with
    | none => rfl
    | some m =>
      obtain ⟨d, h1, h2, h3⟩ := mantissa_some h
      exfalso
      have h4 : 10 ^ 39 ≤ 10 ^ d := Nat.pow_le_pow_right (by decide) (hd d h1)
      have h5 : maxU128 < 10 ^ 39 := by decide +kernel
      omega
  have he : emergencyPrice s a = none := by
    unfold emergencyPrice
    rw [hm]
    cases s.emergency a <;> rfl
  unfold getPrice getNoOp
  rw [he, hm]
  exact ⟨rfl, rfl⟩

/-! ## The price of every kind of asset, per whole token -/

/-- C91: without a relay-chain price every asset is priced by its own oracle entry alone. -/
theorem C91_without_relay_price {c : Cfg} {s : State} {a : Nat} (h : s.world.oracle c.relay = none) :
    sourced c s a = .ok (s.world.oracle a) := by
  unfold sourced; rw [h]

/-- C91: an ordinary asset without a mapping is priced by its own oracle entry. -/
theorem C91_ordinary {c : Cfg} {s : State} {a : Nat} (hs : 0 < c.stack) (ho : Ordinary a)
    (hf : s.foreign a = none) : sourced c s a = .ok (s.world.oracle a) := by
  cases hr : s.world.oracle c.relay with
  | none => exact C91_without_relay_price hr
  | some bp =>
    obtain ⟨n, hn⟩ : ∃ n, c.stack = n + 1 := ⟨c.stack - 1, by omega⟩
    have h : special c s c.stack a bp = .ok none := by rw [hn, special_direct ho, hf]
    rw [sourced_special hr h]; rfl

/-- C91: the liquid token costs the relay token times the staking exchange rate. -/
theorem C91_liquid {c : Cfg} {s : State} {a r : Nat} {bp : TSP} (hs : 0 < c.stack) (ha : isLs a = true)
    (hr : s.world.oracle c.relay = some bp) (hl : s.world.liquid = some a) (hrate : s.world.lsRate a = some r)
    (hf : bp.value * r / DIV ≤ maxU128) : Raw c s a ⟨bp.value * r / DIV, bp.time⟩ := by
  obtain ⟨n, hn⟩ : ∃ n, c.stack = n + 1 := ⟨c.stack - 1, by omega⟩
  have h : special c s c.stack a bp = .ok (some ⟨bp.value * r / DIV, bp.time⟩) := by
    rw [hn, special_ls ha]
    unfold stakingPrice
    rw [if_pos hl, hrate]
    exact congrArg Except.ok (scale_eq hf)
  unfold Raw
  rw [sourced_special hr h]; rfl

/-- C91: a crowdloan derivative costs the relay token times the vault exchange rate at the market's implied yield. -/
theorem C91_vault {c : Cfg} {s : State} {a r y : Nat} {bp : TSP} (hs : 0 < c.stack) (ha : isVault a = true)
    (hr : s.world.oracle c.relay = some bp) (hy : s.world.fullRate a = some y) (hc : s.world.isCtoken a = true)
    (hrate : s.world.vaultRate a y = some r) (hf : bp.value * r / DIV ≤ maxU128) :
    Raw c s a ⟨bp.value * r / DIV, bp.time⟩ := by
  obtain ⟨n, hn⟩ : ∃ n, c.stack = n + 1 := ⟨c.stack - 1, by omega⟩
  have h : special c s c.stack a bp = .ok (some ⟨bp.value * r / DIV, bp.time⟩) := by
    rw [hn, special_vault ha]
    unfold vaultPrice
    rw [hy]
    dsimp only
    rw [if_pos hc, hrate]
    exact congrArg Except.ok (scale_eq hf)
  unfold Raw
  rw [sourced_special hr h]; rfl

/-- C91: auxiliary tokens cost exactly the relay token. -/
theorem C91_auxiliary {c : Cfg} {s : State} {a : Nat} {bp : TSP} (hs : 0 < c.stack) (ha : isAux a = true)
    (hr : s.world.oracle c.relay = some bp) : Raw c s a bp := by
  obtain ⟨n, hn⟩ : ∃ n, c.stack = n + 1 := ⟨c.stack - 1, by omega⟩
  have h : special c s c.stack a bp = .ok (some bp) := by rw [hn, special_aux ha]
  unfold Raw
  rw [sourced_special hr h]; rfl

/-- C91: whenever the derived price is unavailable (not the liquid currency, no market rate, not a vault token), the
asset's own oracle entry is used instead. -/
theorem C91_falls_back {c : Cfg} {s : State} {a : Nat} (hs : 0 < c.stack)
    (ha : (isLs a = true ∧ (s.world.liquid ≠ some a ∨ s.world.lsRate a = none)) ∨
      (isVault a = true ∧ (s.world.fullRate a = none ∨ s.world.isCtoken a = false))) :
    sourced c s a = .ok (s.world.oracle a) := by
  cases hr : s.world.oracle c.relay with
  | none => exact C91_without_relay_price hr
  | some bp =>
    obtain ⟨n, hn⟩ : ∃ n, c.stack = n + 1 := ⟨c.stack - 1, by omega⟩
    have h : special c s c.stack a bp = .ok none := by
      rw [hn]
      rcases ha with ⟨h1, h2⟩ | ⟨h1, h2⟩
      · rw [special_ls h1]
        unfold stakingPrice
        split_ifs with hl
        · rcases h2 with h2 | h2
          · exact absurd hl h2
          · rw [h2]; rfl
        · rfl
      · rw [special_vault h1]
        unfold vaultPrice
        cases hy : s.world.fullRate a with
        | none => rfl
        | some y =>
          rcases h2 with h2 | h2
          · rw [hy] at h2; cases h2
          · dsimp only
            rw [if_neg (by simp [h2])]
    rw [sourced_special hr h]; rfl

/-- C91: an asset mapped (through any number of mappings) to a priced asset `e` has `e`'s derived price; its own
decimals are used for the normalisation. -/
theorem C91_foreign {c : Cfg} {s : State} {n a e : Nat} {bp : TSP} (h : Leads s n a e) (hn : n ≤ c.stack)
    (hr : s.world.oracle c.relay = some bp) :
    sourced c s a = (special c s (c.stack - n) e bp).map (fun o => o.orElse (fun _ => s.world.oracle a)) := by
  unfold sourced
  rw [hr]
  dsimp only
  have h1 := special_leads (c := c) (k := c.stack - n) (bp := bp) h
  rw [Nat.add_sub_cancel' hn] at h1
  rw [h1]
  cases special c s (c.stack - n) e bp <;> rfl

/-- C91, the case users meet: a foreign representation of the liquid token costs the same per whole token. -/
theorem C91_foreign_liquid {c : Cfg} {s : State} {a b r : Nat} {bp : TSP} (hs : 2 ≤ c.stack) (ha : Ordinary a)
    (hab : s.foreign a = some b) (hb : isLs b = true) (hr : s.world.oracle c.relay = some bp)
    (hl : s.world.liquid = some b) (hrate : s.world.lsRate b = some r) (hf : bp.value * r / DIV ≤ maxU128) :
    ∀ q, Raw c s a q ↔ Raw c s b q := by
  have h1 : Raw c s b ⟨bp.value * r / DIV, bp.time⟩ := C91_liquid (by omega) hb hr hl hrate hf
  have h2 : Raw c s a ⟨bp.value * r / DIV, bp.time⟩ := by
    have hle : Leads s 1 a b := Leads.hop ha hab (Leads.refl b)
    unfold Raw
    rw [C91_foreign hle (by omega) hr]
    obtain ⟨n, hn⟩ : ∃ n, c.stack - 1 = n + 1 := ⟨c.stack - 2, by omega⟩
    have h : special c s (c.stack - 1) b bp = .ok (some ⟨bp.value * r / DIV, bp.time⟩) := by
      rw [hn, special_ls hb]
      unfold stakingPrice
      rw [if_pos hl, hrate]
      exact congrArg Except.ok (scale_eq hf)
    rw [h]; rfl
  intro q
  constructor
  · intro h
    unfold Raw at h h2 h1 ⊢
    rw [h2] at h
    rw [h1, h]
  · intro h
    unfold Raw at h h2 h1 ⊢
    rw [h1] at h
    rw [h2, h]

/-! ## Cycles in the mapping -/

/-- C92, claimed in full: asking for a price always answers. -/
def C92_statement : Prop :=
  ∀ (c : Cfg) (s : State) (a : Nat), 0 < c.stack → (∀ b, s.world.supply b ≠ 0) → ∃ o, getPrice c s a = .ok o

theorem special_cycle {c : Cfg} {s : State} {bp : TSP} {P : Nat → Prop}
    (hP : ∀ a, P a → Ordinary a ∧ ∃ b, s.foreign a = some b ∧ P b) :
    ∀ n a, P a → special c s n a bp = .error .panic := by
  intro n
  induction n with
  | zero => intro a _; rfl
  | succ n ih =>
    intro a ha
    obtain ⟨ho, b, hb, hPb⟩ := hP a ha
    rw [special_direct ho, hb]
    exact ih b hPb

/-- C92: once the mapping sends an ordinary asset back to itself, through any number of hops, every request for its
price (without an emergency price) exhausts any stack. -/
theorem C92_cycle_traps {c : Cfg} {s : State} {a d : Nat} {bp : TSP} {P : Nat → Prop}
    (hP : ∀ a, P a → Ordinary a ∧ ∃ b, s.foreign a = some b ∧ P b) (ha : P a)
    (hd : s.world.decimal a = some d) (h18 : d ≤ 18) (he : s.emergency a = none)
    (hr : s.world.oracle c.relay = some bp) :
    getPrice c s a = .error .panic ∧ getNoOp c s a = .error .panic := by
  have hm := mantissa_eq hd (ten18 d h18)
  have hsrc : sourced c s a = .error .panic := by
    unfold sourced
    rw [hr]
    dsimp only
    rw [special_cycle hP _ _ ha]; rfl
  unfold getPrice getNoOp
  rw [emergencyPrice_none he, hm]
  dsimp only
  rw [hsrc]
  exact ⟨rfl, rfl⟩

/-- A chain with relay currency 101 priced at 2 USD, liquid token 1001 at rate 1.5, assets 1..9 of 12 decimals. -/
def exW : World where
  oracle := fun a => if a = 101 then some ⟨2 * DIV, 5⟩ else none
  decimal := fun a => if a = 1001 ∨ a = 101 then some 10 else some 12
  liquid := some 1001
  lsRate := fun _ => some (3 * DIV / 2)
  fullRate := fun _ => none
  isCtoken := fun _ => false
  vaultRate := fun _ _ => none
  lpPool := fun _ => none
  supply := fun _ => 1

/-- Asset 7 is a foreign representation of the liquid token; asset 8 is mapped to itself. -/
def exM : State where
  emergency := fun _ => none
  foreign := fun a => if a = 7 then some 1001 else if a = 8 then some 8 else none
  world := exW

/-- C92 is false: `set_foreign_asset(a, a)` is accepted and makes every later request for `a`'s price trap. -/
theorem C92_refuted : ¬ C92_statement := by
  intro h
  obtain ⟨o, ho⟩ := h ⟨101, 1⟩ exM 8 (by decide) (fun _ => Nat.one_ne_zero)
  have h1 := (C92_cycle_traps (c := ⟨101, 1⟩) (s := exM) (a := 8) (d := 12) (bp := ⟨2 * DIV, 5⟩)
    (P := fun x => x = 8)
    (by intro a ha; subst ha; exact ⟨by unfold Ordinary; decide +kernel, 8, rfl, rfl⟩) rfl rfl (by decide) rfl rfl).1
  rw [h1] at ho
  cases ho

/-- Every asset reachable from `a` through the mapping within `n` hops ends at an asset that is special or unmapped. -/
def Ends (s : State) (n a : Nat) : Prop :=
  ∃ k e, k < n ∧ Leads s k a e ∧ (¬ Ordinary e ∨ s.foreign e = none)

/-- C92 (the part that holds): if the mapping chain of `a` ends within the stack and the LP tokens have supply, the
request for a price answers. -/
theorem C92_answers_partial {c : Cfg} {s : State} {a : Nat} (hs : ∀ b, s.world.supply b ≠ 0) (he : Ends s c.stack a) :
    ∃ o, getPrice c s a = .ok o := by
  have hlp : ∀ e bp, ∃ o, lpPrice c s.world e bp = .ok o := by
    intro e bp
    unfold lpPrice
    split
    · split
      · exact ⟨_, rfl⟩
      · split_ifs
        · unfold fixSatFromRational
          rw [if_neg (hs e)]
          exact ⟨_, rfl⟩
        · exact ⟨_, rfl⟩
    · exact ⟨_, rfl⟩
  have hsp : ∀ bp, ∃ o, special c s c.stack a bp = .ok o := by
    intro bp
    obtain ⟨k, e, hk, hl, hend⟩ := he
    have h1 := special_leads (c := c) (k := c.stack - k) (bp := bp) hl
    rw [Nat.add_sub_cancel' (Nat.le_of_lt hk)] at h1
    rw [h1]
    obtain ⟨n, hn⟩ : ∃ n, c.stack - k = n + 1 := ⟨c.stack - k - 1, by omega⟩
    rw [hn]
    by_cases c1 : isLs e = true
    · rw [special_ls c1]; exact ⟨_, rfl⟩
    by_cases c2 : isVault e = true
    · rw [special_vault c2]; exact ⟨_, rfl⟩
    by_cases c3 : isLfLp e = true
    · rw [special_lp c3]; exact hlp _ _
    by_cases c4 : isAux e = true
    · rw [special_aux c4]; exact ⟨_, rfl⟩
    have ho : Ordinary e := ⟨by simpa using c1, by simpa using c2, by simpa using c3, by simpa using c4⟩
    rw [special_direct ho]
    rcases hend with h | h
    · exact absurd ho h
    · rw [h]; exact ⟨_, rfl⟩
  have hsrc : ∃ o, sourced c s a = .ok o := by
    unfold sourced
    split
    · exact ⟨_, rfl⟩
    · rename_i bp _
      obtain ⟨o, ho⟩ := hsp bp
      rw [ho]; exact ⟨_, rfl⟩
  unfold getPrice
  split
  · exact ⟨_, rfl⟩
  · split
    · exact ⟨_, rfl⟩
    · obtain ⟨o, ho⟩ := hsrc
      rw [ho]; exact ⟨_, rfl⟩

/-! ## LP tokens -/

/-- C91: an LP token of a (vault token, relay token) pool costs `2·⌊√(x·y)⌋ / supply` vault tokens, scaled by the
difference of the mantissas; every factor is rounded down. -/
theorem C91_lp {c : Cfg} {s : State} {a r y m bm : Nat} {bp : TSP} {p : LpPool} (hs : 0 < c.stack)
    (ha : isLfLp a = true) (hr : s.world.oracle c.relay = some bp)
    (hp : s.world.lpPool a = some p) (hq : p.quote = c.relay) (hc : s.world.isCtoken p.base = true)
    (hma : mantissa s.world a = some m) (hmb : mantissa s.world p.base = some bm)
    (hy : s.world.fullRate p.base = some y) (hrate : s.world.vaultRate p.base y = some r)
    (hsup : s.world.supply a ≠ 0)
    (rate v1 v2 v3 : Nat)
    (hrt : rate = 2 * Nat.sqrt (p.baseAmount * p.quoteAmount) * DIV / s.world.supply a) (hrf : rate ≤ maxU128)
    (hlf : 2 * Nat.sqrt (p.baseAmount * p.quoteAmount) ≤ maxU128)
    (h1 : v1 = bp.value * r / DIV) (h1f : v1 ≤ maxU128)
    (h2 : v2 = v1 * rate / DIV) (h2f : v2 ≤ maxU128)
    (h3 : v3 = v2 * (m / bm)) (h3f : v3 ≤ maxU128) (hdf : m / bm * DIV ≤ maxU128) :
    Raw c s a ⟨v3, bp.time⟩ := by
  obtain ⟨n, hn⟩ : ∃ n, c.stack = n + 1 := ⟨c.stack - 1, by omega⟩
  have hpool : lpPoolOf c s.world a = some p := by
    unfold lpPoolOf; rw [hp]; exact if_pos ⟨hq, hc⟩
  have hvp : vaultPrice s.world p.base bp = some ⟨v1, bp.time⟩ := by
    unfold vaultPrice
    rw [hy]
    dsimp only
    rw [if_pos hc, hrate]
    rw [h1] at h1f ⊢
    exact scale_eq h1f
  have hsr : fixSatFromRational (2 * Nat.sqrt (p.baseAmount * p.quoteAmount)) (s.world.supply a) = .ok rate := by
    rw [fixSatFromRational_ok_iff]
    refine ⟨hsup, ?_⟩
    rw [← hrt, Nat.min_eq_right hrf]
  have hval : lpValue s.world p.base bp rate (m / bm) = some ⟨v3, bp.time⟩ := by
    unfold lpValue
    rw [Nat.min_eq_right hdf]
    have e2 : fixMul v1 rate = some v2 := by rw [h2]; rw [h2] at h2f; exact fixMul_eq h2f
    have e3 : v2 * (m / bm * DIV) / DIV = v3 := by
      rw [← Nat.mul_assoc, Nat.mul_div_cancel _ DIV_pos, h3]
    have e4 : fixMul v2 (m / bm * DIV) = some v3 := by
      rw [fixMul_eq (by rw [e3]; exact h3f), e3]
    simp only [Option.bind_eq_bind, Option.bind_eq_some_iff]
    exact ⟨_, hvp, v2, e2, v3, e4, rfl⟩
  have h : special c s c.stack a bp = .ok (some ⟨v3, bp.time⟩) := by
    rw [hn, special_lp ha]
    unfold lpPrice
    rw [hma, hpool]
    dsimp only
    rw [hmb]
    dsimp only
    rw [if_pos hlf, bind_ok_iff]
    refine ⟨rate, hsr, ?_⟩
    rw [hval]; rfl
  unfold Raw
  rw [sourced_special hr h]; rfl

/-- C91, manipulation resistance: the price of an LP token depends on the pool only through the product of its
reserves, so moving along the pool's curve (a trade without fee) does not change it. -/
theorem C91_lp_depends_on_product {c : Cfg} {s : State} {a : Nat} {p : LpPool} {x y : Nat} {bp : TSP}
    (hp : s.world.lpPool a = some p) (hxy : x * y = p.baseAmount * p.quoteAmount) :
    lpPrice c { s.world with lpPool := upd s.world.lpPool a (some { p with baseAmount := x, quoteAmount := y }) } a bp
      = lpPrice c s.world a bp := by
  have hu : upd s.world.lpPool a (some { p with baseAmount := x, quoteAmount := y }) a
      = some { p with baseAmount := x, quoteAmount := y } := upd_same _ _ _
  have h1 : ∀ (w w' : World), w' = { w with lpPool := w'.lpPool } → ∀ b, mantissa w' b = mantissa w b := by
    intro w w' h b; rw [h]; rfl
  unfold lpPrice lpPoolOf
  dsimp only
  rw [hu, hp]
  dsimp only
  rw [h1 s.world _ rfl]
  by_cases hk : p.quote = c.relay ∧ s.world.isCtoken p.base = true
  · rw [if_pos hk, if_pos hk]
    cases mantissa s.world a with
    | none => rfl
    | some m =>
      dsimp only
      rw [h1 s.world _ rfl, hxy]
      rfl
  · rw [if_neg hk, if_neg hk]
    cases mantissa s.world a <;> rfl

/-! ## Monotonicity -/

/-- C91: a higher relay price never lowers the price of the liquid token, a vault token or an auxiliary token. -/
theorem C91_monotone_in_relay {c : Cfg} {s s' : State} {a : Nat} {bp bp' q q' : TSP} (hs : 0 < c.stack)
    (ha : isLs a = true ∨ isVault a = true ∨ isAux a = true)
    (hr : s.world.oracle c.relay = some bp) (hr' : s'.world.oracle c.relay = some bp')
    (hw : s'.world = { s.world with oracle := s'.world.oracle })
    (hno : s.world.oracle a = none) (hno' : s'.world.oracle a = none)
    (hle : bp.value ≤ bp'.value) (h : Raw c s a q) (h' : Raw c s' a q') : q.value ≤ q'.value := by
  obtain ⟨n, hn⟩ : ∃ n, c.stack = n + 1 := ⟨c.stack - 1, by omega⟩
  have hsc : ∀ {r : Nat} {x x' : TSP}, scale bp r = some x → scale bp' r = some x' → x.value ≤ x'.value := by
    intro r x x' h1 h2
    unfold scale at h1 h2
    simp only [Option.bind_eq_bind, Option.bind_eq_some_iff, Option.some.injEq, fixMul_iff] at h1 h2
    obtain ⟨v, ⟨_, hv⟩, hx⟩ := h1
    obtain ⟨v', ⟨_, hv'⟩, hx'⟩ := h2
    rw [← hx, ← hx', hv, hv']
    exact Nat.div_le_div_right (Nat.mul_le_mul_right _ hle)
  have hls : s'.world.lsRate = s.world.lsRate := by rw [hw]
  have hfr : s'.world.fullRate = s.world.fullRate := by rw [hw]
  have hct : s'.world.isCtoken = s.world.isCtoken := by rw [hw]
  have hvr : s'.world.vaultRate = s.world.vaultRate := by rw [hw]
  have hsrc : ∀ {t : State} {b x : TSP} {o : Option TSP}, t.world.oracle c.relay = some b →
      t.world.oracle a = none → special c t c.stack a b = .ok o → Raw c t a x → o = some x := by
    intro t b x o h1 h2 h3 h4
    unfold Raw at h4
    rw [sourced_special h1 h3, h2] at h4
    have := Except.ok.inj h4
    cases o with
    | none => cases this
    | some z => exact this
  rcases ha with ha | ha | ha
  · have e1 := hsrc hr hno (by rw [hn]; exact special_ls ha) h
    have e2 := hsrc hr' hno' (by rw [hn]; exact special_ls ha) h'
    unfold stakingPrice at e1 e2
    rw [hls] at e2
    split_ifs at e1 with l1
    split_ifs at e2 with l2
    simp only [Option.bind_eq_bind, Option.bind_eq_some_iff] at e1 e2
    obtain ⟨r, g1, e1⟩ := e1
    obtain ⟨r', g2, e2⟩ := e2
    rw [g1] at g2
    cases g2
    exact hsc e1 e2
  · have e1 := hsrc hr hno (by rw [hn]; exact special_vault ha) h
    have e2 := hsrc hr' hno' (by rw [hn]; exact special_vault ha) h'
    unfold vaultPrice at e1 e2
    rw [hfr, hct, hvr] at e2
    cases hy : s.world.fullRate a with
    | none => rw [hy] at e1; cases e1
    | some y =>
      rw [hy] at e1 e2
      dsimp only at e1 e2
      split_ifs at e1 e2
      simp only [Option.bind_eq_bind, Option.bind_eq_some_iff] at e1 e2
      obtain ⟨r, g1, e1⟩ := e1
      obtain ⟨r', g2, e2⟩ := e2
      rw [g1] at g2
      cases g2
      exact hsc e1 e2
  · have e1 := hsrc hr hno (by rw [hn]; exact special_aux ha) h
    have e2 := hsrc hr' hno' (by rw [hn]; exact special_aux ha) h'
    cases e1; cases e2
    exact hle

/-- Non-vacuity: the liquid token (10 decimals) and its foreign representation (12 decimals) both cost 3 USD per
whole token. -/
example : getPrice ⟨101, 5⟩ exM 1001 = .ok (some ⟨3 * DIV * 10 ^ 8, 5⟩) ∧
    getPrice ⟨101, 5⟩ exM 7 = .ok (some ⟨3 * DIV * 10 ^ 6, 5⟩) ∧
    getPrice ⟨101, 5⟩ exM 4294967290 = .ok (some ⟨2 * DIV * 10 ^ 6, 5⟩) := by
  decide +kernel

/-- A world with a pool of 400 vault tokens and 100 relay tokens, LP supply 100. -/
def exP : State where
  emergency := fun _ => none
  foreign := fun _ => none
  world := { exW with
    fullRate := fun _ => some (DIV / 10)
    isCtoken := fun a => a == 100000001
    vaultRate := fun _ _ => some (DIV / 2)
    lpPool := fun a => if a = 6004 then some ⟨100000001, 101, 400, 100⟩ else none
    supply := fun _ => 100 }

/-- Non-vacuity: the vault token costs 1 USD and the LP token `2·√(400·100)/100 = 4` of it. -/
example : getPrice ⟨101, 5⟩ exP 100000001 = .ok (some ⟨DIV * 10 ^ 6, 5⟩) ∧
    getPrice ⟨101, 5⟩ exP 6004 = .ok (some ⟨4 * DIV * 10 ^ 6, 5⟩) := by
  unfold getPrice sourced
  decide +kernel

end Verif.Prices
