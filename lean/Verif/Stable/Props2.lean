import Verif.Stable.Props
import Verif.Amm.Props4

set_option linter.unusedSimpArgs false

/-!
# Stableswap properties C83: price accumulators and permanence of pools
-/

namespace Verif.Stable
open Verif
open Verif.Amm (Pool priceTime Pool.oracle idealDeposit)

/-- The pool record of the unordered pair `{a, b}` (stored under the larger id first). -/
def poolAt (s : State) (a b : Nat) : Option Pool :=
  if b < a then s.pools (a, b) else if a < b then s.pools (b, a) else none

/-- Any number of steps of the chain. -/
abbrev Steps (c : Cfg) : State → State → Prop := Relation.ReflTransGen (Step c)

theorem poolAt_of_key {s : State} {a b kb kq : Nat}
    (hpair : (b < a ∧ kb = a ∧ kq = b) ∨ (a < b ∧ kb = b ∧ kq = a)) : poolAt s a b = s.pools (kb, kq) := by
  rcases hpair with ⟨hlt, rfl, rfl⟩ | ⟨hlt, rfl, rfl⟩
  · simp [poolAt, hlt]
  · simp [poolAt, hlt, Nat.lt_asymm hlt]

/-- A fact about every stored pool is a fact about `poolAt`. -/
theorem poolAt_key {s : State} {a b : Nat} {p : Pool} (h : poolAt s a b = some p) :
    ∃ k : Nat × Nat, k.2 < k.1 ∧ (∀ t : State, poolAt t a b = t.pools k) ∧ s.pools k = some p := by
  unfold poolAt at h
  split_ifs at h with h1 h2
  · exact ⟨(a, b), h1, fun t => by simp [poolAt, h1], h⟩
  · exact ⟨(b, a), h2, fun t => by simp [poolAt, h2, Nat.lt_asymm h2], h⟩

/-! ## Price accumulators -/

theorem updateOracle_eq {s : State} {p p' : Pool} (h : updateOracle s p = .ok p') :
    (p.blockLast = s.block → p' = p) ∧
    (p.blockLast ≠ s.block → p'.blockLast = s.block ∧
      p'.price0 = p.price0 + priceTime (s.block - p.blockLast) p.quote p.base ∧
      p'.price1 = p.price1 + priceTime (s.block - p.blockLast) p.base p.quote) := by
  unfold updateOracle at h
  split_ifs at h with hb
  · simp only [bind_ok_iff, toU128_ok_iff, fixSatFromRational_ok_iff, cadd_ok_iff, pure_ok_iff] at h
    obtain ⟨_, ⟨_, rfl⟩, _, ⟨_, rfl⟩, _, ⟨_, rfl⟩, _, ⟨_, rfl⟩, _, ⟨_, rfl⟩, _, ⟨_, rfl⟩, rfl⟩ := h
    exact ⟨fun e => absurd e hb, fun _ => ⟨rfl, rfl, rfl⟩⟩
  · simp only [pure_ok_iff] at h
    subst h
    exact ⟨fun _ => rfl, fun e => absurd (not_not.1 hb) e⟩

theorem mintProtocolFee_oracle {c : Cfg} {s s' : State} {p p' : Pool} (h : mintProtocolFee c s p = .ok (s', p')) :
    p'.oracle = p.oracle := by
  unfold mintProtocolFee at h
  split_ifs at h
  · simp only [bind_ok_iff, pure_ok_iff, Prod.mk.injEq] at h
    obtain ⟨_, _, _, _, _, rfl⟩ := h; rfl
  · simp only [Except.ok.injEq, Prod.mk.injEq] at h; obtain ⟨_, rfl⟩ := h; rfl
  · simp only [Except.ok.injEq, Prod.mk.injEq] at h; obtain ⟨_, rfl⟩ := h; rfl

theorem doAdd_oracle {c : Cfg} {s s' : State} {who : Nat} {p p' : Pool} {ib iq b q : Nat}
    (h : doAdd c s who p ib iq b q = .ok (s', p')) : p'.oracle = p.oracle := by
  unfold doAdd at h
  simp only [bind_ok_iff, Prod.exists, pure_ok_iff, Prod.mk.injEq] at h
  obtain ⟨_, _, _, _, _, _, _, _, _, _, _, _, _, _, _, _, _, _, _, _, _, rfl⟩ := h
  split <;> rfl

theorem doRemove_oracle {c : Cfg} {s s' : State} {who : Nat} {p p' : Pool} {liq b q : Nat}
    (h : doRemove c s who p liq b q = .ok (s', p')) : p'.oracle = p.oracle := by
  unfold doRemove at h
  simp only [bind_ok_iff, Prod.exists, pure_ok_iff, Prod.mk.injEq] at h
  obtain ⟨_, _, _, _, _, _, _, _, _, _, _, _, _, _, _, rfl⟩ := h
  split <;> rfl

/-- The exact effect of a swap on the accumulators. -/
theorem doSwap_oracle {c : Cfg} {s s' : State} {who a b x y : Nat}
    (h : doSwap c s who a b x = .ok (s', y)) :
    ∃ k p p', ((b < a ∧ k = (a, b)) ∨ (a < b ∧ k = (b, a))) ∧ s.pools k = some p ∧
      s'.pools = upd s.pools k (some p') ∧ s'.block = s.block ∧
      p'.lp = p.lp ∧ p'.baseLast = p.baseLast ∧ p'.quoteLast = p.quoteLast ∧
      (p.blockLast = s.block → p'.oracle = p.oracle) ∧
      (p.blockLast ≠ s.block → p'.blockLast = s.block ∧
        p'.price0 = p.price0 + priceTime (s.block - p.blockLast) p'.quote p'.base ∧
        p'.price1 = p.price1 + priceTime (s.block - p.blockLast) p'.base p'.quote) := by
  unfold doSwap at h
  simp only [bind_ok_iff, Prod.exists, sortAssets_ok_iff, okOr_ok_iff, ensure_ok_iff, cadd_ok_iff,
    csub_ok_iff, pure_ok_iff] at h
  obtain ⟨inv, kb, kq, hsort, p, hp, m, hm, _, hmx, _, hne, out, hout, ni, ⟨hni, rfl⟩, no, ⟨hno, rfl⟩,
    p', hp', l1, hl1, l2, hl2, heq⟩ := h
  obtain ⟨g1, g2, g3, g4, g5⟩ := updateOracle_ok hp'
  obtain ⟨e1, e2⟩ := updateOracle_eq hp'
  simp only [Prod.mk.injEq] at heq hsort
  obtain ⟨rfl, rfl⟩ := heq
  rcases hsort with ⟨hlt, rfl, rfl, rfl⟩ | ⟨hlt, rfl, rfl, rfl⟩
  · simp only [Bool.false_eq_true, if_false] at *
    refine ⟨_, p, p', Or.inl ⟨hlt, rfl⟩, hp, rfl, trivial, g3, g4, g5, fun e => ?_, fun e => ?_⟩
    · rw [e1 e]; rfl
    · rw [g1, g2]; exact e2 e
  · simp only [if_true] at *
    refine ⟨_, p, p', Or.inr ⟨hlt, rfl⟩, hp, rfl, trivial, g3, g4, g5, fun e => ?_, fun e => ?_⟩
    · rw [e1 e]; rfl
    · rw [g1, g2]; exact e2 e

/-- What one successful call does to the stored pools: at most one key changes; an existing pool keeps its LP
token; and the oracle fields only change by a swap. -/
theorem exec_pools {c : Cfg} {s s' : State} {call : Call} (h : exec c s call = .ok s') :
    s'.block = s.block ∧
    ((s'.pools = s.pools) ∨
     (∃ k p p', s.pools k = some p ∧ s'.pools = upd s.pools k (some p') ∧ p'.lp = p.lp ∧
        ((p'.oracle = p.oracle) ∨
         (∃ who a b x, call = .swap who a b x ∧ ((b < a ∧ k = (a, b)) ∨ (a < b ∧ k = (b, a))) ∧
           p.blockLast ≠ s.block ∧ p'.blockLast = s.block ∧
           p'.price0 = p.price0 + priceTime (s.block - p.blockLast) p'.quote p'.base ∧
           p'.price1 = p.price1 + priceTime (s.block - p.blockLast) p'.base p'.quote))) ∨
     (∃ k p', s.pools k = none ∧ s'.pools = upd s.pools k (some p') ∧ p'.oracle = (0, 0, 0) ∧
        s.ledger.iss p'.lp = 0 ∧ ∃ pair am rcv, call = .create pair am rcv p'.lp)) := by
  cases call with
  | add who pair d m =>
    obtain ⟨b, q, p, ib, iq, s1, p1, s2, p2, _, _, _, _, hpair, hp, _, _, _, _, _, hfee, hadd, rfl⟩ :=
      addLiquidity_ok h
    obtain ⟨f1, f2, f3, f6, f7, _⟩ := mintProtocolFee_ok hfee
    obtain ⟨_, _, _, _, _, _, _, _, _, _, _, _, _, _, _, rfl, _, _, elp, _⟩ := doAdd_ok hadd
    refine ⟨f7, Or.inr (Or.inl ⟨(b, q), p, p2, hp, by simp [f6], by rw [elp, f3], Or.inl ?_⟩)⟩
    rw [doAdd_oracle hadd, mintProtocolFee_oracle hfee]
  | remove who pair liq =>
    obtain ⟨b, q, p, s1, p1, s2, p2, hpair, hp, hfee, hrem, rfl⟩ := removeLiquidity_ok h
    obtain ⟨f1, f2, f3, f6, f7, _⟩ := mintProtocolFee_ok hfee
    obtain ⟨ob, oq, l1, l2, l3, hz, hob, hoq, e1, e2, e3, rfl, hb, hq, eb, eq', elp, hlast⟩ := doRemove_ok hrem
    refine ⟨f7, Or.inr (Or.inl ⟨(b, q), p, p2, hp, by simp [f6], by rw [elp, f3], Or.inl ?_⟩)⟩
    rw [doRemove_oracle hrem, mintProtocolFee_oracle hfee]
  | create pair am rcv lp =>
    obtain ⟨b, q, ba, qa, s2, p2, hpair, hnone, hiss, hadd, rfl⟩ := createPool_ok h
    obtain ⟨_, _, _, _, _, _, _, _, _, _, _, _, _, _, _, rfl, _, _, elp, _⟩ := doAdd_ok hadd
    have elp' : p2.lp = lp := elp
    refine ⟨rfl, Or.inr (Or.inr ⟨(b, q), p2, hnone, rfl, ?_, by rw [elp']; exact hiss, pair, am, rcv, by rw [elp']⟩)⟩
    rw [doAdd_oracle hadd]; rfl
  | swap who a b x =>
    simp only [exec, bind_ok_iff, Prod.exists, pure_ok_iff] at h
    obtain ⟨s1, y, hsw, rfl⟩ := h
    obtain ⟨k, p, p', hk, hp, hpools, hb, hlp, _, _, h1, h2⟩ := doSwap_oracle hsw
    refine ⟨hb, Or.inr (Or.inl ⟨k, p, p', hp, hpools, hlp, ?_⟩)⟩
    by_cases e : p.blockLast = s.block
    · exact Or.inl (h1 e)
    · exact Or.inr ⟨who, a, b, x, rfl, hk, e, h2 e⟩

/-! ## C83 -/

/-- C83 (a): a swap in a block where the pool's accumulators are already up to date leaves them alone; otherwise
it adds, for each direction, (blocks since the last update) × (price given by the reserves right after the swap),
and stamps the pool with the current block. -/
theorem C83_swap_accumulates {c : Cfg} {s s' : State} {who a b x y : Nat}
    (h : doSwap c s who a b x = .ok (s', y)) :
    ∃ p p', poolAt s a b = some p ∧ poolAt s' a b = some p' ∧
      (p.blockLast = s.block → p'.price0 = p.price0 ∧ p'.price1 = p.price1 ∧ p'.blockLast = s.block) ∧
      (p.blockLast ≠ s.block → p'.blockLast = s.block ∧
        p'.price0 = p.price0 + priceTime (s.block - p.blockLast) p'.quote p'.base ∧
        p'.price1 = p.price1 + priceTime (s.block - p.blockLast) p'.base p'.quote) := by
  obtain ⟨k, p, p', hk, hp, hpools, hb, hlp, _, _, h1, h2⟩ := doSwap_oracle h
  have hat : ∀ t : State, poolAt t a b = t.pools k := by
    intro t
    rcases hk with ⟨hlt, rfl⟩ | ⟨hlt, rfl⟩
    · exact poolAt_of_key (Or.inl ⟨hlt, rfl, rfl⟩)
    · exact poolAt_of_key (Or.inr ⟨hlt, rfl, rfl⟩)
  refine ⟨p, p', by rw [hat]; exact hp, by rw [hat, hpools]; simp, fun e => ?_, h2⟩
  have := h1 e
  simp only [Pool.oracle, Prod.mk.injEq] at this
  exact ⟨this.1, this.2.1, this.2.2.trans e⟩

/-- C83 (b): nothing but a swap on this very pair changes a pool's accumulators. -/
theorem C83_only_swaps {c : Cfg} {s s' : State} {call : Call} {a b : Nat} {p : Pool}
    (h : exec c s call = .ok s') (hp : poolAt s a b = some p)
    (hno : ∀ who x, call ≠ .swap who a b x ∧ call ≠ .swap who b a x) :
    ∃ p', poolAt s' a b = some p' ∧ p'.price0 = p.price0 ∧ p'.price1 = p.price1 ∧
      p'.blockLast = p.blockLast := by
  obtain ⟨k, hk, hat, hpk⟩ := poolAt_key hp
  have hat0 := hat
  obtain ⟨_, hcase⟩ := exec_pools h
  rcases hcase with he | ⟨k', q, q', hq, hpools, _, ho⟩ | ⟨k', q', hq, hpools, _⟩
  · exact ⟨p, by rw [hat, he]; exact hpk, rfl, rfl, rfl⟩
  · by_cases e : k = k'
    · subst e
      rw [hpk] at hq; cases hq
      rcases ho with ho | ⟨who, a', b', x, rfl, hkk, _⟩
      · simp only [Pool.oracle, Prod.mk.injEq] at ho
        exact ⟨q', by rw [hat, hpools]; simp, ho.1, ho.2.1, ho.2.2⟩
      · exfalso
        have hab : k = (a, b) ∨ k = (b, a) := by
          unfold poolAt at hp
          split_ifs at hp with h1 h2
          · left
            have := hat ⟨s.ledger, fun j => if j = (a, b) then some p else none, 0⟩
            simp only [poolAt, h1, if_true] at this
            by_contra hne
            simp [hne] at this
          · right
            have := hat ⟨s.ledger, fun j => if j = (b, a) then some p else none, 0⟩
            simp only [poolAt, h1, h2, if_true, if_false] at this
            by_contra hne
            simp [hne] at this
        rcases hkk with ⟨_, e⟩ | ⟨_, e⟩ <;> rcases hab with e' | e' <;> rw [e] at e' <;>
          simp only [Prod.mk.injEq] at e' <;> obtain ⟨rfl, rfl⟩ := e'
        · exact (hno who x).1 rfl
        · exact (hno who x).2 rfl
        · exact (hno who x).2 rfl
        · exact (hno who x).1 rfl
    · exact ⟨p, by rw [hat, hpools, upd_of_ne _ _ e]; exact hpk, rfl, rfl, rfl⟩
  · have e : k ≠ k' := by rintro rfl; rw [hpk] at hq; cases hq
    exact ⟨p, by rw [hat, hpools, upd_of_ne _ _ e]; exact hpk, rfl, rfl, rfl⟩

theorem step_pool {c : Cfg} {s s' : State} (h : Step c s s') {k : Nat × Nat} {p : Pool}
    (hp : s.pools k = some p) (hb : p.blockLast ≤ s.block) :
    ∃ p', s'.pools k = some p' ∧ p'.lp = p.lp ∧ p.price0 ≤ p'.price0 ∧ p.price1 ≤ p'.price1 ∧
      p.blockLast ≤ p'.blockLast ∧ p'.blockLast ≤ s'.block := by
  cases h with
  | env e => exact ⟨p, by rw [e.pools]; exact hp, rfl, Nat.le_refl _, Nat.le_refl _, Nat.le_refl _, hb.trans e.time⟩
  | call call _ h =>
    obtain ⟨ht, hcase⟩ := exec_pools h
    rcases hcase with he | ⟨k', q, q', hq, hpools, hlp, ho⟩ | ⟨k', q', hq, hpools, _⟩
    · exact ⟨p, by rw [he]; exact hp, rfl, Nat.le_refl _, Nat.le_refl _, Nat.le_refl _, by rw [ht]; exact hb⟩
    · by_cases e : k = k'
      · subst e
        rw [hp] at hq; cases hq
        refine ⟨q', by rw [hpools]; simp, hlp, ?_⟩
        rcases ho with ho | ⟨who, a', b', x, rfl, hkk, _, h1, h2, h3⟩
        · simp only [Pool.oracle, Prod.mk.injEq] at ho
          rw [ho.1, ho.2.1, ho.2.2, ht]
          exact ⟨Nat.le_refl _, Nat.le_refl _, Nat.le_refl _, hb⟩
        · rw [h1, h2, h3, ht]
          exact ⟨Nat.le_add_right _ _, Nat.le_add_right _ _, hb, Nat.le_refl _⟩
      · exact ⟨p, by rw [hpools, upd_of_ne _ _ e]; exact hp, rfl, Nat.le_refl _, Nat.le_refl _, Nat.le_refl _,
          by rw [ht]; exact hb⟩
    · have e : k ≠ k' := by rintro rfl; rw [hp] at hq; cases hq
      exact ⟨p, by rw [hpools, upd_of_ne _ _ e]; exact hp, rfl, Nat.le_refl _, Nat.le_refl _, Nat.le_refl _,
          by rw [ht]; exact hb⟩

theorem Reach.stamp {c : Cfg} {s : State} (h : Reach c s) {k : Nat × Nat} {p : Pool}
    (hp : s.pools k = some p) : p.blockLast ≤ s.block := by
  induction h generalizing k p with
  | init s h _ => rw [h] at hp; cases hp
  | @step s s' hr hs ih =>
    by_cases hex : ∃ q, s.pools k = some q
    · obtain ⟨q, hq⟩ := hex
      obtain ⟨p', h1, _, _, _, _, h2⟩ := step_pool hs hq (ih hq)
      rw [hp] at h1; cases h1; exact h2
    · have hnone : s.pools k = none := by
        cases h : s.pools k with
        | none => rfl
        | some q => exact absurd ⟨q, h⟩ hex
      cases hs with
      | env e => rw [e.pools, hnone] at hp; cases hp
      | call call _ h =>
        obtain ⟨ht, hcase⟩ := exec_pools h
        rcases hcase with he | ⟨k', q, q', hq, hpools, hlp, ho⟩ | ⟨k', q', hq, hpools, ho, _⟩
        · rw [he, hnone] at hp; cases hp
        · have e : k ≠ k' := by rintro rfl; rw [hnone] at hq; cases hq
          rw [hpools, upd_of_ne _ _ e, hnone] at hp; cases hp
        · by_cases e : k = k'
          · subst e
            rw [hpools] at hp; simp only [upd_same, Option.some.injEq] at hp; subst hp
            simp only [Pool.oracle, Prod.mk.injEq] at ho
            rw [ho.2.2]; exact Nat.zero_le _
          · rw [hpools, upd_of_ne _ _ e, hnone] at hp; cases hp

theorem Steps.reach {c : Cfg} {s s' : State} (h : Steps c s s') (hr : Reach c s) : Reach c s' := by
  induction h with
  | refl => exact hr
  | tail _ hs ih => exact .step ih hs

theorem steps_pool {c : Cfg} {s s' : State} (hr : Reach c s) (h : Steps c s s') {k : Nat × Nat} {p : Pool}
    (hp : s.pools k = some p) :
    ∃ p', s'.pools k = some p' ∧ p'.lp = p.lp ∧ p.price0 ≤ p'.price0 ∧ p.price1 ≤ p'.price1 ∧
      p.blockLast ≤ p'.blockLast ∧ p'.blockLast ≤ s'.block := by
  induction h with
  | refl => exact ⟨p, hp, rfl, Nat.le_refl _, Nat.le_refl _, Nat.le_refl _, hr.stamp hp⟩
  | tail hst hs ih =>
    obtain ⟨p1, h1, h2, h3, h4, h5, h6⟩ := ih
    obtain ⟨p2, g1, g2, g3, g4, g5, g6⟩ := step_pool hs h1 h6
    exact ⟨p2, g1, g2.trans h2, h3.trans g3, h4.trans g4, h5.trans g5, g6⟩

/-- C83 (c): over any history accumulators and stamps only grow, and the stamp is never in the future. -/
theorem C83_accumulators_monotone {c : Cfg} {s s' : State} (hr : Reach c s) (h : Steps c s s') {a b : Nat}
    {p : Pool} (hp : poolAt s a b = some p) :
    ∃ p', poolAt s' a b = some p' ∧ p.price0 ≤ p'.price0 ∧ p.price1 ≤ p'.price1 ∧
      p.blockLast ≤ p'.blockLast ∧ p'.blockLast ≤ s'.block := by
  obtain ⟨k, _, hat, hpk⟩ := poolAt_key hp
  obtain ⟨p', h1, _, h2⟩ := steps_pool hr h hpk
  exact ⟨p', by rw [hat]; exact h1, h2⟩

/-! ## C83 -/

/-- C83 (a): once a pair has a pool it has one forever, with the same LP token: no call removes or replaces it. -/
theorem C83_pool_permanent {c : Cfg} {s s' : State} (hr : Reach c s) (h : Steps c s s') {a b lp : Nat}
    (hlp : lpOf s a b = some lp) : lpOf s' a b = some lp := by
  have hmap : ∀ t : State, lpOf t a b = (poolAt t a b).map (·.lp) := by
    intro t; unfold lpOf poolAt; split_ifs <;> rfl
  rw [hmap, Option.map_eq_some_iff] at hlp
  obtain ⟨p, hp, rfl⟩ := hlp
  obtain ⟨k, _, hat, hpk⟩ := poolAt_key hp
  obtain ⟨p', h1, h2, _⟩ := steps_pool hr h hpk
  rw [hmap, hat, h1, Option.map_some, h2]

/-- C83 (b): creating a pool for a pair that has one is rejected. -/
theorem C83_create_existing {c : Cfg} {s : State} {a b lp0 x y rcv lp : Nat} (hlp : lpOf s a b = some lp0) :
    createPool c s (a, b) (x, y) rcv lp = .error .poolAlreadyExists := by
  unfold lpOf at hlp
  split_ifs at hlp with h1 h2
  · rw [Option.map_eq_some_iff] at hlp
    obtain ⟨p, hp, -⟩ := hlp
    have hs : sortAssets a b = .ok (false, a, b) := sortAssets_ok_iff.2 (Or.inl ⟨h1, rfl⟩)
    unfold createPool
    rw [hs]
    simp [hp, ensure]
  · rw [Option.map_eq_some_iff] at hlp
    obtain ⟨p, hp, -⟩ := hlp
    have hs : sortAssets a b = .ok (true, b, a) := sortAssets_ok_iff.2 (Or.inr ⟨h2, rfl⟩)
    unfold createPool
    rw [hs]
    simp [hp, ensure]

theorem iss_pos {c : Cfg} (hc : c.OK) {s : State} (h : Inv c s) {k : Nat × Nat} {p : Pool}
    (hp : s.pools k = some p) : s.ledger.iss p.lp ≠ 0 := by
  have h1 := (h.pool k p hp).1
  have h2 := Ledger.bal_le_iss h.wf p.lp c.lock
  have h3 := hc.minLiq
  omega

theorem lp_unique_keys {c : Cfg} (hc : c.OK) {s : State} (h : Reach c s) :
    ∀ k k' p p', s.pools k = some p → s.pools k' = some p' → p.lp = p'.lp → k = k' := by
  induction h with
  | init s h _ => intro k k' p p' hp; rw [h] at hp; cases hp
  | @step s s' hr hs ih =>
    cases hs with
    | env e => rw [e.pools]; exact ih
    | call call _ h =>
      obtain ⟨ht, hcase⟩ := exec_pools h
      rcases hcase with he | ⟨j, q, q', hq, hpools, hlp, ho⟩ | ⟨j, q', hq, hpools, _, hiss, _⟩
      · rw [he]; exact ih
      · intro k k' p p' hp hp' e
        have old : ∀ i r, s'.pools i = some r → ∃ r0, s.pools i = some r0 ∧ r0.lp = r.lp := by
          intro i r hi
          rw [hpools] at hi
          by_cases ei : i = j
          · subst ei; simp only [upd_same, Option.some.injEq] at hi; subst hi; exact ⟨q, hq, hlp.symm⟩
          · rw [upd_of_ne _ _ ei] at hi; exact ⟨r, hi, rfl⟩
        obtain ⟨r, h1, h2⟩ := old k p hp
        obtain ⟨r', h3, h4⟩ := old k' p' hp'
        exact ih k k' r r' h1 h3 (by rw [h2, h4, e])
      · have hne : ∀ i r, s.pools i = some r → r.lp ≠ q'.lp := by
          intro i r hi e
          have := iss_pos hc (hr.inv hc) hi
          rw [e] at this; exact this hiss
        intro k k' p p' hp hp' e
        rw [hpools] at hp hp'
        by_cases e1 : k = j <;> by_cases e2 : k' = j
        · rw [e1, e2]
        · subst e1; simp only [upd_same, Option.some.injEq] at hp; subst hp
          rw [upd_of_ne _ _ e2] at hp'
          exact absurd e.symm (hne _ _ hp')
        · subst e2; simp only [upd_same, Option.some.injEq] at hp'; subst hp'
          rw [upd_of_ne _ _ e1] at hp
          exact absurd e (hne _ _ hp)
        · rw [upd_of_ne _ _ e1] at hp; rw [upd_of_ne _ _ e2] at hp'
          exact ih k k' p p' hp hp' e

/-- C83 (c): two different pairs never share an LP token. -/
theorem C83_lp_token_unique {c : Cfg} (hc : c.OK) {s : State} (h : Reach c s) {a b a' b' lp : Nat}
    (h1 : lpOf s a b = some lp) (h2 : lpOf s a' b' = some lp) :
    (a = a' ∧ b = b') ∨ (a = b' ∧ b = a') := by
  have key : ∀ u v, lpOf s u v = some lp → ∃ k p, s.pools k = some p ∧ p.lp = lp ∧ (k = (u, v) ∨ k = (v, u)) := by
    intro u v huv
    unfold lpOf at huv
    split_ifs at huv with g1 g2
    · rw [Option.map_eq_some_iff] at huv; obtain ⟨p, hp, e⟩ := huv; exact ⟨_, p, hp, e, Or.inl rfl⟩
    · rw [Option.map_eq_some_iff] at huv; obtain ⟨p, hp, e⟩ := huv; exact ⟨_, p, hp, e, Or.inr rfl⟩
  obtain ⟨k, p, hp, e, hk⟩ := key _ _ h1
  obtain ⟨k', p', hp', e', hk'⟩ := key _ _ h2
  have := lp_unique_keys hc h k k' p p' hp hp' (e.trans e'.symm)
  rcases hk with rfl | rfl <;> rcases hk' with rfl | rfl <;> simp only [Prod.mk.injEq] at this <;> omega

/-- The hypotheses of C83 are met: a pool created in block 1 books its first trade, with the elapsed time counted from
block 0, and a second trade in the same block books nothing. -/
example : okAnd (run vanilla ex0 [.create (20, 10) (1000000, 1000000) 1 77]) (fun s =>
    okAnd (doSwap vanilla s 2 20 10 1000) (fun r =>
      decide ((poolAt r.1 20 10).any (fun p => p.price0 ≠ 0 && p.price1 ≠ 0 && p.blockLast = 1) = true) &&
      okAnd (doSwap vanilla r.1 2 10 20 1000) (fun r' =>
        decide ((poolAt r'.1 20 10).map (fun p => (p.price0, p.price1, p.blockLast)) =
          (poolAt r.1 20 10).map (fun p => (p.price0, p.price1, p.blockLast)))))) = true := by decide +kernel

end Verif.Stable
