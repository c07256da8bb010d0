import Verif.Farming.Calls

set_option linter.unusedSimpArgs false

/-!
# Farming: property theorems (C25 – C29)

Vocabulary in `Verif/Farming/Spec.lean`: `Reach` (all histories), `claimable`, `unstreamed`, `userOwed`,
`dispatched / claimed` (totals over the event log).
-/

namespace Verif.Farming
open Verif Finset

/-! Fixture: pool (stake 1, reward 2, lock 0) with cool-down 10; user 7 stakes 100, 3000 units of reward
are dispatched over 30 blocks at block 5; then it is block 15. -/
def exCfg : Cfg := ⟨fun a => 1000 + a, 4, 100, 100⟩
@[irreducible] def exL : Ledger := Ledger.ofList [(1, 7, 500), (1, 8, 500), (2, 9, 100000)]
theorem exL_wf : exL.WF := by unfold exL; exact Ledger.ofList_wf _
def exK : Key := ⟨1, 2, 0⟩
def ex0 : State := ⟨exL, fun _ => none, fun _ _ => Pos.default, 5, []⟩
def run (s : State) : List Call → State
  | [] => s
  | k :: ks => run (commit s (exec exCfg s k)) ks
theorem run_reach {s : State} (h : Reach exCfg s) : ∀ ks : List Call, (∀ k ∈ ks, k.signerOK exCfg) →
    Reach exCfg (run s ks)
  | [], _ => h
  | k :: ks, hk => by
    refine run_reach (s := commit s (exec exCfg s k)) ?_ ks (fun k' h' => hk k' (List.mem_cons_of_mem _ h'))
    rcases commit_cases s (exec exCfg s k) with he | ⟨he, _⟩
    · exact .step h (.call k (hk k List.mem_cons_self) he)
    · rw [he]; exact h
def exCalls : List Call := [.create exK 10, .setStatus exK true, .deposit exK 7 100, .dispatch exK 9 3000 30]
theorem exCalls_ok : ∀ k ∈ exCalls, k.signerOK exCfg := by
  intro k hk
  simp only [exCalls, List.mem_cons, List.not_mem_nil, or_false] at hk
  rcases hk with rfl | rfl | rfl | rfl
  · trivial
  · trivial
  · intro a; show 7 ≠ 1000 + a; omega
  · intro a; show 9 ≠ 1000 + a; omega
def ex1 : State := run ex0 exCalls
theorem ex1_reach : Reach exCfg ex1 := run_reach (.init exL 5 exL_wf) _ exCalls_ok
def later (s : State) (t : Nat) : State := { s with now := s.now + t }
theorem later_reach {c : Cfg} {s : State} (h : Reach c s) (t : Nat) : Reach c (later s t) := by
  obtain ⟨H, B, hi⟩ := h.inv
  exact .step h (.env ⟨rfl, rfl, rfl, Nat.le_add_right _ _, hi.wf, fun _ => Nat.le_refl _⟩)
def ex2 : State := later ex1 10
theorem ex2_reach : Reach exCfg ex2 := later_reach ex1_reach 10
theorem ok7 : ∀ a, 7 ≠ exCfg.acct a := by intro a; show 7 ≠ 1000 + a; omega

/-! ## C25 -/

/-- C25: after any history the recorded total of every pool is exactly the sum of the deposits of all its
users. -/
theorem C25_total {c : Cfg} {s : State} (h : Reach c s) {k : Key} {p : Pool} (hp : s.pools k = some p) :
    SumsTo (fun w => (s.pos k w).dep) p.total := by
  obtain ⟨H, B, hi⟩ := h.inv
  exact (hi.pool k p hp).total

example : Reach exCfg ex2 ∧ (ex2.pools exK).map Pool.total = some 100 := ⟨ex2_reach, by decide +kernel⟩

/-! ## C26 -/

theorem claimable_sum {s : State} {k : Key} {p : Pool} {B : Nat} (hp : s.pools k = some p)
    (h : PoolOK p (s.pos k) s.now B) (U : Finset Nat) :
    ∑ w ∈ U, claimable s k w + unstreamed s k ≤ B := by
  have ha := h.accrue
  have h1 := ha.rew U
  have h2 := ha.room
  have e : p.finish - min p.finish s.now = p.finish - s.now := by omega
  simp only [e] at h1 h2
  have h3 : APS * ∑ w ∈ U, claimable s k w ≤ APS * (B - p.rate * (p.finish - s.now)) := by
    refine Nat.le_trans ?_ h1
    rw [Finset.mul_sum]
    refine Finset.sum_le_sum (fun w _ => ?_)
    simp only [claimable, hp, ent]
    rw [Nat.mul_add, Nat.mul_comm APS (s.pos k w).reward]
    exact Nat.add_le_add_left (Nat.mul_div_le _ _) _
  have h4 := Nat.le_of_mul_le_mul_left h3 APS_pos
  have h5 : unstreamed s k = p.rate * (p.finish - s.now) := by simp [unstreamed, hp]
  omega

/-- C26: after any history the pallet's account of every asset `x` covers, over any finite set of pools and
users, all stakes, all cooling-down stakes, all rewards earned up to now (settled or not) and all rewards
that remain to be streamed — although all pools with this asset share one account. -/
theorem C26_solvent {c : Cfg} {s : State} (h : Reach c s) (x : Nat) (S : Finset Key) (U : Finset Nat) :
    ∑ k ∈ S, (∑ w ∈ U, userOwed s x k w + streamOwed s x k) ≤ s.ledger.bal x (c.acct x) := by
  obtain ⟨H, B, hi⟩ := h.inv
  refine Nat.le_trans (Finset.sum_le_sum (fun k _ => ?_)) (hi.vault x S)
  have hst : ∑ w ∈ U, ((s.pos k w).dep + (s.pos k w).cooling) ≤ H k := hi.stake k U
  have hrw : ∑ w ∈ U, claimable s k w + unstreamed s k ≤ B k := by
    cases hp : s.pools k with
    | none => simp [claimable, unstreamed, hp]
    | some p => exact claimable_sum hp (hi.pool k p hp) U
  simp only [userOwed, streamOwed, share]
  rw [Finset.sum_add_distrib]
  by_cases h1 : k.asset = x <;> by_cases h2 : k.reward = x <;> simp only [h1, h2, if_true, if_false, Finset.sum_const_zero] <;> omega

/-- In the fixture, block 15: user 7 has earned 1000 of 3000 and 2000 are still to be streamed. -/
example : Reach exCfg ex2 ∧ claimable ex2 exK 7 = 1000 ∧ unstreamed ex2 exK = 2000 ∧
    userOwed ex2 1 exK 7 = 100 := ⟨ex2_reach, by decide +kernel, by decide +kernel, by decide +kernel⟩

/-- C26, consequence: in every reachable state every user of an existing pool can redeem — the call never
fails. -/
theorem C26_redeem_succeeds {c : Cfg} {s : State} (h : Reach c s) {k : Key} {p : Pool}
    (hp : s.pools k = some p) (w : Nat) : ∃ s', redeem c s k w = .ok s' := by
  obtain ⟨H, B, hi⟩ := h.inv
  have h1 := (hi.stake k).apply w
  have h2 := (hi.vault k.asset).apply k
  have h3 := (share_le H B k).1
  have h4 := Ledger.bal_le_iss hi.wf k.asset (c.acct k.asset)
  have h5 := (hi.wf k.asset).2
  simp only [Pos.cooling] at h1
  obtain ⟨t, ht⟩ := sumMatured_succeeds (cool := p.cool) (now := s.now) (its := (s.pos k w).items) (acc := 0)
    (by omega)
  have ht' := sumMatured_ok ht
  have hsp := split_sum p.cool s.now (s.pos k w).items
  obtain ⟨l, hl⟩ := Ledger.transfer_succeeds (l := s.ledger) (a := k.asset) (s := c.acct k.asset) (d := w)
    (m := t) (k := false) (by omega) (by simp)
  unfold redeem
  simp only [hp, okOr_some, ok_bind, ht, payIf_eq, hl]
  exact ⟨_, rfl⟩

/-- C26, consequence: claiming fails only if the user's settlement itself overflows; the pool never lacks
the tokens. -/
theorem C26_claim_succeeds {c : Cfg} {s : State} (h : Reach c s) {k : Key} {w : Nat} {s1 : State}
    (hs : updateSome s k w = .ok s1) : ∃ s', claim c s k w = .ok s' := by
  obtain ⟨H, B, hi⟩ := h.inv
  obtain ⟨hi1, p, hp, _⟩ := hi.updateSome hs
  have h1 := (hi1.pool k p hp).reward_le w
  have h2 := (hi1.vault k.reward).apply k
  have h3 := (share_le H B k).2
  obtain ⟨p0, _, _, hp0, _⟩ := updateSome_ok hs
  obtain ⟨l, hl⟩ := Ledger.transfer_succeeds (l := s1.ledger) (a := k.reward) (s := c.acct k.reward) (d := w)
    (m := (s1.pos k w).reward) (k := false) (by omega) (by simp)
  unfold claim
  rw [ensure_of (by simp [hp0]), ok_bind, hs, ok_bind]
  by_cases h0 : 0 < (s1.pos k w).reward
  · simp only [payReward, h0, if_true, hl, ok_bind]
    exact ⟨_, rfl⟩
  · simp only [payReward, h0, if_false, ok_bind]
    exact ⟨_, rfl⟩

/-- C26, consequence: from a pool without cool-down every user can withdraw any part of the deposit once the
pool is unlocked, unless the settlement overflows. -/
theorem C26_withdraw_succeeds {c : Cfg} {s : State} (h : Reach c s) {k : Key} {w m : Nat} {s1 : State} {p : Pool}
    (hs : updateSome s k w = .ok s1) (hp : s.pools k = some p) (hu : p.unlock ≤ s.now) (hc : p.cool = 0)
    (hm : m ≠ 0) (hd : m ≤ (s.pos k w).dep) : ∃ s', withdraw c s k w m = .ok s' := by
  obtain ⟨H, B, hi⟩ := h.inv
  obtain ⟨hi1, p1, hp1, _, _, hdep, _, hl1, hn1, _⟩ := hi.updateSome hs
  have h1 := (hi1.stake k).apply w
  have h2 := (hi1.vault k.asset).apply k
  have h3 := (share_le H B k).1
  have h4 := (hi1.pool k p1 hp1).total.apply w
  have hpp : p1.unlock = p.unlock ∧ p1.cool = p.cool := by
    obtain ⟨p0, p', u, hp0, hp', _, rfl⟩ := updateSome_ok hs
    rw [hp] at hp0; cases hp0
    simp at hp1; subst hp1
    rw [update_ok hp']; exact ⟨rfl, rfl⟩
  obtain ⟨l, hl⟩ := Ledger.transfer_succeeds (l := s1.ledger) (a := k.asset) (s := c.acct k.asset) (d := w)
    (m := m) (k := false) (by omega) (by simp)
  have hmt : m ≤ p1.total := by
    have : (s1.pos k w).dep ≤ p1.total := h4
    omega
  unfold withdraw
  rw [ensure_of (by simp [hp]), ok_bind, ensure_of hm, ok_bind, ensure_of hd, ok_bind, hs, ok_bind, hp1,
    okOr_some, ok_bind, ensure_of (by omega), ok_bind, csub_ok_iff.2 ⟨hmt, rfl⟩, ok_bind,
    csub_ok_iff.2 ⟨by omega, rfl⟩, ok_bind]
  simp only [release, hpp.2, hc, if_true, hl, ok_bind]
  exact ⟨_, rfl⟩

example : ∃ s1, updateSome ex2 exK 7 = .ok s1 := by
  have : okAnd (updateSome ex2 exK 7) (fun _ => true) = true := by decide +kernel
  exact (okAnd_iff.1 this).imp (fun _ h => h.1)

/-! ## C27 -/

/-- C27: after any history the rewards paid out by a pool, together with everything its users have earned but
not claimed and what is still to be streamed, never exceed what has been dispatched to this very pool. -/
theorem C27_rewards_bounded {c : Cfg} {s : State} (h : Reach c s) (k : Key) (U : Finset Nat) :
    claimed s k + ∑ w ∈ U, claimable s k w + unstreamed s k ≤ dispatched s k := by
  obtain ⟨H, B, hi⟩ := h.inv
  have hb := hi.budget k
  have hrw : ∑ w ∈ U, claimable s k w + unstreamed s k ≤ B k := by
    cases hp : s.pools k with
    | none => simp [claimable, unstreamed, hp]
    | some p => exact claimable_sum hp (hi.pool k p hp) U
  omega

/-- C27, link to the ledger: a successful claim pays the user exactly the reward earned up to now, from the
pool's account, reports that amount, leaves nothing claimable, and moves no other balance. -/
theorem C27_claim_exact {c : Cfg} {s s' : State} {k : Key} {w : Nat}
    (hc : claim c s k w = .ok s') :
    s'.ledger.bal k.reward w + (if w = c.acct k.reward then claimable s k w else 0)
      = s.ledger.bal k.reward w + claimable s k w ∧
    s'.events = s.events ++ [.rewardPaid w k (claimable s k w)] ∧
    claimable s' k w = 0 ∧
    (∀ x y, (x, y) ≠ (k.reward, w) → (x, y) ≠ (k.reward, c.acct k.reward) →
      s'.ledger.bal x y = s.ledger.bal x y) ∧
    s'.ledger.iss = s.ledger.iss := by
  obtain ⟨s1, l, hs1, hl, rfl⟩ := claim_ok hc
  obtain ⟨p, p', u, hp, hp', hu, rfl⟩ := updateSome_ok hs1
  obtain ⟨_, rfl⟩ := settle_ok hu
  have hf := update_fresh hp'
  have hidx : p'.index s.now = p.index s.now := by rw [hf.index, update_ok hp']
  have hrew : claimable s k w = (s.pos k w).reward + (s.pos k w).dep * (p'.index s.now - (s.pos k w).paid) / APS := by
    simp [claimable, hp, hidx]
  simp only [upd_same] at hl ⊢
  rw [← hrew] at hl
  refine ⟨?_, by rw [hrew], ?_, ?_, by rw [Ledger.transfer_iss hl]⟩
  · have := Ledger.transfer_bal hl k.reward w
    simpa using this
  · simp [claimable, hf.index]
  · intro x y h1 h2
    have := Ledger.transfer_bal hl x y
    simp only [ne_eq, Prod.mk.injEq] at h1 h2
    simpa [h1, h2] using this

/-- C27, link to the ledger: a dispatched reward is really paid in by the payer. -/
theorem C27_dispatch_exact {c : Cfg} {s s' : State} {k : Key} {w m d : Nat} (hw : ∀ a, w ≠ c.acct a)
    (hd : dispatch c s k w m d = .ok s') :
    s'.ledger.bal k.reward (c.acct k.reward) = s.ledger.bal k.reward (c.acct k.reward) + m ∧
    s'.ledger.bal k.reward w + m = s.ledger.bal k.reward w ∧
    s'.events = s.events ++ [.rewardAdded k m] := by
  obtain ⟨p, p', rate, l, hp, hp', hr, hl, rfl⟩ := dispatch_ok hd
  have h1 := Ledger.transfer_bal hl k.reward (c.acct k.reward)
  have h2 := Ledger.transfer_bal hl k.reward w
  have e1 : ¬ c.acct k.reward = w := fun e => hw _ e.symm
  simp [e1, hw] at h1 h2
  exact ⟨h1, h2, rfl⟩

example : okAnd (claim exCfg ex2 exK 7) (fun s => s.ledger.bal 2 7 = 1000 ∧ claimed s exK = 1000 ∧
    dispatched s exK = 3000) = true := by decide +kernel

/-! ## C28 -/

/-- C28 (a): a successful withdrawal happens at or after the unlock height, takes exactly `m` from a deposit
that covers it, and either pays `m` at once (no cool-down) or files `m` with the current block. -/
theorem C28_withdraw {c : Cfg} {s s' : State} {k : Key} {w m : Nat} (h : withdraw c s k w m = .ok s') :
    ∃ p, s.pools k = some p ∧ p.unlock ≤ s.now ∧ m ≠ 0 ∧ m ≤ (s.pos k w).dep ∧
      (s'.pos k w).dep = (s.pos k w).dep - m ∧
      (p.cool = 0 → s.ledger.transfer k.asset (c.acct k.asset) w m false = .ok s'.ledger ∧
        (s'.pos k w).items = (s.pos k w).items) ∧
      (p.cool ≠ 0 → s'.ledger = s.ledger ∧ (s'.pos k w).items = (s.pos k w).items ++ [(m, s.now)]) := by
  obtain ⟨h1, h2, s1, p1, l, u, hs1, hp1, hul, _, h3, hr, rfl⟩ := withdraw_ok h
  obtain ⟨p, p', u1, hp, hp', hu, rfl⟩ := updateSome_ok hs1
  obtain ⟨e1, e2, _⟩ := settle_keeps hu
  simp at hp1; subst hp1
  have hpp : p'.unlock = p.unlock ∧ p'.cool = p.cool := by rw [update_ok hp']; exact ⟨rfl, rfl⟩
  simp only [upd_same] at hr h3 hul ⊢
  refine ⟨p, hp, by rw [← hpp.1]; exact hul, h1, h2, ?_⟩
  rcases release_ok hr with ⟨hc, hl, rfl⟩ | ⟨hc, _, rfl, rfl⟩
  · exact ⟨by simp [e1], fun _ => ⟨hl, by simp [e2]⟩, fun h => absurd (hpp.2 ▸ hc) h⟩
  · exact ⟨by simp [e1], fun h => absurd (hpp.2 ▸ h) hc, fun _ => ⟨rfl, by simp [e2]⟩⟩

/-- C28 (b): the number of cooling-down items of a user never grows beyond the configured maximum. -/
theorem C28_items_bounded {c : Cfg} {s : State} (h : Reach c s) (k : Key) (w : Nat) :
    (s.pos k w).items.length ≤ c.maxItems := by
  suffices ∀ k w, (s.pos k w).items.length ≤ c.maxItems from this k w
  have hset : ∀ {s1 : State} {k : Key} {w : Nat} {u : Pos}, (∀ k w, (s1.pos k w).items.length ≤ c.maxItems) →
      u.items.length ≤ c.maxItems → ∀ k' w', (upd s1.pos k (upd (s1.pos k) w u) k' w').items.length ≤ c.maxItems := by
    intro s1 k w u h1 h2 k' w'
    by_cases hk : k' = k
    · subst hk
      by_cases hw : w' = w
      · subst hw; simpa using h2
      · simpa [upd_of_ne _ _ hw] using h1 k' w'
    · simpa [upd_of_ne _ _ hk] using h1 k' w'
  have hus : ∀ {s s1 : State} {k : Key} {w : Nat}, (∀ k w, (s.pos k w).items.length ≤ c.maxItems) →
      updateSome s k w = .ok s1 → ∀ k w, (s1.pos k w).items.length ≤ c.maxItems := by
    intro s s1 k w h1 h2
    obtain ⟨p, p', u1, hp, hp', hu, rfl⟩ := updateSome_ok h2
    obtain ⟨_, e2, _⟩ := settle_keeps hu
    exact hset h1 (e2 ▸ h1 k w)
  induction h with
  | init l now hw => intro k w; simp [Pos.default]
  | step _ hs ih =>
    cases hs with
    | env he => rw [he.pos]; exact ih
    | call k hk he =>
      cases k with
      | create k cool =>
        have h : create c _ k cool = .ok _ := he
        unfold create at h
        simp only [bind_ok_iff, ensure_ok_iff, pure_ok_iff, exists_const] at h
        obtain ⟨_, _, _, rfl⟩ := h
        exact ih
      | setStatus k b =>
        have h : setStatus _ k b = .ok _ := he
        unfold setStatus at h
        simp only [bind_ok_iff, ensure_ok_iff, okOr_ok_iff, pure_ok_iff, exists_const] at h
        obtain ⟨p, hp, _, rfl⟩ := h
        exact ih
      | setCool k cool =>
        have h : setCool c _ k cool = .ok _ := he
        unfold setCool at h
        simp only [bind_ok_iff, ensure_ok_iff, okOr_ok_iff, pure_ok_iff, exists_const] at h
        obtain ⟨_, p, hp, _, rfl⟩ := h
        exact ih
      | resetUnlock k =>
        have h : resetUnlock _ k = .ok _ := he
        unfold resetUnlock at h
        simp only [bind_ok_iff, ensure_ok_iff, okOr_ok_iff, pure_ok_iff, exists_const] at h
        obtain ⟨p, hp, _, _, rfl⟩ := h
        exact ih
      | deposit k w m =>
        obtain ⟨_, s1, p, l, hs1, _, _, _, rfl⟩ := deposit_ok (c := c) (s := _) he
        exact hset (hus ih hs1) (hus ih hs1 k w)
      | withdraw k w m =>
        obtain ⟨_, _, s1, p, l, u, hs1, _, _, _, _, hr, rfl⟩ := withdraw_ok (c := c) (s := _) he
        refine hset (hus ih hs1) ?_
        have h1 := hus ih hs1 k w
        rcases release_ok hr with ⟨_, _, rfl⟩ | ⟨_, h2, _, rfl⟩
        · exact h1
        · simp only [List.length_append, List.length_cons, List.length_nil]; exact h2
      | redeem k w =>
        obtain ⟨p, l, _, _, rfl⟩ := redeem_ok (c := c) (s := _) he
        exact hset ih (Nat.le_trans (List.length_filter_le _ _) (ih k w))
      | claim k w =>
        obtain ⟨s1, l, hs1, _, rfl⟩ := claim_ok (c := c) (s := _) he
        exact hset (hus ih hs1) (hus ih hs1 k w)
      | dispatch k w m d =>
        obtain ⟨p, p', rate, l, _, _, _, _, rfl⟩ := dispatch_ok (c := c) (s := _) he
        exact ih

/-- An item `(amount, block)` is due once `cool` blocks have passed since `block`. -/
def isDue (cool now : Nat) (it : Nat × Nat) : Prop := it.2 + cool ≤ now
instance (cool now : Nat) (it : Nat × Nat) : Decidable (isDue cool now it) :=
  inferInstanceAs (Decidable (it.2 + cool ≤ now))

/-- C28 (c): redeem pays exactly the sum of the user's items that are due, removes exactly these, keeps all
others in order, and changes nothing else of the position.  (Block numbers are below `u32::MAX`, where the
code saturates.) -/
theorem C28_redeem {c : Cfg} {s s' : State} {k : Key} {w : Nat} (hn : s.now < maxU32)
    (h : redeem c s k w = .ok s') :
    ∃ p, s.pools k = some p ∧
      s.ledger.transfer k.asset (c.acct k.asset) w
        (((s.pos k w).items.filter (fun it => isDue p.cool s.now it)).map Prod.fst).sum false = .ok s'.ledger ∧
      s'.pos k w = { s.pos k w with items := (s.pos k w).items.filter (fun it => ¬ isDue p.cool s.now it) } ∧
      (∀ k' w', (k', w') ≠ (k, w) → s'.pos k' w' = s.pos k' w') := by
  obtain ⟨p, l, hp, hl, rfl⟩ := redeem_ok h
  have hm : ∀ it, matured p.cool s.now it = decide (isDue p.cool s.now it) := by
    intro it
    unfold matured isDue
    congr 1
    exact propext ⟨fun h => by omega, fun h => by omega⟩
  have hm' : matured p.cool s.now = fun it => decide (isDue p.cool s.now it) := funext hm
  refine ⟨p, hp, ?_, ?_, ?_⟩
  · rw [← hm']; exact hl
  · simp [hm]
  · intro k' w' hne
    by_cases hk : k' = k
    · subst hk
      have hw : w' ≠ w := fun e => hne (by rw [e])
      simp [upd_of_ne _ _ hw]
    · simp [upd_of_ne _ _ hk]

/-- User 7 withdraws 30 at block 15 and again 20 at block 20; at block 26 exactly the first is paid. -/
def ex3 : State := later (run (later (run ex2 [.withdraw exK 7 30]) 5) [.withdraw exK 7 20]) 6
example : (ex3.pos exK 7).items = [(30, 15), (20, 20)] ∧ ex3.now = 26 ∧
    okAnd (redeem exCfg ex3 exK 7) (fun s => s.ledger.bal 1 7 = 430 ∧ (s.pos exK 7).items = [(20, 20)]) = true := by
  refine ⟨by decide +kernel, by decide +kernel, by decide +kernel⟩

/-! ## C29 -/

/-- C29 (a): settling the rewards of a user a second time in the same block succeeds and changes nothing.
(The hypothesis says that the stored index fits its type `u128`.) -/
theorem C29_settle_idempotent {s s1 : State} {k : Key} {w : Nat} (hr : ∀ p, s.pools k = some p → p.rps ≤ maxU128)
    (h : updateSome s k w = .ok s1) : updateSome s1 k w = .ok s1 := by
  obtain ⟨p, p', u, hp, hp', hu, rfl⟩ := updateSome_ok h
  have hf := update_fresh hp'
  have hrps : p'.rps ≤ maxU128 := by
    have h0 := hr p hp
    unfold Pool.update at hp'
    simp only [bind_ok_iff, pure_ok_iff] at hp'
    obtain ⟨r, hr', rfl⟩ := hp'
    unfold Pool.rewardPerShare at hr'
    split_ifs at hr'
    · cases hr'; exact h0
    · simp only [bind_ok_iff, cadd_ok_iff] at hr'
      obtain ⟨_, _, _, _, h1, rfl⟩ := hr'
      exact h1
  have hps : p'.rewardPerShare s.now = .ok p'.rps := by
    unfold Pool.rewardPerShare
    split_ifs with ht
    · rfl
    · have : p'.lastBlock s.now - p'.last = 0 := by rw [lastBlock_eq, hf]; omega
      simp only [this, Nat.zero_mul, Nat.zero_div, bind_ok_iff, cdiv_ok_iff, toU128_ok_iff, cadd_ok_iff]
      exact ⟨0, ⟨ht, rfl⟩, 0, ⟨Nat.zero_le _, rfl⟩, by omega, rfl⟩
  have hup : p'.update s.now = .ok p' := by
    unfold Pool.update
    simp only [hps, ok_bind, pure_ok_iff]
    rw [lastBlock_eq, ← hf]
  have hu' : u.reward ≤ maxU128 ∧ u.paid = p'.rps := by
    unfold Pool.settle at hu
    simp only [bind_ok_iff, pure_ok_iff, csub_ok_iff, cdiv_ok_iff, toU128_ok_iff] at hu
    obtain ⟨r, _, d, _, q', _, e, ⟨h1, rfl⟩, rfl⟩ := hu
    exact ⟨h1, rfl⟩
  have hset : p'.settle s.now u = .ok u := by
    unfold Pool.settle
    simp only [hps, ok_bind, bind_ok_iff, pure_ok_iff, csub_ok_iff, cdiv_ok_iff, toU128_ok_iff]
    refine ⟨0, ⟨by omega, by omega⟩, 0, ⟨by decide, by simp⟩, u.reward, ⟨by omega, by omega⟩, ?_⟩
    cases u; simp at hu' ⊢; exact hu'.2.symm
  unfold updateSome
  simp only [upd_same, okOr_some, ok_bind, hup, hset, pure_ok_iff, upd_upd]

/-- C29 (b): a second claim in the same block pays nothing: it moves no tokens, reports 0 and leaves all
positions and pools as they are. -/
theorem C29_second_claim {c : Cfg} {s s1 s2 : State} {k : Key} {w : Nat}
    (h1 : claim c s k w = .ok s1) (h2 : claim c s1 k w = .ok s2) :
    s2 = { s1 with events := s1.events ++ [.rewardPaid w k 0] } := by
  obtain ⟨t, l, ht, hl, rfl⟩ := claim_ok h1
  obtain ⟨p, p', u, hp, hp', hu, rfl⟩ := updateSome_ok ht
  obtain ⟨_, _, hpd⟩ := settle_keeps hu
  obtain ⟨t2, l2, ht2, hl2, rfl⟩ := claim_ok h2
  obtain ⟨p2, p2', u2, hp2, hp2', hu2, rfl⟩ := updateSome_ok ht2
  have hf := update_fresh hp'
  simp only [upd_same, Option.some.injEq] at hp2 hu2 hl2 ⊢
  subst hp2
  have e1 := update_ok hp2'
  simp only [hf.index] at e1
  have hp22 : p2' = p' := by rw [e1]; cases p'; simp [Fresh] at hf; simp [hf]
  subst hp22
  obtain ⟨_, e2⟩ := settle_ok hu2
  simp only [hf.index, hpd, Nat.sub_self, Nat.mul_zero, Nat.zero_div, Nat.add_zero] at e2
  subst e2
  simp only [Ledger.transfer, if_true, Except.ok.injEq] at hl2
  subst hl2
  simp only [upd_upd]
  rw [hpd]

example : okAnd (claim exCfg ex2 exK 7 >>= fun s => claim exCfg s exK 7) (fun s => s.ledger.bal 2 7 = 1000) = true := by
  decide +kernel

end Verif.Farming
