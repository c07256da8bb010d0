import Verif.Farming.Props3

set_option linter.unusedSimpArgs false

/-!
# Farming: leaving a pool (C211)

Every call that touches a stake first brings the reward index of the pool up to date; if the index does not fit in
128 bits the call fails.  Full statement (`C211_statement`): whoever has stake in an unlocked pool can withdraw it.  It is
false (`C211_refuted`): a pool with a tiny stake and a large reward freezes, for everybody and for ever
(`C211_frozen_forever`).  Proved: as long as less than `2^128 / 10^12` units of reward (about `3.4·10^26`) were ever
dispatched to the pool, nothing can stop anybody from leaving with everything.
-/

namespace Verif.Farming
open Verif Finset

/-- The rewards ever dispatched to the pool are few enough for the index to fit in 128 bits whatever the stakes are. -/
def Moderate (s : State) (k : Key) : Prop := dispatched s k * 1000000000000 ≤ 2 ^ 128 - 1

/-- The index of the pool no longer fits in 128 bits. -/
def Frozen (s : State) (k : Key) : Prop := ∃ p, s.pools k = some p ∧ maxU128 < p.index s.now

/-! ### The index is bounded by the rewards -/

def IdxOK (p : Pool) (D : Nat) : Prop := p.rps + APS * (p.rate * (p.finish - p.last)) ≤ APS * D

theorem IdxOK.index {p : Pool} {D now : Nat} (h : IdxOK p D) (h1 : p.last ≤ p.finish) (h2 : p.last ≤ now) :
    p.index now + APS * (p.rate * (p.finish - min p.finish now)) ≤ APS * D := by
  unfold IdxOK at h
  have e : p.index now ≤ p.rps + APS * (p.rate * (min p.finish now - p.last)) := by
    unfold Pool.index
    split_ifs
    · exact Nat.le_add_right _ _
    · refine Nat.add_le_add_left ((Nat.div_le_self _ _).trans (Nat.le_of_eq ?_)) _
      ring
  have e2 : APS * (p.rate * (min p.finish now - p.last)) + APS * (p.rate * (p.finish - min p.finish now)) ≤
      APS * (p.rate * (p.finish - p.last)) := by
    rw [← Nat.mul_add, ← Nat.mul_add]
    exact Nat.mul_le_mul_left _ (Nat.mul_le_mul_left _ (by omega))
  omega

theorem IdxOK.update {p p' : Pool} {D now : Nat} (h : IdxOK p D) (h1 : p.last ≤ p.finish) (h2 : p.last ≤ now)
    (hu : p.update now = .ok p') : IdxOK p' D := by
  have e := update_ok hu
  subst e
  exact h.index h1 h2

/-- The bound holds for every pool. -/
def IdxInv (s : State) : Prop := ∀ k p, s.pools k = some p → IdxOK p (dispatched s k)

theorem dispatched_snoc (s : State) (l : Ledger) (pools : Key → Option Pool) (pos : Key → Nat → Pos) (now : Nat) (e : Event) (k : Key) :
    dispatched ⟨l, pools, pos, now, s.events ++ [e]⟩ k = dispatched s k + Event.dispatched k e := by
  simp [dispatched]

/-- A change of one pool. -/
theorem IdxInv.put {s : State} (h : IdxInv s) {k : Key} {q : Pool} {l : Ledger} {pos : Key → Nat → Pos} {now : Nat}
    {ev : List Event} (hd : ∀ k', dispatched s k' ≤ dispatched ⟨l, s.pools, pos, now, ev⟩ k')
    (hq : IdxOK q (dispatched ⟨l, s.pools, pos, now, ev⟩ k)) :
    IdxInv ⟨l, upd s.pools k (some q), pos, now, ev⟩ := by
  intro k' p' hp'
  by_cases hk : k' = k
  · subst hk
    have hp' : upd s.pools k' (some q) k' = some p' := hp'
    rw [upd_same] at hp'; cases hp'
    exact hq
  · have hp' : upd s.pools k (some q) k' = some p' := hp'
    rw [upd_of_ne _ _ hk] at hp'
    exact (h k' p' hp').trans (Nat.mul_le_mul_left _ (hd k'))

theorem dispatched_le {s : State} {l : Ledger} {pools : Key → Option Pool} {pos : Key → Nat → Pos} {now : Nat} (e : Event) (k : Key) :
    dispatched s k ≤ dispatched ⟨l, pools, pos, now, s.events ++ [e]⟩ k := by
  rw [dispatched_snoc]; exact Nat.le_add_right _ _

theorem exec_idx {c : Cfg} {s s' : State} (hr : Reach c s) (h : IdxInv s) {call : Call} (he : exec c s call = .ok s') :
    IdxInv s' := by
  obtain ⟨H, B, hi⟩ := hr.inv
  have hl : ∀ k p, s.pools k = some p → p.last ≤ p.finish ∧ p.last ≤ s.now :=
    fun k p hp => ⟨(hi.pool k p hp).lastF, (hi.pool k p hp).lastN⟩
  cases call with
  | create k cool =>
    have he : create c s k cool = .ok s' := he
    unfold create at he
    simp only [bind_ok_iff, ensure_ok_iff, pure_ok_iff, exists_const] at he
    obtain ⟨_, _, _, rfl⟩ := he
    exact h.put (fun _ => Nat.le_refl _) (by simp [IdxOK])
  | setStatus k b =>
    have he : setStatus s k b = .ok s' := he
    unfold setStatus at he
    simp only [bind_ok_iff, ensure_ok_iff, okOr_ok_iff, pure_ok_iff, exists_const] at he
    obtain ⟨p, hp, _, rfl⟩ := he
    exact h.put (fun _ => Nat.le_refl _) (h k p hp)
  | setCool k cool =>
    have he : setCool c s k cool = .ok s' := he
    unfold setCool at he
    simp only [bind_ok_iff, ensure_ok_iff, okOr_ok_iff, pure_ok_iff, exists_const] at he
    obtain ⟨_, p, hp, _, rfl⟩ := he
    exact h.put (fun _ => Nat.le_refl _) (h k p hp)
  | resetUnlock k =>
    have he : resetUnlock s k = .ok s' := he
    unfold resetUnlock at he
    simp only [bind_ok_iff, ensure_ok_iff, okOr_ok_iff, pure_ok_iff, exists_const] at he
    obtain ⟨p, hp, _, _, rfl⟩ := he
    exact h.put (fun _ => Nat.le_refl _) (h k p hp)
  | deposit k w m =>
    obtain ⟨_, s1, p, l, hu, hp, _, _, rfl⟩ := deposit_ok he
    obtain ⟨p0, p', u, hp0, hp', _, rfl⟩ := updateSome_ok hu
    have hp : upd s.pools k (some p') k = some p := hp
    rw [upd_same] at hp; cases hp
    dsimp only
    rw [upd_upd]
    refine h.put (fun k' => dispatched_le _ k') ?_
    rw [dispatched_snoc]
    have hq := (h k p0 hp0).update (hl k p0 hp0).1 (hl k p0 hp0).2 hp'
    exact hq
  | withdraw k w m =>
    obtain ⟨_, _, s1, p, l, u, hu, hp, _, _, _, _, rfl⟩ := withdraw_ok he
    obtain ⟨p0, p', u, hp0, hp', _, rfl⟩ := updateSome_ok hu
    have hp : upd s.pools k (some p') k = some p := hp
    rw [upd_same] at hp; cases hp
    dsimp only
    rw [upd_upd]
    refine h.put (fun k' => dispatched_le _ k') ?_
    rw [dispatched_snoc]
    have hq := (h k p0 hp0).update (hl k p0 hp0).1 (hl k p0 hp0).2 hp'
    exact hq
  | redeem k w =>
    obtain ⟨p, l, _, _, rfl⟩ := redeem_ok he
    intro k' p' hp'
    exact (h k' p' hp').trans (Nat.mul_le_mul_left _ (dispatched_le _ k'))
  | claim k w =>
    obtain ⟨s1, l, hu, _, rfl⟩ := claim_ok he
    obtain ⟨p0, p', u, hp0, hp', _, rfl⟩ := updateSome_ok hu
    dsimp only
    refine h.put (fun k' => dispatched_le _ k') ?_
    rw [dispatched_snoc]
    exact (h k p0 hp0).update (hl k p0 hp0).1 (hl k p0 hp0).2 hp'
  | dispatch k w m d =>
    obtain ⟨p, p', rate, l, hp, hp', hrate, _, rfl⟩ := dispatch_ok he
    refine h.put (fun k' => dispatched_le _ k') ?_
    rw [dispatched_snoc]
    have h1 := (h k p hp).index (hl k p hp).1 (hl k p hp).2
    have e := update_ok hp'
    obtain ⟨_, rfl⟩ := newRate_ok hrate
    have e2 : ((p'.finish - s.now) * p'.rate + m) / d * (s.now + d - s.now) ≤ (p'.finish - s.now) * p'.rate + m := by
      rw [show s.now + d - s.now = d by omega]
      exact Nat.div_mul_le_self _ _
    have e3 : (p'.finish - s.now) * p'.rate = p.rate * (p.finish - min p.finish s.now) := by
      rw [e, Nat.mul_comm]; dsimp only; congr 1; omega
    have e4 : p'.rps = p.index s.now := by rw [e]
    show p'.rps + APS * (((p'.finish - s.now) * p'.rate + m) / d * (s.now + d - s.now)) ≤ APS * (dispatched s k + Event.dispatched k (.rewardAdded k m))
    rw [e4]
    have e5 : Event.dispatched k (.rewardAdded k m) = m := by simp [Event.dispatched]
    rw [e5, Nat.mul_add]
    have e6 := Nat.mul_le_mul_left APS e2
    rw [Nat.mul_add, e3] at e6
    rw [e3]
    omega

theorem Reach.idx {c : Cfg} {s : State} (h : Reach c s) : IdxInv s := by
  induction h with
  | init l now hw => intro k p hp; cases hp
  | step h hs ih =>
    cases hs with
    | call k hk he => exact exec_idx h ih he
    | env e =>
      intro k p hp
      rw [e.pools] at hp
      have := ih k p hp
      unfold dispatched at this ⊢
      rw [e.events]; exact this

/-! ### When bringing the pool up to date succeeds -/

theorem rewardPerShare_iff {p : Pool} {now r : Nat} (h : p.rps ≤ maxU128) :
    p.rewardPerShare now = .ok r ↔ r = p.index now ∧ p.index now ≤ maxU128 := by
  constructor
  · intro hr
    have e := rewardPerShare_ok hr
    refine ⟨e, ?_⟩
    rw [← e]
    unfold Pool.rewardPerShare at hr
    split_ifs at hr with h0
    · cases hr; exact h
    · simp only [bind_ok_iff, cadd_ok_iff] at hr
      obtain ⟨_, _, _, _, h1, rfl⟩ := hr
      exact h1
  · rintro ⟨rfl, h1⟩
    unfold Pool.rewardPerShare
    unfold Pool.index at h1 ⊢
    rw [lastBlock_eq]
    split_ifs at h1 ⊢ with h0
    · rfl
    · have h2 : (min p.finish now - p.last) * p.rate * APS / p.total ≤ maxU128 := (Nat.le_add_left _ _).trans h1
      rw [cdiv_ok_iff.2 ⟨h0, rfl⟩, ok_bind, toU128_ok_iff.2 ⟨h2, rfl⟩, ok_bind, cadd_ok_iff.2 ⟨h1, rfl⟩]

theorem maxU128_eq : maxU128 = 2 ^ 128 - 1 := by decide

theorem updateSome_succeeds {c : Cfg} {s : State} (hr : Reach c s) {k : Key} {p : Pool} (hp : s.pools k = some p)
    (hm : Moderate s k) (w : Nat) : ∃ s1, updateSome s k w = .ok s1 := by
  obtain ⟨H, B, hi⟩ := hr.inv
  have hP := hi.pool k p hp
  have h1 := (hr.idx k p hp).index hP.lastF hP.lastN
  have hmod : APS * dispatched s k ≤ maxU128 := by
    unfold Moderate at hm
    rw [maxU128_eq, Nat.mul_comm]; exact hm
  have h2 : p.index s.now ≤ maxU128 := by omega
  have h0 : p.rps ≤ maxU128 := (index_ge p s.now).trans h2
  have hrps := (rewardPerShare_iff (r := p.index s.now) h0).2 ⟨rfl, h2⟩
  have hup : p.update s.now = .ok { p with rps := p.index s.now, last := p.lastBlock s.now } := by
    unfold Pool.update; rw [hrps]; rfl
  have hf := update_fresh hup
  have hP' := hP.update hup
  have hcl := (C27_rewards_bounded hr k {w})
  rw [Finset.sum_singleton] at hcl
  have hclw : (s.pos k w).reward + (s.pos k w).dep * (p.index s.now - (s.pos k w).paid) / APS ≤ dispatched s k := by
    have : claimable s k w = (s.pos k w).reward + (s.pos k w).dep * (p.index s.now - (s.pos k w).paid) / APS := by
      simp [claimable, hp]
    omega
  have hle : dispatched s k ≤ maxU128 := (Nat.le_mul_of_pos_left _ APS_pos).trans hmod
  have hset : ∃ u, ({ p with rps := p.index s.now, last := p.lastBlock s.now } : Pool).settle s.now (s.pos k w) = .ok u := by
    generalize hq : ({ p with rps := p.index s.now, last := p.lastBlock s.now } : Pool) = q at hf hP'
    have hq1 : q.rps = p.index s.now := by rw [← hq]
    have hq2 : q.index s.now = p.index s.now := by rw [hf.index, hq1]
    have hpd := hP'.paid w
    rw [hq1] at hpd
    unfold Pool.settle
    rw [(rewardPerShare_iff (r := q.index s.now) (by rw [hq1]; exact h2)).2 ⟨rfl, by rw [hq2]; exact h2⟩, ok_bind, hq2,
      csub_ok_iff.2 ⟨hpd, rfl⟩, ok_bind, cdiv_ok_iff.2 ⟨Nat.ne_of_gt APS_pos, rfl⟩, ok_bind,
      toU128_ok_iff.2 ⟨by omega, rfl⟩, ok_bind]
    exact ⟨_, rfl⟩
  obtain ⟨u, hu⟩ := hset
  unfold updateSome
  rw [hp, okOr_some, ok_bind, hup, ok_bind, hu, ok_bind]
  exact ⟨_, rfl⟩

/-! ### Leaving -/

/-- The full statement of C211: whoever has stake in an unlocked pool without cool-down can withdraw it. -/
def C211_statement : Prop := ∀ (c : Cfg) (s : State), Reach c s → ∀ (k : Key) (p : Pool) (w m : Nat), s.pools k = some p →
  p.unlock ≤ s.now → p.cool = 0 → 0 < m → m ≤ (s.pos k w).dep → ∃ s', withdraw c s k w m = .ok s'

/-- C211 (a): in a pool that never got more than `3.4·10^26` units of reward, a withdrawal succeeds exactly when the pool is
unlocked, the amount is positive and deposited, and (with a cool-down) the list of pending withdrawals is not full —
whatever happened before, whether or not the pool is active. -/
theorem C211_withdraw_partial {c : Cfg} {s : State} (hr : Reach c s) {k : Key} {p : Pool} (hp : s.pools k = some p)
    (hm : Moderate s k) {w m : Nat} :
    (∃ s', withdraw c s k w m = .ok s') ↔
      0 < m ∧ m ≤ (s.pos k w).dep ∧ p.unlock ≤ s.now ∧ (p.cool = 0 ∨ (s.pos k w).items.length < c.maxItems) := by
  obtain ⟨s1, hs⟩ := updateSome_succeeds hr hp hm w
  obtain ⟨H, B, hi⟩ := hr.inv
  obtain ⟨hi1, p1, hp1, _, _, hdep, hit, hl1, hn1, _⟩ := hi.updateSome hs
  have hpp : p1.unlock = p.unlock ∧ p1.cool = p.cool := by
    obtain ⟨p0, p', u, hp0, hp', _, rfl⟩ := updateSome_ok hs
    rw [hp] at hp0; cases hp0
    simp at hp1; subst hp1
    rw [update_ok hp']; exact ⟨rfl, rfl⟩
  constructor
  · rintro ⟨s', h⟩
    obtain ⟨h1, h2, s1', p1', l, u, hs', hp1', h3, _, _, h4, _⟩ := withdraw_ok h
    rw [hs] at hs'; cases hs'
    rw [hp1] at hp1'; cases hp1'
    refine ⟨by omega, h2, by omega, ?_⟩
    rcases release_ok h4 with ⟨hc, _⟩ | ⟨_, hc, _⟩
    · left; omega
    · right
      have hc : (s1.pos k w).items.length < c.maxItems := hc
      rwa [hit] at hc
  · rintro ⟨h1, h2, h3, h4⟩
    by_cases hc : p.cool = 0
    · exact C26_withdraw_succeeds hr hs hp h3 hc (by omega) h2
    · have h4 := h4.resolve_left hc
      have hmt : m ≤ p1.total := by
        have : (s1.pos k w).dep ≤ p1.total := (hi1.pool k p1 hp1).total.apply w
        omega
      have hlen : (s1.pos k w).items.length < c.maxItems := by rw [hit]; exact h4
      unfold withdraw
      rw [ensure_of (by simp [hp]), ok_bind, ensure_of (by omega), ok_bind, ensure_of h2, ok_bind, hs, ok_bind, hp1,
        okOr_some, ok_bind, ensure_of (by omega), ok_bind, csub_ok_iff.2 ⟨hmt, rfl⟩, ok_bind,
        csub_ok_iff.2 ⟨by omega, rfl⟩, ok_bind]
      have hc' : p1.cool ≠ 0 := by omega
      simp only [release, hc', if_false, ensure_of hlen, ok_bind]
      exact ⟨_, rfl⟩

/-- C211 (b): and claiming always pays everything that was earned. -/
theorem C211_claim_partial {c : Cfg} {s : State} (hr : Reach c s) {k : Key} {p : Pool} (hp : s.pools k = some p)
    (hm : Moderate s k) {w : Nat} (hw : ∀ a, w ≠ c.acct a) :
    ∃ s', claim c s k w = .ok s' ∧ s'.ledger.bal k.reward w = s.ledger.bal k.reward w + claimable s k w := by
  obtain ⟨s1, hs⟩ := updateSome_succeeds hr hp hm w
  obtain ⟨s', h⟩ := C26_claim_succeeds hr hs
  refine ⟨s', h, ?_⟩
  have := (C27_claim_exact h).1
  simpa [hw] using this

/-- All items of a user have matured `cool` blocks after the last of them can have been filed: redeeming pays all of them and
leaves the list empty. -/
theorem redeem_all {c : Cfg} {s : State} (hr : Reach c s) {k : Key} {p : Pool} (hp : s.pools k = some p) {w : Nat}
    (hw : ∀ a, w ≠ c.acct a) (hd : ∀ it ∈ (s.pos k w).items, it.2 + p.cool ≤ s.now) :
    ∃ s', redeem c s k w = .ok s' ∧ (s'.pos k w).items = [] ∧
      s'.ledger.bal k.asset w = s.ledger.bal k.asset w + (s.pos k w).cooling := by
  obtain ⟨s', h⟩ := C26_redeem_succeeds hr hp w
  refine ⟨s', h, ?_⟩
  obtain ⟨p', l, hp', hl, rfl⟩ := redeem_ok h
  rw [hp] at hp'; cases hp'
  have hm : ∀ it ∈ (s.pos k w).items, matured p.cool s.now it = true := by
    intro it hit
    have := hd it hit
    simp only [matured, decide_eq_true_eq]
    omega
  have hdue : due p.cool s.now (s.pos k w).items = (s.pos k w).items := by
    unfold due
    exact List.filter_eq_self.2 hm
  constructor
  · simp only [upd_same]
    refine List.filter_eq_nil_iff.2 (fun it hit => ?_)
    simp [hm it hit]
  · rw [hdue] at hl
    have := Ledger.transfer_bal hl k.asset w
    simpa [hw, Pos.cooling] using this

/-- C211 (c): leaving with everything. A user with stake in an unlocked pool withdraws all of it; when the cool-down of the
pool has passed — whatever else happened on the chain to the tokens — redeeming succeeds, and the two calls together have
paid exactly the whole stake plus everything that was cooling down before; nothing of the user stays in the pool. -/
theorem C211_exit_partial {c : Cfg} {s : State} (hr : Reach c s) {k : Key} {p : Pool} (hp : s.pools k = some p)
    (hm : Moderate s k) {w : Nat} (hw : ∀ a, w ≠ c.acct a) (h0 : 0 < (s.pos k w).dep) (hu : p.unlock ≤ s.now)
    (hroom : p.cool = 0 ∨ (s.pos k w).items.length < c.maxItems) :
    ∃ s1, withdraw c s k w (s.pos k w).dep = .ok s1 ∧
      ∀ s2, Env c s1 s2 → s.now + p.cool ≤ s2.now →
        ∃ s3, redeem c s2 k w = .ok s3 ∧ (s3.pos k w).dep = 0 ∧ (s3.pos k w).items = [] ∧
          s3.ledger.bal k.asset w + s1.ledger.bal k.asset w =
            s2.ledger.bal k.asset w + s.ledger.bal k.asset w + ((s.pos k w).dep + (s.pos k w).cooling) := by
  obtain ⟨s1, h1⟩ := (C211_withdraw_partial hr hp hm (w := w) (m := (s.pos k w).dep)).2 ⟨h0, Nat.le_refl _, hu, hroom⟩
  refine ⟨s1, h1, fun s2 he ht => ?_⟩
  have hr1 : Reach c s1 := .step hr (.call (.withdraw k w (s.pos k w).dep) hw h1)
  have hr2 : Reach c s2 := .step hr1 (.env he)
  obtain ⟨p', hp', _, _, _, hdep, hz, hc⟩ := C28_withdraw h1
  obtain rfl : p' = p := Option.some.inj (hp'.symm.trans hp)
  have hp1 : ∃ q, s1.pools k = some q ∧ q.cool = p'.cool := by
    obtain ⟨_, _, sx, px, l, u, hsx, hpx, _, _, _, _, rfl⟩ := withdraw_ok h1
    obtain ⟨p0, q, u', hp0, hq, _, rfl⟩ := updateSome_ok hsx
    obtain rfl : p0 = p' := Option.some.inj (hp0.symm.trans hp)
    have hpx : upd s.pools k (some q) k = some px := hpx
    rw [upd_same] at hpx; cases hpx
    refine ⟨_, upd_same _ _ _, ?_⟩
    rw [update_ok hq]
  obtain ⟨q, hq1, hqc⟩ := hp1
  have hq2 : s2.pools k = some q := by rw [he.pools]; exact hq1
  have hn1 : s1.now = s.now := (exec_eff (call := .withdraw k w (s.pos k w).dep) h1).now
  obtain ⟨s3, h3, h4, h5⟩ := redeem_all hr2 hq2 hw (fun it hit => by
    rw [he.pos] at hit
    have := hr1.lock.item k w it hit
    omega)
  refine ⟨s3, h3, ?_, h4, ?_⟩
  · obtain ⟨_, _, _, _, rfl⟩ := redeem_ok h3
    simp only [upd_same]
    rw [he.pos, hdep]; omega
  · rw [h5, he.pos]
    by_cases hcool : p'.cool = 0
    · obtain ⟨hl, hi⟩ := hz hcool
      have := Ledger.transfer_bal hl k.asset w
      simp only [hw, and_true, and_false, if_true, if_false, true_and] at this
      simp only [Pos.cooling, hi]
      omega
    · obtain ⟨hl, hi⟩ := hc hcool
      rw [hl]
      simp only [Pos.cooling, hi, List.map_append, List.map_cons, List.map_nil, List.sum_append, List.sum_cons, List.sum_nil]
      omega

/-! ### Frozen pools -/

theorem frozen_update {s : State} {k : Key} (h : Frozen s k) (hb : ∀ p, s.pools k = some p → p.rps ≤ maxU128) (w : Nat) :
    (∀ s', updateSome s k w ≠ .ok s') ∧ ∀ s', updateNone s k ≠ .ok s' := by
  obtain ⟨p, hp, hi⟩ := h
  have hno : ∀ q, p.update s.now ≠ .ok q := by
    intro q hq
    unfold Pool.update at hq
    simp only [bind_ok_iff] at hq
    obtain ⟨r, hr, _⟩ := hq
    have := ((rewardPerShare_iff (hb p hp)).1 hr).2
    omega
  constructor
  · intro s' hs
    obtain ⟨p0, q, _, hp0, hq, _⟩ := updateSome_ok hs
    obtain rfl : p0 = p := Option.some.inj (hp0.symm.trans hp)
    exact hno q hq
  · intro s' hs
    unfold updateNone at hs
    simp only [bind_ok_iff, okOr_ok_iff] at hs
    obtain ⟨p0, hp0, q, hq, _⟩ := hs
    obtain rfl : p0 = p := Option.some.inj (hp0.symm.trans hp)
    exact hno q hq

/-- The stored index always fits in 128 bits. -/
theorem Reach.rps {c : Cfg} {s : State} (h : Reach c s) : ∀ k p, s.pools k = some p → p.rps ≤ maxU128 := by
  have key : ∀ {s s' : State} {call : Call}, (∀ k p, s.pools k = some p → p.rps ≤ maxU128) → exec c s call = .ok s' →
      ∀ k p, s'.pools k = some p → p.rps ≤ maxU128 := by
    intro s s' call ih he
    have put : ∀ (k : Key) (q : Pool), q.rps ≤ maxU128 → ∀ k' p', upd s.pools k (some q) k' = some p' → p'.rps ≤ maxU128 := by
      intro k q hq k' p' hp'
      by_cases hk : k' = k
      · subst hk; rw [upd_same] at hp'; cases hp'; exact hq
      · rw [upd_of_ne _ _ hk] at hp'; exact ih k' p' hp'
    have hup : ∀ {k : Key} {p q : Pool}, s.pools k = some p → p.update s.now = .ok q → q.rps ≤ maxU128 := by
      intro k p q hp hq
      have e := update_ok hq
      unfold Pool.update at hq
      simp only [bind_ok_iff] at hq
      obtain ⟨r, hr, _⟩ := hq
      rw [e]
      exact ((rewardPerShare_iff (ih k p hp)).1 hr).2
    cases call with
    | create k cool =>
      have he : create c s k cool = .ok s' := he
      unfold create at he
      simp only [bind_ok_iff, ensure_ok_iff, pure_ok_iff, exists_const] at he
      obtain ⟨_, _, _, rfl⟩ := he
      exact put k _ (Nat.zero_le _)
    | setStatus k b =>
      have he : setStatus s k b = .ok s' := he
      unfold setStatus at he
      simp only [bind_ok_iff, ensure_ok_iff, okOr_ok_iff, pure_ok_iff, exists_const] at he
      obtain ⟨p, hp, _, rfl⟩ := he
      exact put k _ (ih k p hp)
    | setCool k cool =>
      have he : setCool c s k cool = .ok s' := he
      unfold setCool at he
      simp only [bind_ok_iff, ensure_ok_iff, okOr_ok_iff, pure_ok_iff, exists_const] at he
      obtain ⟨_, p, hp, _, rfl⟩ := he
      exact put k _ (ih k p hp)
    | resetUnlock k =>
      have he : resetUnlock s k = .ok s' := he
      unfold resetUnlock at he
      simp only [bind_ok_iff, ensure_ok_iff, okOr_ok_iff, pure_ok_iff, exists_const] at he
      obtain ⟨p, hp, _, _, rfl⟩ := he
      exact put k _ (ih k p hp)
    | deposit k w m =>
      obtain ⟨_, s1, p, l, hu, hp, _, _, rfl⟩ := deposit_ok he
      obtain ⟨p0, p', u, hp0, hp', _, rfl⟩ := updateSome_ok hu
      have hp : upd s.pools k (some p') k = some p := hp
      rw [upd_same] at hp; cases hp
      dsimp only
      rw [upd_upd]
      have hq := hup hp0 hp'
      exact put k _ hq
    | withdraw k w m =>
      obtain ⟨_, _, s1, p, l, u, hu, hp, _, _, _, _, rfl⟩ := withdraw_ok he
      obtain ⟨p0, p', u, hp0, hp', _, rfl⟩ := updateSome_ok hu
      have hp : upd s.pools k (some p') k = some p := hp
      rw [upd_same] at hp; cases hp
      dsimp only
      rw [upd_upd]
      have hq := hup hp0 hp'
      exact put k _ hq
    | redeem k w =>
      obtain ⟨p, l, _, _, rfl⟩ := redeem_ok he
      exact ih
    | claim k w =>
      obtain ⟨s1, l, hu, _, rfl⟩ := claim_ok he
      obtain ⟨p0, p', u, hp0, hp', _, rfl⟩ := updateSome_ok hu
      have hq := hup hp0 hp'
      exact put k _ hq
    | dispatch k w m d =>
      obtain ⟨p, p', rate, l, hp, hp', hrate, _, rfl⟩ := dispatch_ok he
      have hq := hup hp hp'
      exact put k _ hq
  induction h with
  | init l now hw => intro k p hp; cases hp
  | step h hs ih =>
    cases hs with
    | call k hk he => exact key ih he
    | env e => intro k p hp; rw [e.pools] at hp; exact ih k p hp

/-- C211 (d): a frozen pool stays frozen whatever anybody — including governance — does, and nobody can ever again deposit,
withdraw, claim or dispatch a reward. -/
theorem C211_frozen_forever {c : Cfg} {s s' : State} (hr : Reach c s) {k : Key} (hf : Frozen s k) (hs : Step c s s') :
    Frozen s' k ∧ ∀ w m d x, withdraw c s' k w m ≠ .ok x ∧ deposit c s' k w m ≠ .ok x ∧ claim c s' k w ≠ .ok x ∧
      dispatch c s' k w m d ≠ .ok x := by
  have hfz : Frozen s' k := by
    obtain ⟨p, hp, hi⟩ := hf
    cases hs with
    | call call hk he =>
      have hE := exec_eff he
      by_cases hkk : k = call.key
      · subst hkk
        obtain ⟨p', hp', hi'⟩ := hE.index p hp
        exact ⟨p', hp', by rw [hE.now, hi']; exact hi⟩
      · exact ⟨p, by rw [hE.pools k hkk]; exact hp, by rw [hE.now]; exact hi⟩
    | env e => exact ⟨p, by rw [e.pools]; exact hp, Nat.lt_of_lt_of_le hi (index_mono e.time)⟩
  refine ⟨hfz, fun w m d x => ?_⟩
  have hr' : Reach c s' := .step hr hs
  obtain ⟨h1, h2⟩ := frozen_update hfz (fun p hp => hr'.rps k p hp) w
  refine ⟨fun h => ?_, fun h => ?_, fun h => ?_, fun h => ?_⟩
  · obtain ⟨_, _, s1, _, _, _, hu, _⟩ := withdraw_ok h; exact h1 _ hu
  · obtain ⟨_, s1, _, _, hu, _⟩ := deposit_ok h; exact h1 _ hu
  · obtain ⟨s1, _, hu, _⟩ := claim_ok h; exact h1 _ hu
  · unfold dispatch at h
    simp only [bind_ok_iff, ensure_ok_iff, exists_const] at h
    obtain ⟨_, _, s1, hu, _⟩ := h
    exact h2 _ hu

/-- A pool with one unit of stake, to which `10^27` units of reward are dispatched. -/
@[irreducible] def frL : Ledger := Ledger.ofList [(1, 7, 500), (2, 9, 10 ^ 27)]
theorem frL_wf : frL.WF := by unfold frL; exact Ledger.ofList_wf _
def fr0 : State := ⟨frL, fun _ => none, fun _ _ => Pos.default, 5, []⟩
def frCalls : List Call := [.create exK 0, .setStatus exK true, .deposit exK 7 1, .dispatch exK 9 (10 ^ 27) 100]
theorem frCalls_ok : ∀ k ∈ frCalls, k.signerOK exCfg := by
  intro k hk
  simp only [frCalls, List.mem_cons, List.not_mem_nil, or_false] at hk
  rcases hk with rfl | rfl | rfl | rfl
  · trivial
  · trivial
  · intro a; show 7 ≠ 1000 + a; omega
  · intro a; show 9 ≠ 1000 + a; omega
def fr1 : State := later (run fr0 frCalls) 100
theorem fr1_reach : Reach exCfg fr1 := later_reach (run_reach (.init frL 5 frL_wf) _ frCalls_ok) 100

theorem fr1_facts : ∃ p, fr1.pools exK = some p ∧ p.unlock ≤ fr1.now ∧ p.cool = 0 ∧ maxU128 < p.index fr1.now ∧ 1 ≤ (fr1.pos exK 7).dep := by
  have h : ((fr1.pools exK).any (fun p => decide (p.unlock ≤ fr1.now ∧ p.cool = 0 ∧ maxU128 < p.index fr1.now ∧
      1 ≤ (fr1.pos exK 7).dep))) = true := by decide +kernel
  cases hp : fr1.pools exK with
  | none => rw [hp] at h; cases h
  | some p => rw [hp] at h; exact ⟨p, rfl, of_decide_eq_true h⟩

/-- C211, the full statement is false: in the pool above nobody can withdraw any more. -/
theorem C211_refuted : ¬ C211_statement := by
  intro h
  obtain ⟨p, hp, h1, h2, h3, h4⟩ := fr1_facts
  obtain ⟨s', hs⟩ := h exCfg fr1 fr1_reach exK p 7 1 hp h1 h2 (by decide) h4
  obtain ⟨_, _, s1, _, _, _, hu, _⟩ := withdraw_ok hs
  exact (frozen_update ⟨p, hp, h3⟩ (fun p hp => fr1_reach.rps exK p hp) 7).1 _ hu

/-- The hypotheses of the positive part in the running example: user 7 has stake, the pool is unlocked, rewards are moderate. -/
example : Reach exCfg ex2 ∧ Moderate ex2 exK ∧ (ex2.pos exK 7).dep = 100 ∧ (ex2.pos exK 7).items = [] ∧
    (ex2.pools exK).any (fun p => decide (p.unlock ≤ ex2.now ∧ p.cool = 10)) = true ∧ Frozen fr1 exK := by
  refine ⟨ex2_reach, ?_, by decide +kernel, by decide +kernel, by decide +kernel, ?_⟩
  · unfold Moderate; decide +kernel
  · obtain ⟨p, hp, _, _, h3, _⟩ := fr1_facts
    exact ⟨p, hp, h3⟩

end Verif.Farming
