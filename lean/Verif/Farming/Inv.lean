import Verif.Farming.Spec
import Mathlib.Algebra.BigOperators.Ring.Finset

set_option linter.unusedSimpArgs false

/-! # Farming: the invariant of one pool and of the whole pallet -/

namespace Verif.Farming
open Verif Finset

theorem APS_pos : 0 < APS := by decide

/-- Scaled reward entitlement of one user as of the pool's stored index. -/
def ent (p : Pool) (u : Pos) : Nat := u.reward * APS + u.dep * (p.rps - u.paid)

/-- One pool, its positions and its reward budget `B` (dispatched minus claimed). -/
structure PoolOK (p : Pool) (q : Nat → Pos) (now B : Nat) : Prop where
  total : SumsTo (fun w => (q w).dep) p.total
  paid : ∀ w, (q w).paid ≤ p.rps
  lastF : p.last ≤ p.finish
  lastN : p.last ≤ now
  room : p.rate * (p.finish - p.last) ≤ B
  rew : SumLe (fun w => ent p (q w)) (APS * (B - p.rate * (p.finish - p.last)))

theorem lastBlock_eq (p : Pool) (now : Nat) : p.lastBlock now = min p.finish now := by
  unfold Pool.lastBlock; split_ifs <;> omega

theorem rewardPerShare_ok {p : Pool} {now r : Nat} (h : p.rewardPerShare now = .ok r) :
    r = p.index now := by
  unfold Pool.rewardPerShare at h
  unfold Pool.index
  split_ifs at h ⊢
  · cases h; rfl
  · simp [lastBlock_eq] at h
    omega

theorem index_ge (p : Pool) (now : Nat) : p.rps ≤ p.index now := by
  unfold Pool.index; split_ifs
  · exact Nat.le_refl _
  · exact Nat.le_add_right _ _

theorem update_ok {p p' : Pool} {now : Nat} (h : p.update now = .ok p') :
    p' = { p with rps := p.index now, last := min p.finish now } := by
  unfold Pool.update at h
  simp only [bind_ok_iff, pure_ok_iff] at h
  obtain ⟨r, hr, rfl⟩ := h
  rw [rewardPerShare_ok hr, lastBlock_eq]

theorem sum_ent_index {p : Pool} {q : Nat → Pos} {W inc : Nat} (hp : ∀ w, (q w).paid ≤ p.rps)
    (hd : SumLe (fun w => (q w).dep) p.total) (hr : SumLe (fun w => ent p (q w)) W) {p' : Pool}
    (he : p'.rps = p.rps + inc) : SumLe (fun w => ent p' (q w)) (W + p.total * inc) := by
  intro S
  have e : ∀ w, ent p' (q w) = ent p (q w) + (q w).dep * inc := by
    intro w
    have := hp w
    unfold ent
    rw [he, show p.rps + inc - (q w).paid = (p.rps - (q w).paid) + inc by omega, Nat.mul_add]
    omega
  simp only [e]
  rw [Finset.sum_add_distrib, ← Finset.sum_mul]
  exact Nat.add_le_add (hr S) (Nat.mul_le_mul_right _ (hd S))

theorem PoolOK.accrue {p : Pool} {q : Nat → Pos} {now B : Nat} (h : PoolOK p q now B) :
    PoolOK { p with rps := p.index now, last := min p.finish now } q now B := by
  have hlF := h.lastF
  have hlN := h.lastN
  have hroom := h.room
  -- split the remaining stream in the part up to now and the rest
  have hsplit : p.rate * (p.finish - p.last) =
      p.rate * (min p.finish now - p.last) + p.rate * (p.finish - min p.finish now) := by
    rw [← Nat.mul_add]; congr 1; omega
  refine ⟨h.total, fun w => (h.paid w).trans (index_ge p now), Nat.min_le_left _ _, Nat.min_le_right _ _,
    by simp only; omega, ?_⟩
  simp only
  unfold Pool.index
  split_ifs with ht
  · exact h.rew.mono (fun _ => Nat.le_refl _) (Nat.mul_le_mul_left _ (by omega))
  · have := sum_ent_index (p' := { p with rps := p.rps + (min p.finish now - p.last) * p.rate * APS / p.total, last := min p.finish now }) h.paid h.total.le h.rew rfl
    refine this.mono (fun _ => Nat.le_refl _) ?_
    have h1 : p.total * ((min p.finish now - p.last) * p.rate * APS / p.total) ≤
        (min p.finish now - p.last) * p.rate * APS := Nat.mul_div_le _ _
    have h2 : (min p.finish now - p.last) * p.rate * APS = APS * (p.rate * (min p.finish now - p.last)) := by
      ring
    calc _ ≤ APS * (B - p.rate * (p.finish - p.last)) + APS * (p.rate * (min p.finish now - p.last)) := by
          omega
      _ = APS * (B - p.rate * (p.finish - min p.finish now)) := by
          rw [← Nat.mul_add]; congr 1; omega

theorem PoolOK.update {p p' : Pool} {q : Nat → Pos} {now B : Nat} (h : PoolOK p q now B)
    (hu : p.update now = .ok p') : PoolOK p' q now B := by
  rw [update_ok hu]; exact h.accrue

/-- A pool whose index is up to date. -/
def Fresh (p : Pool) (now : Nat) : Prop := p.last = min p.finish now

theorem Fresh.index {p : Pool} {now : Nat} (h : Fresh p now) : p.index now = p.rps := by
  unfold Pool.index; rw [h]; simp

theorem update_fresh {p p' : Pool} {now : Nat} (h : p.update now = .ok p') : Fresh p' now := by
  rw [update_ok h]; rfl

theorem settle_ok {p : Pool} {now : Nat} {u u' : Pos} (h : p.settle now u = .ok u') :
    u.paid ≤ p.index now ∧
    u' = { u with reward := u.reward + u.dep * (p.index now - u.paid) / APS, paid := p.rps } := by
  unfold Pool.settle at h
  simp only [bind_ok_iff, pure_ok_iff, csub_ok_iff, cdiv_ok_iff, toU128_ok_iff] at h
  obtain ⟨r, hr, d, ⟨h1, rfl⟩, q', ⟨_, rfl⟩, e, ⟨_, rfl⟩, rfl⟩ := h
  rw [rewardPerShare_ok hr] at *
  exact ⟨h1, by rw [Nat.add_comm]⟩

/-- One position changes: deposit (hence total), settled reward and budget move along. -/
theorem PoolOK.change {p p' : Pool} {q : Nat → Pos} {now B B' : Nat} (h : PoolOK p q now B) (w : Nat) (u : Pos)
    (ht : u.dep + p.total = (q w).dep + p'.total) (hpaid : u.paid ≤ p.rps)
    (hp' : p' = { p with total := p'.total }) (hroom : p.rate * (p.finish - p.last) ≤ B')
    (he : ent p u + APS * B ≤ ent p (q w) + APS * B') : PoolOK p' (upd q w u) now B' := by
  have hent : ∀ v, ent p' v = ent p v := by intro v; rw [hp']; rfl
  have hroom0 := h.room
  refine ⟨h.total.update w (fun i hi => by simp [upd_of_ne _ _ hi]) (by simpa using ht), ?_, ?_, ?_, ?_, ?_⟩
  · intro v
    rw [hp']
    by_cases hv : v = w
    · subst hv; simpa using hpaid
    · simpa [upd_of_ne _ _ hv] using h.paid v
  · rw [hp']; exact h.lastF
  · rw [hp']; exact h.lastN
  · rw [hp']; exact hroom
  · have : p'.rate * (p'.finish - p'.last) = p.rate * (p.finish - p.last) := by rw [hp']
    rw [this]
    refine h.rew.update w (fun i hi => by simp [upd_of_ne _ _ hi, hent]) ?_
    simp only [upd_same, hent]
    have e1 : APS * (B - p.rate * (p.finish - p.last)) + APS * (p.rate * (p.finish - p.last)) = APS * B := by
      rw [← Nat.mul_add]; congr 1; omega
    have e2 : APS * (B' - p.rate * (p.finish - p.last)) + APS * (p.rate * (p.finish - p.last)) = APS * B' := by
      rw [← Nat.mul_add]; congr 1; omega
    omega

theorem PoolOK.settle {p : Pool} {q : Nat → Pos} {now B : Nat} (h : PoolOK p q now B) (hf : Fresh p now)
    {w : Nat} {u : Pos} (hs : p.settle now (q w) = .ok u) : PoolOK p (upd q w u) now B := by
  obtain ⟨_, rfl⟩ := settle_ok hs
  rw [hf.index]
  refine h.change w _ rfl (Nat.le_refl _) rfl h.room ?_
  unfold ent
  simp only [Nat.sub_self, Nat.mul_zero, Nat.add_zero]
  rw [Nat.add_mul]
  have : (q w).dep * (p.rps - (q w).paid) / APS * APS ≤ (q w).dep * (p.rps - (q w).paid) :=
    Nat.div_mul_le_self _ _
  omega

theorem PoolOK.time {p : Pool} {q : Nat → Pos} {now now' B : Nat} (h : PoolOK p q now B) (hn : now ≤ now') :
    PoolOK p q now' B := ⟨h.total, h.paid, h.lastF, h.lastN.trans hn, h.room, h.rew⟩

theorem PoolOK.reward_le {p : Pool} {q : Nat → Pos} {now B : Nat} (h : PoolOK p q now B) (w : Nat) :
    (q w).reward + p.rate * (p.finish - p.last) ≤ B := by
  have h1 := h.rew.apply w
  have h2 := h.room
  simp only [ent] at h1
  have h3 : APS * (q w).reward ≤ APS * (B - p.rate * (p.finish - p.last)) := by
    rw [Nat.mul_comm]; omega
  have := Nat.le_of_mul_le_mul_left h3 APS_pos
  omega

/-- Changes of settings do not matter. -/
theorem PoolOK.settings {p p' : Pool} {q : Nat → Pos} {now B : Nat} (h : PoolOK p q now B)
    (h1 : p'.total = p.total) (h2 : p'.rps = p.rps) (h3 : p'.last = p.last) (h4 : p'.finish = p.finish)
    (h5 : p'.rate = p.rate) : PoolOK p' q now B := by
  obtain ⟨a, b, c, d, e, f⟩ := h
  refine ⟨h1 ▸ a, h2 ▸ b, h3 ▸ h4 ▸ c, h3 ▸ d, h3 ▸ h4 ▸ h5 ▸ e, ?_⟩
  have : ∀ v, ent p' v = ent p v := by intro v; unfold ent; rw [h2]
  simp only [this, h3, h4, h5]; exact f

theorem newRate_ok {p : Pool} {now amount dur rate : Nat} (h : newRate p now amount dur = .ok rate) :
    dur ≠ 0 ∧ rate = ((p.finish - now) * p.rate + amount) / dur := by
  unfold newRate at h
  split_ifs at h with hc
  · rw [cdiv_ok_iff] at h
    refine ⟨h.1, ?_⟩
    rw [show p.finish - now = 0 by omega]; simpa using h.2
  · simp only [bind_ok_iff, csub_ok_iff, cmul_ok_iff, cadd_ok_iff, cdiv_ok_iff] at h
    obtain ⟨_, ⟨_, rfl⟩, _, ⟨_, rfl⟩, _, ⟨_, rfl⟩, h1, h2⟩ := h
    exact ⟨h1, h2⟩

theorem PoolOK.dispatch {p : Pool} {q : Nat → Pos} {now B amount dur rate : Nat} (h : PoolOK p q now B)
    (hf : Fresh p now) (hr : newRate p now amount dur = .ok rate) :
    PoolOK { p with duration := dur, finish := now + dur, rate := rate, last := now } q now (B + amount) := by
  obtain ⟨hd, rfl⟩ := newRate_ok hr
  have hroom := h.room
  have hleft : p.rate * (p.finish - p.last) = (p.finish - now) * p.rate := by
    rw [hf, Nat.mul_comm]; congr 1; omega
  have hle : ((p.finish - now) * p.rate + amount) / dur * dur ≤ (p.finish - now) * p.rate + amount :=
    Nat.div_mul_le_self _ _
  have e : now + dur - now = dur := by omega
  refine ⟨h.total, h.paid, by simp, Nat.le_refl _, ?_, ?_⟩
  · simp only [e]; omega
  · simp only [e]
    refine h.rew.mono (fun _ => Nat.le_refl _) (Nat.mul_le_mul_left _ ?_)
    omega

theorem PoolOK.new (cool now B : Nat) {q : Nat → Pos} (hq : ∀ w, q w = Pos.default) :
    PoolOK ⟨false, 0, 0, cool, 0, 0, 0, 0, 0⟩ q now B := by
  have hq' : q = fun _ => Pos.default := funext hq
  subst hq'
  refine ⟨SumsTo.zero, fun _ => Nat.le_refl _, Nat.le_refl _, Nat.zero_le _, by simp, ?_⟩
  simpa [ent, Pos.default] using SumLe.zero _

/-! ## The pallet invariant -/

/-- What pool `k` holds of asset `x`: stake `H k` and reward budget `B k`. -/
def share (H B : Key → Nat) (x : Nat) (k : Key) : Nat :=
  (if k.asset = x then H k else 0) + (if k.reward = x then B k else 0)

structure Inv (c : Cfg) (s : State) (H B : Key → Nat) : Prop where
  wf : s.ledger.WF
  none : ∀ k, s.pools k = none → ∀ w, s.pos k w = Pos.default
  pool : ∀ k p, s.pools k = some p → PoolOK p (s.pos k) s.now (B k)
  stake : ∀ k, SumLe (fun w => (s.pos k w).dep + (s.pos k w).cooling) (H k)
  vault : ∀ x, SumLe (share H B x) (s.ledger.bal x (c.acct x))
  budget : ∀ k, claimed s k + B k = dispatched s k

theorem updateSome_ok {s s' : State} {k : Key} {w : Nat} (h : updateSome s k w = .ok s') :
    ∃ p p' u, s.pools k = some p ∧ p.update s.now = .ok p' ∧ p'.settle s.now (s.pos k w) = .ok u ∧
      s' = { s with pools := upd s.pools k (some p'), pos := upd s.pos k (upd (s.pos k) w u) } := by
  unfold updateSome at h
  simp only [bind_ok_iff, okOr_ok_iff, pure_ok_iff] at h
  obtain ⟨p, hp, p', hp', u, hu, rfl⟩ := h
  exact ⟨p, p', u, hp, hp', hu, rfl⟩

theorem settle_keeps {p : Pool} {now : Nat} {u u' : Pos} (h : p.settle now u = .ok u') :
    u'.dep = u.dep ∧ u'.items = u.items ∧ u'.paid = p.rps := by
  obtain ⟨_, rfl⟩ := settle_ok h
  exact ⟨rfl, rfl, rfl⟩

theorem stake_upd {s : State} {k : Key} {H : Key → Nat} (h : ∀ k, SumLe (fun w => (s.pos k w).dep + (s.pos k w).cooling) (H k))
    {w : Nat} {u : Pos} {v : Nat} (hu : u.dep + u.cooling + H k ≤ (s.pos k w).dep + (s.pos k w).cooling + v) :
    ∀ k', SumLe (fun w' => (upd s.pos k (upd (s.pos k) w u) k' w').dep + (upd s.pos k (upd (s.pos k) w u) k' w').cooling)
      (upd H k v k') := by
  intro k'
  by_cases hk : k' = k
  · subst hk
    simp only [upd_same]
    refine (h k').update w (fun i hi => by simp [upd_of_ne _ _ hi]) (by simpa using hu)
  · simp only [upd_of_ne _ _ hk]; exact h k'

theorem Inv.updateSome {c : Cfg} {s s' : State} {H B : Key → Nat} (h : Inv c s H B) {k : Key} {w : Nat}
    (hu : updateSome s k w = .ok s') : Inv c s' H B ∧ ∃ p', s'.pools k = some p' ∧ Fresh p' s.now ∧
      (s'.pos k w).paid = p'.rps ∧ (s'.pos k w).dep = (s.pos k w).dep ∧
      (s'.pos k w).items = (s.pos k w).items ∧ s'.ledger = s.ledger ∧ s'.now = s.now ∧ s'.events = s.events := by
  obtain ⟨p, p', u, hp, hp', hs, rfl⟩ := updateSome_ok hu
  obtain ⟨e1, e2, e3⟩ := settle_keeps hs
  have hf := update_fresh hp'
  have hP := ((h.pool k p hp).update hp').settle hf hs
  refine ⟨⟨h.wf, ?_, ?_, ?_, h.vault, h.budget⟩, p', by simp, hf, by simp [e3], by simp [e1], by simp [e2], rfl, rfl, rfl⟩
  · intro k' hk'
    by_cases hk : k' = k
    · subst hk; simp at hk'
    · simp only [upd_of_ne _ _ hk] at hk' ⊢; exact h.none k' hk'
  · intro k' p2 hk'
    by_cases hk : k' = k
    · subst hk; simp at hk'; subst hk'; simpa using hP
    · simp only [upd_of_ne _ _ hk] at hk' ⊢; exact h.pool k' p2 hk'
  · have := stake_upd h.stake (k := k) (w := w) (u := u) (v := H k) (by simp [e1, e2, Pos.cooling])
    simpa using this

/-- The vault balance of asset `a` moves by a transfer between pool account and user; the pool shares
move along. -/
theorem vault_change {c : Cfg} {l l' : Ledger} {H B H' B' : Key → Nat} (k : Key)
    (h : ∀ x, SumLe (share H B x) (l.bal x (c.acct x)))
    (hoff : ∀ k', k' ≠ k → H' k' = H k' ∧ B' k' = B k')
    (hk : ∀ x, share H' B' x k + l.bal x (c.acct x) ≤ share H B x k + l'.bal x (c.acct x)) :
    ∀ x, SumLe (share H' B' x) (l'.bal x (c.acct x)) := by
  intro x
  refine (h x).update k (fun i hi => ?_) (hk x)
  obtain ⟨e1, e2⟩ := hoff i hi
  simp [share, e1, e2]

theorem share_le (H B : Key → Nat) (k : Key) : H k ≤ share H B k.asset k ∧ B k ≤ share H B k.reward k := by
  simp [share]

theorem Inv.put {c : Cfg} {s : State} {H B : Key → Nat} (h : Inv c s H B) {k : Key} {p' : Pool}
    {w : Nat} {u : Pos} {l : Ledger} {ev : List Event} {v b : Nat}
    (hl : l.WF)
    (hP : PoolOK p' (upd (s.pos k) w u) s.now b)
    (hst : u.dep + u.cooling + H k ≤ (s.pos k w).dep + (s.pos k w).cooling + v)
    (hva : ∀ x, share (upd H k v) (upd B k b) x k + s.ledger.bal x (c.acct x)
      ≤ share H B x k + l.bal x (c.acct x))
    (hb : ∀ k', ((s.events ++ ev).map (Event.claimed k')).sum + upd B k b k' = ((s.events ++ ev).map (Event.dispatched k')).sum) :
    Inv c { s with ledger := l, pools := upd s.pools k (some p'), pos := upd s.pos k (upd (s.pos k) w u), events := s.events ++ ev }
      (upd H k v) (upd B k b) := by
  refine ⟨hl, ?_, ?_, ?_, ?_, hb⟩
  · intro k' hk'
    by_cases hk : k' = k
    · subst hk; simp at hk'
    · simp only [upd_of_ne _ _ hk] at hk' ⊢; exact h.none k' hk'
  · intro k' p2 hk'
    by_cases hk : k' = k
    · subst hk; simp at hk'; subst hk'; simpa using hP
    · simp only [upd_of_ne _ _ hk] at hk' ⊢; exact h.pool k' p2 hk'
  · exact stake_upd h.stake hst
  · exact vault_change k h.vault (fun k' hk' => ⟨upd_of_ne _ _ hk', upd_of_ne _ _ hk'⟩) hva

end Verif.Farming
