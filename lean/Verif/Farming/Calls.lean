import Verif.Farming.Inv

set_option linter.unusedSimpArgs false

/-! # Farming: every call preserves the invariant -/

namespace Verif.Farming
open Verif Finset

variable {c : Cfg} {s s' : State} {H B : Key → Nat}

theorem claimed_append (ev : List Event) (e : Event) (k : Key) :
    ((ev ++ [e]).map (Event.claimed k)).sum = (ev.map (Event.claimed k)).sum + Event.claimed k e := by
  simp

theorem dispatched_append (ev : List Event) (e : Event) (k : Key) :
    ((ev ++ [e]).map (Event.dispatched k)).sum = (ev.map (Event.dispatched k)).sum + Event.dispatched k e := by
  simp

theorem budget_same (h : Inv c s H B) (e : Event) (h1 : ∀ k, Event.claimed k e = 0)
    (h2 : ∀ k, Event.dispatched k e = 0) (k k' : Key) :
    ((s.events ++ [e]).map (Event.claimed k')).sum + upd B k (B k) k'
      = ((s.events ++ [e]).map (Event.dispatched k')).sum := by
  have := h.budget k'
  rw [claimed_append, dispatched_append, h1, h2, upd_eq_self]
  exact this

theorem share_same (H B : Key → Nat) (k : Key) (v x : Nat) :
    share (upd H k v) (upd B k (B k)) x k + (if k.asset = x then H k else 0)
      = share H B x k + (if k.asset = x then v else 0) := by
  simp [share]; omega

theorem share_reward (H B : Key → Nat) (k : Key) (b x : Nat) :
    share (upd H k (H k)) (upd B k b) x k + (if k.reward = x then B k else 0)
      = share H B x k + (if k.reward = x then b else 0) := by
  simp [share]; omega

theorem payIf_eq (l : Ledger) (a src dst m : Nat) : payIf l a src dst m = l.transfer a src dst m false := by
  unfold payIf
  split_ifs with h
  · rfl
  · have : m = 0 := by omega
    simp [Ledger.transfer, this]

/-! ### deposit -/

theorem deposit_ok {k : Key} {w m : Nat} (h : deposit c s k w m = .ok s') :
    m ≠ 0 ∧ ∃ s1 p l, updateSome s k w = .ok s1 ∧ s1.pools k = some p ∧ p.active = true ∧
      s1.ledger.transfer k.asset w (c.acct k.asset) m false = .ok l ∧
      s' = { s1 with
        ledger := l,
        pools := upd s1.pools k (some { p with total := p.total + m }),
        pos := upd s1.pos k (upd (s1.pos k) w { s1.pos k w with dep := (s1.pos k w).dep + m }),
        events := s1.events ++ [.deposited w k m] } := by
  unfold deposit at h
  simp only [bind_ok_iff, ensure_ok_iff, okOr_ok_iff, pure_ok_iff, cadd_ok_iff, exists_const] at h
  obtain ⟨_, h2, s1, hs1, p, hp, ha, l, hl, _, ⟨_, rfl⟩, _, ⟨_, rfl⟩, rfl⟩ := h
  exact ⟨h2, s1, p, l, hs1, hp, ha, hl, rfl⟩

theorem Inv.deposit (hi : Inv c s H B) {k : Key} {w m : Nat} (hw : ∀ a, w ≠ c.acct a)
    (h : deposit c s k w m = .ok s') : Inv c s' (upd H k (H k + m)) (upd B k (B k)) := by
  obtain ⟨_, s1, p, l, hs1, hp, _, hl, rfl⟩ := deposit_ok h
  obtain ⟨hi1, p', hp', hf, hpd, _⟩ := hi.updateSome hs1
  rw [hp] at hp'; cases hp'
  refine hi1.put (Ledger.transfer_wf hl hi1.wf) ?_ ?_ ?_ (budget_same hi1 _ (fun _ => rfl) (fun _ => rfl) k)
  · refine (hi1.pool k p hp).change w _ ?_ ?_ rfl (hi1.pool k p hp).room ?_
    · simp only; omega
    · simp [hpd]
    · simp [ent, hpd]
  · simp only [Pos.cooling]; omega
  · intro x
    have e1 := share_same H B k (H k + m) x
    have e2 := Ledger.transfer_bal hl x (c.acct x)
    have e3 : ¬ (c.acct x = w) := fun e => hw x e.symm
    by_cases hx : k.asset = x
    · subst hx; simp only [e3, and_false, and_self, if_true, if_false, Nat.add_zero] at e1 e2; omega
    · have hx' : ¬ x = k.asset := fun e => hx e.symm
      simp only [e3, hx, hx', false_and, and_false, if_false, Nat.add_zero] at e1 e2; omega

/-! ### withdraw -/

theorem release_ok {k : Key} {p : Pool} {u : Pos} {w m : Nat} {l : Ledger} {u' : Pos}
    (h : release c s k p u w m = .ok (l, u')) :
    (p.cool = 0 ∧ s.ledger.transfer k.asset (c.acct k.asset) w m false = .ok l ∧ u' = u) ∨
    (p.cool ≠ 0 ∧ u.items.length < c.maxItems ∧ l = s.ledger ∧
      u' = { u with items := u.items ++ [(m, s.now)] }) := by
  unfold release at h
  split_ifs at h with hc
  · simp only [bind_ok_iff, pure_ok_iff, Prod.mk.injEq] at h
    obtain ⟨l', h1, rfl, rfl⟩ := h
    exact .inl ⟨hc, h1, rfl⟩
  · simp only [bind_ok_iff, pure_ok_iff, Prod.mk.injEq, ensure_ok_iff, exists_const] at h
    obtain ⟨h1, rfl, rfl⟩ := h
    exact .inr ⟨hc, h1, rfl, rfl⟩

theorem withdraw_ok {k : Key} {w m : Nat} (h : withdraw c s k w m = .ok s') :
    m ≠ 0 ∧ m ≤ (s.pos k w).dep ∧ ∃ s1 p l u, updateSome s k w = .ok s1 ∧ s1.pools k = some p ∧
      p.unlock ≤ s1.now ∧ m ≤ p.total ∧ m ≤ (s1.pos k w).dep ∧
      release c s1 k p { s1.pos k w with dep := (s1.pos k w).dep - m } w m = .ok (l, u) ∧
      s' = { s1 with
        ledger := l,
        pools := upd s1.pools k (some { p with total := p.total - m }),
        pos := upd s1.pos k (upd (s1.pos k) w u),
        events := s1.events ++ [.withdrew w k m] } := by
  unfold withdraw at h
  simp only [bind_ok_iff, ensure_ok_iff, okOr_ok_iff, pure_ok_iff, csub_ok_iff, exists_const, Prod.exists] at h
  obtain ⟨_, h2, h3, s1, hs1, p, hp, h4, _, ⟨h5, rfl⟩, _, ⟨h6, rfl⟩, l, u, hr, rfl⟩ := h
  exact ⟨h2, h3, s1, p, l, u, hs1, hp, h4, h5, h6, hr, rfl⟩

theorem cooling_snoc (u : Pos) (m b : Nat) :
    Pos.cooling { u with items := u.items ++ [(m, b)] } = u.cooling + m := by
  simp [Pos.cooling]

theorem Inv.withdraw (hi : Inv c s H B) {k : Key} {w m : Nat} (hw : ∀ a, w ≠ c.acct a)
    (h : withdraw c s k w m = .ok s') :
    ∃ v, v ≤ H k ∧ Inv c s' (upd H k v) (upd B k (B k)) := by
  obtain ⟨_, _, s1, p, l, u, hs1, hp, _, hmt, hmd, hr, rfl⟩ := withdraw_ok h
  obtain ⟨hi1, p', hp', hf, hpd, _⟩ := hi.updateSome hs1
  rw [hp] at hp'; cases hp'
  have hH := (hi1.stake k).apply w
  have hchg : ∀ u : Pos, u.dep = (s1.pos k w).dep - m → u.paid = p.rps → u.reward = (s1.pos k w).reward →
      PoolOK { p with total := p.total - m } (upd (s1.pos k) w u) s1.now (B k) := by
    intro u h1 h2 h3
    refine (hi1.pool k p hp).change w _ ?_ ?_ rfl (hi1.pool k p hp).room ?_
    · simp only; omega
    · simp [h2]
    · simp [ent, hpd, h2, h3]
  rcases release_ok hr with ⟨_, hl, rfl⟩ | ⟨_, _, rfl, rfl⟩
  · refine ⟨H k - m, by omega, hi1.put (Ledger.transfer_wf hl hi1.wf) (hchg _ rfl hpd rfl) ?_ ?_
      (budget_same hi1 _ (fun _ => rfl) (fun _ => rfl) k)⟩
    · simp only [Pos.cooling] at hH ⊢; omega
    · intro x
      have e1 := share_same H B k (H k - m) x
      have e2 := Ledger.transfer_bal hl x (c.acct x)
      have e3 : ¬ (c.acct x = w) := fun e => hw x e.symm
      by_cases hx : k.asset = x
      · subst hx; simp only [e3, and_false, and_self, if_true, if_false, Nat.add_zero] at e1 e2; omega
      · have hx' : ¬ x = k.asset := fun e => hx e.symm
        simp only [e3, hx, hx', false_and, and_false, if_false, Nat.add_zero] at e1 e2; omega
  · refine ⟨H k, Nat.le_refl _, hi1.put hi1.wf (hchg _ rfl hpd rfl) ?_ ?_
      (budget_same hi1 _ (fun _ => rfl) (fun _ => rfl) k)⟩
    · simp only [Pos.cooling, List.map_append, List.sum_append, List.map_cons, List.map_nil, List.sum_cons,
        List.sum_nil] at hH ⊢
      omega
    · intro x
      have e1 := share_same H B k (H k) x
      omega

/-! ### redeem -/

/-- The items whose cool-down is over. -/
def due (cool now : Nat) (its : List (Nat × Nat)) : List (Nat × Nat) := its.filter (matured cool now)

theorem sumMatured_ok {cool now : Nat} {its : List (Nat × Nat)} : ∀ {acc t : Nat},
    sumMatured cool now acc its = .ok t → t = acc + ((due cool now its).map Prod.fst).sum := by
  induction its with
  | nil => intro acc t h; simp [sumMatured] at h; simp [due, h]
  | cons it its ih =>
    intro acc t h
    unfold sumMatured at h
    split_ifs at h with hm
    · simp only [bind_ok_iff, cadd_ok_iff] at h
      obtain ⟨a, ⟨_, rfl⟩, h⟩ := h
      rw [ih h]
      simp [due, hm]; omega
    · rw [ih h]
      simp [due, hm]

theorem sumMatured_succeeds {cool now : Nat} {its : List (Nat × Nat)} : ∀ {acc : Nat},
    acc + (its.map Prod.fst).sum ≤ maxU128 → ∃ t, sumMatured cool now acc its = .ok t := by
  induction its with
  | nil => intro acc _; exact ⟨acc, rfl⟩
  | cons it its ih =>
    intro acc h
    simp only [List.map_cons, List.sum_cons] at h
    unfold sumMatured
    split_ifs with hm
    · obtain ⟨t, ht⟩ := ih (acc := acc + it.1) (by omega)
      refine ⟨t, ?_⟩
      simp only [bind_ok_iff, cadd_ok_iff]
      exact ⟨_, ⟨by omega, rfl⟩, ht⟩
    · exact ih (by omega)

theorem split_sum (cool now : Nat) (its : List (Nat × Nat)) :
    ((due cool now its).map Prod.fst).sum
      + ((its.filter (fun it => !matured cool now it)).map Prod.fst).sum = (its.map Prod.fst).sum := by
  induction its with
  | nil => rfl
  | cons it its ih =>
    by_cases hm : matured cool now it = true <;> simp [due, hm] at ih ⊢ <;> omega

theorem redeem_ok {k : Key} {w : Nat} (h : redeem c s k w = .ok s') :
    ∃ p l, s.pools k = some p ∧
      s.ledger.transfer k.asset (c.acct k.asset) w ((due p.cool s.now (s.pos k w).items).map Prod.fst).sum false = .ok l ∧
      s' = { s with
        ledger := l,
        pos := upd s.pos k (upd (s.pos k) w { s.pos k w with
          items := (s.pos k w).items.filter (fun it => !matured p.cool s.now it) }),
        events := s.events ++ [.redeemed w k ((due p.cool s.now (s.pos k w).items).map Prod.fst).sum] } := by
  unfold redeem at h
  simp only [bind_ok_iff, okOr_ok_iff, pure_ok_iff] at h
  obtain ⟨p, hp, t, ht, l, hl, rfl⟩ := h
  have := sumMatured_ok ht
  rw [Nat.zero_add] at this
  subst this
  refine ⟨p, l, hp, ?_, rfl⟩
  rw [← payIf_eq]; exact hl

theorem Inv.redeem (hi : Inv c s H B) {k : Key} {w : Nat} (hw : ∀ a, w ≠ c.acct a)
    (h : redeem c s k w = .ok s') :
    ∃ v, v ≤ H k ∧ Inv c s' (upd H k v) (upd B k (B k)) := by
  obtain ⟨p, l, hp, hl, rfl⟩ := redeem_ok h
  have hH := (hi.stake k).apply w
  have hsp := split_sum p.cool s.now (s.pos k w).items
  have hput := hi.put (k := k) (p' := p) (w := w) (u := { s.pos k w with
      items := (s.pos k w).items.filter (fun it => !matured p.cool s.now it) })
    (v := H k - ((due p.cool s.now (s.pos k w).items).map Prod.fst).sum) (b := B k)
    (Ledger.transfer_wf hl hi.wf) ?_ ?_ ?_
    (budget_same hi (.redeemed w k ((due p.cool s.now (s.pos k w).items).map Prod.fst).sum) (fun _ => rfl) (fun _ => rfl) k)
  · refine ⟨H k - ((due p.cool s.now (s.pos k w).items).map Prod.fst).sum, Nat.sub_le _ _, ?_⟩
    rw [← hp, upd_eq_self] at hput
    exact hput
  · exact (hi.pool k p hp).change w _ rfl ((hi.pool k p hp).paid w) rfl (hi.pool k p hp).room (Nat.le_refl _)
  · simp only [Pos.cooling] at hH ⊢; omega
  · intro x
    have e1 := share_same H B k (H k - ((due p.cool s.now (s.pos k w).items).map Prod.fst).sum) x
    have e2 := Ledger.transfer_bal hl x (c.acct x)
    have e3 : ¬ (c.acct x = w) := fun e => hw x e.symm
    simp only [Pos.cooling] at hH
    by_cases hx : k.asset = x
    · subst hx; simp only [e3, and_false, and_self, if_true, if_false, Nat.add_zero] at e1 e2; omega
    · have hx' : ¬ x = k.asset := fun e => hx e.symm
      simp only [e3, hx, hx', false_and, and_false, if_false, Nat.add_zero] at e1 e2; omega

/-! ### claim -/

theorem payReward_ok {l l' : Ledger} {k : Key} {u u' : Pos} {w : Nat}
    (h : payReward c l k u w = .ok (l', u')) :
    l.transfer k.reward (c.acct k.reward) w u.reward false = .ok l' ∧ u' = { u with reward := 0 } := by
  unfold payReward at h
  split_ifs at h with h0
  · simp only [bind_ok_iff, pure_ok_iff, Prod.mk.injEq] at h
    obtain ⟨_, h1, rfl, rfl⟩ := h
    exact ⟨h1, rfl⟩
  · have h0 : u.reward = 0 := by omega
    cases h
    refine ⟨by rw [h0]; simp [Ledger.transfer], ?_⟩
    cases u; simp at h0; subst h0; rfl

theorem claim_ok {k : Key} {w : Nat} (h : claim c s k w = .ok s') :
    ∃ s1 l, updateSome s k w = .ok s1 ∧
      s1.ledger.transfer k.reward (c.acct k.reward) w (s1.pos k w).reward false = .ok l ∧
      s' = { s1 with
        ledger := l,
        pos := upd s1.pos k (upd (s1.pos k) w { s1.pos k w with reward := 0 }),
        events := s1.events ++ [.rewardPaid w k (s1.pos k w).reward] } := by
  unfold claim at h
  simp only [bind_ok_iff, ensure_ok_iff, pure_ok_iff, exists_const, Prod.exists] at h
  obtain ⟨_, s1, hs1, l, u, hr, rfl⟩ := h
  obtain ⟨h1, rfl⟩ := payReward_ok hr
  exact ⟨s1, l, hs1, h1, rfl⟩

theorem Inv.claim (hi : Inv c s H B) {k : Key} {w : Nat} (hw : ∀ a, w ≠ c.acct a)
    (h : claim c s k w = .ok s') :
    ∃ b, b ≤ B k ∧ Inv c s' (upd H k (H k)) (upd B k b) := by
  obtain ⟨s1, l, hs1, hl, rfl⟩ := claim_ok h
  obtain ⟨hi1, p, hp, hf, hpd, _⟩ := hi.updateSome hs1
  have hB := (hi1.pool k p hp).reward_le w
  have hput := hi1.put (k := k) (p' := p) (w := w) (u := { s1.pos k w with reward := 0 })
    (v := H k) (b := B k - (s1.pos k w).reward) (ev := [.rewardPaid w k (s1.pos k w).reward])
    (Ledger.transfer_wf hl hi1.wf) ?_ ?_ ?_ ?_
  · refine ⟨B k - (s1.pos k w).reward, Nat.sub_le _ _, ?_⟩
    rw [← hp, upd_eq_self] at hput
    exact hput
  · refine (hi1.pool k p hp).change w _ rfl (by simp [hpd]) rfl (by omega) ?_
    simp only [ent, Nat.zero_mul, Nat.zero_add]
    have : (s1.pos k w).reward * APS + APS * (B k - (s1.pos k w).reward) = APS * B k := by
      rw [Nat.mul_comm, ← Nat.mul_add]; congr 1; omega
    omega
  · simp [Pos.cooling]
  · intro x
    have e1 := share_reward H B k (B k - (s1.pos k w).reward) x
    have e2 := Ledger.transfer_bal hl x (c.acct x)
    have e3 : ¬ (c.acct x = w) := fun e => hw x e.symm
    by_cases hx : k.reward = x
    · subst hx; simp only [e3, and_false, and_self, if_true, if_false, Nat.add_zero] at e1 e2; omega
    · have hx' : ¬ x = k.reward := fun e => hx e.symm
      simp only [e3, hx, hx', false_and, and_false, if_false, Nat.add_zero] at e1 e2; omega
  · intro k'
    have hb := hi1.budget k'
    unfold claimed dispatched at hb
    rw [claimed_append, dispatched_append]
    by_cases hk : k' = k
    · subst hk; simp [Event.claimed, Event.dispatched]; omega
    · have hk' : ¬ k = k' := fun e => hk e.symm
      simp [Event.claimed, Event.dispatched, hk', upd_of_ne _ _ hk]; omega

/-! ### dispatch_reward -/

theorem dispatch_ok {k : Key} {w m d : Nat} (h : dispatch c s k w m d = .ok s') :
    ∃ p p' rate l, s.pools k = some p ∧ p.update s.now = .ok p' ∧ newRate p' s.now m d = .ok rate ∧
      s.ledger.transfer k.reward w (c.acct k.reward) m false = .ok l ∧
      s' = { s with
        ledger := l,
        pools := upd s.pools k (some { p' with duration := d, finish := s.now + d, rate := rate, last := s.now }),
        events := s.events ++ [.rewardAdded k m] } := by
  unfold dispatch updateNone at h
  simp only [bind_ok_iff, ensure_ok_iff, okOr_ok_iff, pure_ok_iff, exists_const] at h
  obtain ⟨_, _, s1, ⟨p, hp, p', hp', rfl⟩, p2, hp2, rate, hr, _, l, hl, rfl⟩ := h
  simp at hp2; subst hp2
  refine ⟨p, p', rate, l, hp, hp', hr, ?_, by simp⟩
  rw [← payIf_eq]; exact hl

theorem Inv.dispatch (hi : Inv c s H B) {k : Key} {w m d : Nat} (hw : ∀ a, w ≠ c.acct a)
    (h : dispatch c s k w m d = .ok s') : Inv c s' (upd H k (H k)) (upd B k (B k + m)) := by
  obtain ⟨p, p', rate, l, hp, hp', hr, hl, rfl⟩ := dispatch_ok h
  have hP := ((hi.pool k p hp).update hp').dispatch (update_fresh hp') hr
  have hput := hi.put (k := k) (w := 0) (u := s.pos k 0) (v := H k) (b := B k + m)
    (ev := [.rewardAdded k m]) (Ledger.transfer_wf hl hi.wf) (by rw [upd_eq_self]; exact hP)
    (Nat.le_refl _) ?_ ?_
  · simpa using hput
  · intro x
    have e1 := share_reward H B k (B k + m) x
    have e2 := Ledger.transfer_bal hl x (c.acct x)
    have e3 : ¬ (c.acct x = w) := fun e => hw x e.symm
    by_cases hx : k.reward = x
    · subst hx; simp only [e3, and_false, and_self, if_true, if_false, Nat.add_zero] at e1 e2; omega
    · have hx' : ¬ x = k.reward := fun e => hx e.symm
      simp only [e3, hx, hx', false_and, and_false, if_false, Nat.add_zero] at e1 e2; omega
  · intro k'
    have hb := hi.budget k'
    unfold claimed dispatched at hb
    rw [claimed_append, dispatched_append]
    by_cases hk : k' = k
    · subst hk; simp [Event.claimed, Event.dispatched]; omega
    · have hk' : ¬ k = k' := fun e => hk e.symm
      simp [Event.claimed, Event.dispatched, hk', upd_of_ne _ _ hk]; omega

/-! ### settings -/

theorem Inv.setPool (hi : Inv c s H B) {k : Key} {p' : Pool}
    (hP : PoolOK p' (s.pos k) s.now (B k)) :
    Inv c { s with pools := upd s.pools k (some p') } H B := by
  refine ⟨hi.wf, ?_, ?_, hi.stake, hi.vault, hi.budget⟩
  · intro k' hk'
    by_cases hk : k' = k
    · subst hk; simp at hk'
    · simp only [upd_of_ne _ _ hk] at hk' ⊢; exact hi.none k' hk'
  · intro k' p2 hk'
    by_cases hk : k' = k
    · subst hk; simp at hk'; subst hk'; simpa using hP
    · simp only [upd_of_ne _ _ hk] at hk' ⊢; exact hi.pool k' p2 hk'

theorem exec_inv (hi : Inv c s H B) {k : Call} (hk : k.signerOK c) (h : exec c s k = .ok s') :
    ∃ H' B', Inv c s' H' B' := by
  cases k with
  | create k cool =>
    have h : create c s k cool = .ok s' := h
    unfold create at h
    simp only [bind_ok_iff, ensure_ok_iff, pure_ok_iff, exists_const] at h
    obtain ⟨h1, _, _, rfl⟩ := h
    exact ⟨H, B, hi.setPool (PoolOK.new cool s.now (B k) (hi.none k (Option.isNone_iff_eq_none.1 h1)))⟩
  | setStatus k b =>
    have h : setStatus s k b = .ok s' := h
    unfold setStatus at h
    simp only [bind_ok_iff, ensure_ok_iff, okOr_ok_iff, pure_ok_iff, exists_const] at h
    obtain ⟨p, hp, _, rfl⟩ := h
    exact ⟨H, B, hi.setPool ((hi.pool k p hp).settings rfl rfl rfl rfl rfl)⟩
  | setCool k cool =>
    have h : setCool c s k cool = .ok s' := h
    unfold setCool at h
    simp only [bind_ok_iff, ensure_ok_iff, okOr_ok_iff, pure_ok_iff, exists_const] at h
    obtain ⟨_, p, hp, _, rfl⟩ := h
    exact ⟨H, B, hi.setPool ((hi.pool k p hp).settings rfl rfl rfl rfl rfl)⟩
  | resetUnlock k =>
    have h : resetUnlock s k = .ok s' := h
    unfold resetUnlock at h
    simp only [bind_ok_iff, ensure_ok_iff, okOr_ok_iff, pure_ok_iff, exists_const] at h
    obtain ⟨p, hp, _, _, rfl⟩ := h
    exact ⟨H, B, hi.setPool ((hi.pool k p hp).settings rfl rfl rfl rfl rfl)⟩
  | deposit k w m => exact ⟨_, _, hi.deposit hk h⟩
  | withdraw k w m => obtain ⟨v, _, h⟩ := hi.withdraw hk h; exact ⟨_, _, h⟩
  | redeem k w => obtain ⟨v, _, h⟩ := hi.redeem hk h; exact ⟨_, _, h⟩
  | claim k w => obtain ⟨v, _, h⟩ := hi.claim hk h; exact ⟨_, _, h⟩
  | dispatch k w m d => exact ⟨_, _, hi.dispatch hk h⟩

theorem Reach.inv (h : Reach c s) : ∃ H B, Inv c s H B := by
  induction h with
  | init l now hw =>
    refine ⟨fun _ => 0, fun _ => 0, hw, fun _ _ _ => rfl, fun k p hp => by simp at hp, ?_, ?_, fun _ => rfl⟩
    · intro k; simpa [Pos.default, Pos.cooling] using SumLe.zero 0
    · intro x
      have : share (fun _ => 0) (fun _ => 0) x = fun _ => 0 := by funext k; simp [share]
      rw [this]; exact SumLe.zero _
  | step _ hs ih =>
    obtain ⟨H, B, hi⟩ := ih
    cases hs with
    | call k hk he => exact exec_inv hi hk he
    | env he =>
      obtain ⟨h1, h2, h3, h4, h5, h6⟩ := he
      refine ⟨H, B, h5, ?_, ?_, ?_, fun x => (hi.vault x).mono (fun _ => Nat.le_refl _) (h6 x), ?_⟩
      · rw [h1, h2]; exact hi.none
      · intro k p hp
        rw [h1] at hp; rw [h2]
        exact (hi.pool k p hp).time h4
      · rw [h2]; exact hi.stake
      · unfold claimed dispatched; rw [h3]; exact hi.budget

end Verif.Farming
