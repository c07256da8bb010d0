import Verif.Farming.Props

set_option linter.unusedSimpArgs false

/-!
# Farming: administration, locks (C88) and fair rewards (C89)
-/

namespace Verif.Farming
open Verif

/-- The pool a call addresses. -/
def Call.key : Call → Key
  | .create k _ => k
  | .setStatus k _ => k
  | .setCool k _ => k
  | .resetUnlock k => k
  | .deposit k _ _ => k
  | .withdraw k _ _ => k
  | .redeem k _ => k
  | .claim k _ => k
  | .dispatch k _ _ _ => k

/-- The staker on whose behalf a call acts; governance calls have none. -/
def Call.user : Call → Option Nat
  | .deposit _ w _ => some w
  | .withdraw _ w _ => some w
  | .redeem _ w => some w
  | .claim _ w => some w
  | _ => none

/-! ### What each call does to the pool and the positions -/

/-- What a successful call does to the pool it addresses. -/
structure Eff (s s' : State) (call : Call) : Prop where
  now : s'.now = s.now
  pools : ∀ k, k ≠ call.key → s'.pools k = s.pools k
  posK : ∀ k, k ≠ call.key → s'.pos k = s.pos k
  posU : ∀ w, call.user ≠ some w → s'.pos call.key w = s.pos call.key w
  index : ∀ p, s.pools call.key = some p → ∃ p', s'.pools call.key = some p' ∧ p'.index s.now = p.index s.now

theorem Fresh.index_total {p : Pool} {now : Nat} (h : Fresh p now) (t : Nat) :
    ({ p with total := t } : Pool).index now = p.rps := by
  have : Fresh { p with total := t } now := h
  exact this.index

theorem upd2_key {α : Type} (f : Key → α) {k k' : Key} (h : k' ≠ k) (x y : α) : upd (upd f k x) k y k' = f k' := by
  rw [upd_of_ne _ _ h, upd_of_ne _ _ h]

theorem upd2_user (f : Key → Nat → Pos) {k : Key} {v w : Nat} (h : v ≠ w) (x y : Pos) :
    upd (upd f k (upd (f k) w x)) k (upd (upd f k (upd (f k) w x) k) w y) k v = f k v := by
  rw [upd_same, upd_of_ne _ _ h, upd_same, upd_of_ne _ _ h]

theorem upd1_user (f : Key → Nat → Pos) {k : Key} {v w : Nat} (h : v ≠ w) (x : Pos) :
    upd f k (upd (f k) w x) k v = f k v := by
  rw [upd_same, upd_of_ne _ _ h]

theorem exec_eff {c : Cfg} {s s' : State} {call : Call} (h : exec c s call = .ok s') : Eff s s' call := by
  cases call with
  | create k cool =>
    simp only [exec, create, bind_ok_iff, ensure_ok_iff, exists_const, pure_ok_iff] at h
    obtain ⟨h1, _, _, rfl⟩ := h
    exact ⟨rfl, fun k' hk => upd_of_ne _ _ hk, fun _ _ => rfl, fun _ _ => rfl,
      fun p hp => by rw [Call.key] at hp; rw [hp] at h1; cases h1⟩
  | setStatus k b =>
    simp only [exec, setStatus, bind_ok_iff, okOr_ok_iff, ensure_ok_iff, exists_const, pure_ok_iff] at h
    obtain ⟨p, hp, _, rfl⟩ := h
    refine ⟨rfl, fun k' hk => upd_of_ne _ _ hk, fun _ _ => rfl, fun _ _ => rfl, fun q hq => ?_⟩
    have : s.pools k = some q := hq
    rw [hp] at this; cases this
    exact ⟨_, upd_same _ _ _, rfl⟩
  | setCool k cool =>
    simp only [exec, setCool, bind_ok_iff, okOr_ok_iff, ensure_ok_iff, exists_const, pure_ok_iff] at h
    obtain ⟨_, p, hp, _, rfl⟩ := h
    refine ⟨rfl, fun k' hk => upd_of_ne _ _ hk, fun _ _ => rfl, fun _ _ => rfl, fun q hq => ?_⟩
    have : s.pools k = some q := hq
    rw [hp] at this; cases this
    exact ⟨_, upd_same _ _ _, rfl⟩
  | resetUnlock k =>
    simp only [exec, resetUnlock, bind_ok_iff, okOr_ok_iff, ensure_ok_iff, exists_const, pure_ok_iff] at h
    obtain ⟨p, hp, _, _, rfl⟩ := h
    refine ⟨rfl, fun k' hk => upd_of_ne _ _ hk, fun _ _ => rfl, fun _ _ => rfl, fun q hq => ?_⟩
    have : s.pools k = some q := hq
    rw [hp] at this; cases this
    exact ⟨_, upd_same _ _ _, rfl⟩
  | deposit k w m =>
    simp only [exec, deposit, bind_ok_iff, okOr_ok_iff, ensure_ok_iff, exists_const, pure_ok_iff] at h
    obtain ⟨_, _, s1, hs1, p1, hp1, _, l, hl, t, ht, d, hd, rfl⟩ := h
    obtain ⟨p, p', u, hp, hp', hu, rfl⟩ := updateSome_ok hs1
    simp only [upd_same, Option.some.injEq] at hp1
    subst hp1
    refine ⟨rfl, fun k' hk => ?_, fun k' hk => ?_, fun v hv => ?_, fun q hq => ?_⟩
    · exact upd2_key _ hk _ _
    · exact upd2_key _ hk _ _
    · have hv' : v ≠ w := by rintro rfl; exact hv rfl
      exact upd2_user _ hv' _ _
    · have : s.pools k = some q := hq
      rw [hp] at this; cases this
      refine ⟨_, upd_same _ _ _, ?_⟩
      rw [(update_fresh hp').index_total, update_ok hp']
  | withdraw k w m =>
    simp only [exec, withdraw, bind_ok_iff, okOr_ok_iff, ensure_ok_iff, exists_const, pure_ok_iff] at h
    obtain ⟨_, _, _, s1, hs1, p1, hp1, _, t, ht, d, hd, ⟨l, u2⟩, hr, rfl⟩ := h
    obtain ⟨p, p', u, hp, hp', hu, rfl⟩ := updateSome_ok hs1
    simp only [upd_same, Option.some.injEq] at hp1
    subst hp1
    refine ⟨rfl, fun k' hk => ?_, fun k' hk => ?_, fun v hv => ?_, fun q hq => ?_⟩
    · exact upd2_key _ hk _ _
    · exact upd2_key _ hk _ _
    · have hv' : v ≠ w := by rintro rfl; exact hv rfl
      exact upd2_user _ hv' _ _
    · have : s.pools k = some q := hq
      rw [hp] at this; cases this
      refine ⟨_, upd_same _ _ _, ?_⟩
      rw [(update_fresh hp').index_total, update_ok hp']
  | redeem k w =>
    simp only [exec, redeem, bind_ok_iff, okOr_ok_iff, pure_ok_iff] at h
    obtain ⟨p, hp, t, ht, l, hl, rfl⟩ := h
    refine ⟨rfl, fun k' hk => rfl, fun k' hk => ?_, fun v hv => ?_, fun q hq => ⟨q, hq, rfl⟩⟩
    · exact upd_of_ne _ _ hk
    · have hv' : v ≠ w := by rintro rfl; exact hv rfl
      exact upd1_user _ hv' _
  | claim k w =>
    simp only [exec, claim, bind_ok_iff, okOr_ok_iff, ensure_ok_iff, exists_const, pure_ok_iff] at h
    obtain ⟨_, s1, hs1, ⟨l, u2⟩, hl, rfl⟩ := h
    obtain ⟨p, p', u, hp, hp', hu, rfl⟩ := updateSome_ok hs1
    refine ⟨rfl, fun k' hk => upd_of_ne _ _ hk, fun k' hk => ?_, fun v hv => ?_, fun q hq => ?_⟩
    · exact upd2_key _ hk _ _
    · have hv' : v ≠ w := by rintro rfl; exact hv rfl
      exact upd2_user _ hv' _ _
    · have : s.pools k = some q := hq
      rw [hp] at this; cases this
      refine ⟨_, upd_same _ _ _, ?_⟩
      rw [(update_fresh hp').index, update_ok hp']
  | dispatch k w m d =>
    obtain ⟨p, p', rate, l, hp, hp', hr, hl, rfl⟩ := dispatch_ok h
    refine ⟨rfl, fun k' hk => ?_, fun _ _ => rfl, fun _ _ => rfl, fun q hq => ?_⟩
    · exact upd_of_ne _ _ hk
    · have : s.pools k = some q := hq
      rw [hp] at this; cases this
      refine ⟨_, upd_same _ _ _, ?_⟩
      have : Fresh { p' with duration := d, finish := s.now + d, rate := rate, last := s.now } s.now := by
        show s.now = min (s.now + d) s.now; omega
      rw [this.index, update_ok hp']

/-! ## C88: administration and locks -/

/-- C88 (a): a pool is created exactly if it does not exist yet and its lock and cool-down are within the limits; it
starts empty and inactive. -/
theorem C88_create {c : Cfg} {s : State} {k : Key} {cool : Nat} :
    ((∃ s', create c s k cool = .ok s') ↔ s.pools k = none ∧ k.lock ≤ c.lockMax ∧ cool ≤ c.coolMax) ∧
    ∀ s', create c s k cool = .ok s' → s'.pos = s.pos ∧ s'.ledger = s.ledger ∧
      (∀ k', k' ≠ k → s'.pools k' = s.pools k') ∧
      ∃ p, s'.pools k = some p ∧ p.active = false ∧ p.total = 0 ∧ p.cool = cool ∧ p.unlock = 0 ∧ p.rate = 0 ∧ p.rps = 0 := by
  constructor
  · unfold create
    simp only [bind_ok_iff, ensure_ok_iff, exists_const, pure_ok_iff, Option.isNone_iff_eq_none]
    constructor
    · rintro ⟨_, h1, h2, h3, _⟩; exact ⟨h1, h2, h3⟩
    · rintro ⟨h1, h2, h3⟩; exact ⟨_, h1, h2, h3, rfl⟩
  · intro s' h
    unfold create at h
    simp only [bind_ok_iff, ensure_ok_iff, exists_const, pure_ok_iff] at h
    obtain ⟨_, _, _, rfl⟩ := h
    exact ⟨rfl, rfl, fun k' hk => upd_of_ne _ _ hk, _, upd_same _ _ _, rfl, rfl, rfl, rfl, rfl, rfl⟩

/-- C88 (b): the three settings of a pool change only if the request changes them (the unlock height: only after the
current lock has run out) and then exactly as requested, leaving stake, rewards and balances alone. -/
theorem C88_settings {c : Cfg} {s s' : State} {k : Key} :
    (∀ b, exec c s (.setStatus k b) = .ok s' → ∃ p, s.pools k = some p ∧ p.active ≠ b ∧
      s'.pools k = some { p with active := b } ∧ s'.pos = s.pos ∧ s'.ledger = s.ledger) ∧
    (∀ x, exec c s (.setCool k x) = .ok s' → ∃ p, s.pools k = some p ∧ p.cool ≠ x ∧ x ≤ c.coolMax ∧
      s'.pools k = some { p with cool := x } ∧ s'.pos = s.pos ∧ s'.ledger = s.ledger) ∧
    (exec c s (.resetUnlock k) = .ok s' → ∃ p, s.pools k = some p ∧ p.unlock < s.now ∧
      s'.pools k = some { p with unlock := s.now + k.lock } ∧ s'.pos = s.pos ∧ s'.ledger = s.ledger) := by
  refine ⟨fun b h => ?_, fun x h => ?_, fun h => ?_⟩
  · simp only [exec, setStatus, bind_ok_iff, okOr_ok_iff, ensure_ok_iff, exists_const, pure_ok_iff] at h
    obtain ⟨p, hp, h1, rfl⟩ := h
    exact ⟨p, hp, h1, upd_same _ _ _, rfl, rfl⟩
  · simp only [exec, setCool, bind_ok_iff, okOr_ok_iff, ensure_ok_iff, exists_const, pure_ok_iff] at h
    obtain ⟨h0, p, hp, h1, rfl⟩ := h
    exact ⟨p, hp, h1, h0, upd_same _ _ _, rfl, rfl⟩
  · simp only [exec, resetUnlock, bind_ok_iff, okOr_ok_iff, ensure_ok_iff, exists_const, pure_ok_iff] at h
    obtain ⟨p, hp, h1, _, rfl⟩ := h
    exact ⟨p, hp, h1, upd_same _ _ _, rfl, rfl⟩

/-- C88 (c): and they are accepted whenever those conditions hold. -/
theorem C88_settings_accepted {c : Cfg} {s : State} {k : Key} {p : Pool} (hp : s.pools k = some p) :
    (∀ b, p.active ≠ b → ∃ s', exec c s (.setStatus k b) = .ok s') ∧
    (∀ x, p.cool ≠ x → x ≤ c.coolMax → ∃ s', exec c s (.setCool k x) = .ok s') ∧
    (p.unlock < s.now → s.now + k.lock ≤ maxU32 → ∃ s', exec c s (.resetUnlock k) = .ok s') := by
  refine ⟨fun b h => ?_, fun x h hx => ?_, fun h hx => ?_⟩
  · simp only [exec, setStatus, bind_ok_iff, okOr_ok_iff, ensure_ok_iff, exists_const, pure_ok_iff]
    exact ⟨_, p, hp, h, rfl⟩
  · simp only [exec, setCool, bind_ok_iff, okOr_ok_iff, ensure_ok_iff, exists_const, pure_ok_iff]
    exact ⟨_, hx, p, hp, h, rfl⟩
  · simp only [exec, resetUnlock, bind_ok_iff, okOr_ok_iff, ensure_ok_iff, exists_const, pure_ok_iff]
    exact ⟨_, p, hp, h, hx, rfl⟩

/-- The bounds on locks. -/
structure LockInv (c : Cfg) (s : State) : Prop where
  pool : ∀ k p, s.pools k = some p → k.lock ≤ c.lockMax ∧ p.cool ≤ c.coolMax ∧ p.unlock ≤ s.now + k.lock
  item : ∀ k w, ∀ it ∈ (s.pos k w).items, it.2 ≤ s.now

theorem LockInv.call {c : Cfg} {s s' : State} (hi : LockInv c s) {call : Call} (h : exec c s call = .ok s') :
    LockInv c s' := by
  have e := exec_eff h
  have hother : ∀ k, k ≠ call.key → (∀ p, s'.pools k = some p →
      k.lock ≤ c.lockMax ∧ p.cool ≤ c.coolMax ∧ p.unlock ≤ s'.now + k.lock) := by
    intro k hk p hp; rw [e.pools k hk] at hp; rw [e.now]; exact hi.pool k p hp
  have hitem : ∀ k w, (k ≠ call.key ∨ call.user ≠ some w) → ∀ it ∈ (s'.pos k w).items, it.2 ≤ s'.now := by
    intro k w hkw it hit
    rw [e.now]
    by_cases hk : k = call.key
    · subst hk
      rw [e.posU w (by tauto)] at hit
      exact hi.item _ w it hit
    · rw [e.posK k hk] at hit; exact hi.item k w it hit
  suffices hs : (∀ p, s'.pools call.key = some p →
      call.key.lock ≤ c.lockMax ∧ p.cool ≤ c.coolMax ∧ p.unlock ≤ s.now + call.key.lock) ∧
      ∀ w, call.user = some w → ∀ it ∈ (s'.pos call.key w).items, it.2 ≤ s.now by
    refine ⟨fun k p hp => ?_, fun k w it hit => ?_⟩
    · by_cases hk : k = call.key
      · subst hk; rw [e.now]; exact hs.1 p hp
      · exact hother k hk p hp
    · by_cases hk : k ≠ call.key ∨ call.user ≠ some w
      · exact hitem k w hk it hit
      · push Not at hk
        obtain ⟨rfl, hu⟩ := hk
        rw [e.now]; exact hs.2 w hu it hit
  clear hother hitem e
  have hpool := hi.pool
  have hit0 := hi.item
  cases call with
  | create k cool =>
    simp only [exec, create, bind_ok_iff, ensure_ok_iff, exists_const, pure_ok_iff] at h
    obtain ⟨_, h1, h2, rfl⟩ := h
    refine ⟨fun p hp => ?_, fun w hw => by cases hw⟩
    have : upd s.pools k _ k = some p := hp
    rw [upd_same] at this; cases this
    exact ⟨h1, h2, Nat.zero_le _⟩
  | setStatus k b =>
    obtain ⟨p, hp, _, h2, h3, _⟩ := C88_settings.1 b h
    refine ⟨fun q hq => ?_, fun w hw => by cases hw⟩
    have : s'.pools k = some q := hq
    rw [h2] at this; cases this
    exact hpool k p hp
  | setCool k x =>
    obtain ⟨p, hp, _, hx, h2, h3, _⟩ := C88_settings.2.1 x h
    refine ⟨fun q hq => ?_, fun w hw => by cases hw⟩
    have : s'.pools k = some q := hq
    rw [h2] at this; cases this
    exact ⟨(hpool k p hp).1, hx, (hpool k p hp).2.2⟩
  | resetUnlock k =>
    obtain ⟨p, hp, _, h2, h3, _⟩ := C88_settings.2.2 h
    refine ⟨fun q hq => ?_, fun w hw => by cases hw⟩
    have : s'.pools k = some q := hq
    rw [h2] at this; cases this
    exact ⟨(hpool k p hp).1, (hpool k p hp).2.1, Nat.le_refl _⟩
  | deposit k w m =>
    simp only [exec, deposit, bind_ok_iff, okOr_ok_iff, ensure_ok_iff, exists_const, pure_ok_iff] at h
    obtain ⟨_, _, s1, hs1, p1, hp1, _, l, hl, t, ht, d, hd, rfl⟩ := h
    obtain ⟨p, p', u, hp, hp', hu, rfl⟩ := updateSome_ok hs1
    simp only [upd_same, Option.some.injEq] at hp1
    subst hp1
    obtain ⟨_, e2, _⟩ := settle_keeps hu
    have := hpool k p hp
    refine ⟨fun q hq => ?_, fun v hv it hit => ?_⟩
    · have hq' : upd (upd s.pools k _) k _ k = some q := hq
      rw [upd_same] at hq'; cases hq'
      rw [update_ok hp']; exact this
    · cases hv
      have hit' : it ∈ (upd (upd s.pos k (upd (s.pos k) w u)) k _ k w).items := hit
      simp only [upd_same] at hit'
      rw [e2] at hit'
      exact hit0 k w it hit'
  | withdraw k w m =>
    simp only [exec, withdraw, bind_ok_iff, okOr_ok_iff, ensure_ok_iff, exists_const, pure_ok_iff] at h
    obtain ⟨_, _, _, s1, hs1, p1, hp1, _, t, ht, d, hd, ⟨l, u2⟩, hr, rfl⟩ := h
    obtain ⟨p, p', u, hp, hp', hu, rfl⟩ := updateSome_ok hs1
    simp only [upd_same, Option.some.injEq] at hp1
    subst hp1
    obtain ⟨_, e2, _⟩ := settle_keeps hu
    have := hpool k p hp
    refine ⟨fun q hq => ?_, fun v hv it hit => ?_⟩
    · have hq' : upd (upd s.pools k _) k _ k = some q := hq
      rw [upd_same] at hq'; cases hq'
      rw [update_ok hp']; exact this
    · cases hv
      have hit' : it ∈ (upd (upd s.pos k (upd (s.pos k) w u)) k _ k w).items := hit
      simp only [upd_same] at hit' hr
      have hu2 : u2.items = u.items ∨ u2.items = u.items ++ [(m, s.now)] := by
        unfold release at hr
        split_ifs at hr
        · simp only [bind_ok_iff, pure_ok_iff, Prod.mk.injEq] at hr
          obtain ⟨_, _, _, rfl⟩ := hr; exact Or.inl rfl
        · simp only [bind_ok_iff, ensure_ok_iff, exists_const, pure_ok_iff, Prod.mk.injEq] at hr
          obtain ⟨_, _, rfl⟩ := hr; exact Or.inr rfl
      rw [e2] at hu2
      rcases hu2 with hu2 | hu2
      · rw [hu2] at hit'; exact hit0 k w it hit'
      · rw [hu2, List.mem_append, List.mem_singleton] at hit'
        rcases hit' with hit' | rfl
        · exact hit0 k w it hit'
        · exact Nat.le_refl _
  | redeem k w =>
    simp only [exec, redeem, bind_ok_iff, okOr_ok_iff, pure_ok_iff] at h
    obtain ⟨p, hp, t, ht, l, hl, rfl⟩ := h
    refine ⟨fun q hq => hpool k q hq, fun v hv it hit => ?_⟩
    cases hv
    have hit' : it ∈ (upd s.pos k _ k w).items := hit
    simp only [upd_same] at hit'
    exact hit0 k w it (List.mem_of_mem_filter hit')
  | claim k w =>
    simp only [exec, claim, bind_ok_iff, okOr_ok_iff, ensure_ok_iff, exists_const, pure_ok_iff] at h
    obtain ⟨_, s1, hs1, ⟨l, u2⟩, hl, rfl⟩ := h
    obtain ⟨p, p', u, hp, hp', hu, rfl⟩ := updateSome_ok hs1
    obtain ⟨_, e2, _⟩ := settle_keeps hu
    have := hpool k p hp
    refine ⟨fun q hq => ?_, fun v hv it hit => ?_⟩
    · have hq' : upd s.pools k _ k = some q := hq
      rw [upd_same] at hq'; cases hq'
      rw [update_ok hp']; exact this
    · cases hv
      have hit' : it ∈ (upd (upd s.pos k (upd (s.pos k) w u)) k _ k w).items := hit
      simp only [upd_same] at hit' hl
      have hu2 : u2.items = u.items := by
        unfold payReward at hl
        split_ifs at hl
        · simp only [bind_ok_iff, pure_ok_iff, Prod.mk.injEq] at hl
          obtain ⟨_, _, _, rfl⟩ := hl; rfl
        · cases hl; rfl
      rw [hu2, e2] at hit'
      exact hit0 k w it hit'
  | dispatch k w m d =>
    obtain ⟨p, p', rate, l, hp, hp', hr, hl, rfl⟩ := dispatch_ok h
    have := hpool k p hp
    refine ⟨fun q hq => ?_, fun v hv => by cases hv⟩
    have hq' : upd _ k _ k = some q := hq
    rw [upd_same] at hq'; cases hq'
    rw [update_ok hp']; exact this

theorem Reach.lock {c : Cfg} {s : State} (h : Reach c s) : LockInv c s := by
  induction h with
  | init l now hw =>
    exact ⟨(fun _ _ h => by cases h), (fun _ _ it hit => by cases hit)⟩
  | step h hs ih =>
    cases hs with
    | call k hk he => exact ih.call he
    | env e =>
      refine ⟨fun k p hp => ?_, fun k w it hit => ?_⟩
      · rw [e.pools] at hp
        obtain ⟨h1, h2, h3⟩ := ih.pool k p hp
        exact ⟨h1, h2, h3.trans (Nat.add_le_add_right e.time _)⟩
      · rw [e.pos] at hit
        exact (ih.item k w it hit).trans e.time

/-- C88 (d): no stake is ever locked for longer than the limits: in every reachable state every pool unlocks at most
its lock duration from now, which is at most the maximum, and every withdrawn item has matured at the latest the
maximal cool-down from now. -/
theorem C88_locks_bounded {c : Cfg} {s : State} (h : Reach c s) {k : Key} {p : Pool} (hp : s.pools k = some p) :
    p.unlock ≤ s.now + k.lock ∧ k.lock ≤ c.lockMax ∧
    ∀ w, ∀ it ∈ (s.pos k w).items, it.2 + p.cool ≤ s.now + c.coolMax := by
  obtain ⟨h1, h2, h3⟩ := h.lock.pool k p hp
  refine ⟨h3, h1, fun w it hit => ?_⟩
  have := h.lock.item k w it hit
  omega

/-- C88 (e): the errors of the staking calls: no pool, nothing asked, more than deposited, inactive, locked. -/
theorem C88_errors {c : Cfg} {s : State} {k : Key} {w m : Nat} :
    (s.pools k = none → deposit c s k w m = .error .poolDoesNotExist ∧ withdraw c s k w m = .error .poolDoesNotExist ∧
      redeem c s k w = .error .poolDoesNotExist ∧ claim c s k w = .error .poolDoesNotExist ∧
      ∀ d, dispatch c s k w m d = .error .poolDoesNotExist) ∧
    (∀ p s1, s.pools k = some p →
      deposit c s k w 0 = .error .notAValidAmount ∧ withdraw c s k w 0 = .error .notAValidAmount ∧
      (m ≠ 0 → (s.pos k w).dep < m → withdraw c s k w m = .error .depositBalanceLow) ∧
      (updateSome s k w = .ok s1 → m ≠ 0 → p.active = false → deposit c s k w m = .error .poolIsNotActive) ∧
      (updateSome s k w = .ok s1 → m ≠ 0 → m ≤ (s.pos k w).dep → s.now < p.unlock →
        withdraw c s k w m = .error .poolUnderLock)) := by
  constructor
  · intro hn
    simp [deposit, withdraw, redeem, claim, dispatch, hn, ensure, okOr]
  · intro p s1 hp
    refine ⟨by simp [deposit, hp, ensure], by simp [withdraw, hp, ensure], fun h1 h2 => ?_, fun hu h1 h2 => ?_,
      fun hu h1 h2 h3 => ?_⟩
    · have : ¬ m ≤ (s.pos k w).dep := by omega
      simp [withdraw, hp, ensure, h1, this]
    · unfold deposit
      simp only [hp, hu, ensure, h1, Option.isSome_some, ne_eq, not_false_eq_true, if_true, ok_bind]
      obtain ⟨q, q', u, hq, hq', _, rfl⟩ := updateSome_ok hu
      rw [hp] at hq; cases hq
      have ha : q'.active = false := by rw [update_ok hq']; exact h2
      simp [okOr, ha]
    · unfold withdraw
      simp only [hp, hu, ensure, h1, h2, Option.isSome_some, ne_eq, not_false_eq_true, if_true, ok_bind]
      obtain ⟨q, q', u, hq, hq', _, rfl⟩ := updateSome_ok hu
      rw [hp] at hq; cases hq
      have ha : q'.unlock = p.unlock := by rw [update_ok hq']
      have : ¬ q'.unlock ≤ s.now := by omega
      simp [okOr, this]

/-- C88 (f): a deposit into an existing pool whose rewards can be brought up to date succeeds exactly for a positive,
funded amount while the pool is active (and the total stays representable). -/
theorem C88_deposit_iff {c : Cfg} {s s1 : State} (hr : Reach c s) {k : Key} {w m : Nat} {p : Pool} (hp : s.pools k = some p)
    (hu : updateSome s k w = .ok s1) :
    (∃ s', deposit c s k w m = .ok s') ↔
      m ≠ 0 ∧ p.active = true ∧ m ≤ s.ledger.bal k.asset w ∧ p.total + m ≤ maxU128 := by
  obtain ⟨q, q', u, hq, hq', hu', rfl⟩ := updateSome_ok hu
  rw [hp] at hq; cases hq
  have eq' := update_ok hq'
  have hdep : u.dep ≤ p.total := by
    obtain ⟨e1, _⟩ := settle_keeps hu'
    rw [e1]
    obtain ⟨H, B, hi⟩ := hr.inv
    exact (hi.pool k p hp).total.apply w
  unfold deposit
  simp only [hu, hp, bind_ok_iff, ensure_ok_iff, okOr_ok_iff, exists_const, pure_ok_iff, cadd_ok_iff, Option.isSome_some,
    true_and, Except.ok.injEq, exists_eq_left', upd_same, Option.some.injEq]
  constructor
  · rintro ⟨_, h1, h2, l, hl, t, ⟨ht, rfl⟩, d, ⟨_, rfl⟩, _⟩
    rw [eq'] at h2 ht
    exact ⟨h1, h2, Ledger.transfer_le hl, ht⟩
  · rintro ⟨h1, h2, h3, h4⟩
    obtain ⟨l, hl⟩ := Ledger.transfer_succeeds (l := s.ledger) (a := k.asset) (s := w) (d := c.acct k.asset) (m := m)
      (k := false) h3 (by simp)
    refine ⟨_, h1, ?_, l, hl, _, ⟨?_, rfl⟩, _, ⟨?_, rfl⟩, rfl⟩
    · rw [eq']; exact h2
    · rw [eq']; exact h4
    · omega

example : ∃ p, ex1.pools exK = some p ∧ p.active = true ∧ p.cool = 10 ∧ Reach exCfg ex1 := by
  have h : (ex1.pools exK).any (fun p => p.active && p.cool == 10) = true := by decide +kernel
  cases hp : ex1.pools exK with
  | none => rw [hp] at h; cases h
  | some p => rw [hp] at h; simp at h; exact ⟨p, rfl, h.1, h.2, ex1_reach⟩

/-! ## C89: fair rewards -/

/-- C89 (a): a call never changes the pools or positions it does not address, nor the position of any other user. -/
theorem C89_isolated {c : Cfg} {s s' : State} {call : Call} (h : exec c s call = .ok s') :
    (∀ k, k ≠ call.key → s'.pools k = s.pools k ∧ ∀ w, s'.pos k w = s.pos k w) ∧
    (∀ k w, call.user ≠ some w → s'.pos k w = s.pos k w) := by
  have e := exec_eff h
  refine ⟨fun k hk => ⟨e.pools k hk, fun w => by rw [e.posK k hk]⟩, fun k w hw => ?_⟩
  by_cases hk : k = call.key
  · subst hk; exact e.posU w hw
  · rw [e.posK k hk]

/-- Any history in which the users in `idle` do not act on pool `k`; everybody else may do anything. -/
inductive Meanwhile (c : Cfg) (k : Key) (idle : Nat → Prop) : State → State → Prop
  | refl (s : State) : Meanwhile c k idle s s
  | call {s s1 s2 : State} (h : Meanwhile c k idle s s1) (call : Call)
      (hk : call.key = k → ∀ w, call.user = some w → ¬ idle w) (he : exec c s1 call = .ok s2) :
      Meanwhile c k idle s s2
  | env {s s1 s2 : State} (h : Meanwhile c k idle s s1) (he : Env c s1 s2) : Meanwhile c k idle s s2

theorem index_mono {p : Pool} {t t' : Nat} (h : t ≤ t') : p.index t ≤ p.index t' := by
  unfold Pool.index
  split_ifs
  · exact Nat.le_refl _
  · refine Nat.add_le_add_left (Nat.div_le_div_right ?_) _
    exact Nat.mul_le_mul_right _ (Nat.mul_le_mul_right _ (by omega))

theorem meanwhile_spec {c : Cfg} {k : Key} {idle : Nat → Prop} {s s' : State} (h : Meanwhile c k idle s s') :
    (∀ w, idle w → s'.pos k w = s.pos k w) ∧
    ∀ p, s.pools k = some p → ∃ p', s'.pools k = some p' ∧ p.index s.now ≤ p'.index s'.now := by
  induction h with
  | refl => exact ⟨fun _ _ => rfl, fun p hp => ⟨p, hp, Nat.le_refl _⟩⟩
  | call h call hk he ih =>
    have e := exec_eff he
    refine ⟨fun w hw => ?_, fun p hp => ?_⟩
    · rw [← ih.1 w hw]
      by_cases hkk : call.key = k
      · subst hkk
        exact e.posU w (fun hu => hk rfl w hu hw)
      · rw [e.posK k (Ne.symm hkk)]
    · obtain ⟨p1, h1, h2⟩ := ih.2 p hp
      by_cases hkk : call.key = k
      · subst hkk
        obtain ⟨p2, h3, h4⟩ := e.index p1 h1
        exact ⟨p2, h3, by rw [e.now, h4]; exact h2⟩
      · refine ⟨p1, by rw [e.pools k (Ne.symm hkk)]; exact h1, by rw [e.now]; exact h2⟩
  | env h he ih =>
    refine ⟨fun w hw => by rw [he.pos]; exact ih.1 w hw, fun p hp => ?_⟩
    obtain ⟨p1, h1, h2⟩ := ih.2 p hp
    exact ⟨p1, by rw [he.pools]; exact h1, h2.trans (index_mono he.time)⟩

/-- C89 (b): rewards are shared in proportion to stake: over any history whatsoever, there is one number `G` (the
growth of the pool's reward index) such that everyone who did not act in between and was settled at the same index
has earned exactly `⌊stake·G/10^12⌋` on top of what he had. -/
theorem C89_proportional {c : Cfg} {k : Key} {idle : Nat → Prop} {s s' : State} {p : Pool} {r : Nat}
    (hp : s.pools k = some p) (h : Meanwhile c k idle s s') :
    ∃ G, ∀ w, idle w → (s.pos k w).paid = r →
      claimable s' k w = (s.pos k w).reward + (s.pos k w).dep * G / APS := by
  obtain ⟨h1, h2⟩ := meanwhile_spec h
  obtain ⟨p', hp', _⟩ := h2 p hp
  refine ⟨p'.index s'.now - r, fun w hw hr => ?_⟩
  unfold claimable
  rw [hp']
  simp only [h1 w hw, hr]

/-- C89 (c): in particular equals are treated equally, and more stake never earns less. -/
theorem C89_equal_treatment {c : Cfg} {k : Key} {idle : Nat → Prop} {s s' : State} {v w : Nat}
    (h : Meanwhile c k idle s s') (hv : idle v) (hw : idle w) (hpaid : (s.pos k v).paid = (s.pos k w).paid)
    (hrew : (s.pos k v).reward = (s.pos k w).reward) (hdep : (s.pos k v).dep ≤ (s.pos k w).dep) :
    claimable s' k v ≤ claimable s' k w ∧
    ((s.pos k v).dep = (s.pos k w).dep → claimable s' k v = claimable s' k w) := by
  obtain ⟨h1, _⟩ := meanwhile_spec h
  unfold claimable
  cases s'.pools k with
  | none => exact ⟨Nat.le_refl _, fun _ => rfl⟩
  | some p =>
    simp only [h1 v hv, h1 w hw, hpaid, hrew]
    exact ⟨Nat.add_le_add_left (Nat.div_le_div_right (Nat.mul_le_mul_right _ hdep)) _, fun e => by rw [e]⟩

/-- C89 (d): nothing anybody else does takes away an earned reward. -/
theorem C89_never_shrinks {c : Cfg} {k : Key} {idle : Nat → Prop} {s s' : State} (h : Meanwhile c k idle s s') {w : Nat}
    (hw : idle w) : claimable s k w ≤ claimable s' k w := by
  obtain ⟨h1, h2⟩ := meanwhile_spec h
  cases hp : s.pools k with
  | none => simp [claimable, hp]
  | some p =>
    obtain ⟨p', hp', hle⟩ := h2 p hp
    unfold claimable
    rw [hp, hp']
    simp only [h1 w hw]
    exact Nat.add_le_add_left (Nat.div_le_div_right (Nat.mul_le_mul_left _ (by omega))) _

theorem div_add_le (a b n : Nat) : a / n + b / n ≤ (a + b) / n := by
  rcases Nat.eq_zero_or_pos n with rfl | hn
  · simp
  · rw [Nat.le_div_iff_mul_le hn, Nat.add_mul]
    exact Nat.add_le_add (Nat.div_mul_le_self _ _) (Nat.div_mul_le_self _ _)

/-- C89 (e): claiming more often never earns more: what is claimed now plus what can be claimed at a later block is at
most what could be claimed at that block without the claim in between. -/
theorem C89_no_gain_from_claiming {c : Cfg} {s s1 : State} (hr : Reach c s) {k : Key} {w t : Nat}
    (h : claim c s k w = .ok s1) :
    claimable s k w + claimable { s1 with now := s.now + t } k w ≤ claimable { s with now := s.now + t } k w := by
  obtain ⟨s2, l, hs1, hl, rfl⟩ := claim_ok h
  obtain ⟨p, p', u, hp, hp', hu, rfl⟩ := updateSome_ok hs1
  obtain ⟨hpd, rfl⟩ := settle_ok hu
  have hf := update_fresh hp'
  obtain ⟨H, B, hi⟩ := hr.inv
  have hpk := hi.pool k p hp
  have hpaid : (s.pos k w).paid ≤ p.rps := hpk.paid w
  have hlF := hpk.lastF
  have hlN := hpk.lastN
  simp only [claimable, hp, upd_same, Nat.zero_add, hf.index] at hpd ⊢
  have e' := update_ok hp'
  -- the index after the claim, at the later block, is at most the index without it
  have hidx : p'.index (s.now + t) ≤ p.index (s.now + t) := by
    rw [e']
    unfold Pool.index
    split_ifs with h0
    · exact Nat.le_refl _
    · simp only
      rw [Nat.add_assoc]
      refine Nat.add_le_add_left ((div_add_le _ _ _).trans (Nat.div_le_div_right (Nat.le_of_eq ?_))) _
      rw [← Nat.add_mul, ← Nat.add_mul]
      congr 2
      omega
  have hge : p'.rps ≤ p'.index (s.now + t) := index_ge _ _
  have hr1 : p'.rps = p.index s.now := by rw [e']
  rw [← hr1] at *
  rw [Nat.add_assoc]
  refine Nat.add_le_add_left ((div_add_le _ _ _).trans (Nat.div_le_div_right ?_)) _
  rw [← Nat.mul_add]
  refine Nat.mul_le_mul_left _ ?_
  omega

-- ten blocks of 100 units per block for the only staker, while user 8 joins and leaves the next ten to be shared
example : claimable ex2 exK 7 = 1000 ∧ okAnd (deposit exCfg ex2 exK 8 300) (fun s =>
    claimable (later s 10) exK 7 = 1250 ∧ claimable (later s 10) exK 8 = 750) = true := by decide +kernel

end Verif.Farming
