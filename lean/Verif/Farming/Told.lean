import Verif.Farming.Props3

set_option linter.unusedSimpArgs false

/-!
# C240: the events of farming tell what happened

`execE` is `exec` (Farming/Model.lean) that also returns the deposited events, all nine kinds; `C240_same` says that the
two agree.  Events of other pallets (`pallet_assets` deposits its own for every transfer) are not modelled.
-/

namespace Verif.Farming
open Verif Finset

/-- `Event` (`pallets/farming/src/lib.rs:137-178`), fields in the order of the source. -/
inductive Ann where
  | added (k : Key)
  | status (k : Key) (b : Bool)
  | cool (k : Key) (d : Nat)
  | unlock (k : Key) (h : Nat)
  | deposited (who : Nat) (k : Key) (amount : Nat)
  | withdrew (who : Nat) (k : Key) (amount : Nat)
  | redeemed (who : Nat) (k : Key) (amount : Nat)
  | rewardPaid (who : Nat) (k : Key) (amount : Nat)
  | rewardAdded (k : Key) (amount : Nat)
deriving DecidableEq

/-- `redeem` with its event (`pallets/farming/src/lib.rs:558-602`): the total of the matured items is announced. -/
def redeemE (c : Cfg) (s : State) (k : Key) (who : Nat) : R (State × List Ann) := do
  let p ← okOr (s.pools k) .poolDoesNotExist
  let u := s.pos k who
  let total ← sumMatured p.cool s.now 0 u.items
  let u := { u with items := u.items.filter (fun it => !matured p.cool s.now it) }
  let l ← payIf s.ledger k.asset (c.acct k.asset) who total
  pure ({ s with
    ledger := l,
    pos := upd s.pos k (upd (s.pos k) who u),
    events := s.events ++ [.redeemed who k total] }, [Ann.redeemed who k total])

/-- `claim` with its event (`pallets/farming/src/lib.rs:614-655`): the settled reward, read before it is reset. -/
def claimE (c : Cfg) (s : State) (k : Key) (who : Nat) : R (State × List Ann) := do
  ensure ((s.pools k).isSome) .poolDoesNotExist
  let s ← updateSome s k who
  let (l, u) ← payReward c s.ledger k (s.pos k who) who
  pure ({ s with
    ledger := l,
    pos := upd s.pos k (upd (s.pos k) who u),
    events := s.events ++ [.rewardPaid who k (s.pos k who).reward] }, [Ann.rewardPaid who k (s.pos k who).reward])

/-- Dispatch of a call, with the events it deposits: one each, at the end of its work
(`pallets/farming/src/lib.rs:262, 294, 341, 383, 447, 536, 592, 645, 736`). -/
def execE (c : Cfg) (s : State) : Call → R (State × List Ann)
  | .create k cool => do
    let s ← create c s k cool
    pure (s, [Ann.added k])
  | .setStatus k b => do
    let s ← setStatus s k b
    pure (s, [Ann.status k b])
  | .setCool k cool => do
    let s ← setCool c s k cool
    pure (s, [Ann.cool k cool])
  | .resetUnlock k => do
    let s ← resetUnlock s k
    pure (s, [Ann.unlock k (s.now + k.lock)])
  | .deposit k w m => do
    let s ← deposit c s k w m
    pure (s, [Ann.deposited w k m])
  | .withdraw k w m => do
    let s ← withdraw c s k w m
    pure (s, [Ann.withdrew w k m])
  | .redeem k w => redeemE c s k w
  | .claim k w => claimE c s k w
  | .dispatch k w m d => do
    let s ← dispatch c s k w m d
    pure (s, [Ann.rewardAdded k m])

/-! ## Specification -/

/-- What an observer notes down about a pool.  `PoolAdded` does not say the cool-down: it is unknown until it is changed. -/
structure Page where
  active : Bool
  unlock : Nat
  cool : Option Nat
  total : Nat

/-- The observer's notes: the pools, and everybody's stake in them. -/
structure Notes where
  pools : Key → Option Page
  stake : Key → Nat → Nat

/-- Amend the page of a pool. -/
def Notes.amend (n : Notes) (k : Key) (f : Page → Page) : Notes := { n with pools := upd n.pools k ((n.pools k).map f) }

/-- Amend somebody's stake. -/
def Notes.restake (n : Notes) (k : Key) (w v : Nat) : Notes := { n with stake := upd n.stake k (upd (n.stake k) w v) }

/-- An observer who sees only the events, and takes them at their word. -/
def Notes.see (n : Notes) : Ann → Notes
  | .added k => { n with pools := upd n.pools k (some ⟨false, 0, none, 0⟩) }
  | .status k b => n.amend k (fun g => { g with active := b })
  | .cool k d => n.amend k (fun g => { g with cool := some d })
  | .unlock k h => n.amend k (fun g => { g with unlock := h })
  | .deposited w k m => (n.amend k (fun g => { g with total := g.total + m })).restake k w (n.stake k w + m)
  | .withdrew w k m => (n.amend k (fun g => { g with total := g.total - m })).restake k w (n.stake k w - m)
  | _ => n

/-- The notes after a list of events, starting with an empty page. -/
def Notes.after (es : List Ann) : Notes := es.foldl Notes.see ⟨fun _ => none, fun _ _ => 0⟩

/-- A page is right about a pool. -/
structure Page.Right (g : Page) (p : Pool) : Prop where
  active : p.active = g.active
  unlock : p.unlock = g.unlock
  cool : ∀ d, g.cool = some d → p.cool = d
  total : p.total = g.total

/-- The pools noted are those there are, and the pages are right. -/
def Fits : Option Page → Option Pool → Prop
  | none, none => True
  | some g, some p => g.Right p
  | _, _ => False

/-- Histories with the events of all calls, in order. -/
inductive Told (c : Cfg) : State → List Ann → Prop
  | init (l : Ledger) (now : Nat) : Told c ⟨l, fun _ => none, fun _ _ => Pos.default, now, []⟩ []
  | call {s s' : State} {es fs : List Ann} (h : Told c s es) (x : Call) (hx : execE c s x = .ok (s', fs)) : Told c s' (es ++ fs)
  | env {s s' : State} {es : List Ann} (h : Told c s es) (e : Env c s s') : Told c s' es

/-- The pool an event is about. -/
def Ann.key : Ann → Key
  | .added k => k
  | .status k _ => k
  | .cool k _ => k
  | .unlock k _ => k
  | .deposited _ k _ => k
  | .withdrew _ k _ => k
  | .redeemed _ k _ => k
  | .rewardPaid _ k _ => k
  | .rewardAdded k _ => k

/-- The user an event is about. -/
def Ann.user : Ann → Option Nat
  | .deposited w _ _ => some w
  | .withdrew w _ _ => some w
  | .redeemed w _ _ => some w
  | .rewardPaid w _ _ => some w
  | _ => none

/-- The pool pays withdrawn stake out at once. -/
def AtOnce (s : State) (k : Key) : Prop := ∀ p, s.pools k = some p → p.cool = 0

/-- How much of asset `x` an event says `w` has paid. -/
def Ann.paid (x w : Nat) : Ann → Nat
  | .deposited v k m => if w = v ∧ x = k.asset then m else 0
  | _ => 0

open Classical in
/-- How much of asset `x` an event says `w` has received, for a reader who knows which pools pay out at once. -/
noncomputable def Ann.got (s : State) (x w : Nat) : Ann → Nat
  | .withdrew v k m => if w = v ∧ x = k.asset ∧ AtOnce s k then m else 0
  | .redeemed v k m => if w = v ∧ x = k.asset then m else 0
  | .rewardPaid v k m => if w = v ∧ x = k.reward then m else 0
  | _ => 0

open Classical in
/-- How much stake of `w` an event sets cooling. -/
noncomputable def Ann.cools (s : State) (k : Key) (w : Nat) : Ann → Nat
  | .withdrew v j m => if w = v ∧ k = j ∧ ¬ AtOnce s j then m else 0
  | _ => 0

/-- How much of the cooling stake of `w` an event says has been taken out. -/
def Ann.takes (k : Key) (w : Nat) : Ann → Nat
  | .redeemed v j m => if w = v ∧ k = j then m else 0
  | _ => 0

/-- What else an event says: `s` is the state before the call, `s'` the one after it. -/
def Ann.holds (s s' : State) : Ann → Prop
  | .added k => s.pools k = none ∧ (s'.pools k).isSome
  | .unlock k h => h = s.now + k.lock
  | .withdrew w k m => m ≤ (s.pos k w).dep
  | .redeemed w k m => ∃ p, s.pools k = some p ∧
      m = (((s.pos k w).items.filter (fun it => decide (min maxU32 (it.2 + p.cool) ≤ s.now))).map Prod.fst).sum ∧
      (s'.pos k w).items = (s.pos k w).items.filter (fun it => decide (s.now < min maxU32 (it.2 + p.cool)))
  | .rewardPaid w k m => m = claimable s k w ∧ claimable s' k w = 0
  | _ => True

/-! ## Proofs -/

theorem map_fst_pure {α : Type} (x : R α) (f : α → List Ann) : Prod.fst <$> (do let s ← x; pure (s, f s)) = x := by
  cases x <;> rfl

/-- **C240** (same) The events are additional: acceptance, errors and the new state are those of `exec`. -/
theorem C240_same (c : Cfg) (s : State) (x : Call) : Prod.fst <$> execE c s x = exec c s x := by
  cases x with
  | redeem k w => simp only [execE, exec, redeemE, redeem, map_bind, map_pure]
  | claim k w =>
    simp only [execE, exec, claimE, claim, map_bind, map_pure]
  | _ => exact map_fst_pure _ _

/-- The event log of the model (used by C27) records the same amounts. -/
def Ann.logged : Ann → List Event
  | .deposited w k m => [.deposited w k m]
  | .withdrew w k m => [.withdrew w k m]
  | .redeemed w k m => [.redeemed w k m]
  | .rewardPaid w k m => [.rewardPaid w k m]
  | .rewardAdded k m => [.rewardAdded k m]
  | _ => []

/-- A call with its event: what it does, and what it announces. -/
theorem execE_cases {c : Cfg} {s s' : State} {x : Call} {es : List Ann} (h : execE c s x = .ok (s', es)) :
    exec c s x = .ok s' ∧ ∃ e, es = [e] ∧ s'.events = s.events ++ e.logged ∧
      match x with
      | .create k _ => e = .added k
      | .setStatus k b => e = .status k b
      | .setCool k d => e = .cool k d
      | .resetUnlock k => e = .unlock k (s'.now + k.lock)
      | .deposit k w m => e = .deposited w k m
      | .withdraw k w m => e = .withdrew w k m
      | .redeem k w => ∃ m, e = .redeemed w k m
      | .claim k w => ∃ m, e = .rewardPaid w k m
      | .dispatch k _ m _ => e = .rewardAdded k m := by
  have hs : exec c s x = .ok s' := by rw [← C240_same, h]; rfl
  refine ⟨hs, ?_⟩
  cases x with
  | create k d =>
    simp only [execE, bind_ok_iff, pure_ok_iff, Prod.mk.injEq] at h
    obtain ⟨t, ht, rfl, rfl⟩ := h
    simp only [create, bind_ok_iff, ensure_ok_iff, pure_ok_iff, exists_const] at ht
    obtain ⟨-, -, -, rfl⟩ := ht
    exact ⟨_, rfl, (List.append_nil _).symm, rfl⟩
  | setStatus k b =>
    simp only [execE, bind_ok_iff, pure_ok_iff, Prod.mk.injEq] at h
    obtain ⟨t, ht, rfl, rfl⟩ := h
    simp only [setStatus, bind_ok_iff, ensure_ok_iff, okOr_ok_iff, pure_ok_iff, exists_const] at ht
    obtain ⟨p, -, -, rfl⟩ := ht
    exact ⟨_, rfl, (List.append_nil _).symm, rfl⟩
  | setCool k d =>
    simp only [execE, bind_ok_iff, pure_ok_iff, Prod.mk.injEq] at h
    obtain ⟨t, ht, rfl, rfl⟩ := h
    simp only [setCool, bind_ok_iff, ensure_ok_iff, okOr_ok_iff, pure_ok_iff, exists_const] at ht
    obtain ⟨-, p, -, -, rfl⟩ := ht
    exact ⟨_, rfl, (List.append_nil _).symm, rfl⟩
  | resetUnlock k =>
    simp only [execE, bind_ok_iff, pure_ok_iff, Prod.mk.injEq] at h
    obtain ⟨t, ht, rfl, rfl⟩ := h
    simp only [resetUnlock, bind_ok_iff, ensure_ok_iff, okOr_ok_iff, pure_ok_iff, exists_const] at ht
    obtain ⟨p, -, -, -, rfl⟩ := ht
    exact ⟨_, rfl, (List.append_nil _).symm, rfl⟩
  | deposit k w m =>
    simp only [execE, bind_ok_iff, pure_ok_iff, Prod.mk.injEq] at h
    obtain ⟨t, ht, rfl, rfl⟩ := h
    obtain ⟨-, s1, p, l, hu, -, -, -, rfl⟩ := deposit_ok ht
    obtain ⟨-, -, -, -, -, -, rfl⟩ := updateSome_ok hu
    exact ⟨_, rfl, rfl, rfl⟩
  | withdraw k w m =>
    simp only [execE, bind_ok_iff, pure_ok_iff, Prod.mk.injEq] at h
    obtain ⟨t, ht, rfl, rfl⟩ := h
    obtain ⟨-, -, s1, p, l, u, hu, -, -, -, -, -, rfl⟩ := withdraw_ok ht
    obtain ⟨-, -, -, -, -, -, rfl⟩ := updateSome_ok hu
    exact ⟨_, rfl, rfl, rfl⟩
  | redeem k w =>
    simp only [execE, redeemE, bind_ok_iff, pure_ok_iff, Prod.mk.injEq] at h
    obtain ⟨p, hp, t, ht, l, hl, rfl, rfl⟩ := h
    exact ⟨_, rfl, rfl, t, rfl⟩
  | claim k w =>
    simp only [execE, claimE, bind_ok_iff, pure_ok_iff, Prod.mk.injEq, Prod.exists] at h
    obtain ⟨_, _, s1, hu, l, u, hl, rfl, rfl⟩ := h
    obtain ⟨-, -, -, -, -, -, rfl⟩ := updateSome_ok hu
    exact ⟨_, rfl, rfl, _, rfl⟩
  | dispatch k w m d =>
    simp only [execE, bind_ok_iff, pure_ok_iff, Prod.mk.injEq] at h
    obtain ⟨t, ht, rfl, rfl⟩ := h
    obtain ⟨p, p', r, l, -, -, -, -, rfl⟩ := dispatch_ok ht
    exact ⟨_, rfl, rfl, rfl⟩

theorem snoc_inj {α : Type} {l : List α} {a b : α} (h : l ++ [a] = l ++ [b]) : a = b := by
  simpa using h

/-- The notes are right in a state. -/
def Notes.Good (n : Notes) (s : State) : Prop := (∀ k, Fits (n.pools k) (s.pools k)) ∧ ∀ k w, n.stake k w = (s.pos k w).dep

theorem fits_upd {f : Key → Option Page} {g : Key → Option Pool} (h : ∀ k, Fits (f k) (g k)) {k : Key} {o : Option Page}
    {q : Option Pool} (ho : Fits o q) (j : Key) : Fits (upd f k o j) (upd g k q j) := by
  by_cases e : j = k
  · subst e; simpa using ho
  · rw [upd_of_ne _ _ e, upd_of_ne _ _ e]; exact h j

theorem fits_keep {f : Key → Option Page} {g : Key → Option Pool} (h : ∀ k, Fits (f k) (g k)) {k : Key}
    {q : Option Pool} (ho : Fits (f k) q) (j : Key) : Fits (f j) (upd g k q j) := by
  by_cases e : j = k
  · subst e; simpa using ho
  · rw [upd_of_ne _ _ e]; exact h j

theorem fits_some {o : Option Page} {p : Pool} (h : Fits o (some p)) : ∃ g, o = some g ∧ g.Right p := by
  cases o with
  | none => cases h
  | some g => exact ⟨g, rfl, h⟩

theorem stake_upd2 {f : Key → Nat → Nat} {g : Key → Nat → Pos} (h : ∀ k w, f k w = (g k w).dep) {k : Key} {w v : Nat} {u u' : Pos}
    (hu : v = u'.dep) (j : Key) (y : Nat) :
    upd f k (upd (f k) w v) j y = (upd (upd g k (upd (g k) w u)) k (upd ((upd g k (upd (g k) w u)) k) w u') j y).dep := by
  by_cases e : j = k
  · subst e
    by_cases e2 : y = w
    · subst e2; simpa using hu
    · simp [upd_of_ne _ _ e2, h]
  · simp [upd_of_ne _ _ e, h]

theorem stake_keep {f : Key → Nat → Nat} {g : Key → Nat → Pos} (h : ∀ k w, f k w = (g k w).dep) {k : Key} {w : Nat} {u : Pos}
    (hu : f k w = u.dep) (j : Key) (y : Nat) : f j y = (upd g k (upd (g k) w u) j y).dep := by
  by_cases e : j = k
  · subst e
    by_cases e2 : y = w
    · subst e2; simpa using hu
    · simp [upd_of_ne _ _ e2, h]
  · simp [upd_of_ne _ _ e, h]

theorem execE_good {c : Cfg} {s s' : State} {x : Call} {es : List Ann} {n : Notes} (hn : n.Good s)
    (h : execE c s x = .ok (s', es)) : (es.foldl Notes.see n).Good s' := by
  obtain ⟨hs, e, rfl, -, hx⟩ := execE_cases h
  obtain ⟨hp, hq⟩ := hn
  rw [List.foldl_cons, List.foldl_nil]
  cases x with
  | create k d =>
    dsimp only at hx
    subst hx
    simp only [exec, create, bind_ok_iff, ensure_ok_iff, pure_ok_iff, exists_const] at hs
    obtain ⟨-, -, -, rfl⟩ := hs
    refine ⟨fits_upd hp ?_, hq⟩
    exact ⟨rfl, rfl, fun d h => (by cases h), rfl⟩
  | setStatus k b =>
    dsimp only at hx
    subst hx
    simp only [exec, setStatus, bind_ok_iff, ensure_ok_iff, okOr_ok_iff, pure_ok_iff, exists_const] at hs
    obtain ⟨p, hk, -, rfl⟩ := hs
    obtain ⟨g, hg, r⟩ := fits_some (hk ▸ hp k)
    refine ⟨fits_upd hp ?_, hq⟩
    rw [hg]
    exact ⟨rfl, r.unlock, r.cool, r.total⟩
  | setCool k d =>
    dsimp only at hx
    subst hx
    simp only [exec, setCool, bind_ok_iff, ensure_ok_iff, okOr_ok_iff, pure_ok_iff, exists_const] at hs
    obtain ⟨-, p, hk, -, rfl⟩ := hs
    obtain ⟨g, hg, r⟩ := fits_some (hk ▸ hp k)
    refine ⟨fits_upd hp ?_, hq⟩
    rw [hg]
    exact ⟨r.active, r.unlock, fun d h => (by cases h; rfl), r.total⟩
  | resetUnlock k =>
    dsimp only at hx
    subst hx
    simp only [exec, resetUnlock, bind_ok_iff, ensure_ok_iff, okOr_ok_iff, pure_ok_iff, exists_const] at hs
    obtain ⟨p, hk, -, -, rfl⟩ := hs
    obtain ⟨g, hg, r⟩ := fits_some (hk ▸ hp k)
    refine ⟨fits_upd hp ?_, hq⟩
    rw [hg]
    exact ⟨r.active, rfl, r.cool, r.total⟩
  | deposit k w m =>
    dsimp only at hx
    subst hx
    obtain ⟨-, s1, p, l, hu, hk, -, -, rfl⟩ := deposit_ok hs
    obtain ⟨p0, p1, u, hk0, hp1, hu1, rfl⟩ := updateSome_ok hu
    obtain ⟨g, hg, r⟩ := fits_some (hk0 ▸ hp k)
    have e := update_ok hp1
    have hd := (settle_keeps hu1).1
    simp only [upd_same, Option.some.injEq] at hk
    subst hk
    subst e
    constructor
    · intro j
      have := fits_upd hp (k := k) (o := (n.pools k).map (fun g => { g with total := g.total + m }))
        (q := some { p0 with rps := p0.index s.now, last := min p0.finish s.now, total := p0.total + m })
        (by rw [hg]; exact ⟨r.active, r.unlock, r.cool, by show _ = _ + m; rw [← r.total]⟩) j
      rw [← upd_upd s.pools k (some { p0 with rps := p0.index s.now, last := min p0.finish s.now })] at this
      exact this
    · refine stake_upd2 hq ?_
      simp [hd, hq]
  | withdraw k w m =>
    dsimp only at hx
    subst hx
    obtain ⟨-, -, s1, p, l, u', hu, hk, -, -, -, hr, rfl⟩ := withdraw_ok hs
    obtain ⟨p0, p1, u, hk0, hp1, hu1, rfl⟩ := updateSome_ok hu
    obtain ⟨g, hg, r⟩ := fits_some (hk0 ▸ hp k)
    have e := update_ok hp1
    have hd := (settle_keeps hu1).1
    simp only [upd_same, Option.some.injEq] at hk
    subst hk
    subst e
    have hd' : u'.dep = (s.pos k w).dep - m := by
      rcases release_ok hr with ⟨-, -, rfl⟩ | ⟨-, -, -, rfl⟩ <;> simp [hd]
    constructor
    · intro j
      have := fits_upd hp (k := k) (o := (n.pools k).map (fun g => { g with total := g.total - m }))
        (q := some { p0 with rps := p0.index s.now, last := min p0.finish s.now, total := p0.total - m })
        (by rw [hg]; exact ⟨r.active, r.unlock, r.cool, by show _ = _ - m; rw [← r.total]⟩) j
      rw [← upd_upd s.pools k (some { p0 with rps := p0.index s.now, last := min p0.finish s.now })] at this
      exact this
    · refine stake_upd2 hq ?_
      rw [hd', hq]
  | redeem k w =>
    obtain ⟨m, rfl⟩ := hx
    obtain ⟨p, l, hk, -, rfl⟩ := redeem_ok hs
    exact ⟨hp, stake_keep hq (hq k w)⟩
  | claim k w =>
    obtain ⟨m, rfl⟩ := hx
    obtain ⟨s1, l, hu, -, rfl⟩ := claim_ok hs
    obtain ⟨p0, p1, u, hk0, hp1, hu1, rfl⟩ := updateSome_ok hu
    obtain ⟨g, hg, r⟩ := fits_some (hk0 ▸ hp k)
    have e := update_ok hp1
    have hd := (settle_keeps hu1).1
    subst e
    constructor
    · exact fits_keep hp (by rw [hg]; exact ⟨r.active, r.unlock, r.cool, r.total⟩)
    · intro j y
      exact stake_keep (stake_keep hq (u := u) (by rw [hd]; exact hq k w)) (by simp [hd, hq]) j y
  | dispatch k w m d =>
    dsimp only at hx
    subst hx
    obtain ⟨p, p1, r, l, hk0, hp1, -, -, rfl⟩ := dispatch_ok hs
    obtain ⟨g, hg, r⟩ := fits_some (hk0 ▸ hp k)
    have e := update_ok hp1
    subst e
    exact ⟨fits_keep hp (by rw [hg]; exact ⟨r.active, r.unlock, r.cool, r.total⟩), hq⟩

/-- **C240** (notes) Whoever has read all events since the first pool was created knows which pools there are, whether they
take deposits, until when they are locked, how much is staked in each, and by whom; and the cool-down, once it was changed. -/
theorem C240_notes {c : Cfg} {s : State} {es : List Ann} (h : Told c s es) :
    (∀ k, Fits ((Notes.after es).pools k) (s.pools k)) ∧ ∀ k w, (Notes.after es).stake k w = (s.pos k w).dep := by
  induction h with
  | init l now => exact ⟨fun _ => trivial, fun _ _ => rfl⟩
  | call h x hx ih =>
    have := execE_good ih hx
    unfold Notes.after
    rw [List.foldl_append]
    exact this
  | env h e ih => rw [e.pools, e.pos]; exact ih

theorem settle_items {p : Pool} {now : Nat} {u u' : Pos} (h : p.settle now u = .ok u') : u'.cooling = u.cooling := by
  unfold Pos.cooling; rw [(settle_keeps h).2.1]

/-- **C240** (amounts) Every balance of everybody but the pallet's accounts and the payer of a dispatched reward changes
exactly by what the event of the call says was paid and received. -/
theorem C240_amounts {c : Cfg} {s s' : State} {x : Call} {es : List Ann} (h : execE c s x = .ok (s', es)) {a w : Nat}
    (hw : ∀ b, w ≠ c.acct b) (hd : ∀ k m d, x ≠ .dispatch k w m d) :
    s'.ledger.bal a w + (es.map (Ann.paid a w)).sum = s.ledger.bal a w + (es.map (Ann.got s a w)).sum := by
  have hE := h
  obtain ⟨hs, e, rfl, -, hx⟩ := execE_cases h
  have hw' : ∀ b, ¬ (w = c.acct b) := hw
  simp only [List.map_cons, List.map_nil, List.sum_cons, List.sum_nil, Nat.add_zero]
  cases x with
  | create k d =>
    dsimp only at hx
    subst hx
    simp only [exec, create, bind_ok_iff, ensure_ok_iff, pure_ok_iff, exists_const] at hs
    obtain ⟨-, -, -, rfl⟩ := hs
    rfl
  | setStatus k b =>
    dsimp only at hx
    subst hx
    simp only [exec, setStatus, bind_ok_iff, ensure_ok_iff, okOr_ok_iff, pure_ok_iff, exists_const] at hs
    obtain ⟨p, hk, -, rfl⟩ := hs
    rfl
  | setCool k d =>
    dsimp only at hx
    subst hx
    simp only [exec, setCool, bind_ok_iff, ensure_ok_iff, okOr_ok_iff, pure_ok_iff, exists_const] at hs
    obtain ⟨-, p, hk, -, rfl⟩ := hs
    rfl
  | resetUnlock k =>
    dsimp only at hx
    subst hx
    simp only [exec, resetUnlock, bind_ok_iff, ensure_ok_iff, okOr_ok_iff, pure_ok_iff, exists_const] at hs
    obtain ⟨p, hk, -, -, rfl⟩ := hs
    rfl
  | deposit k v m =>
    dsimp only at hx
    subst hx
    obtain ⟨-, s1, p, l, hu, -, -, hl, rfl⟩ := deposit_ok hs
    obtain ⟨p0, p1, u, hk0, hp1, hu1, rfl⟩ := updateSome_ok hu
    have := Ledger.transfer_bal hl a w
    simp only [Ann.paid, Ann.got, hw', and_false, if_false] at this ⊢
    split_ifs at this ⊢ <;> first | omega | (exfalso; tauto)
  | withdraw k v m =>
    dsimp only at hx
    subst hx
    obtain ⟨-, -, s1, p, l, u', hu, hk, -, -, -, hr, rfl⟩ := withdraw_ok hs
    obtain ⟨p0, p1, u, hk0, hp1, hu1, rfl⟩ := updateSome_ok hu
    simp only [upd_same, Option.some.injEq] at hk
    subst hk
    have ec : p1.cool = p0.cool := by rw [update_ok hp1]
    have ea : AtOnce s k ↔ p0.cool = 0 := by
      unfold AtOnce
      rw [hk0]
      exact ⟨fun h => h _ rfl, fun h p hp => by cases hp; exact h⟩
    simp only [Ann.paid, Ann.got, ea]
    rcases release_ok hr with ⟨h0, hl, _⟩ | ⟨h0, _, rfl, _⟩
    · have := Ledger.transfer_bal hl a w
      rw [ec] at h0
      simp only [hw', h0, and_false, and_true, if_false] at this ⊢
      split_ifs at this ⊢ <;> first | omega | (exfalso; tauto)
    · rw [ec] at h0
      simp only [h0, and_false, if_false]
  | redeem k v =>
    simp only [execE, redeemE, bind_ok_iff, pure_ok_iff, Prod.mk.injEq, okOr_ok_iff] at hE
    obtain ⟨p, hp, t, ht, l, hl, rfl, he⟩ := hE
    cases he
    rw [payIf_eq] at hl
    have := Ledger.transfer_bal hl a w
    simp only [Ann.paid, Ann.got, hw', and_false, if_false] at this ⊢
    split_ifs at this ⊢ <;> first | omega | (exfalso; tauto)
  | claim k v =>
    simp only [execE, claimE, bind_ok_iff, pure_ok_iff, Prod.mk.injEq, Prod.exists] at hE
    obtain ⟨_, _, s1, hu, l, u, hl, rfl, he⟩ := hE
    cases he
    obtain ⟨hl, -⟩ := payReward_ok hl
    obtain ⟨p0, p1, u, hk0, hp1, hu1, rfl⟩ := updateSome_ok hu
    have := Ledger.transfer_bal hl a w
    simp only [Ann.paid, Ann.got, hw', and_false, if_false] at this ⊢
    split_ifs at this ⊢ <;> first | omega | (exfalso; tauto)
  | dispatch k v m d =>
    dsimp only at hx
    subst hx
    have hv : ¬ (w = v) := fun e => hd k m d (by rw [e])
    obtain ⟨p, p1, r, l, hk0, hp1, -, hl, rfl⟩ := dispatch_ok hs
    have := Ledger.transfer_bal hl a w
    simp only [Ann.paid, Ann.got, hw', hv, and_false, if_false] at this ⊢
    omega

/-- **C240** (cooling) The stake of a user that is cooling down changes exactly by what the events say was withdrawn from a
pool that does not pay out at once, and what was redeemed. -/
theorem C240_cooling {c : Cfg} {s s' : State} {x : Call} {es : List Ann} (h : execE c s x = .ok (s', es)) (k : Key) (w : Nat) :
    (s'.pos k w).cooling + (es.map (Ann.takes k w)).sum = (s.pos k w).cooling + (es.map (Ann.cools s k w)).sum := by
  have hE := h
  obtain ⟨hs, e, rfl, -, hx⟩ := execE_cases h
  simp only [List.map_cons, List.map_nil, List.sum_cons, List.sum_nil, Nat.add_zero]
  cases x with
  | create k d =>
    dsimp only at hx
    subst hx
    simp only [exec, create, bind_ok_iff, ensure_ok_iff, pure_ok_iff, exists_const] at hs
    obtain ⟨-, -, -, rfl⟩ := hs
    rfl
  | setStatus k b =>
    dsimp only at hx
    subst hx
    simp only [exec, setStatus, bind_ok_iff, ensure_ok_iff, okOr_ok_iff, pure_ok_iff, exists_const] at hs
    obtain ⟨p, hk, -, rfl⟩ := hs
    rfl
  | setCool k d =>
    dsimp only at hx
    subst hx
    simp only [exec, setCool, bind_ok_iff, ensure_ok_iff, okOr_ok_iff, pure_ok_iff, exists_const] at hs
    obtain ⟨-, p, hk, -, rfl⟩ := hs
    rfl
  | resetUnlock k =>
    dsimp only at hx
    subst hx
    simp only [exec, resetUnlock, bind_ok_iff, ensure_ok_iff, okOr_ok_iff, pure_ok_iff, exists_const] at hs
    obtain ⟨p, hk, -, -, rfl⟩ := hs
    rfl
  | deposit j v m =>
    dsimp only at hx
    subst hx
    obtain ⟨-, s1, p, l, hu, -, -, hl, rfl⟩ := deposit_ok hs
    obtain ⟨p0, p1, u, hk0, hp1, hu1, rfl⟩ := updateSome_ok hu
    have e := settle_items hu1
    simp only [Ann.takes, Ann.cools, Nat.add_zero]
    by_cases ek : k = j
    · subst ek
      by_cases ew : w = v
      · subst ew; simpa [Pos.cooling] using e
      · simp [upd_of_ne _ _ ew]
    · simp [upd_of_ne _ _ ek]
  | withdraw j v m =>
    dsimp only at hx
    subst hx
    obtain ⟨-, -, s1, p, l, u', hu, hk, -, -, -, hr, rfl⟩ := withdraw_ok hs
    obtain ⟨p0, p1, u, hk0, hp1, hu1, rfl⟩ := updateSome_ok hu
    simp only [upd_same, Option.some.injEq] at hk
    subst hk
    have ec : p1.cool = p0.cool := by rw [update_ok hp1]
    have ea : AtOnce s j ↔ p0.cool = 0 := by
      unfold AtOnce
      rw [hk0]
      exact ⟨fun h => h _ rfl, fun h p hp => by cases hp; exact h⟩
    have e := settle_items hu1
    simp only [Ann.takes, Ann.cools, Nat.add_zero, ea]
    by_cases ek : k = j
    · subst ek
      by_cases ew : w = v
      · subst ew
        rcases release_ok hr with ⟨h0, -, rfl⟩ | ⟨h0, -, -, rfl⟩
        · rw [ec] at h0
          simpa [Pos.cooling, h0] using e
        · rw [ec] at h0
          simp only [Pos.cooling, upd_same, List.map_append, List.sum_append, List.map_cons, List.map_nil, List.sum_cons,
            List.sum_nil, Nat.add_zero, h0, not_false_eq_true, and_self, if_true] at e ⊢
          rw [e]
      · simp [upd_of_ne _ _ ew, ew]
    · simp [upd_of_ne _ _ ek, ek]
  | redeem j v =>
    simp only [execE, redeemE, bind_ok_iff, pure_ok_iff, Prod.mk.injEq, okOr_ok_iff] at hE
    obtain ⟨p, hp, t, ht, l, hl, rfl, he⟩ := hE
    cases he
    have ht := sumMatured_ok ht
    rw [Nat.zero_add] at ht
    have hsp := split_sum p.cool s.now (s.pos j v).items
    simp only [Ann.takes, Ann.cools, Nat.add_zero]
    by_cases ek : k = j
    · subst ek
      by_cases ew : w = v
      · subst ew
        simp only [Pos.cooling, upd_same, and_self, if_true]
        rw [ht]
        omega
      · simp [upd_of_ne _ _ ew, ew]
    · simp [upd_of_ne _ _ ek, ek]
  | claim j v =>
    obtain ⟨m, rfl⟩ := hx
    obtain ⟨s1, l, hu, -, rfl⟩ := claim_ok hs
    obtain ⟨p0, p1, u, hk0, hp1, hu1, rfl⟩ := updateSome_ok hu
    have e := settle_items hu1
    simp only [Ann.takes, Ann.cools, Nat.add_zero]
    by_cases ek : k = j
    · subst ek
      by_cases ew : w = v
      · subst ew; simpa [Pos.cooling] using e
      · simp [upd_of_ne _ _ ew]
    · simp [upd_of_ne _ _ ek]
  | dispatch k v m d =>
    dsimp only at hx
    subst hx
    obtain ⟨p, p1, r, l, hk0, hp1, -, hl, rfl⟩ := dispatch_ok hs
    rfl

/-- **C240** (facts) Every accepted call deposits exactly one event, about its own pool, and what else the event says is the
case: a new pool is new; the lock ends one lock duration after the current block; the amount redeemed is that of all items
that are due, and these are removed; the reward paid is all that was claimable, and nothing remains.  Pools, and positions
of users, that are not mentioned do not change. -/
theorem C240_facts {c : Cfg} {s s' : State} {x : Call} {es : List Ann} (h : execE c s x = .ok (s', es)) :
    es.length = 1 ∧ (∀ e ∈ es, e.holds s s') ∧
    (∀ k, (∀ e ∈ es, e.key ≠ k) → s'.pools k = s.pools k) ∧
    ∀ k w, (∀ e ∈ es, e.key ≠ k ∨ e.user ≠ some w) → s'.pos k w = s.pos k w := by
  have hE := h
  obtain ⟨hs, e, rfl, -, hx⟩ := execE_cases h
  have two : ∀ {f : Key → Nat → Pos} {k : Key} {w : Nat} {u : Pos} {j : Key} {y : Nat} (_ : k ≠ j ∨ some w ≠ some y),
      upd f k (upd (f k) w u) j y = f j y := by
    intro f k w u j y h
    by_cases e1 : j = k
    · subst e1
      rw [upd_same, upd_of_ne _ _ (fun e : y = w => by subst e; simp at h)]
    · rw [upd_of_ne _ _ e1]
  refine ⟨rfl, ?_⟩
  simp only [List.mem_singleton, forall_eq]
  cases x with
  | create k d =>
    dsimp only at hx
    subst hx
    simp only [exec, create, bind_ok_iff, ensure_ok_iff, pure_ok_iff, exists_const, Option.isNone_iff_eq_none] at hs
    obtain ⟨h0, -, -, rfl⟩ := hs
    exact ⟨⟨h0, by simp⟩, fun j hj => upd_of_ne _ _ (Ne.symm hj), fun _ _ _ => rfl⟩
  | setStatus k b =>
    dsimp only at hx
    subst hx
    simp only [exec, setStatus, bind_ok_iff, ensure_ok_iff, okOr_ok_iff, pure_ok_iff, exists_const] at hs
    obtain ⟨p, hk, -, rfl⟩ := hs
    exact ⟨trivial, fun j hj => upd_of_ne _ _ (Ne.symm hj), fun _ _ _ => rfl⟩
  | setCool k d =>
    dsimp only at hx
    subst hx
    simp only [exec, setCool, bind_ok_iff, ensure_ok_iff, okOr_ok_iff, pure_ok_iff, exists_const] at hs
    obtain ⟨-, p, hk, -, rfl⟩ := hs
    exact ⟨trivial, fun j hj => upd_of_ne _ _ (Ne.symm hj), fun _ _ _ => rfl⟩
  | resetUnlock k =>
    dsimp only at hx
    subst hx
    simp only [exec, resetUnlock, bind_ok_iff, ensure_ok_iff, okOr_ok_iff, pure_ok_iff, exists_const] at hs
    obtain ⟨p, hk, -, -, rfl⟩ := hs
    exact ⟨rfl, fun j hj => upd_of_ne _ _ (Ne.symm hj), fun _ _ _ => rfl⟩
  | deposit k v m =>
    dsimp only at hx
    subst hx
    obtain ⟨-, s1, p, l, hu, -, -, hl, rfl⟩ := deposit_ok hs
    obtain ⟨p0, p1, u, hk0, hp1, hu1, rfl⟩ := updateSome_ok hu
    refine ⟨trivial, fun j hj => ?_, fun j w hj => ?_⟩
    · show upd (upd s.pools k _) k _ j = _
      rw [upd_upd]
      exact upd_of_ne _ _ (Ne.symm hj)
    · exact (two hj).trans (two hj)
  | withdraw k v m =>
    dsimp only at hx
    subst hx
    obtain ⟨-, h2, s1, p, l, u', hu, hk, -, -, -, hr, rfl⟩ := withdraw_ok hs
    obtain ⟨p0, p1, u, hk0, hp1, hu1, rfl⟩ := updateSome_ok hu
    refine ⟨h2, fun j hj => ?_, fun j w hj => ?_⟩
    · show upd (upd s.pools k _) k _ j = _
      rw [upd_upd]
      exact upd_of_ne _ _ (Ne.symm hj)
    · exact (two hj).trans (two hj)
  | redeem k v =>
    simp only [execE, redeemE, bind_ok_iff, pure_ok_iff, Prod.mk.injEq, okOr_ok_iff] at hE
    obtain ⟨p, hp, t, ht, l, hl, rfl, he⟩ := hE
    cases he
    have ht := sumMatured_ok ht
    rw [Nat.zero_add] at ht
    refine ⟨⟨p, hp, ht, ?_⟩, fun _ _ => rfl, fun j w hj => two hj⟩
    simp only [upd_same]
    refine List.filter_congr fun it _ => ?_
    unfold matured
    by_cases q : min maxU32 (it.2 + p.cool) ≤ s.now
    · simp [q, Nat.not_lt.2 q]
    · simp [q, Nat.not_le.1 q]
  | claim k v =>
    simp only [execE, claimE, bind_ok_iff, pure_ok_iff, Prod.mk.injEq, Prod.exists] at hE
    obtain ⟨_, _, s1, hu, l, u, hl, hs', he⟩ := hE
    obtain ⟨-, c2, c3, -, -⟩ := C27_claim_exact hs
    cases he
    obtain ⟨p0, p1, u, hk0, hp1, hu1, rfl⟩ := updateSome_ok hu
    subst hs'
    have c4 := snoc_inj c2
    simp only [Event.rewardPaid.injEq, true_and] at c4
    refine ⟨⟨c4, c3⟩, fun j hj => upd_of_ne _ _ (Ne.symm hj), fun j w hj => ?_⟩
    exact (two hj).trans (two hj)
  | dispatch k v m d =>
    dsimp only at hx
    subst hx
    obtain ⟨p, p1, r, l, hk0, hp1, -, hl, rfl⟩ := dispatch_ok hs
    exact ⟨trivial, fun j hj => upd_of_ne _ _ (Ne.symm hj), fun _ _ _ => rfl⟩

/-- Every history has its events: each reachable state is told of. -/
theorem C240_every {c : Cfg} {s : State} (h : Reach c s) : ∃ es, Told c s es := by
  induction h with
  | init l now _ => exact ⟨[], .init l now⟩
  | step h hs ih =>
    obtain ⟨es, ih⟩ := ih
    cases hs with
    | call k hk hx =>
      rename_i s1 s2
      have e := C240_same c s1 k
      rw [hx] at e
      cases hE : execE c s1 k with
      | error err => rw [hE] at e; cases e
      | ok r =>
        obtain ⟨t, fs⟩ := r
        rw [hE] at e
        cases e
        exact ⟨_, .call ih k hE⟩
    | env he => exact ⟨_, .env ih he⟩

/-- A list of calls with the events. -/
def runE (c : Cfg) (s : State) : List Call → R (State × List Ann)
  | [] => .ok (s, [])
  | x :: xs => do
    let (s, es) ← execE c s x
    let (s, fs) ← runE c s xs
    pure (s, es ++ fs)

/-- Two pools, created with different cool-downs; the rest is the same. -/
def blind (cool : Nat) : List Call := [.create exK cool, .setStatus exK true, .deposit exK 7 100, .withdraw exK 7 60]

/-- **C240** (not told) The cool-down of a new pool is not announced, and so a withdrawal does not tell whether its amount was
paid out: from the same state, two lists of calls deposit the same events, and leave the user with different balances. -/
theorem C240_cooldown_untold : ∃ s t es, runE exCfg ex0 (blind 0) = .ok (s, es) ∧ runE exCfg ex0 (blind 10) = .ok (t, es) ∧
    s.ledger.bal 1 7 = t.ledger.bal 1 7 + 60 := by
  have h : okAnd (runE exCfg ex0 (blind 0)) (fun r => okAnd (runE exCfg ex0 (blind 10)) (fun q =>
      decide (r.2 = q.2 ∧ r.1.ledger.bal 1 7 = q.1.ledger.bal 1 7 + 60))) = true := by decide +kernel
  cases h1 : runE exCfg ex0 (blind 0) with
  | error e => rw [h1] at h; cases h
  | ok r =>
    cases h2 : runE exCfg ex0 (blind 10) with
    | error e => rw [h1, h2] at h; cases h
    | ok q =>
      rw [h1, h2] at h
      obtain ⟨e1, e2⟩ := of_decide_eq_true (h : decide _ = true)
      exact ⟨r.1, q.1, r.2, rfl, by rw [e1], e2⟩

/-- **C240** (not told) Neither are the payer of a dispatched reward and the number of blocks it is spread over: the same events,
different balances, and different rewards claimable ten blocks later. -/
theorem C240_dispatch_untold : ∃ s t es, execE exCfg ex2 (.dispatch exK 9 3000 30) = .ok (s, es) ∧
    execE exCfg ex2 (.dispatch exK 9 3000 60) = .ok (t, es) ∧
    claimable (later s 10) exK 7 ≠ claimable (later t 10) exK 7 := by
  have h : okAnd (execE exCfg ex2 (.dispatch exK 9 3000 30)) (fun r => okAnd (execE exCfg ex2 (.dispatch exK 9 3000 60)) (fun q =>
      decide (r.2 = q.2 ∧ claimable (later r.1 10) exK 7 ≠ claimable (later q.1 10) exK 7))) = true := by decide +kernel
  cases h1 : execE exCfg ex2 (.dispatch exK 9 3000 30) with
  | error e => rw [h1] at h; cases h
  | ok r =>
    cases h2 : execE exCfg ex2 (.dispatch exK 9 3000 60) with
    | error e => rw [h1, h2] at h; cases h
    | ok q =>
      rw [h1, h2] at h
      obtain ⟨e1, e2⟩ := of_decide_eq_true (h : decide _ = true)
      exact ⟨r.1, q.1, r.2, rfl, by rw [e1], e2⟩

/-- A history, told: the pool is created and opened, 7 deposits, a reward is dispatched, ten blocks later 7 claims and
withdraws, and another ten blocks later redeems. -/
example :
    okAnd (runE exCfg ex0 exCalls) (fun r => r.2 == [.added exK, .status exK true, .deposited 7 exK 100, .rewardAdded exK 3000]) = true ∧
    okAnd (runE exCfg ex2 [.claim exK 7, .withdraw exK 7 40, .resetUnlock exK, .setCool exK 5]) (fun r =>
      r.2 == [.rewardPaid 7 exK 1000, .withdrew 7 exK 40, .unlock exK 15, .cool exK 5] &&
      okAnd (execE exCfg (later r.1 10) (.redeem exK 7)) (fun t => t.2 == [.redeemed 7 exK 40])) = true := by decide +kernel

end Verif.Farming
