import Verif.Runtime.Props

/-!
# C246: the events of the emergency switch

`togglePalletE` and `toggleCallE` are the two extrinsics of `pallets/emergency-shutdown` (Runtime/Model.lean) that also
return the deposited event. The event carries only the new position of the switch.
-/

namespace Verif.Runtime
open Verif

/-- `Event` (`pallets/emergency-shutdown/src/lib.rs:59-68`): the flag alone, neither the pallet nor the call. -/
inductive Announced where
  | pallet (flag : Bool)
  | call (flag : Bool)
deriving DecidableEq

/-- `toggle_pallet` with its event (`pallets/emergency-shutdown/src/lib.rs:88-97`). -/
def togglePalletE (s : State) (o : Caller) (p : Nat) : R (State × List Announced) := do
  let s' ← togglePallet s o p
  pure (s', [.pallet (!s.disP p)])

/-- `toggle_call` with its event (`pallets/emergency-shutdown/src/lib.rs:101-110`). -/
def toggleCallE (s : State) (o : Caller) (p i : Nat) : R (State × List Announced) := do
  let s' ← toggleCall s o p i
  pure (s', [.call (!s.disC p i)])

/-! ## Specification -/

/-- Histories with the events of the emergency switch, in order, starting with everything on. Pallets and calls are numbered
by bytes. Anything else may happen that leaves the switches alone (C152: only these two calls do not). -/
inductive Told : State → List Announced → Prop
  | init (s : State) (hp : ∀ p, s.disP p = false) (hc : ∀ p i, s.disC p i = false) : Told s []
  | pallet {s s' : State} {es fs : List Announced} (h : Told s es) (o : Caller) (p : Nat) (hp : p < 256)
      (hk : togglePalletE s o p = .ok (s', fs)) : Told s' (es ++ fs)
  | call {s s' : State} {es fs : List Announced} (h : Told s es) (o : Caller) (p i : Nat) (hp : p < 256) (hi : i < 256)
      (hk : toggleCallE s o p i = .ok (s', fs)) : Told s' (es ++ fs)
  | other {s s' : State} {es : List Announced} (h : Told s es) (hp : s'.disP = s.disP) (hc : s'.disC = s.disC) : Told s' es

/-- How many pallets are switched off. -/
def palletsOff (s : State) : Nat := (List.range 256).countP s.disP

/-- How many calls are switched off. -/
def callsOff (s : State) : Nat := (List.range 256 ×ˢ List.range 256).countP (fun k => s.disC k.1 k.2)

/-- The full English claim: the events tell which pallets and calls are switched off, so that after executions with the
same events the switches are the same. -/
def C246_statement : Prop := ∀ (s s' : State) (es : List Announced), Told s es → Told s' es →
  s.disP = s'.disP ∧ s.disC = s'.disC

/-! ## Proofs -/

/-- **C246** (additional) The events are additional. -/
theorem C246_same (s : State) (o : Caller) (p i : Nat) :
    Prod.fst <$> togglePalletE s o p = togglePallet s o p ∧ Prod.fst <$> toggleCallE s o p i = toggleCall s o p i := by
  constructor <;> simp only [togglePalletE, toggleCallE, map_bind, map_pure, bind_pure]

/-- **C246** (flags) What an accepted call announces is the new position of the switch it has turned, which was in the other
position before; no other switch has moved, and the caller is root or the council. -/
theorem C246_flags (s s' : State) (o : Caller) (es : List Announced) (p i : Nat) :
    (togglePalletE s o p = .ok (s', es) →
      es = [.pallet (s'.disP p)] ∧ s'.disP p = !s.disP p ∧ (∀ q, q ≠ p → s'.disP q = s.disP q) ∧ s'.disC = s.disC ∧
      (o = .root ∨ o = .council)) ∧
    (toggleCallE s o p i = .ok (s', es) →
      es = [.call (s'.disC p i)] ∧ s'.disC p i = (!s.disC p i) ∧
      (∀ q j, (q, j) ≠ (p, i) → s'.disC q j = s.disC q j) ∧ s'.disP = s.disP ∧ (o = .root ∨ o = .council)) := by
  constructor
  · intro h
    simp only [togglePalletE, togglePallet, bind_ok_iff, ensure_ok_iff, pure_ok_iff, Prod.mk.injEq] at h
    obtain ⟨t, ⟨_, ho, rfl⟩, rfl, rfl⟩ := h
    refine ⟨?_, upd_same _ _ _, fun q hq => upd_of_ne _ _ hq, rfl, ho⟩
    show _ = [Announced.pallet (upd s.disP p (!s.disP p) p)]
    rw [upd_same]
  · intro h
    simp only [toggleCallE, toggleCall, bind_ok_iff, ensure_ok_iff, pure_ok_iff, Prod.mk.injEq] at h
    obtain ⟨t, ⟨_, ho, rfl⟩, rfl, rfl⟩ := h
    have e : upd s.disC p (upd (s.disC p) i (!s.disC p i)) p i = !s.disC p i := by rw [upd_same, upd_same]
    refine ⟨?_, e, fun q j hq => ?_, rfl, ho⟩
    · show _ = [Announced.call (upd s.disC p (upd (s.disC p) i (!s.disC p i)) p i)]
      rw [e]
    · show upd s.disC p (upd (s.disC p) i (!s.disC p i)) q j = s.disC q j
      by_cases h1 : q = p
      · subst h1
        rw [upd_same, upd_of_ne _ _ (fun e => hq (by rw [e]))]
      · rw [upd_of_ne _ _ h1]

theorem countP_same {α : Type} {f g : α → Bool} : ∀ (l : List α), (∀ x ∈ l, g x = f x) → l.countP g = l.countP f := by
  intro l h
  exact List.countP_congr (fun x hx => by rw [h x hx])

theorem countP_turn {α : Type} {f g : α → Bool} {a : α} : ∀ (l : List α), l.Nodup → a ∈ l → g a = (!f a) →
    (∀ x, x ≠ a → g x = f x) → l.countP g + (if f a then 1 else 0) = l.countP f + (if f a then 0 else 1)
  | [], _, h, _, _ => by cases h
  | b :: l, hn, hm, ha, ho => by
    have hn' := List.nodup_cons.1 hn
    rw [List.countP_cons, List.countP_cons]
    by_cases hb : b = a
    · subst hb
      have := countP_same (f := f) (g := g) l (fun x hx => ho x (fun e => hn'.1 (e ▸ hx)))
      rw [this, ha]
      cases f b <;> simp
    · have h1 := countP_turn l hn'.2 (by simpa [Ne.symm hb] using hm) ha ho
      rw [ho b hb]
      omega

/-- **C246** (numbers, what does hold of histories) In every state that any history leads to, the number of pallets switched off
is the number of announcements that one was switched off less the number of announcements that one was switched on, and
likewise for calls. Missing: which they are (`C246_refuted`). -/
theorem C246_numbers_partial {s : State} {es : List Announced} (h : Told s es) :
    palletsOff s + es.count (.pallet false) = es.count (.pallet true) ∧
    callsOff s + es.count (.call false) = es.count (.call true) := by
  induction h with
  | init s hp hc =>
    constructor
    · unfold palletsOff
      rw [List.countP_eq_zero.2 (fun x _ => by rw [hp]; simp)]; rfl
    · unfold callsOff
      rw [List.countP_eq_zero.2 (fun x _ => by rw [hc]; simp)]; rfl
  | @pallet s s' es fs h o p hp hk ih =>
    obtain ⟨rfl, h1, h2, h3, -⟩ := (C246_flags s s' o fs p 0).1 hk
    have e := countP_turn (f := s.disP) (g := s'.disP) (List.range 256) List.nodup_range (List.mem_range.2 hp) h1 h2
    have e2 : callsOff s' = callsOff s := by unfold callsOff; rw [h3]
    rw [h1, e2]
    simp only [List.count_append]
    have c1 : ([.pallet (!s.disP p)] : List Announced).count (.call false) = 0 := by simp
    have c2 : ([.pallet (!s.disP p)] : List Announced).count (.call true) = 0 := by simp
    rw [c1, c2]
    refine ⟨?_, by omega⟩
    have := ih.1
    unfold palletsOff at this ⊢
    cases hf : s.disP p <;> simp [hf] at e ⊢ <;> omega
  | @call s s' es fs h o p i hp hi hk ih =>
    obtain ⟨rfl, h1, h2, h3, -⟩ := (C246_flags s s' o fs p i).2 hk
    have hn : (List.range 256 ×ˢ List.range 256).Nodup := List.Nodup.product List.nodup_range List.nodup_range
    have e := countP_turn (f := fun k : Nat × Nat => s.disC k.1 k.2) (g := fun k => s'.disC k.1 k.2) (a := (p, i))
      (List.range 256 ×ˢ List.range 256) hn (List.mem_product.2 ⟨List.mem_range.2 hp, List.mem_range.2 hi⟩) h1
      (fun x hx => h2 x.1 x.2 hx)
    have e2 : palletsOff s' = palletsOff s := by unfold palletsOff; rw [h3]
    rw [h1, e2]
    simp only [List.count_append]
    have c1 : ([.call (!s.disC p i)] : List Announced).count (.pallet false) = 0 := by simp
    have c2 : ([.call (!s.disC p i)] : List Announced).count (.pallet true) = 0 := by simp
    rw [c1, c2]
    refine ⟨by omega, ?_⟩
    have := ih.2
    unfold callsOff at this ⊢
    dsimp only at e
    cases hf : s.disC p i <;> simp [hf] at e ⊢ <;> omega
  | other h hp hc ih =>
    unfold palletsOff callsOff at ih ⊢
    rw [hp, hc]
    exact ih

/-- C246 is FALSE of the code (pallets 50 and 90, `runtime/parallel/src/lib.rs:2001`, `:2022`): whether the loans pallet or the bridge is switched off, the event is the same. -/
theorem C246_refuted : ¬ C246_statement := by
  intro h
  obtain ⟨s1, h1⟩ : ∃ s1, togglePalletE exState .root 50 = .ok (s1, [.pallet true]) := ⟨_, rfl⟩
  obtain ⟨s2, h2⟩ : ∃ s2, togglePalletE exState .root 90 = .ok (s2, [.pallet true]) := ⟨_, rfl⟩
  have i0 : Told exState [] := .init _ (fun _ => rfl) (fun _ _ => rfl)
  have e := (h s1 s2 _ (.pallet i0 .root 50 (by decide) h1) (.pallet i0 .root 90 (by decide) h2)).1
  obtain ⟨-, a1, -⟩ := (C246_flags exState s1 .root _ 50 0).1 h1
  obtain ⟨-, -, a2, -⟩ := (C246_flags exState s2 .root _ 90 0).1 h2
  have a3 := a2 50 (by decide)
  rw [← e, a1] at a3
  exact absurd a3 (by decide)

end Verif.Runtime
