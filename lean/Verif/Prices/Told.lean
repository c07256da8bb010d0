import Verif.Prices.Props

/-!
# C245: the events of the price feed tell which emergency prices are set

`execE` is `exec` (Prices/Model.lean) that also returns the deposited events.
-/

namespace Verif.Prices
open Verif

/-- `Event` (`pallets/prices/src/lib.rs:112-120`). -/
inductive Ann where
  | set (a p : Nat)
  | reset (a : Nat)
deriving DecidableEq

/-- The extrinsics with their events (`pallets/prices/src/lib.rs:144-181`, `:318-331`): `set_foreign_asset` deposits none. -/
def execE (s : State) : Call → State × List Ann
  | .set a p => (setPrice s a p, [.set a p])
  | .reset a => (resetPrice s a, [.reset a])
  | .foreign f a => (setForeign s f a, [])

/-! ## Specification -/

/-- The asset an event is about. -/
def Ann.asset : Ann → Nat
  | .set a _ => a
  | .reset a => a

/-- The emergency price an event announces. -/
def Ann.price : Ann → Option Nat
  | .set _ p => some p
  | .reset _ => none

/-- What an observer of the events alone takes the emergency price of `a` to be: what the last event about it says. -/
def lastSaid (a : Nat) (es : List Ann) : Option Nat := (es.reverse.find? (fun e => e.asset = a)).bind Ann.price

/-- Histories with the events of all calls, in order; the rest of the chain may change at any time. -/
inductive Told : State → List Ann → Prop
  | init (s : State) (h : ∀ a, s.emergency a = none) : Told s []
  | call {s : State} {es : List Ann} (h : Told s es) (k : Call) : Told (execE s k).1 (es ++ (execE s k).2)
  | world {s : State} {es : List Ann} (h : Told s es) (w : World) : Told { s with world := w } es

/-! ## Proofs -/

/-- **C245** (additional) The events change nothing. -/
theorem C245_same (s : State) (k : Call) : (execE s k).1 = exec s k := by cases k <;> rfl

theorem lastSaid_append (a : Nat) (es : List Ann) (e : Ann) :
    lastSaid a (es ++ [e]) = if e.asset = a then e.price else lastSaid a es := by
  unfold lastSaid
  rw [List.reverse_append, List.reverse_singleton, List.singleton_append, List.find?_cons]
  by_cases h : e.asset = a
  · simp [h]
  · simp [h]

/-- **C245** (notes) In every state that any history leads to, the emergency price of every asset is the one the last event
about the asset says. -/
theorem C245_notes {s : State} {es : List Ann} (h : Told s es) (a : Nat) : lastSaid a es = s.emergency a := by
  induction h with
  | init s h => rw [h]; rfl
  | @call s es h k ih =>
    cases k with
    | set b p =>
      rw [show (execE s (.set b p)).2 = [.set b p] from rfl, lastSaid_append, ih]
      show _ = upd s.emergency b (some p) a
      by_cases hb : b = a
      · subst hb; simp [Ann.asset, Ann.price]
      · rw [upd_of_ne _ _ (Ne.symm hb)]; simp [hb, Ann.asset]
    | reset b =>
      rw [show (execE s (.reset b)).2 = [.reset b] from rfl, lastSaid_append, ih]
      show _ = upd s.emergency b none a
      by_cases hb : b = a
      · subst hb; simp [Ann.asset, Ann.price]
      · rw [upd_of_ne _ _ (Ne.symm hb)]; simp [hb, Ann.asset]
    | foreign f b =>
      rw [show (execE s (.foreign f b)).2 = [] from rfl, List.append_nil, ih]
      rfl
  | world h w ih => exact ih

/-- **C245** (prices) Hence, while the last event about an asset with up to 18 decimals announces a price, every reader is
answered that price, scaled by the asset's decimals, with the timestamp of an emergency price. -/
theorem C245_answers {c : Cfg} {s : State} {es : List Ann} (h : Told s es) {a p d : Nat} (hp : lastSaid a es = some p)
    (hd : s.world.decimal a = some d) (h18 : d ≤ 18) (hm : p * 10 ^ (18 - d) ≤ maxU128) :
    getPrice c s a = .ok (some ⟨p * 10 ^ (18 - d), 0⟩) := by
  rw [C245_notes h] at hp
  exact C90_emergency_price_wins hp hd h18 hm

/-- What is not announced: two executions with the same events, none, that answer different prices to the same question. -/
theorem C245_foreign_untold (s : State) (f a b : Nat) (hab : a ≠ b) :
    (execE s (.foreign f a)).2 = (execE s (.foreign f b)).2 ∧
    (execE s (.foreign f a)).1.foreign f ≠ (execE s (.foreign f b)).1.foreign f := by
  refine ⟨rfl, ?_⟩
  show upd s.foreign f (some a) f ≠ upd s.foreign f (some b) f
  rw [upd_same, upd_same]
  exact fun e => hab (Option.some.inj e)

/-- A price is set, reset and set again, while another asset's price stays. -/
example : lastSaid 1 [.set 1 5, .set 2 7, .reset 1, .set 1 6] = some 6 ∧ lastSaid 2 [.set 1 5, .set 2 7, .reset 1] = some 7 ∧
    lastSaid 1 [.set 1 5, .set 2 7, .reset 1] = none := by decide +kernel

end Verif.Prices
