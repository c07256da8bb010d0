import Verif.Xcm.Trader

/-!
# XCM fee trader: vocabulary of the properties

A session is the life of one trader: the purchases and refunds made while one XCM message executes.
-/

namespace Verif.Xcm
open Verif
variable {τ : Type} [DecidableEq τ]

/-- The amount of the asset at location `t` in a holding. -/
def held (h : Holding τ) (t : τ) : Nat := ((h.filter (fun e => decide (e.1 = .concrete t))).map (·.2)).sum

/-- What the executor asks of a trader. -/
inductive Op (τ : Type) where
  /-- pay for weight `w` out of a holding, with the registry's fee table at that time -/
  | buy (f : Fees τ) (w : Weight) (payment : Holding τ)
  | refund (w : Weight)

/-- A trader with the totals of what was taken from and given back to the message's holding. -/
structure Session (τ : Type) where
  tr : Trader τ
  /-- taken out of the payments, per location -/
  paid : τ → Nat
  /-- given back by refunds, per location -/
  back : τ → Nat

def Session.new (τ : Type) : Session τ := ⟨Trader.new τ, fun _ => 0, fun _ => 0⟩

/-- One request. A refused purchase changes nothing. -/
def Session.step (s : Session τ) : Op τ → R (Session τ)
  | .buy f w p => match buy f s.tr w p with
    | none => .ok s
    | some (unused, tr) => .ok ⟨tr, fun t => s.paid t + (held p t - held unused t), s.back⟩
  | .refund w => do
    let r ← refund s.tr w
    match r.2 with
    | none => pure { s with tr := r.1 }
    | some (t, n) => pure { s with tr := r.1, back := upd s.back t (s.back t + n) }

/-- A sequence of requests. -/
def Session.run (s : Session τ) : List (Op τ) → R (Session τ)
  | [] => .ok s
  | o :: os => do
    let s' ← s.step o
    s'.run os

/-- The sum of the weights (reference times) of which a refund is requested. -/
def refundWeight : List (Op τ) → Nat
  | [] => 0
  | .refund w :: os => w.rt + refundWeight os
  | _ :: os => refundWeight os

end Verif.Xcm
