import Verif.Prelude.NoPanicAttr
import Verif.Prelude.Ledger
import Verif.Prelude.Fixed

/-!
# Calls that do not panic

A Rust panic is worse than an error: an extrinsic that panics cannot be part of a block at all (nothing is charged for
the work already done), and a hook that panics stops the chain.
-/

namespace Verif

variable {α β : Type}

/-- The computation ends regularly or with an error, but does not panic. -/
def NoPanic (r : R α) : Prop := r ≠ .error .panic

@[np_simps] theorem np_bind {x : R α} {f : α → R β} :
    NoPanic (x >>= f) ↔ NoPanic x ∧ ∀ a, x = .ok a → NoPanic (f a) := by
  unfold NoPanic
  cases x with
  | error e => simp [bind, Except.bind]
  | ok a => simp [bind, Except.bind]

@[np_simps] theorem np_ok {a : α} : NoPanic (.ok a : R α) ↔ True := by simp [NoPanic]
@[np_simps] theorem np_pure {a : α} : NoPanic (pure a : R α) ↔ True := by simp [NoPanic, pure, Except.pure]
@[np_simps] theorem np_error {e : Err} : NoPanic (.error e : R α) ↔ e ≠ .panic := by simp [NoPanic]

@[np_simps] theorem np_ite {p : Prop} [Decidable p] {a b : R α} :
    NoPanic (if p then a else b) ↔ (p → NoPanic a) ∧ (¬ p → NoPanic b) := by
  split <;> simp_all

@[np_simps] theorem np_ensure {p : Prop} [Decidable p] {e : Err} : NoPanic (ensure p e) ↔ (e = .panic → p) := by
  unfold ensure NoPanic; split <;> simp_all
@[np_simps] theorem np_okOr {o : Option α} {e : Err} : NoPanic (okOr o e) ↔ (e = .panic → o ≠ none) := by
  cases o <;> simp [okOr, NoPanic]
@[np_simps] theorem np_cadd {e : Err} {a b : Nat} : NoPanic (cadd e a b) ↔ (e = .panic → a + b ≤ maxU128) := by
  unfold cadd NoPanic; by_cases he : e = .panic <;> split <;> simp_all
@[np_simps] theorem np_csub {e : Err} {a b : Nat} : NoPanic (csub e a b) ↔ (e = .panic → b ≤ a) := by
  unfold csub NoPanic; by_cases he : e = .panic <;> split <;> simp_all
@[np_simps] theorem np_cmul {e : Err} {a b : Nat} : NoPanic (cmul e a b) ↔ (e = .panic → a * b ≤ maxU128) := by
  unfold cmul NoPanic; by_cases he : e = .panic <;> split <;> simp_all
@[np_simps] theorem np_cdiv {e : Err} {a b : Nat} : NoPanic (cdiv e a b) ↔ (e = .panic → b ≠ 0) := by
  unfold cdiv NoPanic; by_cases he : e = .panic <;> split <;> simp_all
@[np_simps] theorem np_toU128 {e : Err} {a : Nat} : NoPanic (toU128 e a) ↔ (e = .panic → a ≤ maxU128) := by
  unfold toU128 NoPanic; by_cases he : e = .panic <;> split <;> simp_all
@[np_simps] theorem np_precipFloor {p x : Nat} : NoPanic (precipFloor p x) ↔ p ≠ 0 := by
  unfold precipFloor NoPanic; split <;> simp_all
@[np_simps] theorem np_precipCeil {p x : Nat} : NoPanic (precipCeil p x) ↔ p ≠ 0 := by
  unfold precipCeil NoPanic; split <;> simp_all
@[np_simps] theorem np_fixSat {n d : Nat} : NoPanic (fixSatFromRational n d) ↔ d ≠ 0 := by
  unfold fixSatFromRational NoPanic; split <;> simp_all

@[np_simps] theorem np_transfer {l : Ledger} {a s d m : Nat} {k : Bool} : NoPanic (l.transfer a s d m k) ↔ True := by
  unfold Ledger.transfer NoPanic; split_ifs <;> simp
@[np_simps] theorem np_mint {l : Ledger} {a w m : Nat} : NoPanic (l.mint a w m) ↔ True := by
  unfold Ledger.mint NoPanic; split_ifs <;> simp
@[np_simps] theorem np_burn {l : Ledger} {a w m : Nat} : NoPanic (l.burn a w m) ↔ True := by
  unfold Ledger.burn NoPanic; split_ifs <;> simp

attribute [np_simps] reduceCtorEq ne_eq not_false_eq_true false_implies implies_true and_true true_and and_self
  Prod.forall forall_const true_implies not_true_eq_false forall_true_left

/-- Rewrite with the set and split conjunctions. -/
macro "np" : tactic => `(tactic| (simp only [np_simps] <;> try trivial))

/-- A state in which the rest of a chain of steps does not panic. -/
theorem NoPanic.mono {x : R α} (h : NoPanic x) : x ≠ .error .panic := h

theorem noPanic_map {x : R α} {f : α → R β} (h : NoPanic x) (hf : ∀ a, NoPanic (f a)) : NoPanic (x >>= f) :=
  np_bind.2 ⟨h, fun a _ => hf a⟩

end Verif
