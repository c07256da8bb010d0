import Verif.Staking.Backing
import Verif.Loans.Props

/-! # Concrete histories of liquid staking, used to show that the theorems are not vacuous -/

set_option linter.unusedSimpArgs false
set_option linter.unusedVariables false

namespace Verif.Staking
open Verif

variable {c : Cfg} {s s' : State}

/-- Run a list of calls; failing calls change nothing. -/
def run (c : Cfg) (s : State) (ks : List Call) : State := ks.foldl (fun s k => commit s (exec c s k)) s

/-- Calls whose side condition does not depend on the state. -/
def Call.plain (c : Cfg) : Call → Bool
  | .stake w _ => w != c.acct
  | .unstake w _ _ => w != c.acct
  | .cancelUnstake w _ => w != c.acct
  | .forceLedger _ _ => false
  | _ => true

theorem Call.plain_ok {k : Call} (h : k.plain c = true) : k.ok c s := by
  cases k <;> simp_all [Call.plain, Call.ok]

theorem run_reach : ∀ {ks : List Call} {s : State}, Reach c s → (∀ k ∈ ks, k.plain c = true) → Reach c (run c s ks)
  | [], s, h, _ => h
  | k :: ks, s, h, hk => by
    have h1 := hk k (by simp)
    have : Reach c (commit s (exec c s k)) := by
      rcases commit_cases s (exec c s k) with he | he
      · exact .step h (.call k (Call.plain_ok h1) trivial he)
      · rw [he.1]; exact h
    show Reach c (run c (commit s (exec c s k)) ks)
    exact run_reach this (fun k' hk' => hk k' (by simp [hk']))

/-- Relay-chain blocks pass and the relay chain's ledgers change. -/
def pass (s : State) (d : Nat) (r : Nat → Option SLedger) : State := { s with
  relayBlock := s.relayBlock + d,
  relayLedger := r }

theorem pass_env {d : Nat} {r : Nat → Option SLedger} (hw : s.tok.WF) (hr : ∀ i l, r i = some l → l.Consistent) :
    Env c s (pass s d r) :=
  ⟨rfl, hw, Nat.le_refl _, Nat.le_refl _, rfl, Nat.le_refl _, hr⟩

theorem pass_reach {d : Nat} {r : Nat → Option SLedger} (hc : c.Ok) (h : Reach c s)
    (hr : ∀ i l, r i = some l → l.Consistent) : Reach c (pass s d r) :=
  .step h (.env (pass_env (h.inv hc).wf hr))

/-- 1 is staked, 5 the liquid token, 3 the collateral token; two derivative accounts. -/
def exC : Cfg := ⟨200, 201, 202, 1, 5, 3, 10, 100, 50, [0, 1], 28, 10, 100, 20, 10000000000000000, 8000000000000000,
  .maxMin, Loans.exC⟩
theorem exC_ok : exC.Ok := ⟨by decide, by decide, by decide, by decide, by decide, by decide⟩

/-- A fresh pallet next to a lending pallet with cash; exchange rate 1, commission 10%, reserve factor 1%. -/
def ex0 : State := ⟨Loans.ex0, DIV, 100000000000000000, 10000, 10000, 0, 0, ⟨⟨0, 0⟩, ⟨0, 0⟩⟩, 6000, [], fun _ => none, 0, 0,
  fun _ => none, fun _ => none, fun _ => false, false, 0, fun _ => 1, true, 0, 0, fun _ => none, []⟩

theorem ex0_fresh : Fresh exC ex0 where
  wf := (Loans.inv_reach Loans.exC_ok Loans.ex0_reach).wf
  iss := by decide +kernel
  reserves := rfl
  ureserves := rfl
  pool := rfl
  reqs := rfl
  fast := fun _ => rfl
  unlockings := fun _ => rfl
  ledgers := fun _ => rfl
  relay := by intro i l h; cases h
  rf := by decide
  urf := by decide
  commission := by decide
  log := rfl

theorem ex0_reach : Reach exC ex0 := .init ex0_fresh

/-- Users 7 and 9 stake 10000 and 1000; the pallet bonds 6000 and 4870 for them. -/
def ex1 : State := run exC (pass (run exC ex0 [.stake 7 10000, .stake 9 1000]) 30 (fun _ => none)) [.onInit]
/-- The relay chain has bonded. -/
def ex2 : State := run exC ex1 [.notify 0 true, .notify 1 true]
/-- 7 unstakes 3000, 9 unstakes 500 through the lending pallet, 9 asks for a fast unstake of 200; in the next era the
pallet asks the relay chain to unbond. -/
def ex3 : State := run exC (pass (run exC (pass (run exC ex2
  [.unstake 7 3000 .relay, .unstake 9 500 .loans, .unstake 9 200 .pool]) 100 (fun _ => none)) [.onInit]) 30
  (fun _ => none)) [.onInit]
/-- The relay chain has started to unbond. -/
def ex4 : State := run exC ex3 [.notify 2 true]
/-- Thirty eras later the relay chain has paid out. -/
def ex5 : State := run exC (pass (run exC (pass ex4 3000 (fun _ => none)) [.onInit]) 30 (fun _ => none))
  [.onInit, .notify 3 true]

theorem none_consistent : ∀ (i : Nat) (l : SLedger), (fun _ => none : Nat → Option SLedger) i = some l → l.Consistent := by
  intro i l h; cases h

theorem ex1_reach : Reach exC ex1 :=
  run_reach (pass_reach exC_ok (run_reach ex0_reach (by decide)) none_consistent) (by decide)
theorem ex2_reach : Reach exC ex2 := run_reach ex1_reach (by decide)
theorem ex3_reach : Reach exC ex3 :=
  run_reach (pass_reach exC_ok (run_reach (pass_reach exC_ok (run_reach ex2_reach (by decide)) none_consistent) (by decide))
    none_consistent) (by decide)
theorem ex4_reach : Reach exC ex4 := run_reach ex3_reach (by decide)
theorem ex5_reach : Reach exC ex5 :=
  run_reach (pass_reach exC_ok (run_reach (pass_reach exC_ok ex4_reach none_consistent) (by decide)) none_consistent)
    (by decide)

end Verif.Staking
