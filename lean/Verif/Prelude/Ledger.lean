import Verif.Prelude.Sums

set_option linter.unnecessarySeqFocus false
set_option linter.unreachableTactic false
set_option linter.unusedTactic false

/-!
# The token ledger

Models `T::Assets` (`pallets/currency-adapter/src/lib.rs:1-230`, which dispatches to
`pallet_balances` for the native asset and to `pallet_assets` otherwise) as one multi-asset ledger.

Simplifications: every asset exists and is live; `min_balance = 1` for every asset, so there is no dust;
no locks, freezes or holds; destination overflow is not checked because the balances of one asset add
up to its issuance, which is checked on mint (`Ledger.WF`, `Ledger.bal_le_iss`).
-/

namespace Verif

/-- All token balances `bal asset account` and total issuances `iss asset`. -/
structure Ledger where
  bal : Nat → Nat → Nat
  iss : Nat → Nat

namespace Ledger

/-- Overwrite one balance. -/
def setBal (l : Ledger) (a : Nat) (w : Nat) (v : Nat) : Ledger :=
  { l with bal := upd l.bal a (upd (l.bal a) w v) }

/-- `Transfer::transfer(asset, source, dest, amount, keep_alive)`
(`currency-adapter/src/lib.rs` `impl Transfer`): amount 0 succeeds without effect; the source must own
the amount and, with `keep_alive`, keep at least the minimum balance 1. -/
def transfer (l : Ledger) (a : Nat) (src dst : Nat) (amt : Nat) (keep : Bool) :
    R Ledger :=
  if amt = 0 then .ok l
  else if l.bal a src < amt then .error .noFunds
  else if keep = true ∧ l.bal a src = amt then .error .keepAlive
  else
    let l1 := l.setBal a src (l.bal a src - amt)
    .ok (l1.setBal a dst (l1.bal a dst + amt))

/-- `Mutate::mint_into` (`currency-adapter/src/lib.rs` `impl Mutate`). -/
def mint (l : Ledger) (a : Nat) (who : Nat) (amt : Nat) : R Ledger :=
  if l.iss a + amt ≤ maxU128 then
    .ok { (l.setBal a who (l.bal a who + amt)) with iss := upd l.iss a (l.iss a + amt) }
  else .error .overflow

/-- `Mutate::burn_from` (`currency-adapter/src/lib.rs` `impl Mutate`).  The issuance is reduced with
saturation by `pallet_balances`, with an assertion by `pallet_assets`; under `WF` both are exact. -/
def burn (l : Ledger) (a : Nat) (who : Nat) (amt : Nat) : R Ledger :=
  if amt ≤ l.bal a who then
    .ok { (l.setBal a who (l.bal a who - amt)) with iss := upd l.iss a (l.iss a - amt) }
  else .error .noFunds

/-- `Inspect::reducible_balance(asset, who, keep_alive)`. -/
def reducible (l : Ledger) (a : Nat) (who : Nat) (keep : Bool) : Nat :=
  if keep = true then l.bal a who - 1 else l.bal a who

/-- Balances of each asset add up to its issuance, which fits `u128`. -/
def WF (l : Ledger) : Prop := ∀ a, SumsTo (l.bal a) (l.iss a) ∧ l.iss a ≤ maxU128

theorem bal_le_iss {l : Ledger} (h : l.WF) (a : Nat) (w : Nat) : l.bal a w ≤ l.iss a :=
  (h a).1.apply w

theorem setBal_bal (l : Ledger) (a w v x y) :
    (l.setBal a w v).bal x y = if x = a ∧ y = w then v else l.bal x y := by
  by_cases hx : x = a
  · subst hx; simp [setBal, upd]
  · simp [setBal, upd, hx]

@[simp] theorem setBal_iss (l : Ledger) (a w v) : (l.setBal a w v).iss = l.iss := rfl

theorem transfer_le {l l' : Ledger} {a s d m k} (h : l.transfer a s d m k = .ok l') :
    m ≤ l.bal a s := by
  unfold transfer at h
  split_ifs at h <;> omega

theorem transfer_iss {l l' : Ledger} {a s d m k} (h : l.transfer a s d m k = .ok l') :
    l'.iss = l.iss := by
  unfold transfer at h
  split_ifs at h
  · cases h; rfl
  · cases h; rfl

/-- The effect of a transfer on every balance, including self transfers. -/
theorem transfer_bal {l l' : Ledger} {a s d m k} (h : l.transfer a s d m k = .ok l') (x y) :
    l'.bal x y + (if x = a ∧ y = s then m else 0) = l.bal x y + (if x = a ∧ y = d then m else 0) := by
  unfold transfer at h
  split_ifs at h
  · cases h; simp_all
  · cases h
    rename_i h1 h2 h3
    by_cases hx : x = a
    · subst hx
      by_cases hy : y = s <;> by_cases hy' : y = d <;> by_cases hd : d = s <;>
        simp_all [setBal_bal] <;> omega
    · simp [setBal_bal, hx]

theorem transfer_keep {l l' : Ledger} {a s d m} (h : l.transfer a s d m true = .ok l')
    (hm : m ≠ 0) : m < l.bal a s := by
  unfold transfer at h
  split_ifs at h <;> simp_all <;> omega

/-- When a transfer succeeds. -/
theorem transfer_succeeds {l : Ledger} {a s d m k} (h : m ≤ l.bal a s)
    (hk : k = true → m < l.bal a s) : ∃ l', l.transfer a s d m k = .ok l' := by
  unfold transfer
  split_ifs with h1 h2 h3
  · exact ⟨_, rfl⟩
  · omega
  · have := hk h3.1; omega
  · exact ⟨_, rfl⟩

theorem transfer_wf {l l' : Ledger} {a s d m k} (h : l.transfer a s d m k = .ok l') (hw : l.WF) :
    l'.WF := by
  intro x
  rw [transfer_iss h]
  refine ⟨?_, (hw x).2⟩
  by_cases hx : x = a
  · subst hx
    apply (hw x).1.move s d m (transfer_le h)
    intro i
    simpa using transfer_bal h x i
  · apply (hw x).1.congr
    intro i
    simpa [hx] using transfer_bal h x i

theorem mint_bal {l l' : Ledger} {a w m} (h : l.mint a w m = .ok l') (x y) :
    l'.bal x y = l.bal x y + (if x = a ∧ y = w then m else 0) := by
  unfold mint at h
  split_ifs at h
  cases h
  simp only [setBal_bal]
  split_ifs with hc
  · obtain ⟨rfl, rfl⟩ := hc; rfl
  · rfl

theorem mint_iss {l l' : Ledger} {a w m} (h : l.mint a w m = .ok l') (x) :
    l'.iss x = l.iss x + (if x = a then m else 0) := by
  unfold mint at h
  split_ifs at h
  cases h
  by_cases hx : x = a
  · subst hx; simp
  · simp [upd_of_ne _ _ hx, hx]

theorem mint_le {l l' : Ledger} {a w m} (h : l.mint a w m = .ok l') : l.iss a + m ≤ maxU128 := by
  unfold mint at h
  split_ifs at h
  assumption

theorem mint_succeeds {l : Ledger} {a w m} (h : l.iss a + m ≤ maxU128) :
    ∃ l', l.mint a w m = .ok l' := by
  unfold mint; simp [h]

theorem mint_wf {l l' : Ledger} {a w m} (h : l.mint a w m = .ok l') (hw : l.WF) : l'.WF := by
  intro x
  have hi := mint_iss h x
  by_cases hx : x = a
  · subst hx
    have := mint_le h
    refine ⟨?_, by simp at hi; omega⟩
    apply (hw x).1.update w
    · intro i hn; simp [mint_bal h, hn]
    · simp [mint_bal h] at *; omega
  · refine ⟨?_, by have := (hw x).2; simp [hx] at hi; omega⟩
    simp only [hx, if_false, Nat.add_zero] at hi
    rw [hi]
    apply (hw x).1.congr
    intro i; simp [mint_bal h, hx]

theorem burn_le {l l' : Ledger} {a w m} (h : l.burn a w m = .ok l') : m ≤ l.bal a w := by
  unfold burn at h
  split_ifs at h
  assumption

theorem burn_succeeds {l : Ledger} {a w m} (h : m ≤ l.bal a w) : ∃ l', l.burn a w m = .ok l' := by
  unfold burn; simp [h]

theorem burn_bal {l l' : Ledger} {a w m} (h : l.burn a w m = .ok l') (x y) :
    l'.bal x y + (if x = a ∧ y = w then m else 0) = l.bal x y := by
  unfold burn at h
  split_ifs at h with hm
  cases h
  simp only [setBal_bal]
  split_ifs with hc
  · obtain ⟨rfl, rfl⟩ := hc; omega
  · rfl

theorem burn_iss {l l' : Ledger} {a w m} (h : l.burn a w m = .ok l') (x) :
    l'.iss x = l.iss x - (if x = a then m else 0) := by
  unfold burn at h
  split_ifs at h
  cases h
  by_cases hx : x = a
  · subst hx; simp
  · simp [upd_of_ne _ _ hx, hx]

theorem burn_wf {l l' : Ledger} {a w m} (h : l.burn a w m = .ok l') (hw : l.WF) : l'.WF := by
  intro x
  have hi := burn_iss h x
  have hm := burn_le h
  have hb := bal_le_iss hw a w
  by_cases hx : x = a
  · subst hx
    refine ⟨?_, by have := (hw x).2; simp at hi; omega⟩
    apply (hw x).1.update w
    · intro i hn; have := burn_bal h x i; simp [hn] at this; exact this
    · have := burn_bal h x w; simp at *; omega
  · refine ⟨?_, by have := (hw x).2; simp [hx] at hi; omega⟩
    simp only [hx, if_false, Nat.sub_zero] at hi
    rw [hi]
    apply (hw x).1.congr
    intro i; have := burn_bal h x i; simp [hx] at this; exact this

/-! ### Fixtures for examples -/

/-- No tokens at all. -/
def empty : Ledger := ⟨fun _ _ => 0, fun _ => 0⟩

theorem empty_wf : empty.WF := fun _ => ⟨SumsTo.zero, Nat.zero_le _⟩

/-- A ledger with the listed `(asset, account, amount)` endowments. -/
def ofList : List (Nat × Nat × Nat) → Ledger
  | [] => empty
  | (a, w, m) :: xs => commit (ofList xs) ((ofList xs).mint a w m)

theorem ofList_wf : ∀ xs, (ofList xs).WF
  | [] => empty_wf
  | (a, w, m) :: xs => by
    have ih := ofList_wf xs
    unfold ofList
    rcases commit_cases (ofList xs) ((ofList xs).mint a w m) with h | h
    · exact mint_wf h ih
    · rw [h.1]; exact ih

end Ledger

/-- Boolean test of a successful result, for examples that are checked by kernel computation. -/
def okAnd {α : Type} (r : R α) (P : α → Bool) : Bool := match r with
  | .ok a => P a
  | .error _ => false

/-- Boolean test of a failed result. -/
def errIs {α : Type} (r : R α) (e : Err) : Bool := match r with
  | .ok _ => false
  | .error e' => e' = e

theorem okAnd_iff {α : Type} {r : R α} {P : α → Bool} :
    okAnd r P = true ↔ ∃ a, r = .ok a ∧ P a = true := by
  cases r <;> simp [okAnd]

end Verif
