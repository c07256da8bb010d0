import Verif.Evm.Gas
import Verif.Evm.AssetsProps3
import Verif.Evm.BalancesProps3

/-!
# Gas of the token contracts (C213, C214)
-/

set_option linter.unusedSimpArgs false
set_option linter.unusedVariables false

namespace Verif.Evm
open Verif

/-! ## Specification: prices -/

/-- What the EVM charges for a log: 375, 375 for each topic (the event is the first), 8 for each byte. -/
def Log.price (l : Log) : Nat := 375 + 375 * (1 + l.topics.length) + 8 * l.data.length

/-- What a dispatched call costs. -/
def Rates.call (k : Rates) (d : Disp) : Nat := (k.actual d).getD (k.declared d)

/-- The price of a successful call of the native token: a log with three topics and 32 bytes costs 1756, with two topics 1381. -/
def Bal.price (k : Rates) : Bal.Action → Nat
  | .totalSupply | .balanceOf | .allowance | .nonces | .domainSeparator | .permit => k.read
  | .name | .symbol | .decimals => 0
  | .approve => k.write + 1756
  | .transfer => 1756 + k.call .native
  | .transferFrom => k.read + k.write + 1756 + k.call .native
  | .deposit => 1381 + k.call .native
  | .withdraw => 1381

/-- The call set an allowance from `ow` for `sp` where there was one that is not 0. -/
def Ast.Replaces (rt : Rt) (s : Ast.State) (id : Nat) (o : Out Ast.State) : Prop :=
  ∃ adr ow sp d, o.logs = [⟨adr, .approval, [ow, sp], d⟩] ∧ Ast.allowanceOf s id (rt.acct ow) (rt.acct sp) ≠ 0

/-- The call moved tokens that the caller owns. -/
def Ast.Own (rt : Rt) (cx : Ctx) (o : Out Ast.State) : Prop :=
  ∃ adr ow d dt, o.logs = [⟨adr, .transfer, [ow, d], dt⟩] ∧ rt.acct cx.caller = rt.acct ow

open Classical in
/-- The price of a successful call of an asset's contract. -/
noncomputable def Ast.price (k : Rates) (rt : Rt) (cx : Ctx) (s : Ast.State) (id : Nat) (o : Out Ast.State) :
    Ast.Action → Nat
  | .approve => 1756 + k.read + (if Ast.Replaces rt s id o then k.call .cancelApproval else 0) + k.call .approveTransfer
  | .permit => 2 * k.read + (if Ast.Replaces rt s id o then k.call .cancelApproval else 0) + k.call .approveTransfer
  | .transfer => 1756 + k.call .transfer
  | .transferFrom => 1756 + (if Ast.Own rt cx o then k.call .transfer else k.call .transferApproved)
  | .mint => k.call .mint
  | .burn => k.call .burn
  | _ => k.read

/-! ## The meter -/

/-- All charges. -/
def total : List GasStep → Nat
  | [] => 0
  | .charge c :: l => c.getD 0 + total l
  | .need _ :: l => total l

theorem total_append (l l' : List GasStep) : total (l ++ l') = total l + total l' := by
  induction l with
  | nil => simp [total]
  | cons a l ih =>
    cases a with
    | charge c => simp only [List.cons_append, total, ih]; omega
    | need c => simp only [List.cons_append, total, ih]

theorem meter_total {l : List GasStep} {g r : Nat} (h : meter l g = some r) : total l + r = g := by
  induction l generalizing g with
  | nil => simp only [meter, Option.some.injEq] at h; simp [total, h]
  | cons a l ih =>
    cases a with
    | charge c =>
      cases c with
      | none => cases h
      | some c =>
        simp only [meter] at h
        split at h
        · have := ih h
          simp only [total, Option.getD_some]; omega
        · cases h
    | need c =>
      simp only [meter] at h
      split at h
      · exact ih h
      · cases h

theorem meter_more {l : List GasStep} {g r : Nat} (h : meter l g = some r) (n : Nat) : meter l (g + n) = some (r + n) := by
  induction l generalizing g with
  | nil => simp only [meter, Option.some.injEq] at h ⊢; omega
  | cons a l ih =>
    cases a with
    | charge c =>
      cases c with
      | none => cases h
      | some c =>
        simp only [meter] at h ⊢
        split at h
        · rw [if_pos (by omega), show g + n - c = g - c + n by omega]
          exact ih h
        · cases h
    | need c =>
      simp only [meter] at h ⊢
      split at h
      · rw [if_pos (by omega)]
        exact ih h
      · cases h

/-- Every check for gas is followed by a charge of that much. -/
inductive Tight : List GasStep → Prop
  | nil : Tight []
  | charge (c : Nat) {l : List GasStep} (h : Tight l) : Tight (.charge (some c) :: l)
  | call (c : Nat) {l : List GasStep} (h : Tight l) : Tight (.need c :: .charge (some c) :: l)

theorem Tight.append {l l' : List GasStep} (h : Tight l) (h' : Tight l') : Tight (l ++ l') := by
  induction h with
  | nil => exact h'
  | charge c _ ih => exact .charge c ih
  | call c _ ih => exact .call c ih

theorem Tight.meter {l : List GasStep} (h : Tight l) (g : Nat) :
    Evm.meter l g = if total l ≤ g then some (g - total l) else none := by
  induction h generalizing g with
  | nil => simp [Evm.meter, total]
  | @charge c l _ ih =>
    have e : total (.charge (some c) :: l) = c + total l := rfl
    rw [e]
    simp only [Evm.meter, ih]
    by_cases h1 : c ≤ g
    · by_cases h2 : total l ≤ g - c
      · rw [if_pos h1, if_pos h2, if_pos (by omega), show g - c - total l = g - (c + total l) by omega]
      · rw [if_pos h1, if_neg h2, if_neg (by omega)]
    · rw [if_neg h1, if_neg (by omega)]
  | @call c l _ ih =>
    have e : total (.need c :: .charge (some c) :: l) = c + total l := rfl
    rw [e]
    simp only [Evm.meter, ih]
    by_cases h1 : c ≤ g
    · by_cases h2 : total l ≤ g - c
      · rw [if_pos h1, if_pos h1, if_pos h2, if_pos (by omega), show g - c - total l = g - (c + total l) by omega]
      · rw [if_pos h1, if_pos h1, if_neg h2, if_neg (by omega)]
    · rw [if_neg h1, if_neg (by omega)]

/-! ## Metered programs -/

/-- The program can end with `a`, and its charges add up to `c`. -/
def Yields {α : Type} (p : Met α) (a : α) (c : Nat) : Prop := p.res = .ok a ∧ total p.steps = c

theorem bind_res {α β : Type} (p : Met α) (f : α → Met β) : (p >>= f).res = p.res >>= fun a => (f a).res := by
  show (Met.bind p f).res = _
  unfold Met.bind
  cases p.res <;> rfl

theorem yields_bind {α β : Type} {p : Met α} {f : α → Met β} {b : β} {c : Nat} :
    Yields (p >>= f) b c ↔ ∃ a c1, Yields p a c1 ∧ ∃ c2, Yields (f a) b c2 ∧ c = c1 + c2 := by
  show Yields (Met.bind p f) b c ↔ _
  unfold Yields Met.bind
  cases h : p.res with
  | ok a =>
    simp only [total_append]
    constructor
    · rintro ⟨h1, h2⟩
      exact ⟨a, _, ⟨rfl, rfl⟩, _, ⟨h1, rfl⟩, h2.symm⟩
    · rintro ⟨a', c1, ⟨h1, h2⟩, c2, ⟨h3, h4⟩, h5⟩
      cases h1
      exact ⟨h3, by omega⟩
  | error e =>
    constructor
    · rintro ⟨h1, h2⟩; cases h1
    · rintro ⟨a', c1, ⟨h1, h2⟩, _⟩; cases h1

theorem yields_free {α : Type} {x : R α} {a : α} {c : Nat} : Yields (Met.free x) a c ↔ x = .ok a ∧ c = 0 := by
  unfold Yields Met.free
  exact and_congr_right fun _ => eq_comm

theorem yields_pure {α : Type} {x a : α} {c : Nat} : Yields (pure x) a c ↔ x = a ∧ c = 0 := by
  show ((Except.ok x : R α) = .ok a ∧ 0 = c) ↔ _
  rw [Except.ok.injEq, eq_comm (a := 0)]

theorem yields_charge {n : Nat} {a : Unit} {c : Nat} : Yields (charge n) a c ↔ c = n := by
  show ((Except.ok () : R Unit) = .ok a ∧ n + 0 = c) ↔ _
  constructor
  · rintro ⟨_, h⟩; omega
  · rintro rfl; exact ⟨rfl, rfl⟩

theorem yields_needGas {n : Nat} {a : Unit} {c : Nat} : Yields (needGas n) a c ↔ c = 0 := by
  show ((Except.ok () : R Unit) = .ok a ∧ 0 = c) ↔ _
  constructor
  · rintro ⟨_, h⟩; omega
  · rintro rfl; exact ⟨rfl, rfl⟩

/-- What a log of any shape costs: 375 gas, 375 per topic and 8 per byte of data; no price at all (the transaction runs out
of gas) exactly when that sum does not fit into 64 bits. -/
theorem C213_log_price (topics len c : Nat) :
    logCosts topics len = some c ↔ c = 375 + 375 * topics + 8 * len ∧ 375 + 375 * topics + 8 * len ≤ maxU64 := by
  unfold logCosts
  generalize maxU64 = m
  split
  · rename_i h
    rw [Option.some.injEq]
    exact ⟨fun e => ⟨e.symm, h.2.2.2⟩, fun e => e.1.symm⟩
  · rename_i h
    refine ⟨fun e => by simp at e, fun e => absurd ?_ h⟩
    exact ⟨by omega, by omega, by omega, e.2⟩

theorem logCosts3 : logCosts 3 32 = some 1756 := by decide
theorem logCosts2 : logCosts 2 32 = some 1381 := by decide

theorem yields_log3 {a : Unit} {c : Nat} : Yields (chargeLog 3 32) a c ↔ c = 1756 := by
  unfold chargeLog; rw [logCosts3]; exact yields_charge

theorem yields_log2 {a : Unit} {c : Nat} : Yields (chargeLog 2 32) a c ↔ c = 1381 := by
  unfold chargeLog; rw [logCosts2]; exact yields_charge

theorem yields_dispatch {α : Type} {k : Rates} {rt : Rt} {d : Disp} {x : R α} {a : α} {c : Nat} :
    Yields (tryDispatch k rt d x) a c ↔ dispatch rt d x = .ok a ∧ c = k.call d := by
  unfold tryDispatch
  simp only [yields_bind, yields_needGas, yields_free, yields_charge, yields_pure]
  constructor
  · rintro ⟨_, _, rfl, _, ⟨b, _, ⟨h1, rfl⟩, _, ⟨_, _, rfl, _, ⟨rfl, rfl⟩, rfl⟩, rfl⟩, rfl⟩
    exact ⟨h1, by unfold Rates.call; omega⟩
  · rintro ⟨h1, rfl⟩
    exact ⟨(), _, rfl, _, ⟨a, _, ⟨h1, rfl⟩, _, ⟨(), _, rfl, _, ⟨rfl, rfl⟩, rfl⟩, rfl⟩, by unfold Rates.call; omega⟩

theorem dispatch_res {α : Type} {k : Rates} {rt : Rt} {d : Disp} {x : R α} : (tryDispatch k rt d x).res = dispatch rt d x := by
  unfold tryDispatch
  simp only [bind_res]
  show (dispatch rt d x >>= fun a => pure a) = _
  exact bind_pure _

theorem run_done {α : Type} {p : Met α} {g l : Nat} {a : α} (h : p.run g = .done a l) : Yields p a (g - l) ∧ l ≤ g := by
  unfold Met.run at h
  cases hm : meter p.steps g with
  | none => rw [hm] at h; cases h
  | some r =>
    rw [hm] at h
    have := meter_total hm
    cases hr : p.res with
    | ok b =>
      rw [hr] at h
      cases h
      exact ⟨⟨hr, by omega⟩, by omega⟩
    | error e => rw [hr] at h; cases h

theorem run_failed {α : Type} {p : Met α} {g l : Nat} {e : Err} (h : p.run g = .failed e l) :
    p.res = .error e ∧ l ≤ g := by
  unfold Met.run at h
  cases hm : meter p.steps g with
  | none => rw [hm] at h; cases h
  | some r =>
    rw [hm] at h
    have := meter_total hm
    cases hr : p.res with
    | ok b => rw [hr] at h; cases h
    | error e => rw [hr] at h; cases h; exact ⟨rfl, by omega⟩

theorem run_more {α : Type} {p : Met α} {g l : Nat} {a : α} (h : p.run g = .done a l) (n : Nat) :
    p.run (g + n) = .done a (l + n) := by
  unfold Met.run at h ⊢
  cases hm : meter p.steps g with
  | none => rw [hm] at h; cases h
  | some r =>
    rw [hm] at h
    rw [meter_more hm]
    cases hr : p.res with
    | ok b => rw [hr] at h; cases h; rfl
    | error e => rw [hr] at h; cases h

/-- Successful runs check for gas only what they charge. -/
def Met.Tight {α : Type} (p : Met α) : Prop := ∀ a, p.res = .ok a → Evm.Tight p.steps

theorem Tight.run {α : Type} {p : Met α} (h : p.Tight) {a : α} {c : Nat} (hy : Yields p a c) (g : Nat) :
    p.run g = if c ≤ g then .done a (g - c) else .outOfGas := by
  unfold Met.run
  rw [(h a hy.1).meter g, hy.2, hy.1]
  by_cases hc : c ≤ g
  · rw [if_pos hc, if_pos hc]
  · rw [if_neg hc, if_neg hc]

theorem tight_bind {α β : Type} {p : Met α} {f : α → Met β} (hp : p.Tight) (hf : ∀ a, (f a).Tight) : (p >>= f).Tight := by
  intro b hb
  rw [bind_res] at hb
  show Evm.Tight (Met.bind p f).steps
  unfold Met.bind
  cases h : p.res with
  | ok a =>
    rw [h] at hb
    exact (hp a h).append (hf a b hb)
  | error e => rw [h] at hb; cases hb

theorem tight_free {α : Type} (x : R α) : (Met.free x).Tight := fun _ _ => .nil
theorem tight_pure {α : Type} (x : α) : (pure x : Met α).Tight := fun _ _ => .nil
theorem tight_charge (c : Nat) : (charge c).Tight := fun _ _ => .charge c .nil
theorem tight_log3 : (chargeLog 3 32).Tight := fun _ _ => by
  unfold chargeLog; rw [logCosts3]; exact .charge _ .nil
theorem tight_log2 : (chargeLog 2 32).Tight := fun _ _ => by
  unfold chargeLog; rw [logCosts2]; exact .charge _ .nil
theorem tight_dispatch {α : Type} {k : Rates} (hk : ∀ d, k.actual d = none) (rt : Rt) (d : Disp) (x : R α) :
    (tryDispatch k rt d x).Tight := by
  intro a ha
  rw [dispatch_res] at ha
  unfold tryDispatch
  show Evm.Tight (Met.bind (needGas _) fun _ => Met.bind (Met.free (dispatch rt d x)) fun a => Met.bind (charge _) fun _ => pure a).steps
  rw [hk d, Option.getD_none, ha]
  exact .call _ .nil

/-- If the contract refuses, the meter cannot change that. -/
theorem run_error {α : Type} {p : Met α} {e : Err} (h : p.res = .error e) {g : Nat} :
    p.run g = .outOfGas ∨ ∃ l, l ≤ g ∧ p.run g = .failed e l := by
  unfold Met.run
  cases hm : meter p.steps g with
  | none => exact .inl rfl
  | some r =>
    have := meter_total hm
    rw [h]
    exact .inr ⟨r, by omega, rfl⟩

theorem tight_skip {α β : Type} {x : R α} {f : α → Met β} (hf : ∀ a, (f a).Tight) : (Met.free x >>= f).Tight :=
  tight_bind (tight_free x) hf

/-- Successful runs charge `c`. -/
def Costs {α : Type} (p : Met α) (c : Nat) : Prop := ∀ a, p.res = .ok a → total p.steps = c

theorem Costs.cast {α : Type} {p : Met α} {c d : Nat} (h : Costs p c) (e : c = d) : Costs p d := e ▸ h

theorem costs_bind {α β : Type} {p : Met α} {f : α → Met β} {c d : Nat} (hp : Costs p c) (hf : ∀ a, Costs (f a) d) :
    Costs (p >>= f) (c + d) := by
  intro b hb
  obtain ⟨a, c1, h1, c2, h2, h3⟩ := (yields_bind (c := total (p >>= f).steps)).1 ⟨hb, rfl⟩
  rw [h3, ← h1.2, ← h2.2, hp a h1.1, hf a b h2.1]

theorem costs_free {α : Type} (x : R α) : Costs (Met.free x) 0 := fun _ _ => rfl
theorem costs_pure {α : Type} (x : α) : Costs (pure x : Met α) 0 := fun _ _ => rfl
theorem costs_skip {α β : Type} {x : R α} {f : α → Met β} {d : Nat} (hf : ∀ a, Costs (f a) d) : Costs (Met.free x >>= f) d :=
  (costs_bind (costs_free x) hf).cast (Nat.zero_add d)
theorem costs_charge (c : Nat) : Costs (charge c) c := fun _ _ => rfl
theorem costs_log3 : Costs (chargeLog 3 32) 1756 := fun _ _ => by
  unfold chargeLog; rw [logCosts3]; rfl
theorem costs_log2 : Costs (chargeLog 2 32) 1381 := fun _ _ => by
  unfold chargeLog; rw [logCosts2]; rfl
theorem costs_dispatch {α : Type} {k : Rates} (rt : Rt) (d : Disp) (x : R α) : Costs (tryDispatch k rt d x) (k.call d) :=
  fun a h => (yields_dispatch (c := total (tryDispatch k rt d x).steps)).1 ⟨h, rfl⟩ |>.2

/-! ## The native token -/

namespace Bal
variable {k : Rates} {rt : Rt} {m : Meta} {cx : Ctx} {input : List Byte} {s : State} {o : Out State} {g l : Nat} {e : Err}

/-- Without the meter, the program is the one of `BalancesErc20.lean`. -/
theorem mExecute_res : (mExecute k rt m cx input s).res = execute rt m cx input s := by
  unfold mExecute execute
  cases actionOf input
  case transfer => simp only [mTransfer, transfer, bind_res, dispatch_res]; rfl
  case transferFrom => simp only [mTransferFrom, transferFrom, bind_res, dispatch_res]; rfl
  case deposit => simp only [mDeposit, deposit, bind_res, dispatch_res]; rfl
  case withdraw => simp only [mWithdraw, withdraw, bind_res]; rfl
  all_goals rfl

theorem mExecute_costs : Costs (mExecute k rt m cx input s) (price k (actionOf input)) := by
  unfold mExecute
  cases actionOf input
  case totalSupply => exact costs_bind (costs_charge _) fun _ => costs_free _
  case balanceOf => exact costs_bind (costs_charge _) fun _ => costs_free _
  case allowance => exact costs_bind (costs_charge _) fun _ => costs_free _
  case nonces => exact costs_bind (costs_charge _) fun _ => costs_free _
  case domainSeparator => exact costs_bind (costs_charge _) fun _ => costs_pure _
  case permit => exact costs_bind (costs_charge _) fun _ => costs_free _
  case name => exact costs_pure _
  case symbol => exact costs_pure _
  case decimals => exact costs_pure _
  case approve => exact costs_bind (costs_charge _) fun _ => costs_bind costs_log3 fun _ => costs_free _
  case transfer =>
    exact costs_bind costs_log3 fun _ => costs_skip fun _ => costs_skip fun _ => costs_skip fun _ => costs_skip fun _ =>
      costs_skip fun _ => costs_bind (costs_dispatch _ _ _) fun _ => costs_pure _
  case transferFrom =>
    refine Costs.cast (costs_bind (costs_charge _) fun _ => costs_bind (costs_charge _) fun _ =>
      costs_bind costs_log3 fun _ => costs_skip fun _ => costs_skip fun _ => costs_skip fun _ => costs_skip fun _ =>
      costs_skip fun _ => costs_skip fun _ => costs_skip fun _ => costs_bind (costs_dispatch _ _ _) fun _ => costs_pure _) ?_
    simp only [price]; omega
  case deposit =>
    exact costs_skip fun _ => costs_skip fun _ => costs_skip fun _ => costs_bind costs_log2 fun _ =>
      costs_bind (costs_dispatch _ _ _) fun _ => costs_pure _
  case withdraw =>
    exact costs_skip fun _ => costs_bind costs_log2 fun _ => costs_skip fun _ => costs_skip fun _ => costs_skip fun _ =>
      costs_pure _

theorem mExecute_tight (hk : ∀ d, k.actual d = none) : (mExecute k rt m cx input s).Tight := by
  unfold mExecute
  cases actionOf input
  case totalSupply => exact tight_bind (tight_charge _) fun _ => tight_free _
  case balanceOf => exact tight_bind (tight_charge _) fun _ => tight_free _
  case allowance => exact tight_bind (tight_charge _) fun _ => tight_free _
  case nonces => exact tight_bind (tight_charge _) fun _ => tight_free _
  case domainSeparator => exact tight_bind (tight_charge _) fun _ => tight_pure _
  case permit => exact tight_bind (tight_charge _) fun _ => tight_free _
  case name => exact tight_pure _
  case symbol => exact tight_pure _
  case decimals => exact tight_pure _
  case approve => exact tight_bind (tight_charge _) fun _ => tight_bind tight_log3 fun _ => tight_free _
  case transfer =>
    exact tight_bind tight_log3 fun _ => tight_skip fun _ => tight_skip fun _ => tight_skip fun _ => tight_skip fun _ =>
      tight_skip fun _ => tight_bind (tight_dispatch hk _ _ _) fun _ => tight_pure _
  case transferFrom =>
    exact tight_bind (tight_charge _) fun _ => tight_bind (tight_charge _) fun _ =>
      tight_bind tight_log3 fun _ => tight_skip fun _ => tight_skip fun _ => tight_skip fun _ => tight_skip fun _ =>
      tight_skip fun _ => tight_skip fun _ => tight_skip fun _ => tight_bind (tight_dispatch hk _ _ _) fun _ => tight_pure _
  case deposit =>
    exact tight_skip fun _ => tight_skip fun _ => tight_skip fun _ => tight_bind tight_log2 fun _ =>
      tight_bind (tight_dispatch hk _ _ _) fun _ => tight_pure _
  case withdraw =>
    exact tight_skip fun _ => tight_bind tight_log2 fun _ => tight_skip fun _ => tight_skip fun _ => tight_skip fun _ =>
      tight_pure _

/-- **C213, native token.** A call with `g` gas that succeeds does exactly what the contract does with unlimited gas, and uses
exactly the price of the function, whatever the arguments and the state. -/
theorem C213_native_exact (h : (mExecute k rt m cx input s).run g = .done o l) :
    execute rt m cx input s = .ok o ∧ l + price k (actionOf input) = g := by
  obtain ⟨⟨h1, h2⟩, h3⟩ := run_done h
  rw [mExecute_costs o h1] at h2
  rw [mExecute_res] at h1
  exact ⟨h1, by omega⟩

/-- **C213, native token, how much gas is enough.** If the contract accepts the call, then a run with the price of the function or
more succeeds, and one with less runs out of gas. -/
theorem C213_native_enough (hk : ∀ d, k.actual d = none) (h : execute rt m cx input s = .ok o) (g : Nat) :
    (mExecute k rt m cx input s).run g =
      if price k (actionOf input) ≤ g then .done o (g - price k (actionOf input)) else .outOfGas :=
  Tight.run (mExecute_tight hk) ⟨mExecute_res.trans h, mExecute_costs o (mExecute_res.trans h)⟩ g

/-- **C213, native token, failures.** A call that fails for another reason than gas fails with the same error with unlimited
gas, and gives back no more than it got; one that the contract refuses does not succeed with any amount of gas. -/
theorem C213_native_fails :
    ((mExecute k rt m cx input s).run g = .failed e l → execute rt m cx input s = .error e ∧ l ≤ g) ∧
    (execute rt m cx input s = .error e → (mExecute k rt m cx input s).run g = .outOfGas ∨
      ∃ l, l ≤ g ∧ (mExecute k rt m cx input s).run g = .failed e l) := by
  constructor
  · intro h
    have := run_failed h
    rwa [mExecute_res] at this
  · exact fun h => run_error (mExecute_res.trans h)

end Bal

/-! ## The contracts of assets -/

namespace Ast
variable {k : Rates} {rt : Rt} {cx : Ctx} {input : List Byte} {s : State} {id : Nat} {a : Asset} {f : Action} {o : Out State}
  {g l : Nat} {e : Err}

theorem mApproveInner_res {ow sp v : Nat} : (mApproveInner k rt s id ow sp v).res = approveInner rt s id ow sp v := by
  unfold mApproveInner approveInner mCancelOld cancelOld
  by_cases h : allowanceOf s id ow sp ≠ 0
  · simp only [if_pos h, bind_res, dispatch_res]; rfl
  · simp only [if_neg h, bind_res, dispatch_res]; rfl

theorem mMoveFrom_res {c ow d x : Nat} : (mMoveFrom k rt s id c ow d x).res = moveFrom rt s id c ow d x := by
  unfold mMoveFrom moveFrom
  by_cases h : c ≠ ow
  · rw [if_pos h, if_pos h]; exact dispatch_res
  · rw [if_neg h, if_neg h]; exact dispatch_res

theorem mAct_res : (mAct k rt cx s id a input f).res = act rt cx s id a input f := by
  cases f
  case approve => simp only [mAct, act, mApprove, approve, bind_res, mApproveInner_res]; rfl
  case transfer => simp only [mAct, act, mTransfer, transfer, bind_res, dispatch_res]; rfl
  case transferFrom => simp only [mAct, act, mTransferFrom, transferFrom, bind_res, mMoveFrom_res]; rfl
  case mint => simp only [mAct, act, mMint, mint, bind_res, dispatch_res]; rfl
  case burn => simp only [mAct, act, mBurn, burn, bind_res, dispatch_res]; rfl
  case permit =>
    simp only [mAct, act, mPermit, permit, mPermitBody, permitBody, bind_res, mApproveInner_res]; rfl
  all_goals rfl

/-- Without the meter, the program is the one of `AssetsErc20.lean`. -/
theorem mExecute_res : (mExecute k rt cx input s).map (·.res) = execute rt cx input s := by
  unfold mExecute execute
  cases addressToAssetId cx.codeAddress with
  | none => rfl
  | some id =>
    cases hs : s.assets id with
    | none => simp only [hs, Option.map_none]
    | some a =>
      simp only [hs, Option.map_some, Option.some.injEq]
      simp only [mCall, call, bind_res, mAct_res]; rfl

theorem mApproveInner_costs {ow sp v : Nat} : Costs (mApproveInner k rt s id ow sp v)
    (k.read + ((if allowanceOf s id ow sp ≠ 0 then k.call .cancelApproval else 0) + k.call .approveTransfer)) := by
  refine costs_bind (costs_charge _) fun _ => costs_bind ?_ fun _ => costs_dispatch _ _ _
  unfold mCancelOld
  by_cases h : allowanceOf s id ow sp ≠ 0
  · rw [if_pos h, if_pos h]; exact costs_dispatch _ _ _
  · rw [if_neg h, if_neg h]; exact costs_pure _

theorem mMoveFrom_costs {c ow d x : Nat} : Costs (mMoveFrom k rt s id c ow d x)
    (if c ≠ ow then k.call .transferApproved else k.call .transfer) := by
  unfold mMoveFrom
  by_cases h : c ≠ ow
  · rw [if_pos h, if_pos h]; exact costs_dispatch _ _ _
  · rw [if_neg h, if_neg h]; exact costs_dispatch _ _ _

theorem Yields.costs {α : Type} {p : Met α} {x : α} {c d : Nat} (h : Yields p x c) (hc : Costs p d) : c = d :=
  h.2.symm.trans (hc x h.1)

theorem mAct_yields {c : Nat} (h : Yields (mAct k rt cx s id a input f) o c) : c = price k rt cx s id o f := by
  cases f
  case approve =>
    have h : Yields (mApprove k rt cx s id input) o c := h
    simp only [mApprove, yields_bind, yields_free, yields_pure, yields_log3, Prod.exists] at h
    obtain ⟨_, _, rfl, _, ⟨_, _, ⟨_, rfl⟩, _, ⟨_, _, ⟨_, rfl⟩, _, ⟨sp, _, _, ⟨_, rfl⟩, _, ⟨am, _, _, ⟨_, rfl⟩, _,
      ⟨s', c1, hy, _, ⟨rfl, rfl⟩, rfl⟩, rfl⟩, rfl⟩, rfl⟩, rfl⟩, rfl⟩ := h
    have hc := Yields.costs hy mApproveInner_costs
    have hr : Replaces rt s id ⟨s', outBool true, [⟨cx.address, .approval, [cx.caller, sp], outWord am⟩]⟩ ↔
        allowanceOf s id (rt.acct cx.caller) (rt.acct sp) ≠ 0 := by
      constructor
      · rintro ⟨_, _, _, _, h1, h2⟩
        simp only [List.cons.injEq, Log.mk.injEq, and_true, true_and] at h1
        obtain ⟨_, ⟨rfl, rfl⟩, _⟩ := h1
        exact h2
      · exact fun h => ⟨_, _, _, _, rfl, h⟩
    simp only [price, hr]
    omega
  case permit =>
    have h : Yields (mPermit k rt cx s id a input) o c := h
    unfold mPermit mPermitBody at h
    simp only [yields_bind, yields_free, yields_pure, yields_charge, Prod.exists] at h
    obtain ⟨_, _, rfl, _, ⟨_, _, ⟨_, rfl⟩, _, ⟨ow, _, _, ⟨_, rfl⟩, _, ⟨sp, _, _, ⟨_, rfl⟩, _, ⟨va, _, _, ⟨_, rfl⟩, _,
      ⟨_, _, _, ⟨_, rfl⟩, _, ⟨_, _, _, ⟨_, rfl⟩, _, ⟨_, _, _, ⟨_, rfl⟩, _, ⟨_, _, _, ⟨_, rfl⟩, _, hb, rfl⟩, rfl⟩, rfl⟩,
      rfl⟩, rfl⟩, rfl⟩, rfl⟩, rfl⟩, rfl⟩ := h
    obtain ⟨_, _, ⟨_, rfl⟩, _, ⟨_, _, ⟨_, rfl⟩, _, ⟨_, _, ⟨_, rfl⟩, _, ⟨_, _, ⟨_, rfl⟩, _, ⟨s', c1, hy, _, ⟨rfl, rfl⟩, rfl⟩,
      rfl⟩, rfl⟩, rfl⟩, rfl⟩ := hb
    have hc := Yields.costs hy mApproveInner_costs
    have hal : ∀ (t : Nat → Nat → Nat) ow sp, allowanceOf { s with nonces := t } id ow sp = allowanceOf s id ow sp :=
      fun _ _ _ => rfl
    rw [hal] at hc
    have hr : Replaces rt s id ⟨s', [], [⟨cx.address, .approval, [ow, sp], outWord va⟩]⟩ ↔
        allowanceOf s id (rt.acct ow) (rt.acct sp) ≠ 0 := by
      constructor
      · rintro ⟨_, _, _, _, h1, h2⟩
        simp only [List.cons.injEq, Log.mk.injEq, and_true, true_and] at h1
        obtain ⟨_, ⟨rfl, rfl⟩, _⟩ := h1
        exact h2
      · exact fun h => ⟨_, _, _, _, rfl, h⟩
    simp only [price, hr]
    omega
  case transferFrom =>
    have h : Yields (mTransferFrom k rt cx s id input) o c := h
    simp only [mTransferFrom, yields_bind, yields_free, yields_pure, yields_log3, Prod.exists] at h
    obtain ⟨_, _, rfl, _, ⟨_, _, ⟨_, rfl⟩, _, ⟨_, _, ⟨_, rfl⟩, _, ⟨ow, _, _, ⟨_, rfl⟩, _, ⟨d, _, _, ⟨_, rfl⟩, _,
      ⟨am, _, _, ⟨_, rfl⟩, _, ⟨_, _, ⟨_, rfl⟩, _, ⟨s', c1, hy, _, ⟨rfl, rfl⟩, rfl⟩, rfl⟩, rfl⟩, rfl⟩, rfl⟩, rfl⟩, rfl⟩,
      rfl⟩ := h
    have hc := Yields.costs hy mMoveFrom_costs
    have hr : Own rt cx ⟨s', outBool true, [⟨cx.address, .transfer, [ow, d], outWord am⟩]⟩ ↔
        rt.acct cx.caller = rt.acct ow := by
      constructor
      · rintro ⟨_, _, _, _, h1, h2⟩
        simp only [List.cons.injEq, Log.mk.injEq, and_true, true_and] at h1
        obtain ⟨_, ⟨rfl, rfl⟩, _⟩ := h1
        exact h2
      · exact fun h => ⟨_, _, _, _, rfl, h⟩
    simp only [price, hr]
    by_cases hw : rt.acct cx.caller = rt.acct ow
    · rw [if_neg (not_not.2 hw)] at hc
      rw [if_pos hw]; omega
    · rw [if_pos hw] at hc
      rw [if_neg hw]; omega
  case transfer =>
    exact Yields.costs h (costs_bind costs_log3 fun _ => costs_skip fun _ => costs_skip fun _ => costs_skip fun _ =>
      costs_skip fun _ => costs_skip fun _ => costs_bind (costs_dispatch _ _ _) fun _ => costs_pure _)
  case mint =>
    exact Yields.costs h (costs_skip fun _ => costs_skip fun _ => costs_skip fun _ =>
      costs_skip fun _ => costs_skip fun _ => costs_bind (costs_dispatch _ _ _) fun _ => costs_pure _)
  case burn =>
    exact Yields.costs h (costs_skip fun _ => costs_skip fun _ => costs_skip fun _ =>
      costs_skip fun _ => costs_skip fun _ => costs_bind (costs_dispatch _ _ _) fun _ => costs_pure _)
  all_goals exact Yields.costs h (costs_bind (costs_charge _) fun _ => costs_free _)

theorem mApproveInner_tight (hk : ∀ d, k.actual d = none) {ow sp v : Nat} : (mApproveInner k rt s id ow sp v).Tight := by
  refine tight_bind (tight_charge _) fun _ => tight_bind ?_ fun _ => tight_dispatch hk _ _ _
  unfold mCancelOld
  by_cases h : allowanceOf s id ow sp ≠ 0
  · rw [if_pos h]; exact tight_dispatch hk _ _ _
  · rw [if_neg h]; exact tight_pure _

theorem mMoveFrom_tight (hk : ∀ d, k.actual d = none) {c ow d x : Nat} : (mMoveFrom k rt s id c ow d x).Tight := by
  unfold mMoveFrom
  by_cases h : c ≠ ow
  · rw [if_pos h]; exact tight_dispatch hk _ _ _
  · rw [if_neg h]; exact tight_dispatch hk _ _ _

theorem mAct_tight (hk : ∀ d, k.actual d = none) : (mAct k rt cx s id a input f).Tight := by
  cases f
  case approve =>
    exact tight_bind tight_log3 fun _ => tight_skip fun _ => tight_skip fun _ => tight_skip fun _ => tight_skip fun _ =>
      tight_bind (mApproveInner_tight hk) fun _ => tight_pure _
  case permit =>
    exact tight_bind (tight_charge _) fun _ => tight_skip fun _ => tight_skip fun _ => tight_skip fun _ => tight_skip fun _ =>
      tight_skip fun _ => tight_skip fun _ => tight_skip fun _ => tight_skip fun _ => tight_skip fun _ => tight_skip fun _ =>
      tight_skip fun _ => tight_skip fun _ => tight_bind (mApproveInner_tight hk) fun _ => tight_pure _
  case transferFrom =>
    exact tight_bind tight_log3 fun _ => tight_skip fun _ => tight_skip fun _ => tight_skip fun _ =>
      tight_skip fun _ => tight_skip fun _ => tight_skip fun _ => tight_bind (mMoveFrom_tight hk) fun _ => tight_pure _
  case transfer =>
    exact tight_bind tight_log3 fun _ => tight_skip fun _ => tight_skip fun _ => tight_skip fun _ =>
      tight_skip fun _ => tight_skip fun _ => tight_bind (tight_dispatch hk _ _ _) fun _ => tight_pure _
  case mint =>
    exact tight_skip fun _ => tight_skip fun _ => tight_skip fun _ =>
      tight_skip fun _ => tight_skip fun _ => tight_bind (tight_dispatch hk _ _ _) fun _ => tight_pure _
  case burn =>
    exact tight_skip fun _ => tight_skip fun _ => tight_skip fun _ =>
      tight_skip fun _ => tight_skip fun _ => tight_bind (tight_dispatch hk _ _ _) fun _ => tight_pure _
  all_goals exact tight_bind (tight_charge _) fun _ => tight_free _

/-- A metered call reaches an asset's contract. -/
theorem mExecute_some {p : Met (Out State)} (h : mExecute k rt cx input s = some p) :
    ∃ id a, To cx s id a ∧ p = mCall k rt cx s id a input ∧ execute rt cx input s = some p.res := by
  have hr := mExecute_res (k := k) (rt := rt) (cx := cx) (input := input) (s := s)
  rw [h, Option.map_some] at hr
  unfold mExecute at h
  cases hi : addressToAssetId cx.codeAddress with
  | none => rw [hi] at h; cases h
  | some id =>
    rw [hi] at h
    cases hs : s.assets id with
    | none => simp only [hs] at h; cases h
    | some a =>
      simp only [hs, Option.some.injEq] at h
      exact ⟨id, a, ⟨hi, hs⟩, h.symm, hr.symm⟩

/-- **C213, assets.** A call of an asset's contract with `g` gas that succeeds does exactly what the contract does with unlimited
gas, and uses exactly the price of the function. -/
theorem C213_asset_exact {p : Met (Out State)} (hp : mExecute k rt cx input s = some p) (h : p.run g = .done o l) :
    execute rt cx input s = some (.ok o) ∧
    ∃ id a n f, To cx s id a ∧ readSelector input = .ok n ∧ Action.ofSelector n = some f ∧
      l + price k rt cx s id o f = g := by
  obtain ⟨id, a, hto, rfl, hx⟩ := mExecute_some hp
  obtain ⟨hy, hl⟩ := run_done h
  refine ⟨by rw [hx, hy.1], id, a, ?_⟩
  simp only [mCall, yields_bind, yields_free, okOr_ok_iff] at hy
  obtain ⟨n, _, ⟨hn, rfl⟩, _, ⟨f, _, ⟨hf, rfl⟩, _, ⟨_, _, ⟨_, rfl⟩, _, hy, rfl⟩, rfl⟩, hg⟩ := hy
  have := mAct_yields hy
  exact ⟨n, f, hto, hn, hf, by omega⟩

/-- **C213, assets, how much gas is enough.** If the contract accepts the call, there is a price: a run with that much gas or more
succeeds with the same result, and one with less runs out of gas. -/
theorem C213_asset_enough (hk : ∀ d, k.actual d = none) {p : Met (Out State)} (hp : mExecute k rt cx input s = some p)
    (h : execute rt cx input s = some (.ok o)) :
    ∃ c, ∀ g, p.run g = if c ≤ g then .done o (g - c) else .outOfGas := by
  obtain ⟨id, a, hto, rfl, hx⟩ := mExecute_some hp
  rw [h, Option.some.injEq] at hx
  refine ⟨_, fun g => Tight.run ?_ ⟨hx.symm, rfl⟩ g⟩
  exact tight_skip fun _ => tight_skip fun _ => tight_skip fun _ => mAct_tight hk

/-- **C213, assets, failures.** -/
theorem C213_asset_fails {p : Met (Out State)} (hp : mExecute k rt cx input s = some p) :
    (p.run g = .failed e l → execute rt cx input s = some (.error e) ∧ l ≤ g) ∧
    (execute rt cx input s = some (.error e) → p.run g = .outOfGas ∨ ∃ l, l ≤ g ∧ p.run g = .failed e l) := by
  obtain ⟨id, a, hto, rfl, hx⟩ := mExecute_some hp
  constructor
  · intro h
    have := run_failed h
    exact ⟨by rw [hx, this.1], this.2⟩
  · intro h
    rw [h, Option.some.injEq] at hx
    exact run_error hx.symm

end Ast

/-- **C213, the deployed prices.** What the calls dispatched by the contracts are charged on Parallel, in gas: a read is 1000, a
write 4000 gas. -/
theorem C213_deployed_prices : parallelRates.read = 1000 ∧ parallelRates.write = 4000 ∧ (∀ d, parallelRates.actual d = none) ∧
    ∀ d, parallelRates.declared d = match d with
      | .native => 13658
      | .transfer => 23517
      | .transferApproved => 29528
      | .approveTransfer => 12430
      | .cancelApproval => 12623
      | .mint => 12156
      | .burn => 12712 :=
  ⟨by decide +kernel, by decide +kernel, fun _ => rfl, fun d => by cases d <;> decide +kernel⟩

end Verif.Evm
