import Verif.Amm.Panic
import Verif.Farming.Panic
import Verif.Streaming.Panic
import Verif.Crowdloans.Panic
import Verif.Staking.Panic
import Verif.Bridge.Panic
import Verif.System.Fixture
import Verif.System.OriginSpec

set_option linter.unusedSimpArgs false
set_option linter.unusedVariables false

/-! # No transaction of a user panics (C226), nor does a block hook (C227) -/

namespace Verif.System
open Verif

variable {c : Cfg} {D : Nat → Prop} {s s' : State} {r : Roles}

/-- What the numbers of a chain that has not run for thousands of years look like: the exchange fee is between 0 and 1, the
liquidation incentives at least 1, the collateral factor of the market used by instant unstaking is not 0 and its loans are
the liquidation-free ones; counters are not at the end of their range; the claims of one account, and the gift of the bridge
with the existential deposit, are representable. -/
structure Room (c : Cfg) (s : State) : Prop where
  fee : 0 < c.amm.lpFee ∧ c.amm.lpFee < million
  incentive : ∀ a m, s.lo.markets a = some m → DIV ≤ m.incentive
  factor : ∀ m, s.lo.markets c.stk.collateral = some m → m.cf ≠ 0
  free : c.stk.staking = c.lo.lfAsset
  era : s.stk.era + c.stk.bonding + 1 ≤ maxU32
  claims : ∀ w xs, s.stk.unlockings w = some xs → (xs.map Staking.Chunk.value).sum ≤ maxU128
  nonce : ∀ ch n, s.br.nonces ch = some n → n < maxU64
  now : s.br.now + c.br.lifetime ≤ maxU32
  gift : ∀ m a, c.br.ed + c.br.giftConv m a ≤ maxU128

/-- The value of a loan and what its taker could still borrow against liquidation-free collateral are representable
together. -/
def LoanFits (c : Cfg) (s : State) : Tx → Prop
  | .call (.loans (.borrow w a m)) => a = c.lo.lfAsset ∨ Loans.RoomToBorrow c.lo s.loV w a m
  | _ => True

/-- The pool of two assets that are as good as equal. -/
def Tx.stable : Tx → Prop
  | .call (.stable _) => True
  | _ => False

/-- A relayer's vote about the first or the last possible nonce. -/
def Tx.edge : Tx → Prop
  | .call (.bridge (.materialize _ _ n _ _)) => n = 0 ∨ maxU64 ≤ n
  | _ => False

theorem keyed_of (hc : c.OK D) (h : Reach c D s) : Loans.Keyed s.loV :=
  fun a ha => ((Loans.inv_reach hc.lo (h.inv hc).lo).mem a).2 ha

theorem Room.stk (hc : c.OK D) (h : Reach c D s) (hr : Room c s) : Staking.Room c.stk s.stkV where
  era := hr.era
  cf := hr.factor
  due := hr.claims
  keyed := keyed_of hc h
  lf := hr.free

theorem Room.br (hr : Room c s) : Bridge.Room c.br s.brV := ⟨hr.nonce, hr.now, hr.gift⟩

theorem meets_signed {u : Nat} {n : Need} (h : meets r (.signed u) n = true) :
    n = .signer u ∨ n = .anyone ∨ n = .signerOrGovernance u ∨ n = .agent ∨ n = .automator := by
  cases n with
  | signer w => simp [meets] at h; simp [h]
  | anyone => simp
  | governance => simp [meets, Origin.governs] at h
  | signerOrGovernance w => simp [meets, Origin.governs] at h; simp [h]
  | agent => simp
  | automator => simp
  | response => simp [meets, Origin.governs] at h
  | root => simp [meets] at h
  | runtime => simp [meets] at h
  | never => simp [meets] at h

theorem crowd_np (k : Crowdloans.Call) : NoPanic (crowd c s k) := by
  unfold crowd
  cases k with
  | redeemAndLend => dsimp only; unfold redeemAndLend; np
  | _ => np; exact Crowdloans.exec_noPanic _

/-- **C226, the property as one would want it**: whatever account signs whatever transaction, in any state the chain can
reach, the runtime does not panic. -/
def C226_statement : Prop := ∀ (r : Roles) (c : Cfg) (D : Nat → Prop) (s : State) (u : Nat) (t : Tx), c.OK D → Reach c D s →
  Room c s → ¬ Vaulted c u → LoanFits c s t → ¬ t.edge → dispatch r c s (.signed u) t ≠ .error .panic

/-- **C226** for everything but the stableswap pools (`pallets/stableswap`), which are not protected against inputs for
which their solver gives up or their unchecked multiplication overflows (`C226_refuted`). -/
theorem C226_noPanic_partial (hc : c.OK D) (h : Reach c D s) (hr : Room c s) {u : Nat} (hu : ¬ Vaulted c u) {t : Tx}
    (hl : LoanFits c s t) (he : ¬ t.edge) (hs : ¬ t.stable) : dispatch r c s (.signed u) t ≠ .error .panic := by
  show NoPanic (dispatch r c s (.signed u) t)
  have hi := h.inv hc
  have h1 : u ≠ c.amm.acct := fun e => hu ⟨.amm, Or.inl e⟩
  have h2 : u ≠ c.amm.lock := fun e => hu ⟨.amm, Or.inr e⟩
  unfold dispatch
  np
  intro _ hm
  rw [ensure_ok_iff] at hm
  replace hm := meets_signed hm
  cases t with
  | swapIn w route x m =>
    obtain rfl : w = u := by simpa [Tx.need] using hm
    unfold Tx.run
    np
    exact Router.swapExactIn_noPanic hc.amm (by have := hr.fee.1; omega) h1 h2 (hi.amm.inv hc.amm) _ _ _ _
  | swapOut w route x m =>
    obtain rfl : w = u := by simpa [Tx.need] using hm
    unfold Tx.run
    np
    exact Router.swapExactOut_noPanic hc.amm (by have := hr.fee.1; omega) hr.fee.2 h1 h2 (hi.amm.inv hc.amm) _ _ _ _
  | call k =>
    show NoPanic (exec c s k)
    cases k with
    | amm k =>
      unfold exec
      np
      cases k with
      | add => exact Amm.add_noPanic _ _ _ _
      | remove => exact Amm.remove_noPanic _ _ _
      | _ => simp [Tx.need, needAmm] at hm
    | stable k => exact absurd trivial hs
    | farming k =>
      unfold exec
      np
      refine Farming.exec_noPanic k ?_
      rintro q rfl
      simp [Tx.need, needFarming] at hm
    | loans k =>
      unfold exec
      np
      refine Loans.exec_noPanic (keyed_of hc h) (fun a m ha => ⟨hr.incentive a m ha,
        ((Loans.inv_reach hc.lo hi.lo).wt a m ha).2.2.2.2⟩) k ?_
      rintro w a m rfl
      exact hl
    | streaming k => unfold exec; np; exact Streaming.exec_noPanic k
    | staking k =>
      unfold exec
      np
      refine Staking.exec_noPanic (hr.stk hc h) k ?_
      rintro q b rfl
      simp [Tx.need, needStaking] at hm
    | crowdloans k => exact crowd_np k
    | bridge k =>
      unfold exec
      np
      refine Bridge.exec_noPanic hr.br k ?_
      rintro o ch n m f rfl
      have : ¬ (n = 0 ∨ maxU64 ≤ n) := he
      omega
    | bridgeBlock => simp [Tx.need] at hm
    | bridgeMembers => simp [Tx.need] at hm

/-! ### The statement is false: a stableswap pool whose invariant is not found -/

/-- The configuration of the example in which, as in the runtimes, the liquidation-free asset is the staking currency. -/
def exNP : Cfg := { exC with stk := { exC.stk with lo := ⟨1003, 1004, 1005, 0, 1⟩ } }

theorem exNP_vaulted {w : Nat} (h : Vaulted exNP w) : 1000 ≤ w := by
  obtain ⟨p, hp⟩ := h
  cases p <;> simp only [keeps, exNP, exC] at hp <;> omega

theorem exNP_ok : exNP.OK exD where
  amm := ⟨by decide, by decide, by decide⟩
  stb := ⟨by decide, by decide, by decide, by decide⟩
  lo := ⟨by decide, by decide⟩
  str := ⟨by decide⟩
  stk := ⟨by decide, by decide, by decide, by decide, by decide, by decide⟩
  cl := ⟨by decide, by decide, by unfold exD exNP exC; decide, by unfold exD exNP exC; decide⟩
  apart := by
    intro p q w hs hk
    cases p <;> cases q <;> simp only [spends, keeps, exNP, exC] at hs hk <;> first | rfl | omega
  liquidD := by unfold exD exNP exC; decide
  stakingD := by unfold exD exNP exC; decide
  collateralD := by unfold exD exNP exC; decide
  relay := by decide

/-- Two users with an asset of 12 and an asset of 6 decimals. -/
@[irreducible] def exNL : Ledger :=
  Ledger.ofList [(1, 7, 10 ^ 13), (2, 7, 10 ^ 13), (1, 8, 10 ^ 13), (2, 8, 10 ^ 13), (0, 1004, 1000000), (1, 1008, 1000)]
theorem exNL_wf : exNL.WF := by unfold exNL; exact Ledger.ofList_wf _

def exNP0 : State := { ex0 with ledger := exNL }

theorem exNP0_genesis : Genesis exNP exD exNP0 where
  wf := exNL_wf
  amm := fun _ => rfl
  stb := fun _ => rfl
  farm := rfl
  lo := rfl
  str := rfl
  stk :=
    { wf := exNL_wf
      iss := by decide +kernel
      reserves := rfl
      ureserves := rfl
      pool := rfl
      reqs := rfl
      fast := fun _ => rfl
      unlockings := fun _ => rfl
      ledgers := fun _ => rfl
      relay := by intro i l h; cases h
      rf := by decide
      urf := by decide
      commission := by decide
      log := rfl }
  cl := by
    refine ⟨fun _ => rfl, fun _ => rfl, fun _ => rfl, fun _ => rfl, fun _ => rfl, rfl, exNL_wf, ?_⟩
    rintro T (rfl | rfl)
    · show exNL.iss 50 = 0; decide +kernel
    · show exNL.iss 51 = 0; decide +kernel
  br := rfl

/-- Governance opens a pool with one unit of an asset with 12 decimals and two units of an asset with 6 decimals. -/
def exNOpen : Call := .stable (.create (2, 1) (10 ^ 12, 2 * 10 ^ 6) 7 77)

theorem exNOpen_ok (s : State) : exNOpen.OK exNP exD s := by
  have av : ∀ {w}, w < 1000 → ¬ Vaulted exNP w := fun hw hv => absurd (exNP_vaulted hv) (by omega)
  have hl : exNP.stk.liquid = 5 := rfl
  unfold exNOpen
  constructor <;> simp [Call.actors, Stable.Call.payers, Stable.Call.newLp, av, Issued, exD, hl]

/-- **C226 is FALSE**: in a reachable state, with every number in range, an account that merely wants to add liquidity to a
stableswap pool makes the runtime panic. -/
theorem C226_refuted : ¬ C226_statement := by
  intro H
  have h : okAnd (exec exNP exNP0 exNOpen) (fun s =>
      errIs (exec exNP s (.stable (.add 8 (2, 1) (10 ^ 6, 10 ^ 6) (0, 0)))) .panic) = true := by decide +kernel
  obtain ⟨s, hs, hp⟩ := okAnd_iff.1 h
  have hr : Reach exNP exD s := .step (.init exNP0_genesis) (.call exNOpen (exNOpen_ok _) hs)
  have hsame : s.lo = exNP0.lo ∧ s.stk = exNP0.stk ∧ s.br = exNP0.br := by
    simp only [exNOpen, exec, bind_ok_iff, pure_ok_iff] at hs
    obtain ⟨_, _, rfl⟩ := hs
    exact ⟨rfl, rfl, rfl⟩
  have hroom : Room exNP s := by
    obtain ⟨h1, h2, h3⟩ := hsame
    refine ⟨by decide, ?_, ?_, by decide, ?_, ?_, ?_, ?_, ?_⟩
    · intro a m hm; rw [h1] at hm; cases hm
    · intro m hm; rw [h1] at hm; cases hm
    · rw [h2]; decide
    · intro w xs hx; rw [h2] at hx; cases hx
    · intro ch n hn; rw [h3] at hn; cases hn
    · rw [h3]; decide
    · intro m a; show 1 + 0 ≤ maxU128; decide
  have hu : ¬ Vaulted exNP 8 := fun hv => absurd (exNP_vaulted hv) (by omega)
  refine H ⟨fun _ => false, fun _ => false, 5⟩ exNP exD s 8 (.call (.stable (.add 8 (2, 1) (10 ^ 6, 10 ^ 6) (0, 0)))) exNP_ok
    hr hroom hu trivial (fun h => h) ?_
  unfold dispatch
  rw [ensure_of (by rfl), ok_bind]
  show exec exNP s (.stable (.add 8 (2, 1) (10 ^ 6, 10 ^ 6) (0, 0))) = .error .panic
  generalize exec exNP s _ = r at hp
  cases r with
  | ok _ => cases hp
  | error e => exact congrArg _ (of_decide_eq_true hp)

/-- Nobody is an agent or automator. -/
def exNR : Roles := ⟨fun _ => false, fun _ => false, 5⟩

/-- Non-vacuity of the partial theorem: in the same chain an account that is not a pallet's stakes, which works. -/
example : ∃ s s' : State, Reach exNP exD s ∧ Room exNP s ∧ ¬ Vaulted exNP 8 ∧
    dispatch exNR exNP s (.signed 8) (.call (.staking (.stake 8 10000))) = .ok s' := by
  have h : okAnd (exec exNP exNP0 (.staking (.stake 8 10000))) (fun _ => true) = true := by decide +kernel
  obtain ⟨s', hs, _⟩ := okAnd_iff.1 h
  refine ⟨exNP0, s', .init exNP0_genesis, ?_, fun hv => absurd (exNP_vaulted hv) (by omega), ?_⟩
  · refine ⟨by decide, ?_, ?_, by decide, by decide, ?_, ?_, by decide, ?_⟩
    · intro a m hm; cases hm
    · intro m hm; cases hm
    · intro w xs hx; cases hx
    · intro ch n hn; cases hn
    · intro m a; show 1 + 0 ≤ maxU128; decide
  · unfold dispatch
    rw [ensure_of (by rfl)]
    exact hs

/-! ### The hooks at the beginning and the end of a block -/

/-- The hooks of the pallets: nobody sends them, they run in every block. -/
inductive Hook where
  | stakingInit
  | stakingFinalize
  | bridgeInit

def Hook.call : Hook → Call
  | .stakingInit => .staking .onInit
  | .stakingFinalize => .staking .onFinalize
  | .bridgeInit => .bridgeBlock

/-- **C227**: no hook panics, in any state whatsoever: not in what it does itself, nor in what it does in a storage
transaction and rolls back when it fails — the distribution of stake, the requests to the relay chain, the update of the
exchange rate —, so a block can always be begun and ended. -/
theorem C227_hooks (c : Cfg) (s : State) : (∀ h : Hook, ∃ s', exec c s h.call = .ok s') ∧
    Staking.initBlock c.stk s.stkV ≠ .error .panic ∧
    (∀ t, Staking.initMatching c.stk s.stkV = .ok t → Staking.newRate c.stk t ≠ .error .panic) := by
  refine ⟨?_, Staking.np_initBlock, fun t _ => ?_⟩
  · intro h
    cases h <;> exact ⟨_, rfl⟩
  · show NoPanic (Staking.newRate c.stk t)
    unfold Staking.newRate
    np

/-- Non-vacuity: in a reachable state the first hook has real work to do, and does it: it bonds. -/
example : Reach exC exD (pass ex1 30) ∧ (pass ex1 30).stk.reqs.length < ex2.stk.reqs.length ∧
    okAnd (exec exC (pass ex1 30) (Hook.call .stakingInit)) (fun s => decide (s.stk.reqs = ex2.stk.reqs)) = true := by
  refine ⟨pass_reach exC_ok ex1_reach 30, by decide +kernel, by decide +kernel⟩

/-- The answer of the relay chain to a request of the crowdloan pallet never panics (contrast `C228_refuted`). -/
theorem C228_crowdloans_partial (c : Cfg) (s : State) (q : Nat) (ok : Bool) :
    exec c s (.crowdloans (.notify q ok)) ≠ .error .panic := by
  show NoPanic (exec c s _)
  exact crowd_np (c := c) (s := s) (.notify q ok)

/-- Non-vacuity: a contribution is confirmed. -/
example : okAnd (exec exC ex2 (.crowdloans (.notify 0 true))) (fun s => decide (s.cl.log ≠ ex2.cl.log)) = true := by
  decide +kernel

end Verif.System
