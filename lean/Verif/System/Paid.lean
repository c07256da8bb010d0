import Verif.System.PaidSpec
import Verif.System.OriginProps

/-!
# Who is paid by an extrinsic (C223)
-/

namespace Verif.System
open Verif

/-- Only accounts in `dst` have more afterwards. -/
def Pays (dst : Nat → Prop) (l l' : Ledger) : Prop := ∀ a w, ¬ dst w → l'.bal a w ≤ l.bal a w

namespace Pays
variable {dst : Nat → Prop} {l l1 l2 : Ledger}

theorem refl : Pays dst l l := fun _ _ _ => le_refl _

theorem trans (h : Pays dst l l1) (g : Pays dst l1 l2) : Pays dst l l2 :=
  fun a w hw => le_trans (g a w hw) (h a w hw)

theorem transfer {a s d m : Nat} {k : Bool} (h : l.transfer a s d m k = .ok l1) (hd : dst d) : Pays dst l l1 := by
  intro x w hw
  have h1 := Ledger.transfer_bal h x w
  have hn : w ≠ d := fun e => hw (e ▸ hd)
  simp only [hn, and_false, if_false, Nat.add_zero] at h1
  omega

theorem mint {a w m : Nat} (h : l.mint a w m = .ok l1) (hd : dst w) : Pays dst l l1 := by
  intro x y hy
  have h1 := Ledger.mint_bal h x y
  have hn : y ≠ w := fun e => hy (e ▸ hd)
  simp only [hn, and_false, if_false, Nat.add_zero] at h1
  omega

theorem burn {a w m : Nat} (h : l.burn a w m = .ok l1) : Pays dst l l1 := by
  intro x y _
  have h1 := Ledger.burn_bal h x y
  omega

end Pays
end Verif.System

/-! ## Lending -/
namespace Verif.Loans
open Verif Verif.System
variable {c : Cfg} {s s' : State} {dst : Nat → Prop}

theorem mint_pays {w a m : Nat} (h : mint c s w a m = .ok s') (hd : dst c.acct) : Pays dst s.ledger s'.ledger := by
  simp only [mint, bind_ok_iff, pure_ok_iff] at h
  obtain ⟨_, _, _, _, _, _, s1, h1, s2, h2, s3, h3, _, _, s4, h4, _, _, _, _, l, hl, _, _, _, _, rfl⟩ := h
  rw [updEarned_ledger h4, (distSupplier_rw h3).ledger, (updSupply_rw h2).ledger, accrue_ledger h1] at hl
  exact Pays.transfer hl hd

theorem redeemVoucher_pays {w a v m : Nat} (h : redeemVoucher c s w a v = .ok (s', m)) (hd : dst w) :
    Pays dst s.ledger s'.ledger := by
  simp only [redeemVoucher, bind_ok_iff, pure_ok_iff, Prod.mk.injEq] at h
  obtain ⟨_, _, s2, h2, s3, h3, _, _, _, _, _, _, _, _, l, hl, rfl, _⟩ := h
  rw [(distSupplier_rw h3).ledger, (updSupply_rw h2).ledger] at hl
  split at hl
  · cases hl
    rename_i hl
    exact Pays.transfer hl hd
  · simp at hl

theorem doRedeem_pays {w a m : Nat} {x : State × Nat} (h : doRedeem c s w a m = .ok x) (hd : dst w) :
    Pays dst s.ledger x.1.ledger := by
  simp only [doRedeem, bind_ok_iff] at h
  obtain ⟨_, _, s1, h1, _, _, s2, h2, _, _, h3⟩ := h
  have g := redeemVoucher_pays h3 hd
  rwa [updEarned_ledger h2, accrue_ledger h1] at g

theorem borrow_pays {w a m : Nat} (h : borrow c s w a m = .ok s') (hd : dst w) : Pays dst s.ledger s'.ledger := by
  simp only [borrow, bind_ok_iff, pure_ok_iff] at h
  obtain ⟨_, _, s1, h1, _, _, s2, h2, s3, h3, _, _, _, _, _, _, l, hl, rfl⟩ := h
  rw [(distBorrower_rw h3).ledger, (updBorrow_rw h2).ledger, accrue_ledger h1] at hl
  exact Pays.transfer hl hd

theorem repay_pays {w a m : Nat} (h : repay c s w a m = .ok s') (hd : dst c.acct) : Pays dst s.ledger s'.ledger := by
  simp only [repay, repayWith, bind_ok_iff, pure_ok_iff] at h
  obtain ⟨_, _, s1, h1, _, _, _, _, s2, h2, s3, h3, l, hl, rfl⟩ := h
  rw [(distBorrower_rw h3).ledger, (updBorrow_rw h2).ledger, accrue_ledger h1] at hl
  exact Pays.transfer hl hd

theorem payReward_pays {w : Nat} (h : payReward c s w = .ok s') (hd : dst w) : Pays dst s.ledger s'.ledger := by
  unfold payReward at h
  split_ifs at h
  · cases h; exact Pays.refl
  · simp only [bind_ok_iff, pure_ok_iff] at h
    obtain ⟨l, hl, rfl⟩ := h
    exact Pays.transfer hl hd

/-- A lending call that needs a signature pays only the signer and the pallet's accounts. -/
theorem exec_pays {k : Call} (h : exec c s k = .ok s') {u : Nat} (hn : needLoans k = .signer u ∨ needLoans k = .signerOrGovernance u) :
    Pays (fun w => w = u ∨ w = c.acct ∨ w = c.rewardAcct) s.ledger s'.ledger := by
  cases k <;> simp only [needLoans, reduceCtorEq, Need.signer.injEq, Need.signerOrGovernance.injEq, or_false, false_or] at hn
  case addReward w m =>
    simp only [exec, addReward, bind_ok_iff, pure_ok_iff] at h
    obtain ⟨_, _, l, hl, rfl⟩ := h
    exact Pays.transfer hl (.inr (.inr rfl))
  case claim w =>
    simp only [exec, claim, bind_ok_iff] at h
    obtain ⟨s1, h1, h2⟩ := h
    rw [← (collectAll_rw h1).ledger]
    exact payReward_pays h2 (.inl hn)
  case claimFor w a =>
    simp only [exec, claimFor, bind_ok_iff] at h
    obtain ⟨s1, h1, h2⟩ := h
    rw [← (collect_rw h1).ledger]
    exact payReward_pays h2 (.inl hn)
  case mint w a m => exact mint_pays h (.inr (.inl rfl))
  case redeem w a m =>
    simp only [exec, redeem, bind_ok_iff, pure_ok_iff] at h
    obtain ⟨_, _, x, h1, rfl⟩ := h
    exact doRedeem_pays h1 (.inl hn)
  case redeemAll w a =>
    simp only [exec, redeemAll, bind_ok_iff, pure_ok_iff] at h
    obtain ⟨_, _, s1, h1, _, _, s2, h2, x, h3, rfl⟩ := h
    rw [← accrue_ledger h1, ← updEarned_ledger h2]
    exact redeemVoucher_pays h3 (.inl hn)
  case borrow w a m => exact borrow_pays h (.inl hn)
  case repay w a m => exact repay_pays h (.inr (.inl rfl))
  case repayAll w a =>
    simp only [exec, repayAll, bind_ok_iff] at h
    obtain ⟨_, _, s1, h1, _, _, h2⟩ := h
    rw [← accrue_ledger h1]
    exact repay_pays h2 (.inr (.inl rfl))
  case collateral w a on =>
    simp only [exec, collateralAsset, bind_ok_iff] at h
    obtain ⟨_, _, _, _, _, _, h⟩ := h
    rw [setCollateral_ledger h]; exact Pays.refl
  case liquidate l b a m k =>
    simp only [exec, liquidate, bind_ok_iff, doLiquidate] at h
    obtain ⟨_, _, s1, h1, s2, h2, _, _, _, _, mk, _, _, _, _, _, _, _, _, _, _, _, _, _, _, _, _, _, _, _, _, _, und,
      _, h⟩ := h
    simp only [liquidatedTransfer, bind_ok_iff, pure_ok_iff] at h
    obtain ⟨s3, h3, s4, h4, l', hl, d, _, d2, _, t, _, s6, h6, s7, h7, s8, h8, s9, h9, _, _, _, _, _, _, _, _, _, _,
      _, _, _, _, rfl⟩ := h
    have e := (distSupplier_rw h9).ledger.trans ((distSupplier_rw h8).ledger.trans
      ((distSupplier_rw h7).ledger.trans (updSupply_rw h6).ledger))
    rw [(distBorrower_rw h4).ledger, (updBorrow_rw h3).ledger, accrue_ledger h2, accrue_ledger h1] at hl
    show Pays _ s.ledger s9.ledger
    rw [e]
    exact Pays.transfer hl (.inr (.inl rfl))
  case transferP p x y m =>
    simp only [exec, transferP, bind_ok_iff, pure_ok_iff] at h
    obtain ⟨_, _, s1, h1, s2, h2, s3, h3, _, _, _, _, _, _, rfl⟩ := h
    show Pays _ s.ledger s3.ledger
    rw [(distSupplier_rw h3).ledger, (distSupplier_rw h2).ledger, (updSupply_rw h1).ledger]
    exact Pays.refl

end Verif.Loans

/-! ## Farming -/
namespace Verif.Farming
open Verif Verif.System
variable {c : Cfg} {s s' : State} {dst : Nat → Prop}

theorem exec_pays {k : Call} (h : exec c s k = .ok s') {u : Nat} (hn : needFarming k = .signer u) :
    Pays (fun w => w = u ∨ ∃ x, w = c.acct x) s.ledger s'.ledger := by
  cases k <;> simp only [needFarming, reduceCtorEq, Need.signer.injEq] at hn
  case deposit k w m =>
    simp only [exec, deposit, bind_ok_iff, pure_ok_iff] at h
    obtain ⟨_, _, _, _, s1, h1, _, _, _, _, l, hl, _, _, _, _, rfl⟩ := h
    rw [updateSome_ledger h1] at hl
    exact Pays.transfer hl (.inr ⟨_, rfl⟩)
  case withdraw k w m =>
    simp only [exec, withdraw, bind_ok_iff, pure_ok_iff, Prod.exists] at h
    obtain ⟨_, _, _, _, _, _, s1, h1, p, _, _, _, _, _, _, _, l, u', hl, rfl⟩ := h
    unfold release at hl
    split_ifs at hl
    · simp only [bind_ok_iff, pure_ok_iff, Prod.mk.injEq] at hl
      obtain ⟨l', hl, rfl, _⟩ := hl
      rw [updateSome_ledger h1] at hl
      exact Pays.transfer hl (.inl hn)
    · simp only [bind_ok_iff, pure_ok_iff, Prod.mk.injEq] at hl
      obtain ⟨_, _, rfl, _⟩ := hl
      show Pays _ s.ledger s1.ledger
      rw [updateSome_ledger h1]
      exact Pays.refl
  case redeem k w =>
    simp only [exec, redeem, bind_ok_iff, pure_ok_iff] at h
    obtain ⟨_, _, _, _, l, hl, rfl⟩ := h
    unfold payIf at hl
    split_ifs at hl
    · exact Pays.transfer hl (.inl hn)
    · cases hl; exact Pays.refl
  case claim k w =>
    simp only [exec, claim, bind_ok_iff, pure_ok_iff, Prod.exists] at h
    obtain ⟨_, _, s1, h1, l, u', hl, rfl⟩ := h
    unfold payReward at hl
    split_ifs at hl
    · simp only [bind_ok_iff, pure_ok_iff, Prod.mk.injEq] at hl
      obtain ⟨l', hl, rfl, _⟩ := hl
      rw [updateSome_ledger h1] at hl
      exact Pays.transfer hl (.inl hn)
    · simp only [Except.ok.injEq, Prod.mk.injEq] at hl
      obtain ⟨rfl, _⟩ := hl
      show Pays _ s.ledger s1.ledger
      rw [updateSome_ledger h1]
      exact Pays.refl

end Verif.Farming

/-! ## The AMM and the router -/
namespace Verif.Amm
open Verif Verif.System
variable {c : Cfg} {s s' : State} {dst : Nat → Prop}

theorem liquidityFor_pays {l l' : Ledger} {p : Pool} {ib iq r : Nat}
    (h : liquidityFor c l p ib iq = .ok (l', r)) (hd : dst c.lock) : Pays dst l l' := by
  unfold liquidityFor at h
  split_ifs at h
  · simp only [firstLiquidity, bind_ok_iff, pure_ok_iff, Prod.mk.injEq] at h
    obtain ⟨l1, h1, _, _, _, _, rfl, _⟩ := h
    exact Pays.mint h1 hd
  · simp only [bind_ok_iff, pure_ok_iff, Prod.mk.injEq] at h
    obtain ⟨_, _, rfl, _⟩ := h
    exact Pays.refl

theorem doAdd_pays {who ib iq b q : Nat} {p p' : Pool} (h : doAdd c s who p ib iq b q = .ok (s', p'))
    (hw : dst who) (ha : dst c.acct) (hl : dst c.lock) : Pays dst s.ledger s'.ledger := by
  simp only [doAdd, bind_ok_iff, pure_ok_iff, Prod.mk.injEq, Prod.exists] at h
  obtain ⟨l0, liq, h0, _, _, _, _, l1, h1, l2, h2, l3, h3, rfl, rfl⟩ := h
  exact (((liquidityFor_pays h0 hl).trans (Pays.mint h1 hw)).trans (Pays.transfer h2 ha)).trans (Pays.transfer h3 ha)

theorem doRemove_pays {who liq b q : Nat} {p p' : Pool} (h : doRemove c s who p liq b q = .ok (s', p'))
    (hw : dst who) : Pays dst s.ledger s'.ledger := by
  simp only [doRemove, bind_ok_iff, pure_ok_iff, Prod.mk.injEq, Prod.exists] at h
  obtain ⟨_, _, _, _, _, _, _, l1, h1, l2, h2, l3, h3, rfl, rfl⟩ := h
  exact ((Pays.burn h1).trans (Pays.transfer h2 hw)).trans (Pays.transfer h3 hw)

theorem mintFee_pays {p p' : Pool} (h : mintProtocolFee s p = .ok (s', p')) (hd : ∀ w, s.feeTo = some w → dst w) :
    Pays dst s.ledger s'.ledger := by
  unfold mintProtocolFee at h
  split_ifs at h
  · simp only [bind_ok_iff, pure_ok_iff, Prod.mk.injEq, okOr_ok_iff] at h
    obtain ⟨_, _, w, hw, l1, h1, rfl, rfl⟩ := h
    exact Pays.mint h1 (hd w hw)
  · cases h; exact Pays.refl
  · cases h; exact Pays.refl

theorem doSwap_pays {who a b x y : Nat} (h : doSwap c s who a b x = .ok (s', y)) (hw : dst who) (ha : dst c.acct) :
    Pays dst s.ledger s'.ledger := by
  simp only [doSwap, bind_ok_iff, pure_ok_iff, Prod.exists, ensure_ok_iff, okOr_ok_iff, exists_const,
    Prod.mk.injEq] at h
  obtain ⟨inv, b', q', _, p, hp, _, _, _, _, _, _, _, _, _, _, p1, h1, l1, t1, l2, t2, rfl, _⟩ := h
  exact (Pays.transfer t1 ha).trans (Pays.transfer t2 hw)

theorem exec_pays {k : Call} (h : exec c s k = .ok s') {u : Nat} (hn : needAmm k = .signer u) :
    Pays (fun w => w = u ∨ w = c.acct ∨ w = c.lock ∨ s.feeTo = some w) s.ledger s'.ledger := by
  cases k <;> simp only [needAmm, reduceCtorEq, Need.signer.injEq] at hn
  case add who pair d m =>
    simp only [exec, addLiquidity, bind_ok_iff, pure_ok_iff, Prod.exists, ensure_ok_iff, okOr_ok_iff,
      exists_const] at h
    obtain ⟨_, b, q, _, p, hp, ib, iq, _, _, _, s1, p1, h1, s2, p2, h2, rfl⟩ := h
    have g := doAdd_pays (dst := fun w => w = u ∨ w = c.acct ∨ w = c.lock ∨ s.feeTo = some w) h2 (.inl hn)
      (.inr (.inl rfl)) (.inr (.inr (.inl rfl)))
    exact (mintFee_pays h1 (fun w hw => .inr (.inr (.inr hw)))).trans g
  case remove who pair liq =>
    simp only [exec, removeLiquidity, bind_ok_iff, pure_ok_iff, Prod.exists, okOr_ok_iff] at h
    obtain ⟨_, b, q, _, p, hp, s1, p1, h1, s2, p2, h2, rfl⟩ := h
    have g := doRemove_pays (dst := fun w => w = u ∨ w = c.acct ∨ w = c.lock ∨ s.feeTo = some w) h2 (.inl hn)
    exact (mintFee_pays h1 (fun w hw => .inr (.inr (.inr hw)))).trans g

theorem swapAlong_pays {w : Nat} (hw : dst w) (ha : dst c.acct) : ∀ (route xs : List Nat) (s y : State),
    Router.swapAlong c s w route xs = .ok y → Pays dst s.ledger y.ledger
  | [], _, s, y, e => by
    simp only [Router.swapAlong, Except.ok.injEq] at e; subst e; exact Pays.refl
  | [_], _, s, y, e => by
    simp only [Router.swapAlong, Except.ok.injEq] at e; subst e; exact Pays.refl
  | _ :: _ :: _, [], s, y, e => by
    simp only [Router.swapAlong, Except.ok.injEq] at e; subst e; exact Pays.refl
  | a :: b :: rest, x :: xs, s, y, e => by
    simp only [Router.swapAlong, bind_ok_iff, Prod.exists] at e
    obtain ⟨y1, out, h1, h2⟩ := e
    exact (doSwap_pays h1 hw ha).trans (swapAlong_pays hw ha _ _ _ _ h2)

end Verif.Amm

/-! ## Stableswap -/
namespace Verif.Stable
open Verif Verif.System
variable {c : Cfg} {s s' : State} {dst : Nat → Prop}

theorem liquidityFor_pays {l l' : Ledger} {p : Amm.Pool} {ib iq r : Nat}
    (h : liquidityFor c l p ib iq = .ok (l', r)) (hd : dst c.lock) : Pays dst l l' := by
  unfold liquidityFor at h
  split_ifs at h
  · simp only [firstLiquidity, bind_ok_iff, pure_ok_iff, Prod.mk.injEq] at h
    obtain ⟨l1, h1, _, _, _, _, rfl, _⟩ := h
    exact Pays.mint h1 hd
  · simp only [bind_ok_iff, pure_ok_iff, Prod.mk.injEq] at h
    obtain ⟨_, _, rfl, _⟩ := h
    exact Pays.refl

theorem mintFee_pays {p p' : Amm.Pool} (h : mintProtocolFee c s p = .ok (s', p')) (hd : dst c.feeTo) :
    Pays dst s.ledger s'.ledger := by
  unfold mintProtocolFee at h
  split_ifs at h
  · simp only [bind_ok_iff, pure_ok_iff, Prod.mk.injEq] at h
    obtain ⟨_, _, l1, h1, rfl, rfl⟩ := h
    exact Pays.mint h1 hd
  · cases h; exact Pays.refl
  · cases h; exact Pays.refl

theorem exec_pays {k : Call} (h : exec c s k = .ok s') {u : Nat} (hn : needStable k = .signer u) :
    Pays (fun w => w = u ∨ w = c.acct ∨ w = c.lock ∨ w = c.feeTo) s.ledger s'.ledger := by
  cases k <;> simp only [needStable, reduceCtorEq, Need.signer.injEq] at hn
  case add who pair d m =>
    simp only [exec, addLiquidity, bind_ok_iff, pure_ok_iff, Prod.exists, ensure_ok_iff, okOr_ok_iff,
      exists_const] at h
    obtain ⟨_, b, q, _, p, hp, ib, iq, _, _, _, s1, p1, h1, s2, p2, h2, rfl⟩ := h
    refine (mintFee_pays h1 (.inr (.inr (.inr rfl)))).trans ?_
    simp only [doAdd, bind_ok_iff, pure_ok_iff, Prod.mk.injEq, Prod.exists] at h2
    obtain ⟨_, _, l0, liq, h0, _, _, _, _, _, _, _, _, l1, h1, l2, h2, l3, h3, rfl, rfl⟩ := h2
    rw [unwrapR_ok_iff] at h0
    exact (((liquidityFor_pays h0 (.inr (.inr (.inl rfl)))).trans (Pays.mint h1 (.inl hn))).trans
      (Pays.transfer h2 (.inr (.inl rfl)))).trans (Pays.transfer h3 (.inr (.inl rfl)))
  case remove who pair liq =>
    simp only [exec, removeLiquidity, bind_ok_iff, pure_ok_iff, Prod.exists, okOr_ok_iff] at h
    obtain ⟨_, b, q, _, p, hp, s1, p1, h1, s2, p2, h2, rfl⟩ := h
    refine (mintFee_pays h1 (.inr (.inr (.inr rfl)))).trans ?_
    simp only [doRemove, bind_ok_iff, pure_ok_iff, Prod.mk.injEq, Prod.exists] at h2
    obtain ⟨_, _, _, _, _, _, _, l1, h1, l2, h2, l3, h3, rfl, rfl⟩ := h2
    exact ((Pays.burn h1).trans (Pays.transfer h2 (.inl hn))).trans (Pays.transfer h3 (.inl hn))

end Verif.Stable

/-! ## Streaming -/
namespace Verif.Streaming
open Verif Verif.System
variable {c : Cfg} {s s' : State} {dst : Nat → Prop}

theorem doCreate_pays {sd rc d a st sp : Nat} {cl : Bool} {id : Nat}
    (h : doCreate c s sd rc d a st sp cl = .ok (s', id)) (hd : dst c.acct) : Pays dst s.ledger s'.ledger := by
  simp only [doCreate, bind_ok_iff, pure_ok_iff, Prod.mk.injEq] at h
  obtain ⟨_, _, _, _, _, _, _, _, l, hl, _, _, s1, h1, rfl, _⟩ := h
  have e := updateFinished_ledger h1
  show Pays dst s.ledger s1.ledger
  rw [e]
  exact Pays.transfer hl hd

theorem exec_pays {k : Call} (h : exec c s k = .ok s') {u : Nat} (hn : needStreaming k = .signer u) :
    Pays (fun w => w = u ∨ w = c.acct ∨
      ∃ id st, k = .cancel u id ∧ s.streams id = some st ∧ st.sender = u ∧ st.recipient = w) s.ledger s'.ledger := by
  cases k <;> simp only [needStreaming, reduceCtorEq, Need.signer.injEq] at hn <;> subst hn
  case create sd rc d a st sp cl =>
    simp only [exec, create, bind_ok_iff, Prod.exists] at h
    obtain ⟨_, _, _, _, _, _, _, _, s1, id, h1, s2, h2, h3⟩ := h
    rw [pushLib_ledger h3, pushLib_ledger h2]
    exact doCreate_pays h1 (.inr (.inl rfl))
  case cancel who id =>
    simp only [exec, cancel, bind_ok_iff, pure_ok_iff, okOr_ok_iff, ensure_ok_iff, exists_const] at h
    obtain ⟨st, hst, hs, _, _, sb, _, rb, _, l1, t1, l2, t2, s2, h2, s3, h3, s4, h4, rfl⟩ := h
    have e := (updateFinished_ledger h4).trans ((pushLib_ledger h3).trans (pushLib_ledger h2))
    show Pays _ s.ledger s4.ledger
    rw [e]
    exact (Pays.transfer t1 (.inl rfl)).trans (Pays.transfer t2 (.inr (.inr ⟨id, st, rfl, hst, hs.symm, rfl⟩)))
  case withdraw who id amt =>
    simp only [exec, withdraw, bind_ok_iff, pure_ok_iff] at h
    obtain ⟨st, _, _, _, _, _, _, _, _, _, _, _, _, _, st', _, s1, h1, l, hl, rfl⟩ := h
    have e := fileFinished_ledger h1
    rw [e] at hl
    exact Pays.transfer hl (.inl rfl)

end Verif.Streaming

/-! ## Liquid staking -/
namespace Verif.Staking
open Verif Verif.System
variable {c : Cfg} {s s' : State} {dst : Nat → Prop}

theorem exec_pays {k : Call} (h : exec c s k = .ok s') {u : Nat} (hn : needStaking k = .signer u) :
    Pays (fun w => w = u ∨ w = c.acct ∨ w = c.xcmAcct ∨ w = c.lo.acct) s.tok s'.tok := by
  cases k <;> simp only [needStaking, reduceCtorEq, Need.signer.injEq] at hn
  case stake w m =>
    simp only [exec, stake, bind_ok_iff, pure_ok_iff] at h
    obtain ⟨_, _, _, _, l1, h1, l2, h2, _, _, _, _, _, _, l3, h3, _, _, _, _, rfl⟩ := h
    exact ((Pays.transfer h1 (.inr (.inl rfl))).trans (Pays.transfer h2 (.inr (.inr (.inl rfl))))).trans
      (Pays.mint h3 (.inl hn))
  case unstake w q p =>
    simp only [exec, unstake, bind_ok_iff] at h
    obtain ⟨_, _, t, _, _, _, h⟩ := h
    split_ifs at h with hpool
    · cases h; exact Pays.refl
    · simp only [unstakeSlow, bind_ok_iff, pure_ok_iff] at h
      obtain ⟨m, _, e, _, _, _, l1, h1, l2, h2, s1, h3, _, _, rfl⟩ := h
      have g : Pays (fun w => w = u ∨ w = c.acct ∨ w = c.xcmAcct ∨ w = c.lo.acct) s.tok l2 :=
        (Pays.burn h1).trans (Pays.mint h2 (.inr (.inl rfl)))
      refine g.trans ?_
      unfold viaLoans at h3
      split_ifs at h3
      · simp only [instantUnstake, bind_ok_iff, pure_ok_iff] at h3
        obtain ⟨_, _, b, _, _, _, k, _, l1, h1, x1, h2, x2, h3, l2, h4, rfl⟩ := h3
        have g1 := Pays.mint (dst := fun w => w = u ∨ w = c.acct ∨ w = c.xcmAcct ∨ w = c.lo.acct) h1 (.inr (.inl rfl))
        have g2 := Loans.mint_pays (dst := fun w => w = u ∨ w = c.acct ∨ w = c.xcmAcct ∨ w = c.lo.acct) h2
          (.inr (.inr (.inr rfl)))
        have g3 := Loans.borrow_pays (dst := fun w => w = u ∨ w = c.acct ∨ w = c.xcmAcct ∨ w = c.lo.acct) h3
          (.inr (.inl rfl))
        rw [tryCollateral_ledger] at g3
        exact ((g1.trans g2).trans g3).trans (Pays.transfer h4 (.inl hn))
      · cases h3; exact Pays.refl
  case cancelUnstake w m =>
    simp only [exec, cancelUnstake, Except.ok.injEq] at h
    subst h; exact Pays.refl

end Verif.Staking

/-! ## Crowdloans -/
namespace Verif.Crowdloans
open Verif Verif.System
variable {c : Cfg} {s s' : State} {dst : Nat → Prop}

theorem updateContribution_str {v v' : Vault} {who m : Nat} {code : Option Nat} {add : Bool} {k : Kind} {x : Nat}
    (h : updateContribution s v who m code add k = .ok (s', v', x)) : s'.tok = s.tok := by
  simp only [updateContribution, bind_ok_iff, pure_ok_iff, Prod.mk.injEq] at h
  obtain ⟨_, _, _, _, rfl, _⟩ := h
  rfl

theorem sendXcm_pays {f : Fee} {r : Req} (h : sendXcm c s f r = .ok s') : Pays dst s.tok s'.tok := by
  simp only [sendXcm, bind_ok_iff, pure_ok_iff] at h
  obtain ⟨l, hl, _, _, rfl⟩ := h
  unfold burnFee at hl
  split at hl
  · cases hl
    rename_i hl
    exact Pays.burn hl
  · simp at hl

theorem book_pays {k : Key} {v v' : Vault} {who m code : Nat} (h : book c s k v who m code = .ok (s', v')) :
    Pays dst s.tok s'.tok := by
  unfold book at h
  split_ifs at h
  · simp only [bind_ok_iff, pure_ok_iff, Prod.mk.injEq, Prod.exists] at h
    obtain ⟨s1, _, _, h1, s2, h2, rfl, _⟩ := h
    rw [← updateContribution_str h1]
    unfold doContribute at h2
    split_ifs at h2
    · simp only [bind_ok_iff] at h2
      obtain ⟨_, _, h2⟩ := h2
      exact sendXcm_pays h2
    · exact sendXcm_pays h2
  · simp only [bind_ok_iff, pure_ok_iff, Prod.mk.injEq, Prod.exists] at h
    obtain ⟨s1, _, _, h1, rfl, _⟩ := h
    rw [updateContribution_str h1]; exact Pays.refl

theorem redeem_pays {who : Nat} {k : Key} {m : Nat} (h : redeem c s who k m = .ok s') (hd : dst who) :
    Pays dst s.tok s'.tok := by
  simp only [redeem, bind_ok_iff, pure_ok_iff, okOr_ok_iff] at h
  obtain ⟨ct, hct, _, _, _, _, _, _, _, _, l1, h1, l2, h2, rfl⟩ := h
  exact (Pays.burn h1).trans (Pays.mint h2 hd)

theorem claim_pays {who : Nat} {k : Key} {f : Bool} (h : claim c s who k f = .ok s') (hd : dst who)
    (ha : dst c.streaming.acct) : Pays dst s.tok s'.tok := by
  simp only [claim, bind_ok_iff, pure_ok_iff, okOr_ok_iff] at h
  obtain ⟨ct, hct, v, hv, _, _, _, _, l, hl, s1, h1, rfl⟩ := h
  have g : Pays dst s.tok l := Pays.mint hl hd
  refine g.trans ?_
  unfold payBonus at h1
  split_ifs at h1
  · cases h1; exact Pays.refl
  · simp only [bind_ok_iff, pure_ok_iff, Streaming.traitCreate, Prod.exists] at h1
    obtain ⟨str, ⟨_, _, s2, id, h2, h3⟩, rfl⟩ := h1
    have g2 := Streaming.doCreate_pays (dst := dst) h2 ha
    rw [← Streaming.pushLib_ledger h3] at g2
    exact g2

theorem exec_pays {k : Call} (h : exec c s k = .ok s') {u : Nat}
    (hn : needCrowdloans k = .signer u ∨ needCrowdloans k = .anyone) :
    Pays (fun w => w = u ∨ w = c.acct ∨ w = c.streaming.acct ∨ ∃ x, k = .claim w x ∨ k = .withdraw w x) s.tok s'.tok := by
  cases k <;> simp only [needCrowdloans, reduceCtorEq, Need.signer.injEq, or_false, false_or] at hn
  case contribute who para m code =>
    simp only [exec, contribute, bind_ok_iff, pure_ok_iff, Prod.exists] at h
    obtain ⟨_, _, _, _, _, _, _, _, _, _, _, _, _, _, _, _, _, _, _, l, hl, s1, _, h1, rfl⟩ := h
    exact (Pays.transfer hl (.inr (.inl rfl))).trans (book_pays h1)
  case redeem who k m => exact redeem_pays h (.inl hn)
  case claim who k => exact claim_pays h (.inr (.inr (.inr ⟨k, .inl rfl⟩))) (.inr (.inr (.inl rfl)))
  case withdraw who k =>
    simp only [exec, withdraw, bind_ok_iff, pure_ok_iff] at h
    obtain ⟨_, _, _, _, _, _, _, _, l, hl, rfl⟩ := h
    exact Pays.mint hl (.inr (.inr (.inr ⟨k, .inr rfl⟩)))

end Verif.Crowdloans

/-! ## The bridge -/
namespace Verif.Bridge
open Verif Verif.System
variable {c : Cfg} {s s' : State} {dst : Nat → Prop}

theorem execute_pays {ch n : Nat} {call : MCall} (h : execute c s ch n call = .ok s') (hd : dst call.dest) :
    Pays dst s.ledger s'.ledger := by
  simp only [execute, bind_ok_iff, pure_ok_iff] at h
  obtain ⟨_, _, _, _, s1, h1, l1, h2, l2, h3, s2, h4, rfl⟩ := h
  obtain ⟨e1, f1⟩ := updateCap_guar h1
  obtain ⟨e2, f2⟩ := updateRegistry_guar h4
  rw [e1] at h2
  have g1 : Pays dst s.ledger l1 := by
    unfold payOut at h2
    split_ifs at h2
    · exact Pays.mint h2 hd
    · exact Pays.transfer h2 hd
  have g2 : Pays dst l1 l2 := by
    unfold grantBonus at h3
    dsimp only at h3
    split_ifs at h3
    · simp only [bind_ok_iff] at h3
      obtain ⟨_, _, h3⟩ := h3
      exact Pays.transfer h3 hd
    · cases h3; exact Pays.refl
  show Pays dst s.ledger s2.ledger
  rw [e2]
  exact g1.trans g2

theorem exec_pays {k : Call} (h : exec c s k = .ok s') {u : Nat} (hn : needBridge k = .signer u) :
    Pays (fun w => w = u ∨ w = c.acct ∨
      ∃ ch n tok m f, k = .materialize (some u) ch n ⟨tok, w, m⟩ f ∧ u ∈ s.members) s.ledger s'.ledger := by
  cases k <;> simp only [needBridge, reduceCtorEq, Need.signer.injEq] at hn
  case teleport w ch t d m =>
    simp only [exec, teleport, bind_ok_iff, pure_ok_iff] at h
    obtain ⟨_, _, _, _, _, _, _, _, s1, h1, l, hl, _, _, _, _, rfl⟩ := h
    obtain ⟨e1, f1⟩ := updateCap_guar h1
    rw [e1] at hl
    unfold takeIn at hl
    split_ifs at hl with he
    · simp only [bind_ok_iff] at hl
      obtain ⟨l1, h1, h2⟩ := hl
      exact (Pays.burn h1).trans (Pays.mint h2 (.inr (.inl rfl)))
    · exact Pays.transfer hl (.inr (.inl rfl))
  case materialize o ch n call f =>
    cases o with
    | none => simp at hn
    | some v =>
      simp only [Need.signer.injEq] at hn
      subst hn
      simp only [exec, materialize, bind_ok_iff, resolve, relayMember, ensure_ok_iff, exists_const, pure_ok_iff] at h
      obtain ⟨w, ⟨hm, rfl⟩, _, _, _, _, p, _, _, _, _, p', _, _, _, h⟩ := h
      have e0 : (castVote s p ch n v call f).ledger = s.ledger := by
        unfold castVote setProp; split_ifs <;> rfl
      generalize castVote s p ch n v call f = s0 at h e0
      rw [← e0]
      split at h
      · exact execute_pays (s := setProp s0 ch n call _) h (.inr (.inr ⟨ch, n, call.token, call.amount, f, rfl, hm⟩))
      · simp only [cancelMat, bind_ok_iff, pure_ok_iff] at h
        obtain ⟨s2, h2, rfl⟩ := h
        obtain ⟨e2, f2⟩ := updateRegistry_guar h2
        show Pays _ s0.ledger s2.ledger
        rw [e2]; exact Pays.refl
      · simp only [pure_ok_iff] at h
        subst h; exact Pays.refl

end Verif.Bridge

/-! ## All pallets -/
namespace Verif.System
open Verif
variable {c : Cfg} {s s' : State} {r : Roles} {t : Tx}

theorem need_signer {u v : Nat} (hn : meets r (.signed u) (.signer v) = true) : u = v := by
  simpa [meets] using hn

/-- **C223.**  Whatever `u` signs, being neither a liquid staking agent nor a crowdloans automator: if a balance of an
account that does not belong to a pallet rises, the account is `u`'s own, or the receiver of the exchanges' protocol fee,
or a contributor to whom its due from a vault is paid, or the recipient of a stream that `u` opened and now cancels, or
the recipient of a transfer from another chain which `u`, a relayer, votes on. -/
theorem C223_paid {u : Nat} (ha : r.agent u = false) (hm : r.automator u = false)
    (hd : dispatch r c s (.signed u) t = .ok s') {w a : Nat} (hw : ¬ Own c w)
    (hlt : s.ledger.bal a w < s'.ledger.bal a w) : Paid c s u t w := by
  obtain ⟨hn, he⟩ := dispatch_iff.1 hd
  clear hd
  have own : ∀ {p}, ¬ spends c p w := fun h => hw ⟨_, .inl h⟩
  have kept : ∀ {p}, ¬ keeps c p w := fun h => hw ⟨_, .inr h⟩
  have gov : meets r (.signed u) .governance = false := by simp [meets, Origin.governs]
  have by_contra' : ∀ {dst : Nat → Prop}, Pays dst s.ledger s'.ledger → dst w := by
    intro dst h
    by_contra hx
    exact absurd (h a w hx) (not_le.2 hlt)
  cases t with
  | call k =>
    cases k with
    | amm k =>
      simp only [Tx.run, exec, bind_ok_iff, pure_ok_iff] at he
      obtain ⟨x, he, rfl⟩ := he
      have hs : needAmm k = .signer u ∧ (Tx.call (.amm k)).tradesAmm = true := by
        cases k <;> simp only [Tx.need, needAmm] at hn ⊢
        case add | remove => exact ⟨by rw [need_signer hn], rfl⟩
        case swap => simp [meets] at hn
        all_goals rw [gov] at hn; cases hn
      rcases by_contra' (Amm.exec_pays he hs.1) with h | h | h | h
      · exact .self h
      · exact (own (p := .amm) h).elim
      · exact (kept (p := .amm) (.inr h)).elim
      · exact .fee hs.2 h
    | stable k =>
      simp only [Tx.run, exec, bind_ok_iff, pure_ok_iff] at he
      obtain ⟨x, he, rfl⟩ := he
      have hs : needStable k = .signer u ∧ (Tx.call (.stable k)).tradesStable = true := by
        cases k <;> simp only [Tx.need, needStable] at hn ⊢
        case add | remove => exact ⟨by rw [need_signer hn], rfl⟩
        case swap => simp [meets] at hn
        all_goals rw [gov] at hn; cases hn
      rcases by_contra' (Stable.exec_pays he hs.1) with h | h | h | h
      · exact .self h
      · exact (own (p := .stable) h).elim
      · exact (kept (p := .stable) (.inr h)).elim
      · exact .stableFee hs.2 h
    | farming k =>
      simp only [Tx.run, exec, bind_ok_iff, pure_ok_iff] at he
      obtain ⟨x, he, rfl⟩ := he
      have hs : needFarming k = .signer u := by
        cases k <;> simp only [Tx.need, needFarming] at hn ⊢
        case deposit | withdraw | redeem | claim => rw [need_signer hn]
        all_goals rw [gov] at hn; cases hn
      rcases by_contra' (Farming.exec_pays he hs) with h | h
      · exact .self h
      · exact (own (p := .farming) h).elim
    | loans k =>
      simp only [Tx.run, exec, bind_ok_iff, pure_ok_iff] at he
      obtain ⟨x, he, rfl⟩ := he
      have hs : needLoans k = .signer u ∨ needLoans k = .signerOrGovernance u := by
        simp only [Tx.need] at hn
        cases e : needLoans k with
        | signer v => rw [e] at hn; rw [need_signer hn]; exact .inl rfl
        | signerOrGovernance v =>
          rw [e] at hn
          refine .inr ?_
          have : u = v := by simpa [meets, Origin.governs] using hn
          rw [this]
        | governance => rw [e, gov] at hn; cases hn
        | _ => exfalso; clear hn he hlt; cases k <;> simp [needLoans] at e
      rcases by_contra' (Loans.exec_pays he hs) with h | h | h
      · exact .self h
      · exact (own (p := .loans) (.inl h)).elim
      · exact (own (p := .loans) (.inr (.inl h))).elim
    | streaming k =>
      simp only [Tx.run, exec, bind_ok_iff, pure_ok_iff] at he
      obtain ⟨x, he, rfl⟩ := he
      have hs : needStreaming k = .signer u := by
        cases k <;> simp only [Tx.need, needStreaming] at hn ⊢
        case create | cancel | withdraw => rw [need_signer hn]
        case traitCreate => simp [meets] at hn
        all_goals rw [gov] at hn; cases hn
      rcases by_contra' (Streaming.exec_pays he hs) with h | h | ⟨id, st, rfl, h1, h2, h3⟩
      · exact .self h
      · exact (own (p := .streaming) h).elim
      · exact .stream id st rfl h1 h2 h3
    | staking k =>
      simp only [Tx.run, exec, bind_ok_iff, pure_ok_iff] at he
      obtain ⟨x, he, rfl⟩ := he
      have hs : needStaking k = .signer u := by
        simp only [Tx.need] at hn
        cases e : needStaking k with
        | signer v => rw [e] at hn; rw [need_signer hn]
        | governance => rw [e, gov] at hn; cases hn
        | agent => rw [e] at hn; simp [meets, ha] at hn
        | response => rw [e] at hn; simp [meets, Origin.governs] at hn
        | runtime => rw [e] at hn; simp [meets] at hn
        | _ => exfalso; clear hn he hlt; cases k <;> simp [needStaking] at e
      rcases by_contra' (Staking.exec_pays he hs) with h | h | h | h
      · exact .self h
      · exact (own (p := .staking) (.inl h)).elim
      · exact (own (p := .staking) (.inr h)).elim
      · exact (own (p := .loans) (.inl h)).elim
    | crowdloans k =>
      have hs : needCrowdloans k = .signer u ∨ needCrowdloans k = .anyone := by
        simp only [Tx.need] at hn
        cases e : needCrowdloans k with
        | signer v => rw [e] at hn; rw [need_signer hn]; exact .inl rfl
        | anyone => exact .inr rfl
        | governance => rw [e, gov] at hn; cases hn
        | automator => rw [e] at hn; simp [meets, hm] at hn
        | response => rw [e] at hn; simp [meets, Origin.governs] at hn
        | _ => exfalso; clear hn he hlt; cases k <;> simp [needCrowdloans] at e
      have hq : ∃ x, Crowdloans.exec c.cl s.clV k = .ok x ∧ s.putCl x = s' := by
        simp only [Tx.run, exec] at he
        cases k <;> simp only [crowd, bind_ok_iff, pure_ok_iff] at he <;> try exact he
        simp [needCrowdloans] at hs
      obtain ⟨x, hq, rfl⟩ := hq
      rcases by_contra' (Crowdloans.exec_pays hq hs) with h | h | h | ⟨y, h⟩
      · exact .self h
      · exact (own (p := .crowdloans) (.inl h)).elim
      · exact (own (p := .streaming) h).elim
      · exact .contributor y (h.imp (fun e => by rw [e]) (fun e => by rw [e]))
    | bridge k =>
      simp only [Tx.run, exec, bind_ok_iff, pure_ok_iff] at he
      obtain ⟨x, he, rfl⟩ := he
      have hs : needBridge k = .signer u := by
        simp only [Tx.need] at hn
        cases e : needBridge k with
        | signer v => rw [e] at hn; rw [need_signer hn]
        | governance => rw [e, gov] at hn; cases hn
        | root => rw [e] at hn; simp [meets] at hn
        | _ =>
          exfalso; clear hn he hlt
          cases k <;> simp [needBridge] at e
          rename_i o _ _ _ _
          cases o <;> simp at e
      rcases by_contra' (Bridge.exec_pays he hs) with h | h | ⟨ch, n, tok, m, f, rfl, hu⟩
      · exact .self h
      · exact (own (p := .bridge) (.inl h)).elim
      · exact .arrived ch n tok m f rfl hu
    | bridgeBlock => simp [Tx.need, meets] at hn
    | bridgeMembers ms => simp only [Tx.need] at hn; rw [gov] at hn; cases hn
  | swapIn x route m n =>
    have e := need_signer hn
    subst e
    simp only [Tx.run, Router.swapExactIn, bind_ok_iff, pure_ok_iff, ensure_ok_iff, exists_const] at he
    obtain ⟨y, ⟨_, _, _, _, xs, _, _, e⟩, rfl⟩ := he
    rcases by_contra' (Amm.swapAlong_pays (dst := fun w => w = u ∨ w = c.amm.acct) (.inl rfl) (.inr rfl) _ _ _ _ e)
      with h | h
    · exact .self h
    · exact (own (p := .amm) h).elim
  | swapOut x route m n =>
    have e := need_signer hn
    subst e
    simp only [Tx.run, Router.swapExactOut, bind_ok_iff, pure_ok_iff, ensure_ok_iff, exists_const] at he
    obtain ⟨y, ⟨_, _, _, xs, _, _, _, e⟩, rfl⟩ := he
    rcases by_contra' (Amm.swapAlong_pays (dst := fun w => w = u ∨ w = c.amm.acct) (.inl rfl) (.inr rfl) _ _ _ _ e)
      with h | h
    · exact .self h
    · exact (own (p := .amm) h).elim

end Verif.System
