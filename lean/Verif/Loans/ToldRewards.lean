import Verif.Loans.Told
import Verif.Loans.Rewards

/-!
# C249: the reward events of the lending pallet determine what everybody can claim

Settled rewards are announced by `DistributedSupplierReward` and `DistributedBorrowerReward`
(`pallets/loans/src/farming.rs:138-143, 178-183`; `Rewards.log` in Loans/Model.lean), payments by `RewardPaid`
(`pallets/loans/src/farming.rs:213`; `execE` in Loans/Told.lean).
-/

namespace Verif.Loans
open Verif

variable {c : Cfg} {s s' : State}

/-! ## Specification -/

/-- What an event about settled rewards announces for account `w`. -/
def Event.credit (w : Nat) : Event → Nat
  | .sup _ v x => if v = w then x else 0
  | .bor _ v x => if v = w then x else 0
  | .speed .. => 0

/-- All rewards that were ever announced as settled for `w`. -/
def credited (w : Nat) (l : List Event) : Nat := (l.map (Event.credit w)).sum

/-- What an event announces as paid to `w`. -/
def Ev.rewards (w : Nat) : Ev → Nat
  | .rewardPaid v m => if v = w then m else 0
  | _ => 0

/-- All rewards that were ever announced as paid to `w`. -/
def rewarded (w : Nat) (es : List Ev) : Nat := (es.map (Ev.rewards w)).sum

/-- Histories with their events: all calls of all accounts, and whatever the rest of the chain does. -/
inductive Hist (c : Cfg) : State → List Ev → Prop
  | init (l : Ledger) (prices : Nat → Option Nat) (time block : Nat) : Hist c (State.fresh l prices time block) []
  | call {s s' : State} {es fs : List Ev} (h : Hist c s es) (k : Call) (he : execE c s k = .ok (s', fs)) :
      Hist c s' (es ++ fs)
  | env {s s' : State} {es : List Ev} (h : Hist c s es) (he : Env c s s') : Hist c s' es

/-- What an event announces as added to the reward pot. -/
def Ev.toPot : Ev → Nat
  | .rewardAdded _ m => m
  | _ => 0

/-- What an event announces as taken from the reward pot. -/
def Ev.fromPot : Ev → Nat
  | .rewardWithdrawn _ m => m
  | .rewardPaid _ m => m
  | _ => 0

/-- Everything announced as added. -/
def potIn (es : List Ev) : Nat := (es.map Ev.toPot).sum

/-- Everything announced as taken. -/
def potOut (es : List Ev) : Nat := (es.map Ev.fromPot).sum

/-- The balance of the pot. -/
def pot (c : Cfg) (s : State) : Nat := s.ledger.bal c.rewardAsset c.rewardAcct

/-- Histories with their events in which no call is made by or for the account of the pot, and the rest of the chain takes
nothing from it. `x` is what the pot held at first and others have sent to it directly. -/
inductive HistPot (c : Cfg) : State → List Ev → Nat → Prop
  | init (l : Ledger) (prices : Nat → Option Nat) (time block : Nat) :
      HistPot c (State.fresh l prices time block) [] (l.bal c.rewardAsset c.rewardAcct)
  | call {s s' : State} {es fs : List Ev} {x : Nat} (h : HistPot c s es x) (k : Call) (he : execE c s k = .ok (s', fs))
      (hn : ∀ e ∈ fs, c.rewardAcct ∉ e.names) : HistPot c s' (es ++ fs) x
  | env {s s' : State} {es : List Ev} {x y : Nat} (h : HistPot c s es x) (he : Env c s s') (hy : pot c s' = pot c s + y) :
      HistPot c s' es (x + y)

/-! ## Proofs -/

/-- Claimable rewards have grown by what was announced. -/
def Even (s s' : State) : Prop :=
  ∀ w, s'.rw.accrued w + credited w s.rw.log = s.rw.accrued w + credited w s'.rw.log

theorem Even.of_eq (h : s'.rw = s.rw) : Even s s' := fun w => by rw [h]

theorem Even.trans {s1 s2 s3 : State} (h : Even s1 s2) (g : Even s2 s3) : Even s1 s3 := fun w => by
  have := h w
  have := g w
  omega

theorem credited_cons (w : Nat) (e : Event) (l : List Event) : credited w (e :: l) = e.credit w + credited w l := by
  unfold credited
  rw [List.map_cons, List.sum_cons]

theorem even_updSupply {a : Nat} (h : updSupply s a = .ok s') : Even s s' := by
  obtain ⟨r, rfl, _⟩ := updSupply_ok h
  exact fun _ => rfl

theorem even_updBorrow {a : Nat} (h : updBorrow s a = .ok s') : Even s s' := by
  obtain ⟨r, rfl, _⟩ := updBorrow_ok h
  exact fun _ => rfl

theorem even_distSupplier {a w : Nat} (h : distSupplier s a w = .ok s') : Even s s' := by
  obtain ⟨-, rfl⟩ := distSupplier_ok h
  intro v
  dsimp only
  rw [credited_cons]
  by_cases hv : v = w
  · subst hv
    rw [upd_same]
    simp only [Event.credit, if_true]
    omega
  · rw [upd_of_ne _ _ hv]
    simp only [Event.credit, if_neg (Ne.symm hv)]
    omega

theorem even_distBorrower {a w : Nat} (h : distBorrower s a w = .ok s') : Even s s' := by
  obtain ⟨x, rfl⟩ := distBorrower_ok h
  intro v
  dsimp only
  rw [credited_cons]
  by_cases hv : v = w
  · subst hv
    rw [upd_same]
    simp only [Event.credit, if_true]
    omega
  · rw [upd_of_ne _ _ hv]
    simp only [Event.credit, if_neg (Ne.symm hv)]
    omega

theorem even_accrue {a : Nat} (h : accrue c s a = .ok s') : Even s s' := by
  obtain ⟨b, rfl, -⟩ := accrue_ok h
  exact .of_eq rfl

theorem even_earned {w a r : Nat} (h : updEarned s w a r = .ok s') : Even s s' := by
  obtain ⟨e, rfl⟩ := updEarned_ok h
  exact .of_eq rfl

theorem even_collect {a w : Nat} (h : collect s a w = .ok s') : Even s s' := by
  simp only [collect, bind_ok_iff] at h
  obtain ⟨s1, h1, s2, h2, s3, h3, h4⟩ := h
  exact (((even_updSupply h1).trans (even_distSupplier h2)).trans (even_updBorrow h3)).trans (even_distBorrower h4)

theorem even_collectAll {w : Nat} : ∀ {as : List Nat} {s s' : State}, collectAll s w as = .ok s' → Even s s'
  | [], s, s', h => by cases h; exact .of_eq rfl
  | a :: as, s, s', h => by
    simp only [collectAll, bind_ok_iff] at h
    obtain ⟨s1, h1, h2⟩ := h
    exact (even_collect h1).trans (even_collectAll h2)

theorem even_redeemVoucher {w a v : Nat} {p : State × Nat} (he : redeemVoucher c s w a v = .ok p) : Even s p.1 := by
  simp only [redeemVoucher, bind_ok_iff, csub_ok_iff, pure_ok_iff] at he
  obtain ⟨_, _, s1, h1, s2, h2, r, _, m, _, _, _, t, _, l, _, rfl⟩ := he
  exact ((even_updSupply h1).trans (even_distSupplier h2)).trans (.of_eq rfl)

theorem even_repayWith {w a d m : Nat} (h : repayWith c s w a d m = .ok s') : Even s s' := by
  simp only [repayWith, bind_ok_iff, ensure_ok_iff, exists_const, pure_ok_iff] at h
  obtain ⟨_, s1, h1, s2, h2, l, _, rfl⟩ := h
  exact ((even_updBorrow h1).trans (even_distBorrower h2)).trans (.of_eq rfl)

theorem even_repay {w a m : Nat} (h : repay c s w a m = .ok s') : Even s s' := by
  simp only [repay, bind_ok_iff] at h
  obtain ⟨_, _, s1, h1, d, _, h2⟩ := h
  exact (even_accrue h1).trans (even_repayWith h2)

theorem even_liquidatedTransfer {liq br a k m und : Nat} {mk : Market}
    (he : liquidatedTransfer c s liq br a k m und mk = .ok s') : Even s s' := by
  simp only [liquidatedTransfer, bind_ok_iff, csub_ok_iff, cadd_ok_iff, pure_ok_iff] at he
  obtain ⟨s1, h1, s2, h2, l, _, d, _, d', ⟨_, _⟩, t, ⟨_, rfl⟩, s3, h3, s4, h4, s5, h5, s6, h6, r, _, v, _, x, ⟨_, rfl⟩, q, _,
    g, ⟨_, rfl⟩, y, ⟨_, rfl⟩, z, ⟨_, rfl⟩, rfl⟩ := he
  have e2 := (even_updBorrow h1).trans (even_distBorrower h2)
  have e3 : Even s2 s3 := fun w => even_updSupply h3 w
  exact ((((e2.trans e3).trans (even_distSupplier h4)).trans (even_distSupplier h5)).trans (even_distSupplier h6)).trans
    (.of_eq rfl)

/-- A call that pays no rewards. -/
def Call.keepsRewards : Call → Prop
  | .claim _ => False
  | .claimFor _ _ => False
  | _ => True

theorem exec_even {k : Call} (hk : k.keepsRewards) (he : exec c s k = .ok s') : Even s s' := by
  cases k with
  | addMarket a m =>
    obtain ⟨_, _, _, _, _, _, _, _, _, _, rfl⟩ := addMarket_view he
    exact .of_eq rfl
  | activate a => obtain ⟨m, hm, rfl⟩ := mutateMarket_view he; exact .of_eq rfl
  | updateModel a rm =>
    simp only [exec, updateModel, bind_ok_iff, ensure_ok_iff, exists_const] at he
    obtain ⟨_, he⟩ := he
    obtain ⟨m, hm, rfl⟩ := mutateMarket_view he; exact .of_eq rfl
  | updateMarket a p => obtain ⟨m, hm, _, _, _, _, _, rfl⟩ := updateMarket_view he; exact .of_eq rfl
  | forceUpdate a m => obtain ⟨m0, hm, _, _, rfl⟩ := forceUpdate_view he; exact .of_eq rfl
  | addReward w m => obtain ⟨l, hl, rfl⟩ := addReward_view he; exact .of_eq rfl
  | withdrawReward w m => obtain ⟨l, hl, rfl⟩ := withdrawReward_view he; exact .of_eq rfl
  | updateSpeed a x y =>
    simp only [exec, updateSpeed, bind_ok_iff, pure_ok_iff] at he
    obtain ⟨_, _, s1, h1, s2, h2, rfl⟩ := he
    have e1 : Even s s1 := by
      unfold setSupSpeed at h1
      split_ifs at h1
      · cases h1; exact .of_eq rfl
      · simp only [bind_ok_iff, pure_ok_iff] at h1
        obtain ⟨s3, h3, rfl⟩ := h1
        exact (even_updSupply h3).trans (fun _ => rfl)
    have e2 : Even s1 s2 := by
      unfold setBorSpeed at h2
      split_ifs at h2
      · cases h2; exact .of_eq rfl
      · simp only [bind_ok_iff, pure_ok_iff] at h2
        obtain ⟨s3, h3, rfl⟩ := h2
        exact (even_updBorrow h3).trans (fun _ => rfl)
    refine (e1.trans e2).trans fun w => ?_
    dsimp only
    rw [credited_cons]
    simp only [Event.credit, Nat.zero_add]
  | claim w => exact hk.elim
  | claimFor w a => exact hk.elim
  | mint w a m =>
    simp only [exec, mint, bind_ok_iff, ensure_ok_iff, exists_const, cadd_ok_iff, pure_ok_iff] at he
    obtain ⟨_, _, _, _, _, s1, h1, s2, h2, s3, h3, r, _, s4, h4, v, _, _, l, _, d, ⟨_, rfl⟩, t, ⟨_, rfl⟩, rfl⟩ := he
    exact ((((even_accrue h1).trans (even_updSupply h2)).trans (even_distSupplier h3)).trans (even_earned h4)).trans
      (.of_eq rfl)
  | redeem w a m =>
    simp only [exec, redeem, doRedeem, bind_ok_iff, ensure_ok_iff, exists_const, pure_ok_iff] at he
    obtain ⟨_, p, ⟨_, _, s1, h1, r, _, s2, h2, v, _, h3⟩, rfl⟩ := he
    exact ((even_accrue h1).trans (even_earned h2)).trans (even_redeemVoucher h3)
  | redeemAll w a =>
    simp only [exec, redeemAll, bind_ok_iff, pure_ok_iff] at he
    obtain ⟨_, _, s1, h1, r, _, s2, h2, p, h3, rfl⟩ := he
    exact ((even_accrue h1).trans (even_earned h2)).trans (even_redeemVoucher h3)
  | borrow w a m =>
    simp only [exec, borrow, bind_ok_iff, cadd_ok_iff, pure_ok_iff] at he
    obtain ⟨_, _, s1, h1, _, _, s2, h2, s3, h3, d, _, d', ⟨_, _⟩, t, ⟨_, rfl⟩, l, _, rfl⟩ := he
    exact (((even_accrue h1).trans (even_updBorrow h2)).trans (even_distBorrower h3)).trans (.of_eq rfl)
  | repay w a m => exact even_repay he
  | repayAll w a =>
    simp only [exec, repayAll, bind_ok_iff] at he
    obtain ⟨_, _, s1, h1, d, _, h2⟩ := he
    exact (even_accrue h1).trans (even_repay h2)
  | collateral w a on =>
    obtain ⟨_, _, _, rfl⟩ := collateral_view he
    exact .of_eq rfl
  | liquidate liq br a m k =>
    obtain ⟨s1, s2, _, _, h1, h2, h3⟩ := liquidate_view he
    obtain ⟨_, _, _, _, _, _, _, _, _, _, _, _, _, _, _, h4⟩ := doLiquidate_view h3
    exact ((even_accrue h1).trans (even_accrue h2)).trans (even_liquidatedTransfer h4)
  | addReserves w a m => obtain ⟨_, _, _, _, _, _, rfl⟩ := addReserves_view he; exact .of_eq rfl
  | reduceReserves w a m => obtain ⟨_, _, _, _, _, _, rfl⟩ := reduceReserves_view he; exact .of_eq rfl
  | reduceIncentive w a m =>
    simp only [exec, reduceIncentive, bind_ok_iff, ensure_ok_iff, exists_const, pure_ok_iff] at he
    obtain ⟨_, _, _, r, _, v, _, p, h1, l, _, rfl⟩ := he
    exact (even_redeemVoucher h1).trans (.of_eq rfl)
  | updateLfc as => cases he; exact .of_eq rfl
  | transferP p src dst m =>
    simp only [exec, transferP, bind_ok_iff, pure_ok_iff] at he
    obtain ⟨_, _, s1, h1, s2, h2, s3, h3, a, _, _, _, y, _, rfl⟩ := he
    exact (((even_updSupply h1).trans (even_distSupplier h2)).trans (even_distSupplier h3)).trans (.of_eq rfl)

theorem rewarded_append (w : Nat) (es fs : List Ev) : rewarded w (es ++ fs) = rewarded w es + rewarded w fs := by
  unfold rewarded
  rw [List.map_append, List.sum_append]

theorem payRewardE_even {w : Nat} {es : List Ev} (h : payRewardE c s w = .ok (s', es)) (v : Nat) :
    es = [.rewardPaid w (s.rw.accrued w)] ∧ s'.rw.log = s.rw.log ∧ s'.rw.accrued v + rewarded v es = s.rw.accrued v := by
  simp only [payRewardE, bind_ok_iff, pure_ok_iff, Prod.mk.injEq] at h
  obtain ⟨t, h, rfl, rfl⟩ := h
  obtain ⟨l, -, rfl⟩ := payReward_view h
  have hr : ∀ x, rewarded v [.rewardPaid w x] = if w = v then x else 0 := fun x => by simp [rewarded, Ev.rewards]
  refine ⟨rfl, rfl, ?_⟩
  dsimp only
  rw [hr]
  by_cases hv : v = w
  · subst hv
    rw [upd_same, if_pos rfl]
    omega
  · rw [upd_of_ne _ _ hv, if_neg (Ne.symm hv), Nat.add_zero]

/-- No other call announces a payment. -/
theorem rewarded_other {k : Call} (hk : k.keepsRewards) {es : List Ev} (h : execE c s k = .ok (s', es)) (w : Nat) :
    rewarded w es = 0 := by
  cases k with
  | claim w => exact hk.elim
  | claimFor w a => exact hk.elim
  | updateModel a rm => obtain ⟨_, _, _, rfl⟩ := marketE_ok h; rfl
  | updateMarket a p => obtain ⟨_, _, _, rfl⟩ := marketE_ok h; rfl
  | forceUpdate a m => obtain ⟨_, _, _, rfl⟩ := marketE_ok h; rfl
  | updateSpeed a x y =>
    simp only [execE, bind_ok_iff, pure_ok_iff, Prod.mk.injEq] at h
    obtain ⟨_, _, _, rfl⟩ := h; rfl
  | redeem v a m => obtain ⟨_, _, _, _, rfl⟩ := redeemE_ok h; rfl
  | redeemAll v a => obtain ⟨_, _, _, _, rfl⟩ := redeemAllE_ok h; rfl
  | repayAll v a => obtain ⟨_, _, _, _, _, rfl⟩ := repayAllE_ok h; rfl
  | collateral v a on =>
    obtain ⟨_, rfl⟩ := thenE_ok h
    cases on <;> rfl
  | liquidate l b a m k => obtain ⟨_, _, _, _, _, _, _, _, rfl⟩ := liquidateE_ok h; rfl
  | reduceIncentive v a m => obtain ⟨_, _, _, _, _, _, _, rfl⟩ := reduceIncentiveE_ok h; rfl
  | updateLfc as => cases h; rfl
  | transferP p x y m =>
    simp only [execE, bind_ok_iff, pure_ok_iff, Prod.mk.injEq] at h
    obtain ⟨_, _, _, rfl⟩ := h; rfl
  | _ => obtain ⟨_, rfl⟩ := thenE_ok h; rfl

/-- **C249** (each call) Whatever a call does, the rewards an account can claim have changed by what the events of this call
announce as settled for it, less what they announce as paid to it. -/
theorem C249_call {k : Call} {es : List Ev} (h : execE c s k = .ok (s', es)) (w : Nat) :
    s'.rw.accrued w + rewarded w es + credited w s.rw.log = s.rw.accrued w + credited w s'.rw.log := by
  by_cases hk : k.keepsRewards
  · rw [rewarded_other hk h w, Nat.add_zero]
    have e := C232_same c s k
    rw [h] at e
    exact exec_even hk e.symm w
  · cases k with
    | claim v =>
      simp only [execE, bind_ok_iff] at h
      obtain ⟨s1, h1, h2⟩ := h
      have e1 := even_collectAll h1 w
      obtain ⟨-, e2, e3⟩ := payRewardE_even h2 w
      rw [e2]
      omega
    | claimFor v a =>
      simp only [execE, bind_ok_iff] at h
      obtain ⟨s1, h1, h2⟩ := h
      have e1 := even_collect h1 w
      obtain ⟨-, e2, e3⟩ := payRewardE_even h2 w
      rw [e2]
      omega
    | _ => exact absurd trivial hk

/-- **C249.** In every state that any history leads to, what an account can claim is what the events have announced as settled
for it less what they have announced as paid to it: the events determine it. -/
theorem C249_claimable {es : List Ev} (h : Hist c s es) (w : Nat) :
    s.rw.accrued w + rewarded w es = credited w s.rw.log := by
  induction h with
  | init l prices time block => rfl
  | call h k he ih =>
    have := C249_call he w
    rw [rewarded_append]
    omega
  | env h he ih =>
    rw [he.same]
    exact ih

/-- **C249** (safety) Never has anybody been paid more than was announced as settled for this account. -/
theorem C249_bound {es : List Ev} (h : Hist c s es) (w : Nat) : rewarded w es ≤ credited w s.rw.log := by
  have := C249_claimable h w
  omega

/-- **C249** (determined) After two histories with the same events everybody can claim the same. -/
theorem C249_determined {t : State} {es fs : List Ev} (h : Hist c s es) (g : Hist c t fs) (hl : s.rw.log = t.rw.log)
    (he : ∀ w, rewarded w es = rewarded w fs) : s.rw.accrued = t.rw.accrued := by
  funext w
  have h1 := C249_claimable h w
  have h2 := C249_claimable g w
  rw [hl] at h1
  have := he w
  omega

/-- **C249** (claiming) A claim is announced with what was still to be claimed after settling, and leaves nothing. -/
theorem C249_claim {w : Nat} {es : List Ev} (h : execE c s (.claim w) = .ok (s', es)) :
    es = [.rewardPaid w (s.rw.accrued w + credited w s'.rw.log - credited w s.rw.log)] ∧ s'.rw.accrued w = 0 := by
  have hc := C249_call h w
  simp only [execE, bind_ok_iff] at h
  obtain ⟨s1, h1, h2⟩ := h
  have e1 := even_collectAll h1 w
  obtain ⟨e0, e2, e3⟩ := payRewardE_even h2 w
  have hz : s'.rw.accrued w = 0 := by
    simp only [payRewardE, bind_ok_iff, pure_ok_iff, Prod.mk.injEq] at h2
    obtain ⟨t, h2, rfl, -⟩ := h2
    obtain ⟨l, -, rfl⟩ := payReward_view h2
    exact upd_same _ _ _
  refine ⟨?_, hz⟩
  rw [e0, e2]
  congr 2
  omega

/-- **C250** (each call) A call that is not made by or for the account of the pot changes the balance of the pot by exactly what its
events announce as added and as taken. -/
theorem C250_call (hc : c.Ok) {k : Call} {es : List Ev} (h : execE c s k = .ok (s', es))
    (hn : ∀ e ∈ es, c.rewardAcct ∉ e.names) : pot c s' + potOut es = pot c s + potIn es := by
  have other : ¬ k.usesPot → potOut es = 0 ∧ potIn es = 0 → pot c s' + potOut es = pot c s + potIn es := by
    intro hk hz
    have h1 := amounts_of h (x := c.rewardAsset) hc.rew (fun g => absurd g hk)
    rw [(unnamed hn _).1, (unnamed hn _).2] at h1
    rw [hz.1, hz.2]
    exact h1
  have neg : ∀ {e : Ev}, potOut [e] = e.fromPot ∧ potIn [e] = e.toPot := fun {e} => by simp [potOut, potIn]
  cases k with
  | addReward v m =>
    obtain ⟨g, rfl⟩ := thenE_ok h
    obtain ⟨l, hl, rfl⟩ := addReward_view g
    have hv : c.rewardAcct ≠ v := by simpa [Ev.names] using hn
    have := Ledger.transfer_bal hl c.rewardAsset c.rewardAcct
    rw [neg.1, neg.2]
    simp only [hv, and_false, false_and, if_false, and_self, if_true] at this
    unfold pot Ev.fromPot Ev.toPot
    dsimp only
    omega
  | withdrawReward v m =>
    obtain ⟨g, rfl⟩ := thenE_ok h
    obtain ⟨l, hl, rfl⟩ := withdrawReward_view g
    have hv : c.rewardAcct ≠ v := by simpa [Ev.names] using hn
    have := Ledger.transfer_bal hl c.rewardAsset c.rewardAcct
    rw [neg.1, neg.2]
    simp only [hv, and_false, false_and, if_false, and_self, if_true] at this
    unfold pot Ev.fromPot Ev.toPot
    dsimp only
    omega
  | claim v =>
    simp only [execE, bind_ok_iff] at h
    obtain ⟨t, h1, h⟩ := h
    obtain ⟨l, hl, rfl, -, -, rfl⟩ := payRewardE_ok h
    rw [(collectAll_rw h1).ledger] at hl
    have hv : c.rewardAcct ≠ v := by simpa [Ev.names] using hn
    have := Ledger.transfer_bal hl c.rewardAsset c.rewardAcct
    rw [neg.1, neg.2]
    simp only [hv, and_false, false_and, if_false, and_self, if_true] at this
    unfold pot Ev.fromPot Ev.toPot
    dsimp only
    omega
  | claimFor v a =>
    simp only [execE, bind_ok_iff] at h
    obtain ⟨t, h1, h⟩ := h
    obtain ⟨l, hl, rfl, -, -, rfl⟩ := payRewardE_ok h
    rw [(collect_rw h1).ledger] at hl
    have hv : c.rewardAcct ≠ v := by simpa [Ev.names] using hn
    have := Ledger.transfer_bal hl c.rewardAsset c.rewardAcct
    rw [neg.1, neg.2]
    simp only [hv, and_false, false_and, if_false, and_self, if_true] at this
    unfold pot Ev.fromPot Ev.toPot
    dsimp only
    omega
  | updateModel a rm => obtain ⟨_, _, _, rfl⟩ := marketE_ok h; exact other id ⟨rfl, rfl⟩
  | updateMarket a p => obtain ⟨_, _, _, rfl⟩ := marketE_ok h; exact other id ⟨rfl, rfl⟩
  | forceUpdate a m => obtain ⟨_, _, _, rfl⟩ := marketE_ok h; exact other id ⟨rfl, rfl⟩
  | updateSpeed a x y =>
    have h' := h
    simp only [execE, bind_ok_iff, pure_ok_iff, Prod.mk.injEq] at h'
    obtain ⟨_, _, _, rfl⟩ := h'; exact other id ⟨rfl, rfl⟩
  | redeem v a m => obtain ⟨_, _, _, _, rfl⟩ := redeemE_ok h; exact other id ⟨rfl, rfl⟩
  | redeemAll v a => obtain ⟨_, _, _, _, rfl⟩ := redeemAllE_ok h; exact other id ⟨rfl, rfl⟩
  | repayAll v a => obtain ⟨_, _, _, _, _, rfl⟩ := repayAllE_ok h; exact other id ⟨rfl, rfl⟩
  | collateral v a on =>
    obtain ⟨_, rfl⟩ := thenE_ok h
    cases on <;> exact other id ⟨rfl, rfl⟩
  | liquidate l b a m k => obtain ⟨_, _, _, _, _, _, _, _, rfl⟩ := liquidateE_ok h; exact other id ⟨rfl, rfl⟩
  | reduceIncentive v a m => obtain ⟨_, _, _, _, _, _, _, rfl⟩ := reduceIncentiveE_ok h; exact other id ⟨rfl, rfl⟩
  | updateLfc as =>
    have e : es = [.lfc as] := by cases h; rfl
    subst e
    exact other id ⟨rfl, rfl⟩
  | transferP p x y m =>
    have h' := h
    simp only [execE, bind_ok_iff, pure_ok_iff, Prod.mk.injEq] at h'
    obtain ⟨_, _, _, rfl⟩ := h'; exact other id ⟨rfl, rfl⟩
  | _ => obtain ⟨_, rfl⟩ := thenE_ok h; exact other id ⟨rfl, rfl⟩

/-- **C250.** In every state any history leads to, the pot holds exactly what was announced as added less what was announced as
withdrawn and paid, plus what others sent to it directly. -/
theorem C250_pot (hc : c.Ok) {es : List Ev} {x : Nat} (h : HistPot c s es x) : pot c s + potOut es = x + potIn es := by
  induction h with
  | init l prices time block => rfl
  | call h k he hn ih =>
    have := C250_call hc he hn
    simp only [potOut, potIn, List.map_append, List.sum_append] at this ih ⊢
    omega
  | env h he hy ih => omega

/-- **C250** (solvency) Nothing is ever paid that was not added or sent before. -/
theorem C250_bound (hc : c.Ok) {es : List Ev} {x : Nat} (h : HistPot c s es x) : potOut es ≤ x + potIn es := by
  have := C250_pot hc h
  omega

/-- Every reachable state has such a history. -/
theorem C249_hist (h : Reach c s) : ∃ es, Hist c s es := by
  induction h with
  | init l prices time block hw => exact ⟨[], .init l prices time block⟩
  | @step s1 s2 h hs ih =>
    obtain ⟨es, ih⟩ := ih
    cases hs with
    | call k hw hk hok he =>
      have e := C232_same c s1 k
      rw [he] at e
      revert e
      cases hx : execE c s1 k with
      | error e' => intro e; cases e
      | ok p =>
        intro e
        obtain ⟨t, fs⟩ := p
        cases e
        exact ⟨es ++ fs, .call ih k hx⟩
    | env he => exact ⟨es, .env ih he⟩

example : ∃ es, Hist exC exD es ∧ rewarded 7 es = 500 ∧ rewarded 9 es = 500 := by
  obtain ⟨es, h⟩ := C249_hist exD_reach
  have h7 := C249_claimable h 7
  have h9 := C249_claimable h 9
  have e7 : exD.rw.accrued 7 = 0 ∧ credited 7 exD.rw.log = 500 := by decide +kernel
  have e9 : exD.rw.accrued 9 = 0 ∧ credited 9 exD.rw.log = 500 := by decide +kernel
  exact ⟨es, h, by omega, by omega⟩

/-- In the fixture supplier 7 claims: 500 are settled and paid, and announced as both. -/
example : okAnd (execE exC ex1 (.claimFor 7 1)) (fun r => decide (rewarded 7 r.2 = 500 ∧ credited 7 ex1.rw.log = 0 ∧
    credited 7 r.1.rw.log = 500 ∧ r.1.rw.accrued 7 = 0)) = true := by
  decide +kernel

/-- A supplier claims 500 from the pot, and the pot's account is not named. -/
example : okAnd (execE exC ex1 (.claimFor 7 1)) (fun r => decide (potOut r.2 = 500 ∧ potIn r.2 = 0 ∧
    (∀ e ∈ r.2, exC.rewardAcct ∉ e.names) ∧ pot exC r.1 + 500 = pot exC ex1)) = true := by
  decide +kernel

end Verif.Loans
