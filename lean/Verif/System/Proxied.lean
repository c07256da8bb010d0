import Verif.System.Paid
import Verif.Runtime.Model

/-!
# What a proxy of a limited type can do with the owner's tokens (C224)

`Verif/Runtime` proves that a proxy of a limited type carries out only calls its type lists (C155).  Here the lists
meet the pallets: `kindOf` says which entry of `runtime/parallel/src/lib.rs:932-1026` an extrinsic is.
-/

namespace Verif.System
open Verif
open _root_.Verif.Runtime (ProxyType Kind)

/-- The name of an extrinsic in the runtime's lists, runtime/parallel/src/lib.rs:932-1026; calls that no list of a
proxy type names have none.  `claim` and `withdraw` of crowdloans stand for `claim_for` and `withdraw_for` too, which
every list that has one of them has as well. -/
def kindOf : Tx → Option Kind
  | .call (.loans (.mint _ _ _)) => some ⟨.loans, .mint⟩
  | .call (.loans (.redeem _ _ _)) => some ⟨.loans, .redeem⟩
  | .call (.loans (.redeemAll _ _)) => some ⟨.loans, .redeemAll⟩
  | .call (.loans (.borrow _ _ _)) => some ⟨.loans, .borrow⟩
  | .call (.loans (.repay _ _ _)) => some ⟨.loans, .repayBorrow⟩
  | .call (.loans (.repayAll _ _)) => some ⟨.loans, .repayBorrowAll⟩
  | .call (.loans (.collateral _ _ _)) => some ⟨.loans, .collateralAsset⟩
  | .call (.loans (.liquidate _ _ _ _ _)) => some ⟨.loans, .liquidateBorrow⟩
  | .call (.loans (.addReward _ _)) => some ⟨.loans, .addReward⟩
  | .call (.loans (.claim _)) => some ⟨.loans, .claimReward⟩
  | .call (.loans (.claimFor _ _)) => some ⟨.loans, .claimRewardForMarket⟩
  | .call (.staking (.stake _ _)) => some ⟨.liquidStaking, .stake⟩
  | .call (.staking (.unstake _ _ _)) => some ⟨.liquidStaking, .unstake⟩
  | .call (.staking (.cancelUnstake _ _)) => some ⟨.liquidStaking, .cancelUnstake⟩
  | .call (.crowdloans (.contribute _ _ _ _)) => some ⟨.crowdloans, .contribute⟩
  | .call (.crowdloans (.claim _ _)) => some ⟨.crowdloans, .claim⟩
  | .call (.crowdloans (.withdraw _ _)) => some ⟨.crowdloans, .withdraw⟩
  | .call (.crowdloans (.redeem _ _ _)) => some ⟨.crowdloans, .redeem⟩
  | .call (.farming (.deposit _ _ _)) => some ⟨.farming, .deposit⟩
  | .call (.farming (.claim _ _)) => some ⟨.farming, .claim⟩
  | .call (.farming (.withdraw _ _ _)) => some ⟨.farming, .withdraw⟩
  | .call (.farming (.redeem _ _)) => some ⟨.farming, .redeem⟩
  | .call (.streaming (.create _ _ _ _ _ _ _)) => some ⟨.streaming, .create⟩
  | .call (.streaming (.cancel _ _)) => some ⟨.streaming, .cancel⟩
  | .call (.streaming (.withdraw _ _ _)) => some ⟨.streaming, .withdraw⟩
  | .call (.amm (.add _ _ _ _)) => some ⟨.amm, .addLiquidity⟩
  | .call (.amm (.remove _ _ _)) => some ⟨.amm, .removeLiquidity⟩
  | .swapIn _ _ _ _ => some ⟨.ammRoute, .swapExactFor⟩
  | .swapOut _ _ _ _ => some ⟨.ammRoute, .swapForExact⟩
  | _ => none

/-- A proxy of type `p` may make the extrinsic. -/
def Proxied (ch : _root_.Verif.Runtime.Chain) (p : ProxyType) (t : Tx) : Prop := ∃ k, kindOf t = some k ∧ p.filter ch k = true

/-- The types that stand for the use of one pallet. -/
def Limited (p : ProxyType) : Prop :=
  p = .loans ∨ p = .staking ∨ p = .crowdloans ∨ p = .farming ∨ p = .streaming ∨ p = .amm

/-- What `u` may have become liable for to `w`: every stream from `u` to `w` was there before. -/
def NoNewStream (s s' : State) (u w : Nat) : Prop :=
  ∀ id st, s'.str.streams id = some st → st.sender = u → st.recipient = w → (s.str.streams id).isSome = true

/-- `w` is neither credited nor promised anything by a proxy of `u`, unless it receives the exchange's protocol fee or
what a vault owes it as a contributor. -/
def Unenriched (s s' : State) (u w : Nat) (t : Tx) : Prop :=
  ((∀ a, s'.ledger.bal a w ≤ s.ledger.bal a w) ∨ (t.tradesAmm = true ∧ s.amm.feeTo = some w) ∨
    (∃ k, t = .call (.crowdloans (.claim w k)) ∨ t = .call (.crowdloans (.withdraw w k)))) ∧
  NoNewStream s s' u w

variable {c : Cfg} {s s' : State} {r : Roles} {t : Tx}

/-! ## Streams -/

theorem popFinished_sub {c : Streaming.Cfg} {s s' : Streaming.State} {a : Nat} (h : Streaming.popFinished c s a = .ok s')
    {id : Nat} {st : Streaming.Stream} (hs : s'.streams id = some st) : s.streams id = some st := by
  unfold Streaming.popFinished at h
  dsimp only at h
  split_ifs at h
  · cases h; exact hs
  · split at h
    · cases h; exact hs
    · simp only [bind_ok_iff, pure_ok_iff] at h
      obtain ⟨_, _, rfl⟩ := h
      rename_i i _ _ _
      have hs : upd s.streams i none id = some st := hs
      by_cases e : id = i
      · subst e; rw [upd_same] at hs; cases hs
      · rwa [upd_of_ne _ _ e] at hs

theorem traitCreate_streams {c : Streaming.Cfg} {s s' : Streaming.State} {sd rc d a b e : Nat} {cl : Bool}
    (h : Streaming.traitCreate c s sd rc d a b e cl = .ok s') {id : Nat} {st : Streaming.Stream}
    (hs : s'.streams id = some st) : s.streams id = some st ∨ st.sender = sd := by
  simp only [Streaming.traitCreate, Streaming.doCreate, Streaming.updateFinished, Streaming.pushLib, bind_ok_iff,
    pure_ok_iff, Prod.exists, Prod.mk.injEq] at h
  obtain ⟨_, _, s1, i, ⟨_, _, _, _, rt, _, _, _, l, hl, nx, _, s2, ⟨s3, h3, h4⟩, rfl, rfl⟩, _, _, rfl⟩ := h
  have h5 := popFinished_sub h3 (popFinished_sub h4 hs)
  have h5 : upd s.streams s.next (some ⟨d, d, a, rt, sd, rc, b, e, .ongoing, cl⟩) id = some st := h5
  by_cases e : id = s.next
  · rw [e, upd_same, Option.some.injEq] at h5; rw [← h5]; exact .inr rfl
  · rw [upd_of_ne _ _ e] at h5; exact .inl h5

/-- A crowdloans call opens streams only from the account of the crowdloans pallet. -/
theorem crowd_opens {k : Crowdloans.Call} {x : Crowdloans.State} (h : Crowdloans.exec c.cl s.clV k = .ok x)
    {id : Nat} {st : Streaming.Stream} (hs : x.str.streams id = some st) :
    s.str.streams id = some st ∨ st.sender = c.cl.acct := by
  rcases Crowdloans.exec_quiet h with q | ⟨ct, _, q, _⟩ | ⟨_, _, q, _⟩
  · rw [q.str] at hs; exact .inl hs
  · rw [q] at hs; exact .inl hs
  · rcases q with ⟨_, q⟩ | ⟨l, who, m, a, b, _, q⟩
    · rw [q] at hs; exact .inl hs
    · simp only [Streaming.exec] at q
      exact traitCreate_streams q hs

/-! ## C224 -/

/-- The full statement: whatever a proxy of a type that stands for one pallet does in the name of `u`, no other account is
credited or promised `u`'s tokens. -/
def C224_statement : Prop :=
  ∀ (c : Cfg) (r : Roles) (s s' : State) (ch : _root_.Verif.Runtime.Chain) (p : ProxyType) (t : Tx) (u w : Nat), Limited p → Proxied ch p t →
    r.agent u = false → r.automator u = false → ¬ Own c u → ¬ Own c w → w ≠ u →
    dispatch r c s (.signed u) t = .ok s' → Unenriched s s' u w t

/-- **C224**, for all types but `Streaming`: whatever a proxy of type `Loans`, `Staking`, `Crowdloans`, `Farming` or
`AMM` does in the name of `u`, no other account is credited or promised `u`'s tokens.  Missing: the type `Streaming`, for
which it is false (`C224_refuted`). -/
theorem C224_partial {ch : _root_.Verif.Runtime.Chain} {p : ProxyType} {u w : Nat} (hl : Limited p) (hp : p ≠ .streaming)
    (ht : Proxied ch p t) (ha : r.agent u = false) (hm : r.automator u = false) (hu : ¬ Own c u) (hw : ¬ Own c w)
    (hne : w ≠ u) (hd : dispatch r c s (.signed u) t = .ok s') : Unenriched s s' u w t := by
  obtain ⟨k, hk, hf⟩ := ht
  constructor
  · by_cases hb : ∀ a, s'.ledger.bal a w ≤ s.ledger.bal a w
    · exact .inl hb
    · simp only [not_forall, not_le] at hb
      obtain ⟨a, hb⟩ := hb
      cases C223_paid ha hm hd hw hb with
      | self h => exact absurd h hne
      | fee h1 h2 => exact .inr (.inl ⟨h1, h2⟩)
      | stableFee h1 _ =>
        exfalso
        unfold Tx.tradesStable at h1
        split at h1
        · cases hk
        · cases hk
        · cases h1
      | contributor x h => exact .inr (.inr ⟨x, h⟩)
      | stream id st h _ _ _ =>
        subst h
        cases hk
        rcases hl with rfl | rfl | rfl | rfl | rfl | rfl <;> first | exact absurd rfl hp | cases hf
      | arrived _ _ _ _ _ h _ => subst h; cases hk
  · intro id st hs hsd _
    obtain ⟨hn, he⟩ := dispatch_iff.1 hd
    cases t with
    | swapIn x route m n =>
      simp only [Tx.run, bind_ok_iff, pure_ok_iff] at he
      obtain ⟨y, _, rfl⟩ := he
      have hs : s.str.streams id = some st := hs
      rw [hs]; rfl
    | swapOut x route m n =>
      simp only [Tx.run, bind_ok_iff, pure_ok_iff] at he
      obtain ⟨y, _, rfl⟩ := he
      have hs : s.str.streams id = some st := hs
      rw [hs]; rfl
    | call k =>
      cases k with
      | amm k =>
        simp only [Tx.run, exec, bind_ok_iff, pure_ok_iff] at he
        obtain ⟨x, _, rfl⟩ := he
        have hs : s.str.streams id = some st := hs
        rw [hs]; rfl
      | farming k =>
        simp only [Tx.run, exec, bind_ok_iff, pure_ok_iff] at he
        obtain ⟨x, _, rfl⟩ := he
        have hs : s.str.streams id = some st := hs
        rw [hs]; rfl
      | loans k =>
        simp only [Tx.run, exec, bind_ok_iff, pure_ok_iff] at he
        obtain ⟨x, _, rfl⟩ := he
        have hs : s.str.streams id = some st := hs
        rw [hs]; rfl
      | staking k =>
        simp only [Tx.run, exec, bind_ok_iff, pure_ok_iff] at he
        obtain ⟨x, _, rfl⟩ := he
        have hs : s.str.streams id = some st := hs
        rw [hs]; rfl
      | crowdloans k =>
        have hq : ∃ x, Crowdloans.exec c.cl s.clV k = .ok x ∧ s.putCl x = s' := by
          simp only [Tx.run, exec] at he
          cases k <;> simp only [crowd, bind_ok_iff, pure_ok_iff] at he <;> try exact he
          cases hk
        obtain ⟨x, hq, rfl⟩ := hq
        rcases crowd_opens hq hs with h | h
        · rw [h]; rfl
        · exact absurd ⟨.crowdloans, .inl (.inl (hsd.symm.trans h))⟩ hu
      | streaming k =>
        exfalso
        rcases hl with rfl | rfl | rfl | rfl | rfl | rfl <;> first | exact absurd rfl hp |
          (cases k <;> cases hk <;> cases hf)
      | stable k => cases hk
      | bridge k => cases hk
      | bridgeBlock => cases hk
      | bridgeMembers ms => cases hk

/-! ## Streams: a proxy of type `Streaming` takes everything -/

theorem exC_own {w : Nat} (h : Own exC w) : 990 ≤ w := by
  obtain ⟨p, h | h⟩ := h <;> cases p <;> simp only [spends, keeps, exC] at h <;> omega

/-- Its proxy opens a stream from 7 to 9, the proxy itself. -/
def exGive : Tx := .call (.streaming (.create 7 9 900000 1 1010 1011 false))
/-- After the end of the stream 9 withdraws. -/
def exTake : Tx := .call (.streaming (.withdraw 9 1 900000))
def exGiven : State := commit ex1 (dispatch exR exC ex1 (.signed 7) exGive)

theorem exGive_step : dispatch exR exC ex1 (.signed 7) exGive = .ok exGiven := by
  rcases commit_cases ex1 (dispatch exR exC ex1 (.signed 7) exGive) with h | ⟨_, e, h⟩
  · exact h
  · have : okAnd (dispatch exR exC ex1 (.signed 7) exGive) (fun _ => true) = true := by decide +kernel
    rw [h] at this; cases this

/-- A `Streaming` proxy of 7 gives 9 a stream of 900000 of 7's tokens. -/
theorem C224_refuted : ¬ C224_statement := by
  intro h
  have h1 := (h exC exR ex1 exGiven .parallel .streaming exGive 7 9 (by unfold Limited; simp) ⟨_, rfl, rfl⟩ rfl rfl
    (fun ho => absurd (exC_own ho) (by decide)) (fun ho => absurd (exC_own ho) (by decide)) (by decide) exGive_step).2
  have h2 : ((exGiven.str.streams 1).map (fun st => (st.sender, st.recipient)) = some (7, 9)) ∧
    ex1.str.streams 1 = none := by decide +kernel
  obtain ⟨h2, h3⟩ := h2
  cases e : exGiven.str.streams 1 with
  | none => rw [e] at h2; cases h2
  | some st =>
    rw [e] at h2
    simp only [Option.map_some, Option.some.injEq, Prod.mk.injEq] at h2
    have := h1 1 st e h2.1 h2.2
    rw [h3] at this
    cases this

/-- **C224.**  Once the stream has ended the proxy has 7's tokens, and 7 never signed anything. -/
theorem C224_stolen : okAnd (dispatch exR exC (pass exGiven 1050) (.signed 9) exTake) (fun s =>
    decide (s.ledger.bal 1 9 = ex1.ledger.bal 1 9 + 900000) && decide (s.ledger.bal 1 7 + 900000 = ex1.ledger.bal 1 7)) =
    true := by decide +kernel

/-- A case of `C224_partial`: a proxy of type `AMM` trades for 8. -/
example : Limited .amm ∧ Proxied .parallel .amm exSwap ∧ exR.agent 8 = false ∧ exR.automator 8 = false ∧ ¬ Own exC 8 ∧
    ¬ Own exC 7 ∧ okAnd (dispatch exR exC ex1 (.signed 8) exSwap) (fun _ => true) = true :=
  ⟨by unfold Limited; simp, ⟨_, rfl, rfl⟩, rfl, rfl, fun h => absurd (exC_own h) (by decide),
    fun h => absurd (exC_own h) (by decide), by decide +kernel⟩

/-- A case of `C223_paid` in which somebody else is paid: 8 cancels its stream to 9 half way. -/
example : okAnd (dispatch exR exC (pass ex1 1060) (.signed 8) (.call (.streaming (.cancel 8 0)))) (fun s =>
      decide (ex1.ledger.bal 1 9 < s.ledger.bal 1 9)) = true ∧ ¬ Own exC 9 :=
  ⟨by decide +kernel, fun h => absurd (exC_own h) (by decide)⟩

end Verif.System
