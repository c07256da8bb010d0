import Verif.System.TermsProps
import Verif.Prices.Lp
import Verif.Loans.PriceMono
import Verif.Amm.Share

/-!
# The price feed of the runtime

`runtime/parallel/src/lib.rs:1423-1438` gives the prices pallet its providers: liquid staking, lending, crowdloans, the AMM
and the token supplies.  `Feed` holds what comes from elsewhere: the oracle, the decimals of assets, the prices pallet's
own storage, the floating-point yield formula (any function), and in which order the two storage maps are iterated.
-/

namespace Verif.System
open Verif

/-- What the feed is made of besides the state of the eight pallets. -/
structure Feed where
  cfg : Prices.Cfg
  /-- `EmergencyPrice` and `ForeignToNativeAsset` -/
  emergency : Nat → Option Nat
  foreign : Nat → Option Nat
  /-- the oracle's current values -/
  oracle : Nat → Option Prices.TSP
  /-- `Decimal::get_decimal`, runtime/parallel/src/lib.rs:1406-1421 -/
  decimal : Nat → Option Nat
  /-- `1 / (1 + r)^T` computed with floating-point numbers, pallets/crowdloans/src/lib.rs:1914-1921: from the full rate
  and (elapsed share of the lease, length of the lease in years) -/
  yield : Nat → Nat × Nat → Option Nat
  /-- the first entry of `Pools` with that LP token, pallets/amm/src/lib.rs:1188-1193 -/
  findLp : (Nat × Nat → Option Amm.Pool) → Nat → Option (Nat × Nat)
  /-- the first entry of `CTokensRegistry` with that token, pallets/crowdloans/src/lib.rs:1860-1867 -/
  findVault : (Nat × Nat → Option Nat) → Nat → Option (Nat × Nat)

/-- Searching the pools `ps` finds something that is there, and finds it if there is anything. -/
structure Feed.OK (F : Feed) (ps : Nat × Nat → Option Amm.Pool) : Prop where
  lp : ∀ a k, F.findLp ps a = some k → ∃ p, ps k = some p ∧ p.lp = a
  noLp : ∀ a, F.findLp ps a = none → ∀ k p, ps k = some p → p.lp ≠ a

/-- `get_full_interest_rate`, pallets/loans/src/lib.rs:2264-2273. -/
def fullRate (x : Loans.State) (a : Nat) : Option Nat :=
  match x.markets a with
  | some m => match m.model with
    | .jump _ _ full _ => some full
    | .curve _ => none
  | none => none

/-- `get_vault_term_rate` with a trap as no answer (`Crowdloans.termRate` has the traps). -/
def termOf (c : Crowdloans.Cfg) (x : Crowdloans.State) (l : Nat × Nat) : Option (Nat × Nat) :=
  match Crowdloans.termRate c x l with
  | .ok o => o
  | .error _ => none

/-- The providers, runtime/parallel/src/lib.rs:1423-1438; liquid-staking/src/lib.rs:2095-2117;
crowdloans/src/lib.rs:1910-1929; amm/src/lib.rs:1181-1194. -/
def Feed.world (F : Feed) (c : Cfg) (s : State) : Prices.World where
  oracle := F.oracle
  decimal := F.decimal
  liquid := if (F.decimal c.stk.liquid).isSome = true then some c.stk.liquid else none
  lsRate := fun _ => some s.stk.rate
  fullRate := fullRate s.lo
  isCtoken := fun a => (F.findVault s.cl.ctokenOf a).isSome
  vaultRate := fun a y => ((F.findVault s.cl.ctokenOf a).bind (termOf c.cl s.cl)).bind (F.yield y)
  lpPool := fun a => (F.findLp s.amm.pools a).bind (fun k =>
    (s.amm.pools k).map (fun p => ⟨k.1, k.2, p.base, p.quote⟩))
  supply := s.ledger.iss

/-- The state of the prices pallet. -/
def Feed.ask (F : Feed) (c : Cfg) (s : State) : Prices.State := ⟨F.emergency, F.foreign, F.world c s⟩

/-- The price the lending pallet sees, pallets/loans/src/lib.rs:1982-1993; a trap is no answer. -/
def Feed.price (F : Feed) (c : Cfg) (s : State) (a : Nat) : Option Nat :=
  match Prices.getPrice F.cfg (F.ask c s) a with
  | .ok (some q) => some q.value
  | _ => none

theorem Feed.price_iff {F : Feed} {c : Cfg} {s : State} {a v : Nat} :
    F.price c s a = some v ↔ ∃ q, Prices.getPrice F.cfg (F.ask c s) a = .ok (some q) ∧ q.value = v := by
  unfold Feed.price
  cases h : Prices.getPrice F.cfg (F.ask c s) a with
  | error e => simp
  | ok o => cases o <;> simp

/-! ## Users do not move prices -/

end Verif.System

namespace Verif.Staking
open Verif
variable {c : Cfg} {s s' : State}

theorem user_rate {k : Call} {w : Nat} (h : exec c s k = .ok s')
    (hk : (∃ m, k = .stake w m) ∨ (∃ q p, k = .unstake w q p) ∨ ∃ m, k = .cancelUnstake w m) : s'.rate = s.rate := by
  rcases hk with ⟨m, rfl⟩ | ⟨q, p, rfl⟩ | ⟨m, rfl⟩ <;> simp only [exec] at h
  · obtain ⟨_, _, _, _, _, _, _, _, _, _, _, rfl⟩ := stake_view h
    rfl
  · obtain ⟨_, _, _, ⟨_, rfl⟩ | ⟨_, e⟩⟩ := unstake_view h
    · rfl
    · obtain ⟨l1, l2, s1, _, _, e1, e2, e3, rfl⟩ := unstakeSlow_view e
      unfold viaLoans at e3
      split at e3
      · obtain ⟨_, _, _, _, _, _, _, _, _, _, _, hf⟩ := instantUnstake_view e3
        rw [hf]
        rfl
      · cases e3; rfl
  · cases h
    rfl

end Verif.Staking

namespace Verif.Crowdloans
open Verif
variable {c : Cfg} {s s' : State}

theorem updateContribution_relay {v v' : Vault} {who m x : Nat} {code : Option Nat} {add : Bool} {k : Kind}
    (h : updateContribution s v who m code add k = .ok (s', v', x)) : s'.relayBlock = s.relayBlock := by
  simp only [updateContribution, bind_ok_iff, pure_ok_iff, Prod.mk.injEq] at h
  obtain ⟨_, _, _, _, rfl, _⟩ := h
  rfl

theorem sendXcm_relay {f : Fee} {r : Req} (h : sendXcm c s f r = .ok s') : s'.relayBlock = s.relayBlock := by
  simp only [sendXcm, bind_ok_iff, pure_ok_iff] at h
  obtain ⟨_, _, _, _, rfl⟩ := h
  rfl

theorem user_relay {k : Call} (h : exec c s k = .ok s') (hk : (∃ w p m q, k = .contribute w p m q) ∨
    (∃ w v, k = .claim w v) ∨ (∃ w v, k = .withdraw w v) ∨ ∃ w v m, k = .redeem w v m) :
    s'.relayBlock = s.relayBlock := by
  rcases hk with ⟨w, p, m, q, rfl⟩ | ⟨w, v, rfl⟩ | ⟨w, v, rfl⟩ | ⟨w, v, m, rfl⟩ <;> simp only [exec] at h
  · simp only [contribute, bind_ok_iff, pure_ok_iff, Prod.exists] at h
    obtain ⟨k, v, _, _, _, _, _, _, _, _, _, _, _, _, _, _, _, _, _, l, hl, s1, v1, h1, rfl⟩ := h
    show s1.relayBlock = s.relayBlock
    unfold book at h1
    split at h1
    · simp only [bind_ok_iff, pure_ok_iff, Prod.exists, Prod.mk.injEq] at h1
      obtain ⟨s2, v2, x, h2, s3, h3, rfl, _⟩ := h1
      have e2 := updateContribution_relay h2
      have e3 : s3.relayBlock = s2.relayBlock := by
        unfold doContribute at h3
        split at h3
        · simp only [bind_ok_iff] at h3
          obtain ⟨_, _, h3⟩ := h3
          exact sendXcm_relay h3
        · exact sendXcm_relay h3
      exact e3.trans e2
    · simp only [bind_ok_iff, pure_ok_iff, Prod.exists, Prod.mk.injEq] at h1
      obtain ⟨s2, v2, x, h2, rfl, _⟩ := h1
      have := updateContribution_relay h2
      exact this
  · simp only [claim, bind_ok_iff, pure_ok_iff] at h
    obtain ⟨_, _, _, _, _, _, _, _, l, hl, s1, h1, rfl⟩ := h
    show s1.relayBlock = s.relayBlock
    unfold payBonus at h1
    split at h1
    · cases h1; rfl
    · simp only [bind_ok_iff, pure_ok_iff] at h1
      obtain ⟨_, _, rfl⟩ := h1
      rfl
  · simp only [withdraw, bind_ok_iff, pure_ok_iff] at h
    obtain ⟨_, _, _, _, _, _, _, _, l, hl, rfl⟩ := h
    rfl
  · simp only [redeem, bind_ok_iff, pure_ok_iff] at h
    obtain ⟨_, _, _, _, _, _, _, _, _, _, l, hl, l2, hl2, rfl⟩ := h
    rfl

theorem termRate_congr {x : Nat × Nat} (h : s'.relayBlock = s.relayBlock) : termRate c s' x = termRate c s x := by
  unfold termRate
  rw [h]

end Verif.Crowdloans

namespace Verif.System
open Verif
variable {c : Cfg} {D : Nat → Prop} {r : Roles} {s s' : State} {F : Feed} {u : Nat} {t : Tx}

theorem Feed.sameBut (hm : s'.lo.markets = s.lo.markets) (hr : s'.stk.rate = s.stk.rate)
    (hc : s'.cl.ctokenOf = s.cl.ctokenOf) (hb : s'.cl.relayBlock = s.cl.relayBlock) :
    Prices.SameBut (F.world c s) (F.world c s') := by
  refine ⟨rfl, rfl, rfl, ?_, ?_, ?_, ?_⟩
  · funext _
    exact congrArg some hr
  · funext a
    show fullRate s'.lo a = fullRate s.lo a
    unfold fullRate
    rw [hm]
  · funext a
    show (F.findVault s'.cl.ctokenOf a).isSome = (F.findVault s.cl.ctokenOf a).isSome
    rw [hc]
  · funext a y
    show ((F.findVault s'.cl.ctokenOf a).bind (termOf c.cl s'.cl)).bind (F.yield y) =
      ((F.findVault s.cl.ctokenOf a).bind (termOf c.cl s.cl)).bind (F.yield y)
    have : termOf c.cl s'.cl = termOf c.cl s.cl := by
      funext x
      unfold termOf
      rw [Crowdloans.termRate_congr hb]
    rw [hc, this]

/-- The extrinsics of ordinary users leave the exchange rate of liquid staking and the relay chain's clock alone. -/
theorem user_frame (ha : r.agent u = false) (hau : r.automator u = false)
    (hd : dispatch r c s (.signed u) t = .ok s') :
    s'.stk.rate = s.stk.rate ∧ s'.cl.relayBlock = s.cl.relayBlock := by
  obtain ⟨hn, he⟩ := dispatch_iff.1 hd
  clear hd
  have hg : ¬ Governance (.signed u) := by simp [Governance]
  cases t with
  | swapIn x route m n =>
    obtain ⟨y, rfl, e⟩ := swap_put (.inl he)
    exact ⟨rfl, rfl⟩
  | swapOut x route m n =>
    obtain ⟨y, rfl, e⟩ := swap_put (.inr he)
    exact ⟨rfl, rfl⟩
  | call k =>
    cases k with
    | amm k =>
      simp only [Tx.run, exec, bind_ok_iff, pure_ok_iff] at he
      obtain ⟨x, hx, rfl⟩ := he
      exact ⟨rfl, rfl⟩
    | stable k =>
      simp only [Tx.run, exec, bind_ok_iff, pure_ok_iff] at he
      obtain ⟨x, hx, rfl⟩ := he
      exact ⟨rfl, rfl⟩
    | farming k =>
      simp only [Tx.run, exec, bind_ok_iff, pure_ok_iff] at he
      obtain ⟨x, hx, rfl⟩ := he
      exact ⟨rfl, rfl⟩
    | loans k =>
      simp only [Tx.run, exec, bind_ok_iff, pure_ok_iff] at he
      obtain ⟨x, hx, rfl⟩ := he
      exact ⟨rfl, rfl⟩
    | streaming k =>
      simp only [Tx.run, exec, bind_ok_iff, pure_ok_iff] at he
      obtain ⟨x, hx, rfl⟩ := he
      exact ⟨rfl, rfl⟩
    | bridge k =>
      simp only [Tx.run, exec, bind_ok_iff, pure_ok_iff] at he
      obtain ⟨x, hx, rfl⟩ := he
      exact ⟨rfl, rfl⟩
    | bridgeBlock => cases he; exact ⟨rfl, rfl⟩
    | bridgeMembers ms => cases he; exact ⟨rfl, rfl⟩
    | staking k =>
      simp only [Tx.run, exec, bind_ok_iff, pure_ok_iff] at he
      obtain ⟨x, hx, rfl⟩ := he
      refine ⟨?_, rfl⟩
      show x.rate = s.stkV.rate
      have hag : meets r (.signed u) .agent = true → False := by
        intro hm
        simp only [meets, ha] at hm
        cases hm
      have hre : meets r (.signed u) .response = true → False := by
        intro hm
        simp [meets, Origin.governs] at hm
      have hru : meets r (.signed u) .runtime = true → False := by
        intro hm
        simp [meets] at hm
      cases k <;> simp only [Tx.need, needStaking] at hn <;>
        first
        | exact (hag hn).elim
        | exact (hre hn).elim
        | exact (hru hn).elim
        | exact (gov_out hg hn).elim
        | skip
      case stake w m => exact Staking.user_rate (w := w) hx (.inl ⟨_, rfl⟩)
      case unstake w q p => exact Staking.user_rate (w := w) hx (.inr (.inl ⟨_, _, rfl⟩))
      case cancelUnstake w m => exact Staking.user_rate (w := w) hx (.inr (.inr ⟨_, rfl⟩))
    | crowdloans k =>
      have hau' : meets r (.signed u) .automator = true → False := by
        intro hm
        simp only [meets, hau] at hm
        cases hm
      have hre : meets r (.signed u) .response = true → False := by
        intro hm
        simp [meets, Origin.governs] at hm
      cases k <;> simp only [Tx.need, needCrowdloans] at hn <;>
        first
        | exact (hau' hn).elim
        | exact (hre hn).elim
        | exact (gov_out hg hn).elim
        | skip
      all_goals
        simp only [Tx.run, exec, crowd, bind_ok_iff, pure_ok_iff] at he
        obtain ⟨x, hx, rfl⟩ := he
        refine ⟨rfl, ?_⟩
        show x.relayBlock = s.clV.relayBlock
      case contribute w p m q => exact Crowdloans.user_relay hx (.inl ⟨_, _, _, _, rfl⟩)
      case claim w v => exact Crowdloans.user_relay hx (.inr (.inl ⟨_, _, rfl⟩))
      case withdraw w v => exact Crowdloans.user_relay hx (.inr (.inr (.inl ⟨_, _, rfl⟩)))
      case redeem w v m => exact Crowdloans.user_relay hx (.inr (.inr (.inr ⟨_, _, _, rfl⟩)))

/-- Between the two states only pools and supplies changed in what prices are made of. -/
theorem user_sameBut (hc : c.OK D) (h : Reach c D s) (ha : r.agent u = false) (hau : r.automator u = false)
    (ht : t.OK c D s) (hd : dispatch r c s (.signed u) t = .ok s') :
    Prices.SameBut (F.world c s) (F.world c s') := by
  obtain ⟨h1, h2⟩ := user_frame ha hau hd
  obtain ⟨h3, h4⟩ := C194_terms hc h (by simp [Governance]) ht hd
  have h5 := h4 (by simp) (by rintro v ⟨⟩; exact hau)
  exact Feed.sameBut (congrArg (·.1) h3.lending) h1 (congrArg (·.2.2.1) h5) h2

/-- **C204** No extrinsic that an ordinary user signs moves the price of anything that is not an LP token: not by staking,
trading, lending, borrowing, liquidating, contributing, bridging, or sending tokens around, however large the amounts.
The price the money market uses right after the extrinsic is the one right before. -/
theorem C204_users_move_no_price (hc : c.OK D) (h : Reach c D s) (ha : r.agent u = false)
    (hau : r.automator u = false) (ht : t.OK c D s) (hd : dispatch r c s (.signed u) t = .ok s') {a : Nat}
    (hn : Prices.NoLp (F.ask c s) a) :
    Prices.getPrice F.cfg (F.ask c s') a = Prices.getPrice F.cfg (F.ask c s) a ∧ F.price c s' a = F.price c s a := by
  have e := Prices.C204_only_lp_depends_on_pools (c := F.cfg) (s := F.ask c s) (s' := F.ask c s') (a := a)
    (user_sameBut hc h ha hau ht hd) rfl rfl hn
  refine ⟨e, ?_⟩
  unfold Feed.price
  rw [e]

end Verif.System
