import Verif.System.Inv
import Verif.Staking.Fixture

/-! # A concrete history of all pallets together, used to show that the theorems are not vacuous -/

set_option linter.unusedSimpArgs false

namespace Verif.System
open Verif

variable {c : Cfg} {D : Nat → Prop} {s s' : State}

/-- 1 is the relay and staking currency, 5 the liquid token, 3 the collateral token, 50 and 51 derivative tokens. -/
def exC : Cfg where
  amm := ⟨1001, 1000, 3000, 10, 0⟩
  stb := ⟨1002, 1000, 990, 2500, 500, 1000, 85⟩
  farm := ⟨fun a => 2000 + a, 4, 100, 100⟩
  stk := ⟨1007, 1008, 991, 1, 5, 3, 10, 100, 50, [0, 1], 28, 10, 100, 20, 10000000000000000, 8000000000000000,
    .maxMin, ⟨1003, 1004, 1005, 0, 3⟩⟩
  cl := ⟨1009, 1008, 1003, 1, 0, 10, 2, 2, 10, 0, 4, ⟨1006, 5, 2, 0, 10⟩, true⟩
  br := ⟨1010, 992, 1011, fun _ _ => 0, 0, 1, 1, 100, 50⟩

/-- The derivative tokens. -/
def exD (T : Nat) : Prop := T = 50 ∨ T = 51

theorem exC_vaulted {w : Nat} (h : Vaulted exC w) : 1000 ≤ w := by
  obtain ⟨p, hp⟩ := h
  cases p <;> simp only [keeps, exC] at hp <;> omega

theorem exC_ok : exC.OK exD where
  amm := ⟨by decide, by decide, by decide⟩
  stb := ⟨by decide, by decide, by decide, by decide⟩
  lo := ⟨by decide, by decide⟩
  str := ⟨by decide⟩
  stk := ⟨by decide, by decide, by decide, by decide, by decide, by decide⟩
  cl := ⟨by decide, by decide, by unfold exD exC; decide, by unfold exD exC; decide⟩
  apart := by
    intro p q w hs hk
    cases p <;> cases q <;> simp only [spends, keeps, exC] at hs hk <;> first | rfl | omega
  liquidD := by unfold exD exC; decide
  stakingD := by unfold exD exC; decide
  collateralD := by unfold exD exC; decide
  relay := by decide

/-- Users 7, 8 and 9 hold assets; the accounts of the XCM helper and of rewards are funded. -/
@[irreducible] def exL : Ledger := Ledger.ofList [(1, 7, 1000000), (1, 8, 1000000), (1, 9, 1000000), (2, 7, 1000000),
  (2, 8, 1000000), (2, 9, 1000000), (1, 1008, 1000), (0, 1004, 1000000), (0, 1009, 1000)]
theorem exL_wf : exL.WF := by unfold exL; exact Ledger.ofList_wf _

def exLo : Loans.State := Loans.State.fresh exL Loans.exPrices 1000 10
def exStr : Streaming.State := ⟨exL, fun _ => none, 0, fun _ => [], fun _ => some 0, 5, []⟩

/-- A chain on which nothing has happened. -/
def ex0 : State where
  ledger := exL
  query := 0
  amm := ⟨exL, fun _ => none, 0, none, 5⟩
  stb := ⟨exL, fun _ => none, 1⟩
  farm := ⟨exL, fun _ => none, fun _ _ => Farming.Pos.default, 5, []⟩
  lo := exLo
  str := exStr
  stk := ⟨exLo, DIV, 100000000000000000, 10000, 10000, 0, 0, ⟨⟨0, 0⟩, ⟨0, 0⟩⟩, 6000, [], fun _ => none, 0, 0,
    fun _ => none, fun _ => none, fun _ => false, false, 0, fun _ => 1, true, 0, 0, fun _ => none, []⟩
  cl :=
    { str := exStr
      vaults := fun _ => none
      isVrf := false
      ctokenOf := fun _ => none
      leaseOf := fun _ => none
      nextTrie := 0
      requests := fun _ => none
      proxy := some 993
      bonus := fun _ => ⟨0, 0, 0⟩
      child := fun _ => []
      nextQuery := 0
      relayBlock := 5
      fee := fun _ => 1
      sendOk := true
      decimal := fun _ => some 12
      nonce := fun _ => 1
      log := [] }
  br := ⟨exL, 1, fun _ => none, fun _ => none, fun _ => none, fun _ => none, fun _ _ => none, [], 5, []⟩

theorem ex0_genesis : Genesis exC exD ex0 where
  wf := exL_wf
  amm := fun _ => rfl
  stb := fun _ => rfl
  farm := rfl
  lo := rfl
  str := rfl
  stk :=
    { wf := exL_wf
      iss := by decide +kernel
      reserves := rfl
      ureserves := rfl
      pool := rfl
      reqs := rfl
      fast := fun _ => rfl
      unlockings := fun _ => rfl
      ledgers := fun _ => rfl
      relay := by intro i l h; cases h
      rf := by decide
      urf := by decide
      commission := by decide
      log := rfl }
  cl := by
    refine ⟨fun _ => rfl, fun _ => rfl, fun _ => rfl, fun _ => rfl, fun _ => rfl, rfl, exL_wf, ?_⟩
    rintro T (rfl | rfl)
    · show exL.iss 50 = 0; decide +kernel
    · show exL.iss 51 = 0; decide +kernel
  br := rfl

/-- Run a list of calls; failing calls change nothing. -/
def run (c : Cfg) (s : State) (ks : List Call) : State := ks.foldl (fun s k => commit s (exec c s k)) s

theorem run_reach : ∀ {ks : List Call} {s : State}, Reach c D s → (∀ k ∈ ks, ∀ s, k.OK c D s) →
    Reach c D (run c s ks)
  | [], s, h, _ => h
  | k :: ks, s, h, hk => by
    have h1 := hk k (by simp)
    have : Reach c D (commit s (exec c s k)) := by
      rcases commit_cases s (exec c s k) with he | he
      · exact .step h (.call k (h1 s) he)
      · rw [he.1]; exact h
    show Reach c D (run c (commit s (exec c s k)) ks)
    exact run_reach this (fun k' hk' => hk k' (by simp [hk']))

/-- Time passes on both chains. -/
def pass (s : State) (d : Nat) : State := { s with
  amm := { s.amm with block := s.amm.block + d }
  stb := { s.stb with block := s.stb.block + d }
  farm := { s.farm with now := s.farm.now + d }
  lo := { s.lo with time := s.lo.time + d, block := s.lo.block + d }
  str := { s.str with now := s.str.now + d }
  stk := { s.stk with relayBlock := s.stk.relayBlock + d, relayLedger := fun _ => none }
  cl := { s.cl with relayBlock := s.cl.relayBlock + d } }

theorem pass_reach (hc : c.OK D) (h : Reach c D s) (d : Nat) : Reach c D (pass s d) :=
  .step h (.world ⟨rfl, (h.inv hc).wf, fun _ _ _ => Nat.le_refl _, fun _ _ => rfl, Nat.le_refl _, Nat.le_add_right _ _,
    Nat.le_add_right _ _, Nat.le_add_right _ _, Nat.le_add_right _ _, Nat.le_add_right _ _, Nat.le_add_right _ _,
    by intro i l h; cases h⟩)

/-- A vault of crowdloans and a farming pool. -/
def exK : Crowdloans.Key := ⟨2000, 1, 8⟩
def exF : Farming.Key := ⟨60, 2, 0⟩

/-- Users stake, put the liquid token and the relay token in an AMM pool, farm with the pool's LP token, open a stream
and lend; a stableswap pool, a crowdloan and the bridge are set up and used. -/
def exCalls : List Call :=
  [.staking (.stake 7 10000), .staking (.stake 9 5000),
   .amm (.create (5, 1) (4000, 4000) 7 60),
   .farming (.create exF 10), .farming (.setStatus exF true), .farming (.deposit exF 7 1000),
   .farming (.dispatch exF 9 3000 30),
   .streaming (.create 8 9 1000 1 1010 1110 true),
   .loans (.addMarket 1 (Loans.exMarket 11)), .loans (.activate 1), .loans (.mint 8 1 20000),
   .stable (.create (2, 1) (100000, 100000) 9 61),
   .crowdloans (.createVault exK 50 false 1000 100), .crowdloans (.contribute 7 2000 100 0),
   .crowdloans (.contribute 8 2000 200 0), .crowdloans (.migratePending 2000), .crowdloans (.open 2000),
   .crowdloans (.contribute 9 2000 300 0),
   .bridgeMembers [11, 12, 13], .bridge (.registerChain 9), .bridge (.registerToken 2 ⟨100, true, 3, true, 400, 0, 400, 0⟩),
   .bridge (.teleport 8 9 100 5 40)]

theorem exC_liquid : exC.stk.liquid = 5 := rfl

theorem exCalls_ok : ∀ k ∈ exCalls, ∀ s, k.OK exC exD s := by
  intro k hk s
  simp only [exCalls, List.mem_cons, List.not_mem_nil, or_false] at hk
  have av : ∀ {w}, w < 1000 → ¬ Vaulted exC w := fun hw hv => absurd (exC_vaulted hv) (by omega)
  rcases hk with rfl | rfl | rfl | rfl | rfl | rfl | rfl | rfl | rfl | rfl | rfl | rfl | rfl | rfl | rfl | rfl | rfl |
      rfl | rfl | rfl | rfl | rfl <;>
    constructor <;>
    simp [Call.actors, Amm.Call.payers, Stable.Call.payers, Loans.Call.signers, Crowdloans.Call.payers,
      Bridge.Call.payers, av, Amm.Call.newLp, Stable.Call.newLp, Bridge.Call.newExternal, Crowdloans.Call.newCtoken,
      Issued, exD, exC_liquid, Loans.Call.wt, Loans.Market.wt, Loans.exMarket, million]

def ex1 : State := run exC ex0 exCalls
theorem ex1_reach : Reach exC exD ex1 := run_reach (.init ex0_genesis) exCalls_ok

/-- Thirty relay-chain blocks later the staking pallet bonds. -/
def ex2 : State := run exC (pass ex1 30) [.staking .onInit]
theorem ex2_reach : Reach exC exD ex2 := by
  refine run_reach (pass_reach exC_ok ex1_reach 30) ?_
  intro k hk s
  simp only [List.mem_cons, List.not_mem_nil, or_false] at hk
  subst hk
  constructor <;> simp [Call.actors]

/-- The relay chain confirms everything; the crowdloan wins, 7 claims its derivative tokens, the slot expires, the relay
tokens come back. -/
def exCalls3 : List Call :=
  [.crowdloans (.notify 0 true), .crowdloans (.notify 1 true), .crowdloans (.notify 2 true), .staking (.notify 3 true),
   .staking (.notify 4 true), .crowdloans (.close 2000), .crowdloans (.auctionSucceeded 2000), .crowdloans (.claim 7 exK),
   .crowdloans (.slotExpired 2000), .crowdloans (.notify 5 true)]
def ex3 : State := run exC ex2 exCalls3
theorem ex3_reach : Reach exC exD ex3 := by
  refine run_reach ex2_reach ?_
  intro k hk s
  simp only [exCalls3, List.mem_cons, List.not_mem_nil, or_false] at hk
  have av : ∀ {w}, w < 1000 → ¬ Vaulted exC w := fun hw hv => absurd (exC_vaulted hv) (by omega)
  rcases hk with rfl | rfl | rfl | rfl | rfl | rfl | rfl | rfl | rfl | rfl <;>
    constructor <;> simp [Call.actors, Crowdloans.Call.payers, Crowdloans.Call.newCtoken, av]

/-- 7 redeems and lends in one transaction. -/
def exLend : Call := .crowdloans (.redeemAndLend 7 exK 90)
theorem exLend_ok (s : State) : exLend.OK exC exD s := by
  have av : ∀ {w}, w < 1000 → ¬ Vaulted exC w := fun hw hv => absurd (exC_vaulted hv) (by omega)
  unfold exLend
  constructor <;> simp [Call.actors, Crowdloans.Call.payers, Crowdloans.Call.newCtoken, av]
def ex4 : State := commit ex3 (exec exC ex3 exLend)
theorem ex4_step : exec exC ex3 exLend = .ok ex4 := by
  rcases commit_cases ex3 (exec exC ex3 exLend) with h | ⟨_, e, h⟩
  · exact h
  · have : okAnd (exec exC ex3 exLend) (fun _ => true) = true := by decide +kernel
    rw [h] at this; cases this

end Verif.System
