import Verif.Staking.Model

/-! # Specification vocabulary for liquid staking -/

namespace Verif.Staking
open Verif

/-- Total of a list of unlocking chunks. -/
def chunkSum (xs : List Chunk) : Nat := (xs.map Chunk.value).sum
/-- The part of a list of chunks that is unlocked at era `e`. -/
def dueSum (e : Nat) (xs : List Chunk) : Nat := chunkSum (xs.filter (fun ch => decide (ch.era ≤ e)))

/-- What a relay-chain ledger is unbonding. -/
def SLedger.locked (l : SLedger) : Nat := chunkSum l.unlocking
/-- "It's just `active` plus all the `unlocking` balances" (types.rs:243-244), in `u128`. -/
def SLedger.Consistent (l : SLedger) : Prop := l.total = l.active + l.locked ∧ l.total ≤ maxU128

/-- What account `w` can still claim, now or later. -/
def owed (s : State) (w : Nat) : Nat := chunkSum ((s.unlockings w).getD [])
/-- What account `w` can claim at era `e`. -/
def due (s : State) (e w : Nat) : Nat := dueSum e ((s.unlockings w).getD [])

/-- What the ledger of derivative account `i` is unbonding. -/
def lockedOf (s : State) (i : Nat) : Nat := match s.ledgers i with
  | some l => l.locked
  | none => 0

/-- Staked on the relay chain, over all derivative accounts. -/
def bonded (c : Cfg) (s : State) : Nat := (c.indices.map (activeOf s)).sum
/-- Unbonding on the relay chain, over all derivative accounts. -/
def unbonding (c : Cfg) (s : State) : Nat := (c.indices.map (lockedOf s)).sum
/-- The pallet account's staking tokens. -/
def held (c : Cfg) (s : State) : Nat := s.tok.bal c.staking c.acct
/-- The amount that requests in flight have locked in the stake half / unstake half of the matching pool. -/
def Req.stakeAmt : Req → Nat
  | .bond _ m => m
  | .bondExtra _ m => m
  | .rebond _ m => m
  | _ => 0
def Req.unstakeAmt : Req → Nat
  | .unbond _ m => m
  | _ => 0
/-- Requests other than the first bond of a derivative account. -/
def Req.later : Req → Bool
  | .bond _ _ => false
  | _ => true
/-- The derivative account a request is about. -/
def Req.idx : Req → Nat
  | .bond i _ => i
  | .bondExtra i _ => i
  | .unbond i _ => i
  | .rebond i _ => i
  | .withdraw i => i
  | .nominate i => i

/-- The pallets have different accounts and the three currencies are different. -/
structure Cfg.Ok (c : Cfg) : Prop where
  xcm : c.acct ≠ c.xcmAcct
  loans : c.acct ≠ c.lo.acct
  sl : c.staking ≠ c.liquid
  sc : c.staking ≠ c.collateral
  lc : c.liquid ≠ c.collateral
  nodup : c.indices.Nodup

/-- Nobody signs for the pallet's account; governance corrects a staking ledger only to a consistent one, and
not downwards. -/
def Call.ok (c : Cfg) (s : State) : Call → Prop
  | .stake w _ => w ≠ c.acct
  | .unstake w _ _ => w ≠ c.acct
  | .cancelUnstake w _ => w ≠ c.acct
  | .forceLedger i n => n.Consistent ∧ ∀ l, s.ledgers i = some l → l.active ≤ n.active ∧ l.locked ≤ n.locked
  | _ => True

/-- What the rest of the chain and the relay chain may do in between: tokens move, loans are taken and repaid,
XCM queries are made by others, but nothing is taken from the pallet's account, the liquid currency is minted and
burnt by this pallet only, and the relay chain's ledgers are consistent. -/
structure Env (c : Cfg) (s s' : State) : Prop where
  same : s' = { s with
    lo := s'.lo,
    nextId := s'.nextId,
    fee := s'.fee,
    link := s'.link,
    relayBlock := s'.relayBlock,
    relayEra := s'.relayEra,
    relayLedger := s'.relayLedger }
  wf : s'.tok.WF
  staking : s.tok.bal c.staking c.acct ≤ s'.tok.bal c.staking c.acct
  liquid : s.tok.bal c.liquid c.acct ≤ s'.tok.bal c.liquid c.acct
  iss : s'.tok.iss c.liquid = s.tok.iss c.liquid
  ids : s.nextId ≤ s'.nextId
  relay : ∀ i l, s'.relayLedger i = some l → l.Consistent

/-- One step: a successful call (failed calls change nothing) that meets the extra condition `P`, or the rest of
the world. -/
inductive Step (c : Cfg) (P : State → Call → Prop) : State → State → Prop
  | call {s s' : State} (k : Call) (hk : k.ok c s) (hp : P s k) (h : exec c s k = .ok s') : Step c P s s'
  | env {s s' : State} (h : Env c s s') : Step c P s s'

/-- A chain on which nobody has staked yet. -/
structure Fresh (c : Cfg) (s : State) : Prop where
  wf : s.tok.WF
  iss : s.tok.iss c.liquid = 0
  reserves : s.reserves = 0
  ureserves : s.ureserves = 0
  pool : s.pool = ⟨⟨0, 0⟩, ⟨0, 0⟩⟩
  reqs : s.reqs = []
  fast : ∀ w, s.fast w = none
  unlockings : ∀ w, s.unlockings w = none
  ledgers : ∀ i, s.ledgers i = none
  relay : ∀ i l, s.relayLedger i = some l → l.Consistent
  rf : s.rf ≤ million
  urf : s.urf ≤ million
  commission : s.commission < DIV
  log : s.log = []

/-- All states that a history whose calls meet `P` can lead to. -/
inductive ReachP (c : Cfg) (P : State → Call → Prop) : State → Prop
  | init {s : State} (h : Fresh c s) : ReachP c P s
  | step {s s' : State} (h : ReachP c P s) (hs : Step c P s s') : ReachP c P s'

/-- All states that any history can lead to. -/
def Reach (c : Cfg) (s : State) : Prop := ReachP c (fun _ _ => True) s

/-- What an event unstakes for account `w`. -/
def Event.unstakedOf (w : Nat) : Event → Nat
  | .unstaked k m => if k = w then m else 0
  | _ => 0
/-- What account `w` claims with an event. -/
def Event.claimedOf (w : Nat) : Event → Nat
  | .claimed k m => if k = w then m else 0
  | _ => 0
/-- Everything that was unstaked for account `w` so far, according to the log. -/
def unstakedFor (s : State) (w : Nat) : Nat := (s.log.map (Event.unstakedOf w)).sum
/-- Everything that account `w` has claimed so far, according to the log. -/
def claimedBy (s : State) (w : Nat) : Nat := (s.log.map (Event.claimedOf w)).sum

end Verif.Staking
