import Verif.Crowdloans.Props5

/-!
# Crowdloans: property C238 (the events tell what happened)

The calls of `pallets/crowdloans/src/lib.rs` with the events they deposit.  Not modelled: events of other pallets (the
assets, the streams) and the location of the responder in `NotificationReceived`.
-/

set_option linter.unusedSimpArgs false
set_option linter.unusedVariables false

namespace Verif.Crowdloans
open Verif

variable {c : Cfg} {D : Nat → Prop} {s s' : State}

/-- `Event` (`pallets/crowdloans/src/lib.rs:213-305`), fields in the order of the source; a parachain and its vault are
named together by their key. -/
inductive Told where
  | created (k : Key) (ctoken : Nat) (phase : Phase) (proxied : Bool) (cap endBlock trie : Nat)
  | updated (k : Key) (proxied : Bool) (cap endBlock : Nat)
  | phase (k : Key) (pre post : Phase)
  | doContributing (k : Key) (who m code : Nat)
  | doWithdrawing (k : Key) (m : Nat) (target : Phase)
  | contributed (k : Key) (who m code : Nat)
  | claimed (k : Key) (ctoken who m : Nat) (phase : Phase)
  | withdrew (k : Key) (who m : Nat) (phase : Phase)
  | redeemed (k : Key) (ctoken who m : Nat) (phase : Phase)
  | vrf (f : Bool)
  | notified (q : Nat) (executed : Bool)
  | allMigrated (k : Key)
  | partMigrated (k : Key)
  | dissolved (k : Key)
  | allRefunded (k : Key)
  | partRefunded (k : Key)
  | refunded (k : Key) (who : Nat) (kind : Kind) (m : Nat)
  | proxy (p : Nat)
  | bonus (lease : Nat × Nat) (b : Bonus)

/-! ## The calls with their events -/

/-- `do_contribute` with its event (`lib.rs:1545-1589`). -/
def doContributeE (c : Cfg) (s : State) (k : Key) (proxied : Bool) (who m code : Nat) : R (State × List Told) := do
  let s ← doContribute c s k proxied who m code
  pure (s, [.doContributing k who m code])

/-- `do_withdraw` with its event (`lib.rs:1592-1628`). -/
def doWithdrawE (c : Cfg) (s : State) (k : Key) (m : Nat) (target : Phase) : R (State × List Told) := do
  let s ← doWithdraw c s k m target
  pure (s, [.doWithdrawing k m target])

/-- `create_vault` with its event (`lib.rs:425-504`): the index is the one before it is incremented. -/
def createVaultE (s : State) (k : Key) (ctoken : Nat) (proxied : Bool) (cap endBlock : Nat) : R (State × List Told) := do
  let s' ← createVault s k ctoken proxied cap endBlock
  pure (s', [.created k ctoken .pending proxied cap endBlock s.nextTrie])

/-- `update_vault` with its event (`lib.rs:510-558`): the fields after the update. -/
def updateVaultE (s : State) (para : Nat) (cap endBlock : Option Nat) (proxied : Option Bool) : R (State × List Told) := do
  let (k, v) ← okOr (s.current para) .vaultDoesNotExist
  checkUpdate s cap endBlock
  pure (s.putVault k { v with
    cap := cap.getD v.cap
    endBlock := endBlock.getD v.endBlock
    proxied := proxied.getD v.proxied },
    [.updated k (proxied.getD v.proxied) (cap.getD v.cap) (endBlock.getD v.endBlock)])

/-- The phase changes with their event (`lib.rs:564-584, 708-776`). -/
def movePhaseE (s : State) (para : Nat) (pre post : Phase) : R (State × List Told) := do
  let (k, v) ← okOr (s.current para) .vaultDoesNotExist
  ensure (v.phase = pre) .incorrectVaultPhase
  pure (s.putVault k { v with phase := post }, [.phase k pre post])

/-- `auction_failed` and `slot_expired` with the event of `do_withdraw` (`lib.rs:784-802, 887-905`). -/
def askBackE (c : Cfg) (s : State) (para : Nat) (pre target : Phase) : R (State × List Told) := do
  let (k, v) ← okOr (s.current para) .vaultDoesNotExist
  ensure (v.phase = pre) .incorrectVaultPhase
  let (s, es) ← doWithdrawE c s k v.contributed target
  pure (s.putVault k v, es)

/-- The part of `contribute` after the payment (`lib.rs:635-663`): a contribution to a pending vault deposits no event. -/
def bookE (c : Cfg) (s : State) (k : Key) (v : Vault) (who m code : Nat) : R ((State × Vault) × List Told) :=
  if v.phase = .contributing then do
    let (s, v', _) ← updateContribution s v who m (some code) true .flying
    let (s, es) ← doContributeE c s k v'.proxied who m code
    pure ((s, v'), es)
  else do
    let (s, v', _) ← updateContribution s v who m (some code) true .pending
    pure ((s, v'), [])

/-- `contribute` (`lib.rs:590-683`). -/
def contributeE (c : Cfg) (s : State) (who para m code : Nat) : R (State × List Told) := do
  let (k, v) ← okOr (s.current para) .vaultDoesNotExist
  ensure (m ≠ 0) .invalidParams
  ensure (s.relayBlock ≤ v.endBlock) .endBlockExceeded
  ensure (v.phase = .contributing ∨ v.phase = .pending) .incorrectVaultPhase
  ensure (c.minContribution ≤ m) .insufficientContribution
  ensure (s.isVrf = false) .vrfDelayInProgress
  let t ← v.total
  let t ← cadd .overflow t m
  ensure (t ≤ v.cap) .capExceeded
  let l ← s.tok.transfer c.relay who c.acct m false
  let ((s, v), es) ← bookE c (s.withTok l) k v who m code
  pure ({ (s.putVault k v) with log := s.log ++ [.paid v.trie who m] }, es)

/-- The loop of `migrate_pending` (`lib.rs:927-948`), with the events of all rounds in order. -/
def migrateLoopE (c : Cfg) (k : Key) : Nat → List Entry → State → Vault → R ((State × Vault × Bool) × List Told)
  | _, [], s, v => .ok ((s, v, true), [])
  | 0, _ :: _, s, v => .ok ((s, v, false), [])
  | n + 1, e :: l, s, v => do
    let (s, v) ← migrateContribution s v e.who e.amt .pending .flying
    let (s, es) ← doContributeE c s k v.proxied e.who e.amt e.code
    let (x, fs) ← migrateLoopE c k n l s v
    pure (x, es ++ fs)

/-- `migrate_pending` with its event (`lib.rs:911-968`). -/
def migratePendingE (c : Cfg) (s : State) (para : Nat) : R (State × List Told) := do
  let (k, v) ← okOr (s.current para) .vaultDoesNotExist
  ensure (v.phase = .pending ∨ v.phase = .contributing) .incorrectVaultPhase
  ensure (s.isVrf = false) .vrfDelayInProgress
  let ((s, v, all), es) ← migrateLoopE c k c.migrateLimit (s.child (v.trie, .pending)) s v
  pure (s.putVault k v, es ++ [if all = true then .allMigrated k else .partMigrated k])

/-- `refund` with its event (`lib.rs:1000-1045`): the payments of its loops deposit none. -/
def refundE (c : Cfg) (s : State) (k : Key) : R (State × List Told) := do
  let v ← okOr (s.vaults k) .vaultDoesNotExist
  ensure (v.phase = .closed ∨ v.phase = .failed) .incorrectVaultPhase
  let (s, v, all) ← refundLoop c c.removeLimit (s.contributions v.trie) s v
  pure (s.putVault k v, [if all = true then .allRefunded k else .partRefunded k])

/-- `refund_for` with its event (`lib.rs:1101-1137`). -/
def refundForE (c : Cfg) (s : State) (who : Nat) (k : Key) (kind : Kind) (m : Nat) : R (State × List Told) := do
  let s ← refundFor c s who k kind m
  pure (s, [.refunded k who kind m])

/-- `dissolve_vault` with its event (`lib.rs:1051-1091`). -/
def dissolveE (s : State) (k : Key) : R (State × List Told) := do
  let s ← dissolve s k
  pure (s, [.dissolved k])

/-- `do_claim_for` with its event (`lib.rs:1641-1705`): it names the phase `Succeeded` whatever the phase is. -/
def claimE (c : Cfg) (s : State) (who : Nat) (k : Key) (force : Bool) : R (State × List Told) := do
  let ct ← okOr (s.ctokenOf k.lease) .cTokenDoesNotExist
  let v ← okOr (s.vaults k) .vaultDoesNotExist
  let s' ← claim c s who k force
  pure (s', [.claimed k ct who (getEntry (s.child (v.trie, .contributed)) who).amt .succeeded])

/-- `do_withdraw_for` with its event (`lib.rs:1723-1773`). -/
def withdrawE (c : Cfg) (s : State) (who : Nat) (k : Key) : R (State × List Told) := do
  let v ← okOr (s.vaults k) .vaultDoesNotExist
  let s' ← withdraw c s who k
  pure (s', [.withdrew k who (getEntry (s.child (v.trie, .contributed)) who).amt .failed])

/-- `do_redeem` with its event (`lib.rs:1804-1857`). -/
def redeemE (c : Cfg) (s : State) (who : Nat) (k : Key) (m : Nat) : R (State × List Told) := do
  let ct ← okOr (s.ctokenOf k.lease) .cTokenDoesNotExist
  let s' ← redeem c s who k m
  pure (s', [.redeemed k ct who m .expired])

/-- `redeem_and_lend_for` (`lib.rs:1204-1223`). -/
def redeemAndLendE (c : Cfg) (s : State) (who : Nat) (k : Key) (m : Nat) : R (State × List Told) := do
  ensure (0 < s.nonce who) .invalidParams
  let (s, es) ← redeemE c s who k m
  let l ← s.tok.transfer c.relay who c.loansAcct m false
  pure (s.withTok l, es)

/-- The success of a withdrawal with its event (`lib.rs:1438-1455`). -/
def withdrawnE (s : State) (k : Key) (target : Phase) : R (State × List Told) := do
  let v ← okOr (s.vaults k) .vaultDoesNotExist
  pure (s.putVault k { v with phase := target }, [.phase k v.phase target])

/-- `notification_received` with its events (`lib.rs:973-994, 1376-1463`): every execution result is announced, the return
of a rejected contribution is not. -/
def notifyE (c : Cfg) (s : State) (q : Nat) (executed : Bool) : R (State × List Told) :=
  match s.requests q, executed with
  | none, _ => .ok (s, [.notified q executed])
  | some (.contribute k who m code), true => do
    let s ← contributed c s k who m
    pure ({ s with requests := upd s.requests q none }, [.contributed k who m code, .notified q true])
  | some (.contribute k who m _), false => do
    let s ← bounced c s k who m
    pure (s, [.notified q false])
  | some (.withdraw k _ target), true => do
    let (s, es) ← withdrawnE s k target
    pure ({ s with requests := upd s.requests q none }, es ++ [.notified q true])
  | some (.withdraw _ _ _), false => .ok (s, [.notified q false])

/-- `update_leases_bonus` with its event (`lib.rs:1161-1180`). -/
def updateBonusE (s : State) (lease : Nat × Nat) (b : Bonus) : R (State × List Told) := do
  let s ← updateBonus s lease b
  pure (s, [.bonus lease b])

/-- Dispatch of a call, with the events it deposits (`lib.rs:425-1223`). -/
def execE (c : Cfg) (s : State) : Call → R (State × List Told)
  | .createVault k ct p cap eb => createVaultE s k ct p cap eb
  | .updateVault para cap eb p => updateVaultE s para cap eb p
  | .open para => movePhaseE s para .pending .contributing
  | .contribute who para m code => contributeE c s who para m code
  | .setVrf f => .ok (setVrf s f, [.vrf f])
  | .close para => movePhaseE s para .contributing .closed
  | .reopen para => movePhaseE s para .closed .contributing
  | .auctionSucceeded para => movePhaseE s para .closed .succeeded
  | .auctionFailed para => askBackE c s para .closed .failed
  | .claim who k => claimE c s who k false
  | .withdraw who k => withdrawE c s who k
  | .redeem who k m => redeemE c s who k m
  | .slotExpired para => askBackE c s para .succeeded .expired
  | .migratePending para => migratePendingE c s para
  | .notify q e => notifyE c s q e
  | .refund k => refundE c s k
  | .dissolve k => dissolveE s k
  | .refundFor who k kind m => refundForE c s who k kind m
  | .updateProxy p => .ok (updateProxy s p, [.proxy p])
  | .updateBonus lease b => updateBonusE s lease b
  | .forceClaim who k => claimE c s who k true
  | .redeemAndLend who k m => redeemAndLendE c s who k m

/-! ## Specification -/

/-- What an observer notes down about a vault. -/
structure VNote where
  ctoken : Nat
  phase : Phase
  proxied : Bool
  cap : Nat
  endBlock : Nat
  trie : Nat

/-- What an observer notes down. -/
structure Notes where
  vaults : Key → Option VNote
  /-- the current vault of a parachain -/
  lease : Nat → Option (Nat × Nat)
  /-- the derivative token of a lease -/
  ctoken : Nat × Nat → Option Nat
  nextTrie : Nat
  vrf : Bool
  proxy : Option Nat
  bonus : Nat × Nat → Bonus

/-- Change the note about a vault. -/
def Notes.change (n : Notes) (k : Key) (f : VNote → VNote) : Notes := { n with vaults := upd n.vaults k ((n.vaults k).map f) }

/-- An observer who sees only the events, and takes them at their word. -/
def Notes.see (n : Notes) : Told → Notes
  | .created k ct ph p cap eb t => { n with
      vaults := upd n.vaults k (some ⟨ct, ph, p, cap, eb, t⟩)
      lease := upd n.lease k.para (some k.lease)
      ctoken := upd n.ctoken k.lease (some ct)
      nextTrie := t + 1 }
  | .updated k p cap eb => n.change k (fun v => { v with proxied := p, cap := cap, endBlock := eb })
  | .phase k _ post => n.change k (fun v => { v with phase := post })
  | .dissolved k => { n with
      vaults := upd n.vaults k none
      lease := if n.lease k.para = some k.lease then upd n.lease k.para none else n.lease }
  | .vrf f => { n with vrf := f }
  | .proxy p => { n with proxy := some p }
  | .bonus l b => { n with bonus := upd n.bonus l b }
  | _ => n

/-- What there is to note about a vault. -/
def Vault.note (v : Vault) : VNote := ⟨v.ctoken, v.phase, v.proxied, v.cap, v.endBlock, v.trie⟩

/-- What there is to note about a state. -/
def Notes.of (s : State) : Notes :=
  ⟨fun k => (s.vaults k).map Vault.note, s.leaseOf, s.ctokenOf, s.nextTrie, s.isVrf, s.proxy, s.bonus⟩

/-- The notes after a list of events. -/
def Notes.after (n : Notes) (es : List Told) : Notes := es.foldl Notes.see n

/-- Histories from any state `s0` with the events of all calls, in order. -/
inductive Heard (c : Cfg) (D : Nat → Prop) (s0 : State) : State → List Told → Prop
  | init : Heard c D s0 s0 []
  | call {s s' : State} {es fs : List Told} {x : Call} (h : Heard c D s0 s es) (he : execE c s x = .ok (s', fs)) :
      Heard c D s0 s' (es ++ fs)
  | env {s s' : State} {es : List Told} (h : Heard c D s0 s es) (e : Env c D s s') : Heard c D s0 s' es

/-- The request an event announces. -/
def Told.request : Told → Option Req
  | .doContributing k w m code => some (.contribute k w m code)
  | .doWithdrawing k m target => some (.withdraw k m target)
  | _ => none

/-- What an event says about the states `s` before and `s'` after the call. -/
def Told.Fact (c : Cfg) (s s' : State) : Told → Prop
  | .created k ct ph p cap eb t => s.vaults k = none ∧ s'.vaults k = some ⟨ct, ph, 0, 0, 0, p, cap, eb, t⟩
  | .updated k _ _ _ => ∃ v v', s.vaults k = some v ∧ s'.vaults k = some v' ∧ v'.phase = v.phase ∧
      v'.contributed = v.contributed ∧ v'.pending = v.pending ∧ v'.flying = v.flying
  | .phase k a b => ∃ v v', s.vaults k = some v ∧ s'.vaults k = some v' ∧ v.phase = a ∧ v'.phase = b
  | .contributed k w m _ => ∃ v v', s.vaults k = some v ∧ s'.vaults k = some v' ∧
      s'.amount v.trie .flying w + m = s.amount v.trie .flying w ∧
      s'.amount v.trie .contributed w = s.amount v.trie .contributed w + m ∧
      v'.flying + m = v.flying ∧ v'.contributed = v.contributed + m ∧
      s'.tok.bal c.relay c.acct + m = s.tok.bal c.relay c.acct
  | .claimed k ct w m _ => ∃ v, s.vaults k = some v ∧ s.ctokenOf k.lease = some ct ∧ m ≠ 0 ∧
      m = s.amount v.trie .contributed w ∧ s'.amount v.trie .contributed w = 0 ∧
      s'.tok.bal ct w = s.tok.bal ct w + m
  | .withdrew k w m ph => ∃ v v', s.vaults k = some v ∧ s'.vaults k = some v' ∧ v.phase = ph ∧ m ≠ 0 ∧
      m = s.amount v.trie .contributed w ∧ s'.amount v.trie .contributed w = 0 ∧ v'.contributed + m = v.contributed ∧
      s'.tok.bal c.relay w = s.tok.bal c.relay w + m
  | .redeemed k ct w m ph => ∃ v v', s.vaults k = some v ∧ s'.vaults k = some v' ∧ v.phase = ph ∧
      s.ctokenOf k.lease = some ct ∧ v'.contributed + m = v.contributed ∧ s'.tok.bal ct w + m = s.tok.bal ct w
  | .refunded k w kind m => ∃ v v', s.vaults k = some v ∧ s'.vaults k = some v' ∧ v'.get kind + m = v.get kind ∧
      s'.amount v.trie kind w + m = s.amount v.trie kind w ∧
      (w ≠ c.acct → s'.tok.bal c.relay w = s.tok.bal c.relay w + m)
  | .allMigrated k => ∃ v, s.vaults k = some v ∧ s'.child (v.trie, .pending) = []
  | .partMigrated k => ∃ v, s.vaults k = some v ∧ s'.child (v.trie, .pending) ≠ []
  | .allRefunded k => ∃ v, s.vaults k = some v ∧ s'.contributions v.trie = []
  | .partRefunded k => ∃ v, s.vaults k = some v ∧ s'.contributions v.trie ≠ []
  | .dissolved k => ∃ v, s.vaults k = some v ∧ s.contributions v.trie = [] ∧ s'.vaults k = none
  | .vrf f => s'.isVrf = f
  | .proxy p => s'.proxy = some p
  | .bonus l b => s'.bonus l = b ∧ b.start < b.stop
  | .notified _ _ | .doContributing _ _ _ _ | .doWithdrawing _ _ _ => True

/-! ## The events change nothing -/

theorem map_fst_pure {α : Type} (x : R α) (es : List Told) : Prod.fst <$> (do let s ← x; pure (s, es)) = x := by
  cases x <;> rfl

theorem same_bind {α β : Type} {x : R (α × List Told)} {y : R α} (h : Prod.fst <$> x = y) (f : α → R β) :
    (x >>= fun a => f a.1) = y >>= f := by
  subst h
  cases x <;> rfl

theorem bookE_same (c : Cfg) (s : State) (k : Key) (v : Vault) (who m code : Nat) :
    Prod.fst <$> bookE c s k v who m code = book c s k v who m code := by
  unfold bookE book
  split
  · simp only [map_bind, map_pure]
    refine bind_congr fun x => ?_
    exact same_bind (map_fst_pure _ _) (fun a => pure (a, x.2.1))
  · simp only [map_bind, map_pure]

theorem migrateLoopE_same (c : Cfg) (k : Key) : ∀ (n : Nat) (l : List Entry) (s : State) (v : Vault),
    Prod.fst <$> migrateLoopE c k n l s v = migrateLoop c k n l s v
  | 0, [], s, v => rfl
  | _ + 1, [], s, v => rfl
  | 0, _ :: _, s, v => rfl
  | n + 1, e :: l, s, v => by
    unfold migrateLoopE migrateLoop
    simp only [map_bind, map_pure]
    refine bind_congr fun x => ?_
    unfold doContributeE
    simp only [bind_assoc, pure_bind]
    refine bind_congr fun y => ?_
    exact (same_bind (migrateLoopE_same c k n l y x.2) pure).trans (bind_pure _)

/-- Looking something up twice. -/
theorem lookup_twice {α β : Type} {o : R α} {x : R β} (h : ∀ e, o = .error e → x = .error e) : (do let _ ← o; x) = x := by
  cases o with
  | error e => rw [h e rfl]; rfl
  | ok a => rfl

/-- **C238** (same) The events are additional: acceptance, errors and the new state are those of `exec`. -/
theorem C238_same (c : Cfg) (s : State) (x : Call) : Prod.fst <$> execE c s x = exec c s x := by
  have hclaim : ∀ who k f, Prod.fst <$> claimE c s who k f = claim c s who k f := by
    intro who k f
    simp only [claimE, map_bind, map_pure, bind_pure]
    cases hct : okOr (s.ctokenOf k.lease) Err.cTokenDoesNotExist with
    | error e =>
      have : claim c s who k f = .error e := by unfold claim; rw [hct]; rfl
      rw [this]; rfl
    | ok ct =>
      show (do let _ ← okOr (s.vaults k) Err.vaultDoesNotExist; claim c s who k f) = _
      refine lookup_twice ?_
      intro e he; unfold claim; rw [hct, he]; rfl
  have hredeem : ∀ who k m, Prod.fst <$> redeemE c s who k m = redeem c s who k m := by
    intro who k m
    simp only [redeemE, map_bind, map_pure, bind_pure]
    refine lookup_twice ?_
    intro e he; unfold redeem; rw [he]; rfl
  have hback : ∀ para a b, Prod.fst <$> askBackE c s para a b = askBack c s para a b := by
    intro para a b
    simp only [askBackE, askBack, doWithdrawE, map_bind, map_pure, bind_assoc, pure_bind]
  have hmove : ∀ para a b, Prod.fst <$> movePhaseE s para a b = movePhase s para a b := by
    intro para a b
    simp only [movePhaseE, movePhase, map_bind, map_pure]
  cases x with
  | createVault k ct p cap eb => exact map_fst_pure _ _
  | updateVault para cap eb p => simp only [execE, exec, updateVaultE, updateVault, map_bind, map_pure]
  | «open» para => exact hmove _ _ _
  | contribute who para m code =>
    simp only [execE, exec, contributeE, contribute, map_bind, map_pure]
    refine bind_congr fun x => bind_congr fun _ => bind_congr fun _ => bind_congr fun _ => bind_congr fun _ =>
      bind_congr fun _ => bind_congr fun t => bind_congr fun t => bind_congr fun _ => bind_congr fun l => ?_
    exact same_bind (bookE_same c _ _ _ _ _ _)
      (fun a => pure { (a.1.putVault x.1 a.2) with log := a.1.log ++ [Ev.paid a.2.trie who m] })
  | setVrf f => rfl
  | close para => exact hmove _ _ _
  | reopen para => exact hmove _ _ _
  | auctionSucceeded para => exact hmove _ _ _
  | auctionFailed para => exact hback _ _ _
  | claim who k => exact hclaim _ _ _
  | withdraw who k =>
    simp only [execE, exec, withdrawE, map_bind, map_pure, bind_pure]
    refine lookup_twice ?_
    intro e he; unfold withdraw; rw [he]; rfl
  | redeem who k m => exact hredeem _ _ _
  | slotExpired para => exact hback _ _ _
  | migratePending para =>
    simp only [execE, exec, migratePendingE, migratePending, map_bind, map_pure]
    refine bind_congr fun x => bind_congr fun _ => bind_congr fun _ => ?_
    exact same_bind (migrateLoopE_same c _ _ _ _ _) (fun a => pure (a.1.putVault x.1 a.2.1))
  | notify q e =>
    simp only [execE, exec, notifyE, notify]
    rcases hq : s.requests q with _ | (⟨k, who, m, code⟩ | ⟨k, m, target⟩) <;> cases e
    · rfl
    · rfl
    · exact map_fst_pure _ _
    · simp only [map_bind, map_pure]
    · rfl
    · simp only [withdrawnE, withdrawn, map_bind, map_pure, bind_assoc, pure_bind]
  | refund k => simp only [execE, exec, refundE, refund, map_bind, map_pure]
  | dissolve k => exact map_fst_pure _ _
  | refundFor who k kind m => exact map_fst_pure _ _
  | updateProxy p => rfl
  | updateBonus lease b => exact map_fst_pure _ _
  | forceClaim who k => exact hclaim _ _ _
  | redeemAndLend who k m =>
    simp only [execE, exec, redeemAndLendE, redeemAndLend, map_bind, map_pure]
    refine bind_congr fun _ => ?_
    exact same_bind (hredeem _ _ _) (fun s => do
      let l ← s.tok.transfer c.relay who c.loansAcct m false
      pure (s.withTok l))

theorem execE_exec {x : Call} {es : List Told} (h : execE c s x = .ok (s', es)) : exec c s x = .ok s' := by
  rw [← C238_same, h]; rfl

/-! ## What changes -/

/-- Nothing noted changes, and no request. -/
structure Frame (s s' : State) : Prop where
  notes : Notes.of s' = Notes.of s
  requests : s'.requests = s.requests
  query : s'.nextQuery = s.nextQuery

theorem Frame.refl (s : State) : Frame s s := ⟨rfl, rfl, rfl⟩
theorem Frame.trans {a b d : State} (h : Frame a b) (h' : Frame b d) : Frame a d :=
  ⟨h'.1.trans h.1, h'.2.trans h.2, h'.3.trans h.3⟩

theorem of_putVault (s : State) (k : Key) (v : Vault) :
    Notes.of (s.putVault k v) = { Notes.of s with vaults := upd (Notes.of s).vaults k (some v.note) } := by
  unfold Notes.of State.putVault
  congr 1
  funext x
  by_cases hx : x = k
  · subst hx; simp only [upd_same, Option.map_some]
  · simp only [upd_of_ne _ _ hx]

theorem of_put_same {s s1 : State} {k : Key} {v v' : Vault} (h : Notes.of s1 = Notes.of s) (hv : s.vaults k = some v)
    (hn : v'.note = v.note) : Notes.of (s1.putVault k v') = Notes.of s := by
  rw [of_putVault, h, hn]
  have : upd (Notes.of s).vaults k (some v.note) = (Notes.of s).vaults := by
    funext x
    by_cases hx : x = k
    · subst hx; rw [upd_same]; show _ = (s.vaults x).map Vault.note; rw [hv]; rfl
    · rw [upd_of_ne _ _ hx]
  rw [this]

theorem SameVault.note {v v' : Vault} (h : SameVault v v') : v'.note = v.note := by
  obtain ⟨h1, h2, h3, h4, h5, h6⟩ := h
  unfold Vault.note
  rw [h1, h2, h3, h4, h5, h6]

theorem Frame.put {s s1 : State} {k : Key} {v v' : Vault} (h : Frame s s1) (hv : s.vaults k = some v)
    (hn : SameVault v v') : Frame s (s1.putVault k v') := ⟨of_put_same h.1 hv hn.note, h.2, h.3⟩

theorem Upd.frame {v v' : Vault} {who m : Nat} {add : Bool} {k : Kind} (h : Upd s s' v v' who m add k) : Frame s s' := by
  obtain ⟨h, _⟩ := h; rw [h]; exact ⟨rfl, rfl, rfl⟩

theorem Mig.frame {v v' : Vault} {who m : Nat} {a b : Kind} (h : Mig s s' v v' who m a b) : Frame s s' := by
  obtain ⟨h, _⟩ := h; rw [h]; exact ⟨rfl, rfl, rfl⟩

theorem Frame.tok (s : State) (l : Ledger) : Frame s (s.withTok l) := ⟨rfl, rfl, rfl⟩

theorem payBonus_frame {lease : Nat × Nat} {who m : Nat} (h : payBonus c s lease who m = .ok s') : Frame s s' := by
  rw [(payBonus_ok h).1]; exact ⟨rfl, rfl, rfl⟩

theorem refundOne_frame {v v' : Vault} {kind : Kind} {who m : Nat} (h : refundOne c s v kind who m = .ok (s', v')) :
    Frame s s' ∧ SameVault v v' := by
  unfold refundOne at h
  simp only [bind_ok_iff, pure_ok_iff, Prod.exists, Prod.mk.injEq] at h
  obtain ⟨l, _, s1, v1, _, h1, h2, rfl⟩ := h
  obtain ⟨u, _⟩ := updateContribution_ok h1
  have hf := (Frame.tok s l).trans u.frame
  subst h2
  exact ⟨⟨hf.1, hf.2, hf.3⟩, u.same⟩

theorem refundLoop_frame : ∀ (n : Nat) (l : List (Kind × Entry)) (s s' : State) (v v' : Vault) (b : Bool),
    refundLoop c n l s v = .ok (s', v', b) → Frame s s' ∧ SameVault v v'
  | 0, [], s, s', v, v', b, h => by cases h; exact ⟨Frame.refl _, SameVault.refl _⟩
  | _ + 1, [], s, s', v, v', b, h => by cases h; exact ⟨Frame.refl _, SameVault.refl _⟩
  | 0, _ :: _, s, s', v, v', b, h => by cases h; exact ⟨Frame.refl _, SameVault.refl _⟩
  | n + 1, e :: l, s, s', v, v', b, h => by
    unfold refundLoop at h
    simp only [bind_ok_iff, Prod.exists] at h
    obtain ⟨s1, v1, h1, h2⟩ := h
    obtain ⟨a1, a2⟩ := refundOne_frame h1
    obtain ⟨b1, b2⟩ := refundLoop_frame n l _ _ _ _ _ h2
    exact ⟨a1.trans b1, a2.trans b2⟩

theorem claim_frame {who : Nat} {k : Key} {f : Bool} (h : claim c s who k f = .ok s') : Frame s s' := by
  unfold claim at h
  simp only [bind_ok_iff, pure_ok_iff, ensure_ok_iff, exists_const] at h
  obtain ⟨ct, _, v, _, _, _, l, _, s1, h1, rfl⟩ := h
  have hf := payBonus_frame h1
  exact ⟨hf.1, hf.2, hf.3⟩

theorem withdraw_frame {who : Nat} {k : Key} (h : withdraw c s who k = .ok s') : Frame s s' := by
  unfold withdraw at h
  simp only [bind_ok_iff, pure_ok_iff, ensure_ok_iff, exists_const, okOr_ok_iff] at h
  obtain ⟨v, hv, _, _, x, _, l, _, rfl⟩ := h
  exact ⟨of_put_same (v := v) rfl hv rfl, rfl, rfl⟩

theorem redeem_frame {who : Nat} {k : Key} {m : Nat} (h : redeem c s who k m = .ok s') : Frame s s' := by
  unfold redeem at h
  simp only [bind_ok_iff, pure_ok_iff, ensure_ok_iff, exists_const, okOr_ok_iff] at h
  obtain ⟨ct, _, v, hv, _, _, x, _, l, _, l2, _, rfl⟩ := h
  exact ⟨of_put_same (v := v) rfl hv rfl, rfl, rfl⟩

theorem contributed_frame {k : Key} {who m : Nat} (h : contributed c s k who m = .ok s') : Frame s s' := by
  unfold contributed at h
  simp only [bind_ok_iff, pure_ok_iff, okOr_ok_iff, Prod.exists] at h
  obtain ⟨v, hv, l, _, s1, v1, h1, rfl⟩ := h
  have u := migrateContribution_ok (by decide) h1
  have hf := ((Frame.tok s l).trans u.frame).put hv u.same
  exact ⟨hf.1, hf.2, hf.3⟩

theorem bounced_frame {k : Key} {who m : Nat} (h : bounced c s k who m = .ok s') : Frame s s' := by
  unfold bounced at h
  simp only [bind_ok_iff, pure_ok_iff, okOr_ok_iff, Prod.exists] at h
  obtain ⟨v, hv, l, _, s1, v1, _, h1, rfl⟩ := h
  obtain ⟨u, _⟩ := updateContribution_ok h1
  have hf := ((Frame.tok s l).trans u.frame).put hv u.same
  exact ⟨hf.1, hf.2, hf.3⟩

theorem refundFor_frame {who : Nat} {k : Key} {kind : Kind} {m : Nat} (h : refundFor c s who k kind m = .ok s') : Frame s s' := by
  unfold refundFor at h
  simp only [bind_ok_iff, pure_ok_iff, ensure_ok_iff, exists_const, okOr_ok_iff, Prod.exists] at h
  obtain ⟨v, hv, _, _, s1, v1, h1, rfl⟩ := h
  obtain ⟨a, b⟩ := refundOne_frame h1
  exact a.put hv b

/-! ## Requests -/

/-- The new requests are the announced ones, in order; the others are as before. -/
structure Announced (s s' : State) (es : List Told) : Prop where
  query : s'.nextQuery = s.nextQuery + (es.filterMap Told.request).length
  new : ∀ i r, (es.filterMap Told.request)[i]? = some r → s'.requests (s.nextQuery + i) = some r
  old : ∀ q, q < s.nextQuery ∨ s'.nextQuery ≤ q → s'.requests q = s.requests q

theorem Frame.announced {es : List Told} (h : Frame s s') (he : es.filterMap Told.request = []) : Announced s s' es :=
  ⟨by rw [he]; exact h.query, by rw [he]; simp, fun q _ => by rw [h.requests]⟩

theorem Announced.trans {a b d : State} {es fs : List Told} (h : Announced a b es) (h' : Announced b d fs) :
    Announced a d (es ++ fs) := by
  obtain ⟨q1, n1, o1⟩ := h
  obtain ⟨q2, n2, o2⟩ := h'
  refine ⟨?_, ?_, ?_⟩
  · rw [List.filterMap_append, List.length_append]; omega
  · intro i r
    rw [List.filterMap_append]
    intro hr
    by_cases hi : i < (es.filterMap Told.request).length
    · rw [List.getElem?_append_left hi] at hr
      rw [o2 _ (Or.inl (by omega))]
      exact n1 i r hr
    · rw [List.getElem?_append_right (by omega)] at hr
      have := n2 _ r hr
      rwa [show b.nextQuery + (i - (es.filterMap Told.request).length) = a.nextQuery + i by omega] at this
  · intro q hq
    rw [o2 q (by omega), o1 q (by omega)]

/-- Messages are sent, each with its event; nothing noted changes. -/
structure Sends (s s' : State) (es : List Told) : Prop where
  notes : Notes.of s' = Notes.of s
  quiet : ∀ n : Notes, n.after es = n
  ann : Announced s s' es

theorem after_append (n : Notes) (es fs : List Told) : n.after (es ++ fs) = (n.after es).after fs := List.foldl_append ..

theorem Sends.trans {a b d : State} {es fs : List Told} (h : Sends a b es) (h' : Sends b d fs) : Sends a d (es ++ fs) :=
  ⟨h'.1.trans h.1, fun n => by rw [after_append, h.2, h'.2], h.3.trans h'.3⟩

theorem Frame.sends (h : Frame s s') : Sends s s' [] := ⟨h.1, fun _ => rfl, h.announced rfl⟩

theorem Sends.of_eq {r : Req} {e : Told} {l : Ledger} (he : e.request = some r) (hq : ∀ n : Notes, n.see e = n)
    (h : s' = { (s.withTok l) with requests := upd s.requests s.nextQuery (some r), nextQuery := s.nextQuery + 1 }) :
    Sends s s' [e] := by
  have hl : [e].filterMap Told.request = [r] := by simp [he]
  subst h
  refine ⟨rfl, hq, ?_, ?_, ?_⟩
  · rw [hl]; rfl
  · rw [hl]
    intro i x hx
    cases i with
    | zero => cases hx; exact upd_same _ _ _
    | succ i => simp at hx
  · intro q hq
    refine upd_of_ne _ _ ?_
    have : q < s.nextQuery ∨ s.nextQuery + 1 ≤ q := hq
    omega

theorem doContributeE_sends {k : Key} {p : Bool} {who m code : Nat} {es : List Told}
    (h : doContributeE c s k p who m code = .ok (s', es)) : Sends s s' es := by
  unfold doContributeE at h
  simp only [bind_ok_iff, pure_ok_iff, Prod.mk.injEq] at h
  obtain ⟨s1, h1, rfl, rfl⟩ := h
  obtain ⟨l, _, _, _, hs⟩ := doContribute_ok h1
  exact Sends.of_eq rfl (fun _ => rfl) hs

theorem doWithdrawE_sends {k : Key} {m : Nat} {t : Phase} {es : List Told}
    (h : doWithdrawE c s k m t = .ok (s', es)) : Sends s s' es := by
  unfold doWithdrawE at h
  simp only [bind_ok_iff, pure_ok_iff, Prod.mk.injEq] at h
  obtain ⟨s1, h1, rfl, rfl⟩ := h
  obtain ⟨l, _, _, hs⟩ := sendXcm_ok h1
  exact Sends.of_eq rfl (fun _ => rfl) hs

theorem Sends.put {es : List Told} {s1 : State} {k : Key} {v v' : Vault} (h : Sends s s1 es) (hv : s.vaults k = some v)
    (hn : SameVault v v') : Sends s (s1.putVault k v') es :=
  ⟨of_put_same h.1 hv hn.note, h.2, h.3.1, h.3.2, h.3.3⟩

theorem migrateLoopE_sends {k : Key} : ∀ (n : Nat) (l : List Entry) (s s' : State) (v v' : Vault) (b : Bool) (es : List Told),
    migrateLoopE c k n l s v = .ok ((s', v', b), es) → Sends s s' es ∧ SameVault v v'
  | 0, [], s, s', v, v', b, es, h => by cases h; exact ⟨(Frame.refl _).sends, SameVault.refl _⟩
  | _ + 1, [], s, s', v, v', b, es, h => by cases h; exact ⟨(Frame.refl _).sends, SameVault.refl _⟩
  | 0, _ :: _, s, s', v, v', b, es, h => by cases h; exact ⟨(Frame.refl _).sends, SameVault.refl _⟩
  | n + 1, e :: l, s, s', v, v', b, es, h => by
    unfold migrateLoopE at h
    simp only [bind_ok_iff, pure_ok_iff, Prod.exists, Prod.mk.injEq] at h
    obtain ⟨s1, v1, h1, s2, e2, h2, s3, v3, b3, e3, h3, ⟨rfl, rfl, rfl⟩, rfl⟩ := h
    have u := migrateContribution_ok (by decide) h1
    obtain ⟨a, b⟩ := migrateLoopE_sends n l _ _ _ _ _ _ h3
    have := (u.frame.sends.trans (doContributeE_sends h2)).trans a
    exact ⟨this, u.same.trans b⟩

theorem askBackE_sends {para : Nat} {a b : Phase} {es : List Told} (h : askBackE c s para a b = .ok (s', es)) :
    Sends s s' es := by
  unfold askBackE at h
  simp only [bind_ok_iff, pure_ok_iff, okOr_ok_iff, ensure_ok_iff, exists_const, Prod.exists, Prod.mk.injEq] at h
  obtain ⟨k, v, hcur, _, s1, e1, h1, rfl, rfl⟩ := h
  exact (doWithdrawE_sends h1).put (current_iff.mp hcur).2.2 (SameVault.refl v)

theorem contributeE_sends {who para m code : Nat} {es : List Told} (h : contributeE c s who para m code = .ok (s', es)) :
    Sends s s' es := by
  unfold contributeE at h
  simp only [bind_ok_iff, pure_ok_iff, okOr_ok_iff, ensure_ok_iff, exists_const, Prod.exists, Prod.mk.injEq] at h
  obtain ⟨k, v, hcur, _, _, _, _, _, t, _, t2, _, _, l, _, s1, v1, e1, h1, h2, rfl⟩ := h
  have hv := (current_iff.mp hcur).2.2
  have key : Sends s s1 e1 ∧ SameVault v v1 := by
    unfold bookE at h1
    split_ifs at h1
    · simp only [bind_ok_iff, pure_ok_iff, Prod.exists, Prod.mk.injEq] at h1
      obtain ⟨s2, v2, _, h3, s4, e4, h4, ⟨rfl, rfl⟩, rfl⟩ := h1
      obtain ⟨u, _⟩ := updateContribution_ok h3
      exact ⟨((Frame.tok s l).trans u.frame).sends.trans (doContributeE_sends h4), u.same⟩
    · simp only [bind_ok_iff, pure_ok_iff, Prod.exists, Prod.mk.injEq] at h1
      obtain ⟨s2, v2, _, h3, ⟨rfl, rfl⟩, rfl⟩ := h1
      obtain ⟨u, _⟩ := updateContribution_ok h3
      exact ⟨((Frame.tok s l).trans u.frame).sends, u.same⟩
  have := key.1.put hv key.2
  subst h2
  exact ⟨this.1, this.2, this.3.1, this.3.2, this.3.3⟩

theorem migratePendingE_sends {para : Nat} {es : List Told} (h : migratePendingE c s para = .ok (s', es)) :
    Sends s s' es := by
  unfold migratePendingE at h
  simp only [bind_ok_iff, pure_ok_iff, okOr_ok_iff, ensure_ok_iff, exists_const, Prod.exists, Prod.mk.injEq] at h
  obtain ⟨k, v, hcur, _, _, s1, v1, b, e1, h1, rfl, rfl⟩ := h
  obtain ⟨a, e⟩ := migrateLoopE_sends _ _ _ _ _ _ _ _ h1
  have := a.put (current_iff.mp hcur).2.2 e
  refine ⟨this.1, ?_, ?_⟩
  · intro n
    rw [after_append, this.2]
    cases b <;> rfl
  · have hn : Announced (s1.putVault k v1) (s1.putVault k v1) [if b = true then .allMigrated k else .partMigrated k] :=
      (Frame.refl _).announced (by cases b <;> rfl)
    exact this.3.trans hn

/-! ## The observer is right -/

theorem of_same_vaults_note {k : Key} {v : Vault} (hv : s.vaults k = some v) (f : VNote → VNote) :
    (Notes.of s).change k f = { Notes.of s with vaults := upd (Notes.of s).vaults k (some (f v.note)) } := by
  unfold Notes.change
  have : (Notes.of s).vaults k = some v.note := by show (s.vaults k).map _ = _; rw [hv]; rfl
  rw [this]; rfl

/-- **C238** (calls) What an observer knew before a call and reads in its events is what there is to know after it. -/
theorem C238_call {x : Call} {es : List Told} (h : execE c s x = .ok (s', es)) : (Notes.of s).after es = Notes.of s' := by
  have frame : Frame s s' → (∀ n : Notes, n.after es = n) → (Notes.of s).after es = Notes.of s' := by
    intro f q; rw [q, f.notes]
  have sends : Sends s s' es → (Notes.of s).after es = Notes.of s' := by
    intro f; rw [f.quiet, f.notes]
  have move : ∀ {para a b}, movePhaseE s para a b = .ok (s', es) → (Notes.of s).after es = Notes.of s' := by
    intro para a b h
    unfold movePhaseE at h
    simp only [bind_ok_iff, pure_ok_iff, okOr_ok_iff, ensure_ok_iff, exists_const, Prod.exists, Prod.mk.injEq] at h
    obtain ⟨k, v, hcur, _, rfl, rfl⟩ := h
    rw [of_putVault]
    exact of_same_vaults_note (current_iff.mp hcur).2.2 _
  have hclaim : ∀ {who k f}, claimE c s who k f = .ok (s', es) → (Notes.of s).after es = Notes.of s' := by
    intro who k f h
    unfold claimE at h
    simp only [bind_ok_iff, pure_ok_iff, okOr_ok_iff, Prod.mk.injEq] at h
    obtain ⟨ct, _, v, _, s1, h1, rfl, rfl⟩ := h
    exact frame (claim_frame h1) (fun _ => rfl)
  have hredeem : ∀ {who k m s1 es}, redeemE c s who k m = .ok (s1, es) → Frame s s1 ∧ ∀ n : Notes, n.after es = n := by
    intro who k m s1 es h
    unfold redeemE at h
    simp only [bind_ok_iff, pure_ok_iff, okOr_ok_iff, Prod.mk.injEq] at h
    obtain ⟨ct, _, s2, h1, rfl, rfl⟩ := h
    exact ⟨redeem_frame h1, fun _ => rfl⟩
  cases x with
  | createVault k ct p cap eb =>
    simp only [execE, createVaultE, createVault, bind_ok_iff, pure_ok_iff, ensure_ok_iff, exists_const, Prod.mk.injEq] at h
    obtain ⟨_, ⟨_, _, _, _, _, _, _, _, rfl⟩, rfl, rfl⟩ := h
    show Notes.mk _ _ _ _ _ _ _ = Notes.of _
    unfold Notes.of
    congr 1
    funext x
    by_cases hx : x = k
    · subst hx; simp only [upd_same, Option.map_some]; rfl
    · simp only [upd_of_ne _ _ hx]
  | updateVault para cap eb p =>
    simp only [execE, updateVaultE, bind_ok_iff, pure_ok_iff, okOr_ok_iff, Prod.exists, Prod.mk.injEq, exists_const] at h
    obtain ⟨k, v, hcur, _, _, rfl, rfl⟩ := h
    rw [of_putVault]
    exact of_same_vaults_note (current_iff.mp hcur).2.2 _
  | «open» para => exact move h
  | contribute who para m code => exact sends (contributeE_sends h)
  | setVrf f => cases h; rfl
  | close para => exact move h
  | reopen para => exact move h
  | auctionSucceeded para => exact move h
  | auctionFailed para => exact sends (askBackE_sends h)
  | claim who k => exact hclaim h
  | withdraw who k =>
    simp only [execE, withdrawE, bind_ok_iff, pure_ok_iff, okOr_ok_iff, Prod.mk.injEq] at h
    obtain ⟨v, _, s1, h1, rfl, rfl⟩ := h
    exact frame (withdraw_frame h1) (fun _ => rfl)
  | redeem who k m =>
    obtain ⟨a, b⟩ := hredeem h
    exact frame a b
  | slotExpired para => exact sends (askBackE_sends h)
  | migratePending para => exact sends (migratePendingE_sends h)
  | notify q e =>
    simp only [execE, notifyE] at h
    rcases hq : s.requests q with _ | (⟨k, who, m, code⟩ | ⟨k, m, target⟩) <;> cases e <;>
      simp only [hq] at h
    · cases h; rfl
    · cases h; rfl
    · simp only [bind_ok_iff, pure_ok_iff, Prod.mk.injEq] at h
      obtain ⟨s1, h1, rfl, rfl⟩ := h
      exact frame (bounced_frame h1) (fun _ => rfl)
    · simp only [bind_ok_iff, pure_ok_iff, Prod.mk.injEq] at h
      obtain ⟨s1, h1, rfl, rfl⟩ := h
      exact (contributed_frame h1).notes.symm
    · cases h; rfl
    · simp only [withdrawnE, bind_ok_iff, pure_ok_iff, okOr_ok_iff, Prod.mk.injEq, Prod.exists] at h
      obtain ⟨s1, e1, ⟨v, hv, rfl, rfl⟩, rfl, rfl⟩ := h
      exact (of_same_vaults_note hv _).trans (of_putVault s k { v with phase := target }).symm
  | refund k =>
    simp only [execE, refundE, bind_ok_iff, pure_ok_iff, okOr_ok_iff, ensure_ok_iff, exists_const, Prod.exists,
      Prod.mk.injEq] at h
    obtain ⟨v, hv, _, s1, v1, b, h1, rfl, rfl⟩ := h
    obtain ⟨a, e⟩ := refundLoop_frame _ _ _ _ _ _ _ h1
    exact frame (a.put hv e) (fun n => by cases b <;> rfl)
  | dissolve k =>
    simp only [execE, dissolveE, dissolve, bind_ok_iff, pure_ok_iff, okOr_ok_iff, ensure_ok_iff, exists_const,
      Prod.mk.injEq] at h
    obtain ⟨_, ⟨v, hv, _, _, t, _, _, rfl⟩, rfl, rfl⟩ := h
    show Notes.mk _ _ _ _ _ _ _ = Notes.of _
    unfold Notes.of
    congr 1
    funext x
    by_cases hx : x = k
    · subst hx; simp only [upd_same, Option.map_none]
    · simp only [upd_of_ne _ _ hx]
  | refundFor who k kind m =>
    simp only [execE, refundForE, bind_ok_iff, pure_ok_iff, Prod.mk.injEq] at h
    obtain ⟨s1, h1, rfl, rfl⟩ := h
    exact frame (refundFor_frame h1) (fun _ => rfl)
  | updateProxy p => cases h; rfl
  | updateBonus lease b =>
    simp only [execE, updateBonusE, updateBonus, bind_ok_iff, pure_ok_iff, ensure_ok_iff, exists_const, Prod.mk.injEq] at h
    obtain ⟨_, ⟨_, _, rfl⟩, rfl, rfl⟩ := h
    rfl
  | forceClaim who k => exact hclaim h
  | redeemAndLend who k m =>
    simp only [execE, redeemAndLendE, bind_ok_iff, pure_ok_iff, ensure_ok_iff, exists_const, Prod.exists, Prod.mk.injEq] at h
    obtain ⟨_, s1, e1, h1, l, _, rfl, rfl⟩ := h
    obtain ⟨a, b⟩ := hredeem h1
    exact frame (a.trans (Frame.tok _ _)) b

/-- **C238** (settings) Whoever has read all events knows every vault's phase, cap, end block, strategy, derivative token and
index, the current vault of every parachain, the derivative tokens of all leases, the proxy account, the bonuses and whether
contributions are stopped. -/
theorem C238_settings {s0 : State} {es : List Told} (h : Heard c D s0 s es) : (Notes.of s0).after es = Notes.of s := by
  induction h with
  | init => rfl
  | call h he ih => rw [after_append, ih, C238_call he]
  | env h e ih => rw [ih, e.state]; rfl

/-- **C238** (requests) Every call but a response announces exactly the requests it sends to the relay chain, in order; a
response sends none and touches no other request. -/
theorem C238_requests {x : Call} {es : List Told} (h : execE c s x = .ok (s', es)) :
    ((∀ q e, x ≠ .notify q e) → Announced s s' es) ∧
    (∀ q e, x = .notify q e → es.filterMap Told.request = [] ∧ s'.nextQuery = s.nextQuery ∧
      ∀ q', q' ≠ q → s'.requests q' = s.requests q') := by
  have move : ∀ {para a b}, movePhaseE s para a b = .ok (s', es) → Announced s s' es := by
    intro para a b h
    unfold movePhaseE at h
    simp only [bind_ok_iff, pure_ok_iff, okOr_ok_iff, ensure_ok_iff, exists_const, Prod.exists, Prod.mk.injEq] at h
    obtain ⟨k, v, _, _, rfl, rfl⟩ := h
    exact ⟨rfl, fun i r h => (by cases h), fun _ _ => rfl⟩
  have hclaim : ∀ {who k f}, claimE c s who k f = .ok (s', es) → Announced s s' es := by
    intro who k f h
    unfold claimE at h
    simp only [bind_ok_iff, pure_ok_iff, okOr_ok_iff, Prod.mk.injEq] at h
    obtain ⟨ct, _, v, _, s1, h1, rfl, rfl⟩ := h
    exact (claim_frame h1).announced rfl
  have hredeem : ∀ {who k m s1 es}, redeemE c s who k m = .ok (s1, es) → Frame s s1 ∧ es.filterMap Told.request = [] := by
    intro who k m s1 es h
    unfold redeemE at h
    simp only [bind_ok_iff, pure_ok_iff, okOr_ok_iff, Prod.mk.injEq] at h
    obtain ⟨ct, _, s2, h1, rfl, rfl⟩ := h
    exact ⟨redeem_frame h1, rfl⟩
  cases x with
  | notify q e =>
    refine ⟨fun hne => absurd rfl (hne q e), ?_⟩
    rintro q' e' heq
    cases heq
    simp only [execE, notifyE] at h
    rcases hq : s.requests q with _ | (⟨k, who, m, code⟩ | ⟨k, m, target⟩) <;> cases e <;>
      simp only [hq] at h
    · cases h; exact ⟨rfl, rfl, fun _ _ => rfl⟩
    · cases h; exact ⟨rfl, rfl, fun _ _ => rfl⟩
    · simp only [bind_ok_iff, pure_ok_iff, Prod.mk.injEq] at h
      obtain ⟨s1, h1, rfl, rfl⟩ := h
      have f := bounced_frame h1
      exact ⟨rfl, f.query, fun _ _ => by rw [f.requests]⟩
    · simp only [bind_ok_iff, pure_ok_iff, Prod.mk.injEq] at h
      obtain ⟨s1, h1, rfl, rfl⟩ := h
      have f := contributed_frame h1
      exact ⟨rfl, f.query, fun x hx => by show upd s1.requests q none x = _; rw [upd_of_ne _ _ hx, f.requests]⟩
    · cases h; exact ⟨rfl, rfl, fun _ _ => rfl⟩
    · simp only [withdrawnE, bind_ok_iff, pure_ok_iff, okOr_ok_iff, Prod.mk.injEq, Prod.exists] at h
      obtain ⟨s1, e1, ⟨v, hv, rfl, rfl⟩, rfl, rfl⟩ := h
      exact ⟨rfl, rfl, fun x hx => by show upd s.requests q none x = _; rw [upd_of_ne _ _ hx]⟩
  | createVault k ct p cap eb =>
    refine ⟨fun _ => ?_, by rintro q e ⟨⟩⟩
    simp only [execE, createVaultE, createVault, bind_ok_iff, pure_ok_iff, ensure_ok_iff, exists_const, Prod.mk.injEq] at h
    obtain ⟨_, ⟨_, _, _, _, _, _, _, _, rfl⟩, rfl, rfl⟩ := h
    exact ⟨rfl, fun i r h => (by cases h), fun _ _ => rfl⟩
  | updateVault para cap eb p =>
    refine ⟨fun _ => ?_, by rintro q e ⟨⟩⟩
    simp only [execE, updateVaultE, bind_ok_iff, pure_ok_iff, okOr_ok_iff, Prod.exists, Prod.mk.injEq, exists_const] at h
    obtain ⟨k, v, hcur, _, _, rfl, rfl⟩ := h
    exact ⟨rfl, fun i r h => (by cases h), fun _ _ => rfl⟩
  | «open» para => exact ⟨fun _ => move h, by rintro q e ⟨⟩⟩
  | contribute who para m code => exact ⟨fun _ => (contributeE_sends h).ann, by rintro q e ⟨⟩⟩
  | setVrf f => cases h; exact ⟨fun _ => ⟨rfl, fun i r h => (by cases h), fun _ _ => rfl⟩, by rintro q e ⟨⟩⟩
  | close para => exact ⟨fun _ => move h, by rintro q e ⟨⟩⟩
  | reopen para => exact ⟨fun _ => move h, by rintro q e ⟨⟩⟩
  | auctionSucceeded para => exact ⟨fun _ => move h, by rintro q e ⟨⟩⟩
  | auctionFailed para => exact ⟨fun _ => (askBackE_sends h).ann, by rintro q e ⟨⟩⟩
  | claim who k => exact ⟨fun _ => hclaim h, by rintro q e ⟨⟩⟩
  | withdraw who k =>
    refine ⟨fun _ => ?_, by rintro q e ⟨⟩⟩
    simp only [execE, withdrawE, bind_ok_iff, pure_ok_iff, okOr_ok_iff, Prod.mk.injEq] at h
    obtain ⟨v, _, s1, h1, rfl, rfl⟩ := h
    exact (withdraw_frame h1).announced rfl
  | redeem who k m =>
    obtain ⟨a, b⟩ := hredeem h
    exact ⟨fun _ => a.announced b, by rintro q e ⟨⟩⟩
  | slotExpired para => exact ⟨fun _ => (askBackE_sends h).ann, by rintro q e ⟨⟩⟩
  | migratePending para => exact ⟨fun _ => (migratePendingE_sends h).ann, by rintro q e ⟨⟩⟩
  | refund k =>
    refine ⟨fun _ => ?_, by rintro q e ⟨⟩⟩
    simp only [execE, refundE, bind_ok_iff, pure_ok_iff, okOr_ok_iff, ensure_ok_iff, exists_const, Prod.exists,
      Prod.mk.injEq] at h
    obtain ⟨v, hv, _, s1, v1, b, h1, rfl, rfl⟩ := h
    obtain ⟨a, e⟩ := refundLoop_frame _ _ _ _ _ _ _ h1
    exact (a.put hv e).announced (by cases b <;> rfl)
  | dissolve k =>
    refine ⟨fun _ => ?_, by rintro q e ⟨⟩⟩
    simp only [execE, dissolveE, dissolve, bind_ok_iff, pure_ok_iff, okOr_ok_iff, ensure_ok_iff, exists_const,
      Prod.mk.injEq] at h
    obtain ⟨_, ⟨v, hv, _, _, t, _, _, rfl⟩, rfl, rfl⟩ := h
    exact ⟨rfl, fun i r h => (by cases h), fun _ _ => rfl⟩
  | refundFor who k kind m =>
    refine ⟨fun _ => ?_, by rintro q e ⟨⟩⟩
    simp only [execE, refundForE, bind_ok_iff, pure_ok_iff, Prod.mk.injEq] at h
    obtain ⟨s1, h1, rfl, rfl⟩ := h
    exact (refundFor_frame h1).announced rfl
  | updateProxy p => cases h; exact ⟨fun _ => ⟨rfl, fun i r h => (by cases h), fun _ _ => rfl⟩, by rintro q e ⟨⟩⟩
  | updateBonus lease b =>
    refine ⟨fun _ => ?_, by rintro q e ⟨⟩⟩
    simp only [execE, updateBonusE, updateBonus, bind_ok_iff, pure_ok_iff, ensure_ok_iff, exists_const, Prod.mk.injEq] at h
    obtain ⟨_, ⟨_, _, rfl⟩, rfl, rfl⟩ := h
    exact ⟨rfl, fun i r h => (by cases h), fun _ _ => rfl⟩
  | forceClaim who k => exact ⟨fun _ => hclaim h, by rintro q e ⟨⟩⟩
  | redeemAndLend who k m =>
    refine ⟨fun _ => ?_, by rintro q e ⟨⟩⟩
    simp only [execE, redeemAndLendE, bind_ok_iff, pure_ok_iff, ensure_ok_iff, exists_const, Prod.exists, Prod.mk.injEq] at h
    obtain ⟨_, s1, e1, h1, l, _, rfl, rfl⟩ := h
    obtain ⟨a, b⟩ := hredeem h1
    exact (a.trans (Frame.tok _ _)).announced b


/-! ## The facts in the events -/

theorem migrateLoopE_loop {k : Key} {n : Nat} {l : List Entry} {v : Vault} {x : State × Vault × Bool} {es : List Told}
    (h : migrateLoopE c k n l s v = .ok (x, es)) : migrateLoop c k n l s v = .ok x := by
  rw [← migrateLoopE_same, h]; rfl

theorem migrateLoopE_only {k : Key} : ∀ (n : Nat) (l : List Entry) (s : State) (v : Vault) (x : State × Vault × Bool)
    (es : List Told), migrateLoopE c k n l s v = .ok (x, es) → ∀ e ∈ es, ∃ w m cd, e = .doContributing k w m cd
  | 0, [], s, v, x, es, h => by cases h; simp
  | _ + 1, [], s, v, x, es, h => by cases h; simp
  | 0, _ :: _, s, v, x, es, h => by cases h; simp
  | n + 1, e :: l, s, v, x, es, h => by
    unfold migrateLoopE doContributeE at h
    simp only [bind_ok_iff, pure_ok_iff, Prod.exists, Prod.mk.injEq] at h
    obtain ⟨s1, v1, _, s2, e2, ⟨_, _, rfl, rfl⟩, a, b, d, e3, h3, rfl, rfl⟩ := h
    intro e' he'
    rcases List.mem_append.mp he' with he' | he'
    · rw [List.mem_singleton.mp he']; exact ⟨_, _, _, rfl⟩
    · exact migrateLoopE_only n l _ _ _ _ h3 e' he'

theorem claim_fact (hc : CfgOK c D) (hr : Reach c D s) {who : Nat} {k : Key} {f : Bool} {es : List Told}
    (h : claimE c s who k f = .ok (s', es)) : ∀ e ∈ es, e.Fact c s s' := by
  unfold claimE at h
  simp only [bind_ok_iff, pure_ok_iff, okOr_ok_iff, Prod.mk.injEq] at h
  obtain ⟨ct, hct, v, hv, s1, h1, rfl, rfl⟩ := h
  intro e he
  rw [List.mem_singleton.mp he]
  have hD := (hr.inv hc).ctokD _ _ hct
  have hcv : ct = v.ctoken := by
    have := (hr.inv hc).ctok k v hv
    rw [hct] at this
    exact Option.some.inj this
  obtain ⟨v1, hv1, _, hb, hz, _, _⟩ := C99_claim_once hc hr h1
  rw [hv] at hv1
  cases hv1
  unfold claim at h1
  simp only [bind_ok_iff, pure_ok_iff, ensure_ok_iff, exists_const, okOr_ok_iff] at h1
  obtain ⟨ct', _, v', hv', _, hm, _⟩ := h1
  rw [hv] at hv'
  cases hv'
  refine ⟨v, hv, hct, hm, rfl, hz, ?_⟩
  rw [hcv] at hD ⊢
  exact hb (fun e => hc.nativeD (e ▸ hD))

theorem redeem_fact (hc : CfgOK c D) (hr : Reach c D s) {who : Nat} {k : Key} {m : Nat} {es : List Told}
    (h : redeemE c s who k m = .ok (s', es)) : ∀ e ∈ es, e.Fact c s s' := by
  unfold redeemE at h
  simp only [bind_ok_iff, pure_ok_iff, okOr_ok_iff, Prod.mk.injEq] at h
  obtain ⟨ct, hct, s1, h1, rfl, rfl⟩ := h
  intro e he
  rw [List.mem_singleton.mp he]
  have hD := (hr.inv hc).ctokD _ _ hct
  unfold redeem at h1
  simp only [bind_ok_iff, pure_ok_iff, ensure_ok_iff, exists_const, okOr_ok_iff, csub_ok_iff] at h1
  obtain ⟨ct', hct', v, hv, hp, _, x, ⟨hx, rfl⟩, l, hl, l2, hl2, rfl⟩ := h1
  rw [hct] at hct'
  cases hct'
  refine ⟨v, _, hv, upd_same _ _ _, hp, hct, ?_, ?_⟩
  · dsimp only; omega
  · have b1 := Ledger.burn_bal hl ct who
    have b2 := Ledger.mint_bal hl2 ct who
    rw [if_pos ⟨rfl, rfl⟩] at b1
    rw [if_neg (fun e : ct = c.relay ∧ who = who => hc.relayD (e.1 ▸ hD))] at b2
    show l2.bal ct who + m = _
    omega

theorem move_fact {para : Nat} {a b : Phase} {es : List Told} (h : movePhaseE s para a b = .ok (s', es)) :
    ∀ e ∈ es, e.Fact c s s' := by
  unfold movePhaseE at h
  simp only [bind_ok_iff, pure_ok_iff, okOr_ok_iff, ensure_ok_iff, exists_const, Prod.exists, Prod.mk.injEq] at h
  obtain ⟨k, v, hcur, hp, rfl, rfl⟩ := h
  intro e he
  rw [List.mem_singleton.mp he]
  exact ⟨v, _, (current_iff.mp hcur).2.2, upd_same _ _ _, hp, rfl⟩

theorem askBack_fact {para : Nat} {a b : Phase} {es : List Told} (h : askBackE c s para a b = .ok (s', es)) :
    ∀ e ∈ es, e.Fact c s s' := by
  unfold askBackE doWithdrawE at h
  simp only [bind_ok_iff, pure_ok_iff, okOr_ok_iff, ensure_ok_iff, exists_const, Prod.exists, Prod.mk.injEq] at h
  obtain ⟨k, v, _, _, s1, e1, ⟨_, _, _, rfl⟩, _, rfl⟩ := h
  intro e he
  rw [List.mem_singleton.mp he]
  trivial

/-- **C238** (facts) Every event is true of the states before and after its call: amounts announced are exactly what was
contributed, claimed, withdrawn, redeemed or refunded, and `All…`/`Partially…` say whether anything is left. -/
theorem C238_facts (hc : CfgOK c D) (hr : Reach c D s) {x : Call} {es : List Told} (h : execE c s x = .ok (s', es)) :
    ∀ e ∈ es, e.Fact c s s' := by
  have hI := hr.inv hc
  cases x with
  | createVault k ct p cap eb =>
    simp only [execE, createVaultE, createVault, bind_ok_iff, pure_ok_iff, ensure_ok_iff, exists_const, Prod.mk.injEq] at h
    obtain ⟨_, ⟨_, _, _, hn, _, _, _, _, rfl⟩, rfl, rfl⟩ := h
    intro e he
    rw [List.mem_singleton.mp he]
    exact ⟨hn, upd_same _ _ _⟩
  | updateVault para cap eb p =>
    simp only [execE, updateVaultE, bind_ok_iff, pure_ok_iff, okOr_ok_iff, Prod.exists, Prod.mk.injEq, exists_const] at h
    obtain ⟨k, v, hcur, _, _, rfl, rfl⟩ := h
    intro e he
    rw [List.mem_singleton.mp he]
    exact ⟨v, _, (current_iff.mp hcur).2.2, upd_same _ _ _, rfl, rfl, rfl, rfl⟩
  | «open» para => exact move_fact h
  | contribute who para m code =>
    simp only [execE, contributeE, bookE, doContributeE, bind_ok_iff, pure_ok_iff, okOr_ok_iff, ensure_ok_iff, exists_const,
      Prod.exists, Prod.mk.injEq] at h
    obtain ⟨k, v, hcur, _, _, _, _, _, t, _, t2, _, _, l, _, s1, v1, e1, h1, _, rfl⟩ := h
    split_ifs at h1
    · simp only [bind_ok_iff, pure_ok_iff, Prod.exists, Prod.mk.injEq] at h1
      obtain ⟨_, _, _, _, _, _, ⟨_, _, _, rfl⟩, _, rfl⟩ := h1
      intro e he
      rw [List.mem_singleton.mp he]
      trivial
    · simp only [bind_ok_iff, pure_ok_iff, Prod.exists, Prod.mk.injEq] at h1
      obtain ⟨_, _, _, _, _, rfl⟩ := h1
      intro e he
      cases he
  | setVrf f => cases h; intro e he; rw [List.mem_singleton.mp he]; rfl
  | close para => exact move_fact h
  | reopen para => exact move_fact h
  | auctionSucceeded para => exact move_fact h
  | auctionFailed para => exact askBack_fact h
  | claim who k => exact claim_fact hc hr h
  | withdraw who k =>
    simp only [execE, withdrawE, bind_ok_iff, pure_ok_iff, okOr_ok_iff, Prod.mk.injEq] at h
    obtain ⟨v, hv, s1, h1, rfl, rfl⟩ := h
    intro e he
    rw [List.mem_singleton.mp he]
    unfold withdraw at h1
    simp only [bind_ok_iff, pure_ok_iff, ensure_ok_iff, exists_const, okOr_ok_iff, csub_ok_iff] at h1
    obtain ⟨v', hv', hp, hm, x, ⟨hx, rfl⟩, l, hl, rfl⟩ := h1
    rw [hv] at hv'
    cases hv'
    refine ⟨v, _, hv, upd_same _ _ _, hp, hm, rfl, ?_, ?_, ?_⟩
    · show (getEntry (upd s.child (v.trie, .contributed) _ (v.trie, .contributed)) who).amt = 0
      rw [upd_same, getEntry_kill]
    · dsimp only; omega
    · have := Ledger.mint_bal hl c.relay who
      rw [if_pos ⟨rfl, rfl⟩] at this
      exact this
  | redeem who k m => exact redeem_fact hc hr h
  | slotExpired para => exact askBack_fact h
  | migratePending para =>
    simp only [execE, migratePendingE, bind_ok_iff, pure_ok_iff, okOr_ok_iff, ensure_ok_iff, exists_const, Prod.exists,
      Prod.mk.injEq] at h
    obtain ⟨k, v, hcur, _, _, s1, v1, b, e1, h1, rfl, rfl⟩ := h
    have hv := (current_iff.mp hcur).2.2
    have h' : Inv c D (s.putVault k v) := by rw [putVault_self hv]; exact hI
    obtain ⟨_, hm, hb⟩ := migrateLoop_ok hc _ _ _ _ _ _ _ h' rfl (migrateLoopE_loop h1)
    intro e he
    rcases List.mem_append.mp he with he | he
    · obtain ⟨w, m, cd, rfl⟩ := migrateLoopE_only _ _ _ _ _ _ h1 e he
      trivial
    · rw [List.mem_singleton.mp he]
      have hl : (s1.putVault k v1).child (v.trie, .pending) = _ := hm.left
      cases b
      · refine ⟨v, hv, ?_⟩
        rw [hl]
        intro e
        exact absurd (hb.mpr e) (by simp)
      · refine ⟨v, hv, ?_⟩
        rw [hl]
        exact hb.mp rfl
  | notify q e =>
    simp only [execE, notifyE] at h
    rcases hq : s.requests q with _ | (⟨k, who, m, code⟩ | ⟨k, m, target⟩) <;> cases e <;>
      simp only [hq] at h
    · cases h; intro e he; rw [List.mem_singleton.mp he]; trivial
    · cases h; intro e he; rw [List.mem_singleton.mp he]; trivial
    · simp only [bind_ok_iff, pure_ok_iff, Prod.mk.injEq] at h
      obtain ⟨s1, h1, rfl, rfl⟩ := h
      intro e he; rw [List.mem_singleton.mp he]; trivial
    · simp only [bind_ok_iff, pure_ok_iff, Prod.mk.injEq] at h
      obtain ⟨s1, h1, rfl, rfl⟩ := h
      intro e he
      rcases List.mem_cons.mp he with rfl | he
      · unfold contributed at h1
        simp only [bind_ok_iff, pure_ok_iff, okOr_ok_iff, Prod.exists] at h1
        obtain ⟨v, hv, l, hl, s2, v2, h2, rfl⟩ := h1
        have u := migrateContribution_ok (by decide) h2
        have b := Ledger.burn_bal hl c.relay c.acct
        rw [if_pos ⟨rfl, rfl⟩] at b
        have ht : s2.tok = l := by rw [u.state]; rfl
        refine ⟨v, v2, hv, upd_same _ _ _, ?_, ?_, ?_, ?_, ?_⟩
        · have h1 := u.srcV.2.2.1
          have h2 := u.srcV.2.2.2
          show s2.amount v.trie .flying who + m = s.amount v.trie .flying who
          have h3 : (s.withTok l).amount v.trie .flying who = s.amount v.trie .flying who := rfl
          omega
        · exact u.dstV.2
        · have h1 := u.srcV.1
          have h2 := u.srcV.2.1
          show v2.get .flying + m = v.get .flying
          omega
        · exact u.dstV.1
        · show s2.tok.bal c.relay c.acct + m = _
          rw [ht]; exact b
      · rw [List.mem_singleton.mp he]; trivial
    · cases h; intro e he; rw [List.mem_singleton.mp he]; trivial
    · simp only [withdrawnE, bind_ok_iff, pure_ok_iff, okOr_ok_iff, Prod.mk.injEq, Prod.exists] at h
      obtain ⟨s1, e1, ⟨v, hv, rfl, rfl⟩, rfl, rfl⟩ := h
      intro e he
      rcases List.mem_cons.mp he with rfl | he
      · exact ⟨v, _, hv, upd_same _ _ _, rfl, rfl⟩
      · rw [List.mem_singleton.mp he]; trivial
  | refund k =>
    simp only [execE, refundE, bind_ok_iff, pure_ok_iff, okOr_ok_iff, ensure_ok_iff, exists_const, Prod.exists,
      Prod.mk.injEq] at h
    obtain ⟨v, hv, _, s1, v1, b, h1, rfl, rfl⟩ := h
    have h' : Inv c D (s.putVault k v) := by rw [putVault_self hv]; exact hI
    obtain ⟨_, hm, hb⟩ := refundLoop_ok hc _ _ _ _ _ _ _ h' rfl h1
    intro e he
    rw [List.mem_singleton.mp he]
    have hl : (s1.putVault k v1).contributions v.trie = _ := hm.left
    cases b
    · refine ⟨v, hv, ?_⟩
      rw [hl]
      intro e
      exact absurd (hb.mpr e) (by simp)
    · refine ⟨v, hv, ?_⟩
      rw [hl]
      exact hb.mp rfl
  | dissolve k =>
    simp only [execE, dissolveE, dissolve, bind_ok_iff, pure_ok_iff, okOr_ok_iff, ensure_ok_iff, exists_const,
      Prod.mk.injEq] at h
    obtain ⟨_, ⟨v, hv, _, hn, t, _, _, rfl⟩, rfl, rfl⟩ := h
    intro e he
    rw [List.mem_singleton.mp he]
    exact ⟨v, hv, hn, upd_same _ _ _⟩
  | refundFor who k kind m =>
    simp only [execE, refundForE, bind_ok_iff, pure_ok_iff, Prod.mk.injEq] at h
    obtain ⟨s1, h1, rfl, rfl⟩ := h
    intro e he
    rw [List.mem_singleton.mp he]
    unfold refundFor refundOne at h1
    simp only [bind_ok_iff, pure_ok_iff, ensure_ok_iff, exists_const, okOr_ok_iff, Prod.exists, Prod.mk.injEq] at h1
    obtain ⟨v, hv, _, _, s2, v2, ⟨l, hl, s3, v3, _, h3, rfl, rfl⟩, rfl⟩ := h1
    obtain ⟨u, _⟩ := updateContribution_ok h3
    obtain ⟨d1, d2, d3, d4⟩ := u.down rfl
    have ht : s3.tok = l := by rw [u.state]; rfl
    refine ⟨v, v3, hv, upd_same _ _ _, by omega, ?_, ?_⟩
    · show s3.amount v.trie kind who + m = s.amount v.trie kind who
      have h4 : (s.withTok l).amount v.trie kind who = s.amount v.trie kind who := rfl
      omega
    · intro hw
      have := (refundPay_ok hc hI.wf hl).2.2.2.1 who hw
      rw [if_pos rfl] at this
      show s3.tok.bal c.relay who = _
      rw [ht]; exact this
  | updateProxy p => cases h; intro e he; rw [List.mem_singleton.mp he]; rfl
  | updateBonus lease b =>
    simp only [execE, updateBonusE, updateBonus, bind_ok_iff, pure_ok_iff, ensure_ok_iff, exists_const, Prod.mk.injEq] at h
    obtain ⟨_, ⟨_, hb, rfl⟩, rfl, rfl⟩ := h
    intro e he
    rw [List.mem_singleton.mp he]
    exact ⟨upd_same _ _ _, hb⟩
  | forceClaim who k => exact claim_fact hc hr h
  | redeemAndLend who k m =>
    simp only [execE, redeemAndLendE, bind_ok_iff, pure_ok_iff, ensure_ok_iff, exists_const, Prod.exists, Prod.mk.injEq] at h
    obtain ⟨_, s1, e1, h1, l, hl, rfl, rfl⟩ := h
    intro e he
    have hf := redeem_fact hc hr h1 e he
    unfold redeemE at h1
    simp only [bind_ok_iff, pure_ok_iff, okOr_ok_iff, Prod.mk.injEq] at h1
    obtain ⟨ct, hct, s2, h1, rfl, rfl⟩ := h1
    rw [List.mem_singleton.mp he] at hf ⊢
    obtain ⟨v, v', a1, a2, a3, a4, a5, a6⟩ := hf
    refine ⟨v, v', a1, a2, a3, a4, a5, ?_⟩
    have hD := hI.ctokD _ _ hct
    have hne : ¬ct = c.relay := fun e => hc.relayD (e ▸ hD)
    have b := Ledger.transfer_bal hl ct who
    rw [if_neg (fun e => hne e.1), if_neg (fun e => hne e.1)] at b
    show l.bal ct who + m = _
    omega

/-- **C238** (every) Every call deposits an event, except a contribution to a vault whose contributions are not sent yet. -/
theorem C238_every {x : Call} {es : List Told} (h : execE c s x = .ok (s', es)) :
    es ≠ [] ∨ ∃ who para m code k v, x = .contribute who para m code ∧ s.current para = some (k, v) ∧ v.phase = .pending := by
  cases x with
  | contribute who para m code =>
    simp only [execE, contributeE, bookE, doContributeE, bind_ok_iff, pure_ok_iff, okOr_ok_iff, ensure_ok_iff, exists_const,
      Prod.exists, Prod.mk.injEq] at h
    obtain ⟨k, v, hcur, _, _, hp, _, _, t, _, t2, _, _, l, _, s1, v1, e1, h1, _, rfl⟩ := h
    split_ifs at h1 with hc
    · simp only [bind_ok_iff, pure_ok_iff, Prod.exists, Prod.mk.injEq] at h1
      obtain ⟨_, _, _, _, _, _, ⟨_, _, _, rfl⟩, _, rfl⟩ := h1
      exact Or.inl (by simp)
    · exact Or.inr ⟨who, para, m, code, k, v, rfl, hcur, hp.resolve_left hc⟩
  | notify q e =>
    left
    simp only [execE, notifyE] at h
    rcases hq : s.requests q with _ | (⟨k, who, m, code⟩ | ⟨k, m, target⟩) <;> cases e <;>
      simp only [hq, bind_ok_iff, pure_ok_iff, Prod.mk.injEq, Prod.exists, Except.ok.injEq] at h
    · rw [← h.2]; simp
    · rw [← h.2]; simp
    · obtain ⟨_, _, _, rfl⟩ := h; simp
    · obtain ⟨_, _, _, rfl⟩ := h; simp
    · rw [← h.2]; simp
    · obtain ⟨_, _, _, _, rfl⟩ := h; simp
  | migratePending para =>
    left
    simp only [execE, migratePendingE, bind_ok_iff, pure_ok_iff, Prod.exists, Prod.mk.injEq] at h
    obtain ⟨_, _, _, _, _, _, _, _, _, _, _, _, _, rfl⟩ := h
    simp
  | redeemAndLend who k m =>
    left
    simp only [execE, redeemAndLendE, redeemE, bind_ok_iff, pure_ok_iff, Prod.exists, Prod.mk.injEq] at h
    obtain ⟨_, _, s1, e1, ⟨_, _, _, _, _, rfl⟩, _, _, _, rfl⟩ := h
    simp
  | auctionFailed para =>
    left
    simp only [execE, askBackE, doWithdrawE, bind_ok_iff, pure_ok_iff, Prod.exists, Prod.mk.injEq] at h
    obtain ⟨_, _, _, _, _, _, _, ⟨_, _, _, rfl⟩, _, rfl⟩ := h
    simp
  | slotExpired para =>
    left
    simp only [execE, askBackE, doWithdrawE, bind_ok_iff, pure_ok_iff, Prod.exists, Prod.mk.injEq] at h
    obtain ⟨_, _, _, _, _, _, _, ⟨_, _, _, rfl⟩, _, rfl⟩ := h
    simp
  | _ =>
    left
    simp only [execE, createVaultE, updateVaultE, movePhaseE, claimE, withdrawE, redeemE, refundE, dissolveE, refundForE,
      updateBonusE, bind_ok_iff, pure_ok_iff, Prod.exists, Prod.mk.injEq, Except.ok.injEq] at h
    rintro rfl
    simp at h

/-! ## What the events do not tell -/

/-- The full claim: an account whose relay tokens change is named by an event. -/
def Told.names (w : Nat) : Told → Prop
  | .doContributing _ u _ _ => w = u
  | .contributed _ u _ _ => w = u
  | .claimed _ _ u _ _ => w = u
  | .withdrew _ u _ _ => w = u
  | .redeemed _ _ u _ _ => w = u
  | .refunded _ u _ _ => w = u
  | _ => False

def C238_named_statement : Prop := ∀ (c : Cfg) (D : Nat → Prop) (s s' : State) (x : Call) (es : List Told) (w : Nat),
  CfgOK c D → Reach c D s → execE c s x = .ok (s', es) → w ≠ c.acct → w ≠ c.xcmAcct →
  s'.tok.bal c.relay w ≠ s.tok.bal c.relay w → ∃ e ∈ es, e.names w

/-- The full claim for contributions: each is announced. -/
def C238_paid_statement : Prop := ∀ (c : Cfg) (D : Nat → Prop) (s s' : State) (who para m code : Nat) (es : List Told),
  CfgOK c D → Reach c D s → execE c s (.contribute who para m code) = .ok (s', es) → es ≠ []

/-- The full claim for claims: the phase in the event is the phase of the vault. -/
def C238_phase_statement : Prop := ∀ (c : Cfg) (D : Nat → Prop) (s s' : State) (x : Call) (es : List Told) (k : Key)
  (ct w m : Nat) (ph : Phase) (v : Vault), CfgOK c D → Reach c D s → execE c s x = .ok (s', es) →
  Told.claimed k ct w m ph ∈ es → s.vaults k = some v → v.phase = ph

/-- Vault 2000 exists. -/
def ex8 : State := runAll exC ex0 [.createVault exK 50 false 1000 100]

theorem ex8_reach : Reach exC exD ex8 := by
  apply runAll_reach (Reach.init ex0_genesis)
  intro x hx
  rw [List.mem_singleton.mp hx]
  simp [callOK, exD]

theorem ex7_reach : Reach exC exD ex7 := by
  apply runAll_reach (Reach.init ex0_genesis)
  intro x hx
  simp only [exCalls7, List.mem_cons, List.not_mem_nil, or_false] at hx
  rcases hx with rfl | rfl | rfl | rfl | rfl | rfl | rfl <;> simp [callOK, exC, exD]

/-- **C238 (refuted).** A refund names nobody it pays, a contribution to a pending vault deposits no event, and a forced
claim announces the phase `Succeeded` of a vault that is closed. -/
theorem C238_refuted : ¬ C238_named_statement ∧ ¬ C238_paid_statement ∧ ¬ C238_phase_statement := by
  refine ⟨?_, ?_, ?_⟩
  · intro h
    have h1 : okAnd (execE exC ex7 (.refund exK)) (fun p => p.1.tok.bal 1 7 != ex7.tok.bal 1 7 &&
        p.2.all (fun e => match e with | .partRefunded _ => true | _ => false)) = true := by decide +kernel
    obtain ⟨⟨s', es⟩, he, h2⟩ := okAnd_iff.mp h1
    rw [Bool.and_eq_true] at h2
    obtain ⟨e, hm, hn⟩ := h exC exD ex7 s' (.refund exK) es 7 exC_ok ex7_reach he (by decide) (by decide)
      (bne_iff_ne.mp h2.1)
    have := List.all_eq_true.mp h2.2 e hm
    cases e <;> first | exact hn | cases this
  · intro h
    have h1 : okAnd (execE exC ex8 (.contribute 7 2000 100 0)) (fun p => p.2.isEmpty && p.1.tok.bal 1 7 == 900) = true := by
      decide +kernel
    obtain ⟨⟨s', es⟩, he, h2⟩ := okAnd_iff.mp h1
    rw [Bool.and_eq_true] at h2
    exact h exC exD ex8 s' 7 2000 100 0 es exC_ok ex8_reach he (List.isEmpty_iff.mp h2.1)
  · intro h
    have h1 : okAnd (execE exC ex7 (.forceClaim 7 exK)) (fun p => p.2.any (fun e => match e with
        | .claimed k ct w m ph => decide (k = exK ∧ ct = 50 ∧ w = 7 ∧ m = 100 ∧ ph = .succeeded) | _ => false)) = true := by
      decide +kernel
    obtain ⟨⟨s', es⟩, he, h2⟩ := okAnd_iff.mp h1
    obtain ⟨e, hm, h3⟩ := List.any_eq_true.mp h2
    have hv : ex7.vaults exK = some ⟨50, .closed, 100, 50, 200, false, 1000, 100, 0⟩ := by decide +kernel
    cases e with
    | claimed k ct w m ph =>
      obtain ⟨rfl, rfl, rfl, rfl, rfl⟩ := of_decide_eq_true h3
      have := h exC exD ex7 s' _ es _ _ _ _ _ _ exC_ok ex7_reach he hm hv
      cases this
    | _ => cases h3

/-! ## A concrete history -/

/-- Run a list of calls and collect the events. -/
def tell (c : Cfg) (p : State × List Told) (xs : List Call) : State × List Told :=
  xs.foldl (fun p x => match execE c p.1 x with
    | .ok (s', es) => (s', p.2 ++ es)
    | .error _ => p) p

theorem tell_heard {s0 : State} (xs : List Call) {p : State × List Told} (h : Heard c D s0 p.1 p.2) :
    Heard c D s0 (tell c p xs).1 (tell c p xs).2 := by
  induction xs generalizing p with
  | nil => exact h
  | cons x xs ih =>
    refine ih ?_
    dsimp only
    cases he : execE c p.1 x with
    | error e => exact h
    | ok q => exact Heard.call h he

/-- The claims are about something: over a won and expired auction the observer sees 19 events, among them two requests for
contributions and one for the withdrawal, and a claim of 100, and knows that vault 2000 has expired. -/
example : Heard exC exD ex0 (tell exC (ex0, []) exCalls2).1 (tell exC (ex0, []) exCalls2).2 ∧
    (tell exC (ex0, []) exCalls2).2.length = 19 ∧
    ((tell exC (ex0, []) exCalls2).2.filterMap Told.request) =
      [.contribute exK 7 100 0, .contribute exK2 8 100 0, .withdraw exK 100 .expired] ∧
    ((((Notes.of ex0).after (tell exC (ex0, []) exCalls2).2).vaults exK).map VNote.phase) = some .expired :=
  ⟨tell_heard exCalls2 Heard.init, by decide +kernel, by decide +kernel, by decide +kernel⟩

/-- Migration announces that contributions are left, a second round that all are sent. -/
example : okAnd (execE exC ex1 (.migratePending 2000)) (fun p => p.2.length == 2 &&
    decide (p.2.filterMap Told.request = [.contribute exK 9 300 0])) = true := by decide +kernel

end Verif.Crowdloans
