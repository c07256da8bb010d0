import Verif.Loans.Panic
import Verif.Staking.Fixture

set_option linter.unusedSimpArgs false
set_option linter.unusedVariables false

/-! # Liquid staking: which calls can panic (C226, C227, C228) -/

namespace Verif.Staking
open Verif

variable {c : Cfg} {s s' : State}

@[np_simps] theorem np_eraAdd {a b : Nat} : NoPanic (eraAdd a b) ↔ a + b ≤ maxU32 := by
  unfold eraAdd; np; exact ⟨fun h => by by_contra hn; exact h hn, fun h hn => hn h⟩
@[np_simps] theorem np_free {h : Half} : NoPanic h.free ↔ True := by unfold Half.free; np
@[np_simps] theorem np_matching {p : Pool} {u : Nat} : NoPanic (p.matching u) ↔ True := by unfold Pool.matching; np
@[np_simps] theorem np_halfAdd {h : Half} {m : Nat} : NoPanic (h.add m) ↔ True := by unfold Half.add; np
@[np_simps] theorem np_halfSub {h : Half} {m : Nat} : NoPanic (h.sub m) ↔ True := by unfold Half.sub; np
@[np_simps] theorem np_lock {h : Half} {m : Nat} : NoPanic (h.lock m) ↔ True := by unfold Half.lock; np
@[np_simps] theorem np_unlock {h : Half} {m : Nat} : NoPanic (h.unlock m) ↔ True := by unfold Half.unlock; np
@[np_simps] theorem np_clear {p : Pool} : NoPanic p.clear ↔ True := by unfold Pool.clear; np
@[np_simps] theorem np_consStake {p : Pool} {m : Nat} : NoPanic (p.consolidateStake m) ↔ True := by
  unfold Pool.consolidateStake; np
@[np_simps] theorem np_consUnstake {p : Pool} {m : Nat} : NoPanic (p.consolidateUnstake m) ↔ True := by
  unfold Pool.consolidateUnstake; np
@[np_simps] theorem np_toLiquid {r m : Nat} : NoPanic (toLiquid r m) ↔ True := by unfold toLiquid; np
@[np_simps] theorem np_toStaking {r m : Nat} : NoPanic (toStaking r m) ↔ True := by unfold toStaking; np
@[np_simps] theorem np_marketCap {m : Nat} : NoPanic (ensureMarketCap c s m) ↔ True := by unfold ensureMarketCap; np
@[np_simps] theorem np_ledgerCap {i m : Nat} : NoPanic (ensureLedgerCap s i m) ↔ True := by unfold ensureLedgerCap; np
@[np_simps] theorem np_stake {w m : Nat} : NoPanic (stake c s w m) ↔ True := by unfold stake; np
@[np_simps] theorem np_collFactor {a : Nat} : NoPanic (collFactor s a) ↔ True := by
  refine iff_true_intro ?_
  unfold collFactor
  np
  intro m _
  cases m.model <;> dsimp only <;> np
@[np_simps] theorem np_settleFast {w q : Nat} : NoPanic (settleFast c s w q) ↔ True := by
  unfold settleFast; dsimp only; np
@[np_simps] theorem np_trySettle {w q : Nat} : NoPanic (trySettle c s w q) ↔ True := by unfold trySettle; np
@[np_simps] theorem np_fastMatchOf {w q : Nat} : NoPanic (fastMatchOf c s w q) ↔ True := by unfold fastMatchOf; np
@[np_simps] theorem np_fastMatch {w : Nat} : NoPanic (fastMatch c s w) ↔ True := by
  unfold fastMatch; cases s.fast w <;> dsimp only <;> np
theorem np_fastMatchAll : ∀ (ws : List Nat) (s : State), NoPanic (fastMatchAll c s ws)
  | [], _ => by unfold fastMatchAll; np
  | w :: ws, s => by
    unfold fastMatchAll
    np
    exact fun _ _ => np_fastMatchAll ws _
@[np_simps] theorem np_send {r : Req} : NoPanic (send c s r) ↔ True := by
  unfold send
  np
  cases s.tok.burn c.staking c.xcmAcct (s.fee r.kind) <;> dsimp only <;> np
@[np_simps] theorem np_doBondExtra {i m : Nat} : NoPanic (doBondExtra c s i m) ↔ True := by unfold doBondExtra; np
@[np_simps] theorem np_doBond {i m : Nat} : NoPanic (doBond c s i m) ↔ True := by unfold doBond; np
@[np_simps] theorem np_doUnbond {i m : Nat} : NoPanic (doUnbond c s i m) ↔ True := by unfold doUnbond; np
@[np_simps] theorem np_doRebond {i m : Nat} : NoPanic (doRebond c s i m) ↔ True := by unfold doRebond; np
@[np_simps] theorem np_doWithdraw {i : Nat} : NoPanic (doWithdraw c s i) ↔ True := by unfold doWithdraw; np
@[np_simps] theorem np_doNominate {i : Nat} : NoPanic (doNominate c s i) ↔ True := by unfold doNominate; np
theorem np_forEach {α : Type} {f : State → α → R State} (hf : ∀ s x, NoPanic (f s x)) : ∀ (l : List α) (s : State),
    NoPanic (forEach f s l)
  | [], _ => by unfold forEach; np
  | x :: xs, s => by
    unfold forEach
    np
    exact ⟨hf s x, fun _ _ => np_forEach hf xs _⟩
@[np_simps] theorem np_multiBond {m : Nat} : NoPanic (multiBond c s m) ↔ True := by
  refine iff_true_intro ?_
  unfold multiBond; np; exact fun _ => np_forEach (fun _ _ => by np) _ _
@[np_simps] theorem np_multiUnbond {m : Nat} : NoPanic (multiUnbond c s m) ↔ True := by
  refine iff_true_intro ?_
  unfold multiUnbond; np; exact fun _ => np_forEach (fun _ _ => by np) _ _
@[np_simps] theorem np_multiRebond {m : Nat} : NoPanic (multiRebond c s m) ↔ True := by
  refine iff_true_intro ?_
  unfold multiRebond; np; exact fun _ => np_forEach (fun _ _ => by np) _ _
@[np_simps] theorem np_multiWithdraw : NoPanic (multiWithdraw c s) ↔ True := by
  refine iff_true_intro ?_
  unfold multiWithdraw; exact np_forEach (fun _ _ => by np) _ _
@[np_simps] theorem np_doMatching : NoPanic (doMatching c s) ↔ True := by unfold doMatching; np
@[np_simps] theorem np_newRate : NoPanic (newRate c s) ↔ True := by unfold newRate; np
@[np_simps] theorem np_inflate {r : Nat} : NoPanic (inflate c s r) ↔ True := by unfold inflate; dsimp only; np

/-! ### Unstaking and claiming -/

/-- What must be representable for the calls of users: the era numbers, the collateral factor of the lending market through
which instant unstaking goes, and the sum an account can claim; loans of the staking currency are the liquidation-free ones. -/
structure Room (c : Cfg) (s : State) : Prop where
  era : s.era + c.bonding + 1 ≤ maxU32
  cf : ∀ m, s.lo.markets c.collateral = some m → m.cf ≠ 0
  due : ∀ w xs, s.unlockings w = some xs → (xs.map Chunk.value).sum ≤ maxU128
  keyed : Loans.Keyed s.lo
  lf : c.staking = c.lo.lfAsset

theorem np_targetEra (h : s.era + c.bonding + 1 ≤ maxU32) : NoPanic (targetEra c s) := by
  unfold targetEra
  np
  refine ⟨by omega, fun e he => ?_⟩
  rw [eraAdd_ok_iff] at he
  omega

theorem np_sumDue {e : Nat} : ∀ {xs : List Chunk}, (xs.map Chunk.value).sum ≤ maxU128 →
    NoPanic (sumDue e xs) ∧ ∀ t, sumDue e xs = .ok t → t ≤ (xs.map Chunk.value).sum
  | [], _ => by
    unfold sumDue
    exact ⟨by np, fun t h => by cases h; exact Nat.zero_le _⟩
  | ch :: xs, h => by
    simp only [List.map_cons, List.sum_cons] at h
    obtain ⟨h1, h2⟩ := np_sumDue (e := e) (xs := xs) (by omega)
    unfold sumDue
    refine ⟨?_, ?_⟩
    · np
      refine ⟨h1, fun t ht _ => ?_⟩
      have := h2 t ht
      omega
    · intro t ht
      simp only [bind_ok_iff] at ht
      obtain ⟨t', ht', h3⟩ := ht
      have := h2 t' ht'
      simp only [List.map_cons, List.sum_cons]
      split_ifs at h3
      · rw [cadd_ok_iff] at h3
        omega
      · cases h3
        omega

theorem collFactor_val {a x : Nat} (h : collFactor s a = .ok x) : ∃ m, s.lo.markets a = some m ∧ x = m.cf := by
  unfold collFactor at h
  simp only [bind_ok_iff, Loans.market_ok] at h
  obtain ⟨m, hm, h⟩ := h
  refine ⟨m, hm, ?_⟩
  cases hr : m.model with
  | jump => rw [hr] at h; cases h; rfl
  | curve => rw [hr] at h; cases h

theorem np_instant (hlf : c.staking = c.lo.lfAsset) (hcf : ∀ m, s.lo.markets c.collateral = some m → m.cf ≠ 0) (w m : Nat) :
    NoPanic (instantUnstake c s w m) := by
  unfold instantUnstake
  np
  refine fun _ _ _ _ x hx => ⟨?_, fun _ _ _ _ _ _ => Loans.borrow_np (Or.inl hlf)⟩
  obtain ⟨mk, hm, rfl⟩ := collFactor_val hx
  exact hcf mk hm

theorem np_unstake (h : Room c s) (w q : Nat) (p : Provider) : NoPanic (unstake c s w q p) := by
  unfold unstake unstakeSlow
  np
  refine fun _ _ _ _ _ _ _ _ _ => ⟨np_targetEra h.era, ?_⟩
  intros
  unfold viaLoans
  np
  refine fun _ => np_instant h.lf ?_ _ _
  exact fun mk hmk => h.cf mk hmk

theorem np_claimLoans (h : Room c s) (m : Nat) : NoPanic (claimLoans c s m) := by
  unfold claimLoans
  np
  intro x hx d hd y hy cf hcf
  have e := Loans.accrue_again hx
  obtain ⟨mk, b, z, d', l, hmk, _, _, _, _, _, _, rfl⟩ := Loans.repay_view hy
  refine ⟨?_, fun _ _ => Loans.doRedeem_np ?_ _ _ _⟩
  · obtain ⟨mk, hm, rfl⟩ := collFactor_val hcf
    refine h.cf mk ?_
    rw [← e.2.1]
    exact hm
  · intro a ha
    show a ∈ x.ids
    rw [e.2.2.2.2.2.2.2.1]
    refine h.keyed a ?_
    rw [← e.2.1]
    exact ha

theorem np_claimFor (h : Room c s) (w : Nat) : NoPanic (claimFor c s w) := by
  unfold claimFor
  np
  refine fun xs hxs => ⟨(np_sumDue (h.due w xs (by simpa using hxs))).1, ?_⟩
  intros
  unfold payClaim
  np
  exact fun _ => np_claimLoans h _

/-! ### Responses of the relay chain -/

/-- The amounts of a ledger, what is added to it included, are representable. -/
def SLedger.Fits (l : SLedger) (m : Nat) : Prop :=
  l.total + m ≤ maxU128 ∧ l.active + m ≤ maxU128 ∧ l.active + (l.unlocking.map Chunk.value).sum ≤ maxU128

theorem np_rebondGo {v : Nat} : ∀ (xs : List Chunk) (acc active : Nat), acc < v ∨ v = 0 →
    acc + (xs.map Chunk.value).sum ≤ maxU128 → active + (xs.map Chunk.value).sum ≤ maxU128 →
    NoPanic (rebondGo v xs acc active)
  | [], _, _, _, _, _ => by unfold rebondGo; np
  | ch :: xs, acc, active, hv, h1, h2 => by
    simp only [List.map_cons, List.sum_cons] at h1 h2
    unfold rebondGo
    np
    refine ⟨by omega, fun t ht => ?_⟩
    rw [cadd_ok_iff] at ht
    refine ⟨fun hle => ⟨by omega, fun a ha hlt => ?_⟩, fun hgt => by omega⟩
    rw [cadd_ok_iff] at ha
    exact np_rebondGo xs t a (by omega) (by omega) (by omega)

theorem np_updLedger {i : Nat} {f : SLedger → R SLedger} (h : ∀ l, s.ledgers i = some l → NoPanic (f l)) :
    NoPanic (updLedger s i f) := by
  unfold updLedger
  np
  intro l hl
  exact h l (by simpa using hl)

/-- What the answer to a request needs: an unbonding is covered by the ledger's active stake, and sums are representable. -/
def Answerable (c : Cfg) (s : State) : Req → Prop
  | .unbond i m => s.era + c.bonding ≤ maxU32 ∧ ∀ l, s.ledgers i = some l → m ≤ l.active
  | .bondExtra i m => ∀ l, s.ledgers i = some l → l.Fits m
  | .rebond i m => ∀ l, s.ledgers i = some l → l.Fits 0
  | _ => True

theorem np_applyReq {r : Req} (h : Answerable c s r) : NoPanic (applyReq c s r) := by
  cases r with
  | bond => unfold applyReq; np
  | bondExtra i m =>
    unfold applyReq
    np
    refine np_updLedger fun l hl => ?_
    unfold SLedger.bondExtra
    have := h l hl
    np
    exact ⟨this.1, fun _ _ => this.2.1⟩
  | unbond i m =>
    unfold applyReq
    np
    refine ⟨h.1, fun _ _ => np_updLedger fun l hl => ?_⟩
    unfold SLedger.unbond
    np
    exact h.2 l hl
  | rebond i m =>
    unfold applyReq
    np
    refine np_updLedger fun l hl => ?_
    unfold SLedger.rebond
    have := (h l hl).2.2
    np
    have e : (l.unlocking.reverse.map Chunk.value).sum = (l.unlocking.map Chunk.value).sum := by
      rw [List.map_reverse, List.sum_reverse]
    exact np_rebondGo _ _ _ (by omega) (by rw [e]; omega) (by rw [e]; omega)
  | withdraw i =>
    unfold applyReq applyWithdraw
    np
    intros
    exact np_updLedger fun l hl => by np
  | nominate => unfold applyReq; np

theorem np_notify {q : Nat} {ok : Bool} (h : ok = true → ∀ r, findReq s.reqs q = some r → Answerable c s r) :
    NoPanic (notify c s q ok) := by
  unfold notify
  cases hr : findReq s.reqs q with
  | none => dsimp only; np
  | some r =>
    dsimp only
    np
    intro hok
    exact np_applyReq (h (by simpa using hok) r hr)

/-- Every call but the answer of the relay chain. -/
theorem exec_noPanic (h : Room c s) (k : Call) (hk : ∀ q b, k ≠ .notify q b) : NoPanic (exec c s k) := by
  cases k with
  | stake => unfold exec; np
  | unstake w q p => exact np_unstake h w q p
  | cancelUnstake => unfold exec cancelUnstake; np
  | claimFor w => exact np_claimFor h w
  | fastMatch ws => exact np_fastMatchAll ws s
  | bond => unfold exec; np
  | bondExtra => unfold exec; np
  | unbond => unfold exec; np
  | rebond => unfold exec; np
  | withdraw => unfold exec; np
  | nominate => unfold exec; np
  | notify q b => exact absurd rfl (hk q b)
  | setEraStart => unfold exec; np
  | forceEra => unfold exec; np
  | forceAdvance => unfold exec; np
  | forceMatching => unfold exec; np
  | forceLedger =>
    unfold exec forceLedger
    np
    intros
    exact np_updLedger fun _ _ => by np
  | setEra => unfold exec setEra; np
  | setLedger =>
    unfold exec setLedger
    np
    intros
    exact np_updLedger fun _ _ => by np
  | reduceReserves => unfold exec reduceReserves; np
  | reduceUReserves => unfold exec reduceUReserves; np
  | setRf => unfold exec setRf; np
  | setUrf => unfold exec setUrf; np
  | setCap => unfold exec setCap; np
  | setCommission => unfold exec setCommission; np
  | onInit => unfold exec; np
  | onFinalize => unfold exec; np

/-- The hook at the beginning of a block. -/
theorem np_initBlock : NoPanic (initBlock c s) := by
  unfold initBlock initMatching
  np

end Verif.Staking
