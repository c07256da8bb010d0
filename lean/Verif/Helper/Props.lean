import Verif.Helper.Spec
import Verif.Helper.Codec

/-!
# C161–C165: requests to the relay chain
-/

namespace Verif.Helper
open Verif Ledger

theorem means_calls (op : Op) : Means op op.key op.calls := by
  cases op <;> constructor

theorem means_unique {op : Op} {k : XKey} {ks : List RCall} (h : Means op k ks) : k = op.key ∧ ks = op.calls := by
  cases h <;> exact ⟨rfl, rfl⟩

/-- The state in which a request leaves the chain, before the message is sent. -/
def posted (c : Cfg) (s : State) (op : Op) (notify now : Nat) : State :=
  { s with
    ledger := { (s.ledger.setBal c.relay c.acc (s.ledger.bal c.relay c.acc - (s.fees op.key).fee)) with
      iss := upd s.ledger.iss c.relay (s.ledger.iss c.relay - (s.fees op.key).fee) }
    nextQuery := min (s.nextQuery + 1) maxU64
    queries := upd s.queries s.nextQuery (some ⟨notify, now + c.timeout⟩) }

/-- The message of a request. -/
def wire (c : Cfg) (s : State) (op : Op) : List Instr :=
  program (s.fees op.key).fee (s.fees op.key).weight (op.calls.map (RCall.enc c.net)) s.nextQuery c.refund

theorem doOp_eq (c : Cfg) (s : State) (op : Op) (notify now : Nat) :
    doOp c s op notify now =
      if (s.fees op.key).fee ≤ s.ledger.bal c.relay c.acc then
        if c.sendOk (posted c s op notify now) (wire c s op) then
          .ok ({ posted c s op notify now with sent := wire c s op :: s.sent }, s.nextQuery)
        else .error .sendFailure
      else .error .insufficientXcmFees := by
  unfold doOp umpTransact burn
  dsimp only
  by_cases h : (s.fees op.key).fee ≤ s.ledger.bal c.relay c.acc
  · rw [if_pos h, if_pos h]
    have hw : (match op.second with
        | some k => appendTransact (insertAt [.withdrawAsset (s.fees op.key).fee, .buyExecution (s.fees op.key).fee,
            .transact (s.fees op.key).weight (op.first.enc c.net), .refundSurplus,
            .depositAsset (s.fees op.key).fee c.refund] 3 (.reportError s.nextQuery)) (k.enc c.net) (s.fees op.key).weight
        | none => insertAt [.withdrawAsset (s.fees op.key).fee, .buyExecution (s.fees op.key).fee,
            .transact (s.fees op.key).weight (op.first.enc c.net), .refundSurplus,
            .depositAsset (s.fees op.key).fee c.refund] 3 (.reportError s.nextQuery)) = wire c s op := by
      unfold wire Op.calls
      cases op.second <;> rfl
    show (do
      let s3 ← send c (posted c s op notify now) (match op.second with
        | some k => appendTransact (insertAt [.withdrawAsset (s.fees op.key).fee, .buyExecution (s.fees op.key).fee,
            .transact (s.fees op.key).weight (op.first.enc c.net), .refundSurplus,
            .depositAsset (s.fees op.key).fee c.refund] 3 (.reportError s.nextQuery)) (k.enc c.net) (s.fees op.key).weight
        | none => insertAt [.withdrawAsset (s.fees op.key).fee, .buyExecution (s.fees op.key).fee,
            .transact (s.fees op.key).weight (op.first.enc c.net), .refundSurplus,
            .depositAsset (s.fees op.key).fee c.refund] 3 (.reportError s.nextQuery))
      pure (s3, s.nextQuery)) = _
    rw [hw]
    unfold send
    by_cases hs : c.sendOk (posted c s op notify now) (wire c s op) = true
    · rw [if_pos hs, if_pos hs]
      rfl
    · rw [if_neg hs, if_neg hs]
      rfl
  · rw [if_neg h, if_neg h]
    rfl

/-! ### C161 -/

/-- **C161.** A request is accepted exactly if the fee set for it is in the helper account and the message can
be sent; then exactly the fee is burnt from that account, and one message is sent, which withdraws the fee, pays
with it, makes the calls meant, in order, reports to a fresh query registered with the callback and the
deadline, and returns the rest of the fee. -/
theorem C161_request (c : Cfg) (s s' : State) (op : Op) (k : XKey) (ks : List RCall) (notify now q : Nat) (hm : Means op k ks) :
    doOp c s op notify now = .ok (s', q) ↔
      (s.fees k).fee ≤ s.ledger.bal c.relay c.acc ∧ q = s.nextQuery ∧
      ∃ m s1, c.sendOk s1 m = true ∧ s' = { s1 with sent := m :: s.sent } ∧
        m = program (s.fees k).fee (s.fees k).weight (ks.map (RCall.enc c.net)) q c.refund ∧
        s1.sent = s.sent ∧ s1.fees = s.fees ∧ s1.nextQuery = min (q + 1) maxU64 ∧
        s1.queries = upd s.queries q (some ⟨notify, now + c.timeout⟩) ∧
        s1.ledger.bal = (s.ledger.setBal c.relay c.acc (s.ledger.bal c.relay c.acc - (s.fees k).fee)).bal ∧
        s1.ledger.iss = upd s.ledger.iss c.relay (s.ledger.iss c.relay - (s.fees k).fee) := by
  obtain ⟨rfl, rfl⟩ := means_unique hm
  rw [doOp_eq]
  constructor
  · intro h
    split at h
    · rename_i hf
      split at h
      · rename_i hs
        cases h
        exact ⟨hf, rfl, wire c s op, posted c s op notify now, hs, rfl, rfl, rfl, rfl, rfl, rfl, rfl, rfl⟩
      · cases h
    · cases h
  · rintro ⟨hf, rfl, m, s1, hs, rfl, rfl, h1, h2, h3, h4, h5, h6⟩
    have hp : s1 = posted c s op notify now := by
      rcases s1 with ⟨⟨b, i⟩, f, nq, qs, st⟩
      subst h1 h2 h3 h4 h5 h6
      rfl
    subst hp
    rw [if_pos hf]
    exact if_pos hs

/-- **C161, refusals.** A refused request was refused for want of fees or because the message could not be
sent. -/
theorem C161_refused (c : Cfg) (s : State) (op : Op) (notify now : Nat) (e : Err) :
    doOp c s op notify now = .error e ↔
      ((s.ledger.bal c.relay c.acc < (s.fees op.key).fee ∧ e = .insufficientXcmFees) ∨
       ((s.fees op.key).fee ≤ s.ledger.bal c.relay c.acc ∧
         c.sendOk (posted c s op notify now) (wire c s op) = false ∧ e = .sendFailure)) := by
  rw [doOp_eq]
  constructor
  · intro h
    split at h
    · rename_i hf
      split at h
      · cases h
      · rename_i hs
        cases h
        exact Or.inr ⟨hf, by simpa using hs, rfl⟩
    · rename_i hf
      cases h
      exact Or.inl ⟨by omega, rfl⟩
  · rintro (⟨h, rfl⟩ | ⟨h, h2, rfl⟩)
    · exact if_neg (by omega)
    · rw [if_pos h]
      exact if_neg (by rw [h2]; decide)

theorem ledger_mk {l : Ledger} {b : Nat → Nat → Nat} {i : Nat → Nat} (hb : l.bal = b) (hi : l.iss = i) : l = ⟨b, i⟩ := by
  subst hb hi
  rfl

/-- One step keeps the sum of issuance and fees withdrawn. -/
theorem step_issuance {c : Cfg} {s s' : State} (hw : s.ledger.WF) (h : Step c s s') :
    s'.ledger.WF ∧ s'.ledger.iss c.relay + withdrawn s'.sent = s.ledger.iss c.relay + withdrawn s.sent ∧
      ∀ a, a ≠ c.relay → s'.ledger.iss a = s.ledger.iss a := by
  cases h with
  | @op o notify now q h =>
    obtain ⟨hf, -, m, s1, -, rfl, rfl, -, -, -, -, hb, hi⟩ := (C161_request c s s' o _ _ notify now q (means_calls o)).1 h
    have hbi := bal_le_iss hw c.relay c.acc
    obtain ⟨l, hl⟩ := burn_succeeds hf
    have e : s1.ledger = l := by
      have := hl
      unfold burn at this
      rw [if_pos hf] at this
      cases this
      exact ledger_mk hb hi
    have hwl := burn_wf hl hw
    refine ⟨by show s1.ledger.WF; rw [e]; exact hwl, ?_, fun a ha => ?_⟩
    · show s1.ledger.iss c.relay + ((s.fees o.key).fee + withdrawn s.sent) = _
      rw [hi, upd_same]
      omega
    · show s1.ledger.iss a = _
      rw [hi, upd_of_ne _ _ ha]
  | @fee k v h =>
    unfold updateFee at h
    simp only [bind_ok_iff, ensure_ok_iff, pure_ok_iff, exists_const] at h
    obtain ⟨-, -, rfl⟩ := h
    exact ⟨hw, rfl, fun _ _ => rfl⟩
  | @add p n h =>
    unfold addFees at h
    simp only [bind_ok_iff, pure_ok_iff] at h
    obtain ⟨l, hl, rfl⟩ := h
    exact ⟨transfer_wf hl hw, by show l.iss _ + _ = _; rw [transfer_iss hl], fun a _ => by show l.iss a = _; rw [transfer_iss hl]⟩

/-- **C161, histories.** Whatever requests are made, the parachain's issuance of the relay token falls by exactly
what the messages withdraw on the relay chain for fees; no other issuance changes. -/
theorem C161_history (c : Cfg) (s s' : State) (hw : s.ledger.WF) (h : Steps c s s') :
    s'.ledger.WF ∧ s'.ledger.iss c.relay + withdrawn s'.sent = s.ledger.iss c.relay + withdrawn s.sent ∧
      ∀ a, a ≠ c.relay → s'.ledger.iss a = s.ledger.iss a := by
  induction h with
  | refl => exact ⟨hw, rfl, fun _ _ => rfl⟩
  | step _ hs ih =>
    obtain ⟨h1, h2, h3⟩ := ih
    obtain ⟨g1, g2, g3⟩ := step_issuance h1 hs
    exact ⟨g1, by omega, fun a ha => (g3 a ha).trans (h3 a ha)⟩

theorem reportsTo_program (fee : Nat) (w : Weight) (calls : List (List Nat)) (q b : Nat) :
    reportsTo (program fee w calls q b) = [q] := by
  unfold program
  simp only [List.cons_append, List.nil_append, reportsTo]
  induction calls with
  | nil => rfl
  | cons k ks ih => exact ih

/-- **C161, queries.** As long as the 64-bit counter has not run out, every message reports to exactly one
query, and no two messages to the same one. -/
theorem C161_queries (c : Cfg) (s : State) (h : Reach c s) (hq : s.nextQuery < maxU64) :
    (∀ m ∈ s.sent, ∃ q, q < s.nextQuery ∧ reportsTo m = [q]) ∧ (s.sent.flatMap reportsTo).Nodup := by
  induction h with
  | init h _ =>
    rw [h]
    exact ⟨by simp, by simp⟩
  | @step s s' h hs ih =>
    cases hs with
    | @op o notify now q h =>
      obtain ⟨-, rfl, m, s1, -, rfl, rfl, -, -, hn, -⟩ := (C161_request c s s' o _ _ notify now q (means_calls o)).1 h
      have hn' : s1.nextQuery = min (s.nextQuery + 1) maxU64 := hn
      have hq' : s1.nextQuery < maxU64 := hq
      obtain ⟨i1, i2⟩ := ih (by omega)
      constructor
      · intro m hm
        rcases List.mem_cons.1 hm with rfl | hm
        · exact ⟨s.nextQuery, by show _ < s1.nextQuery; omega, reportsTo_program _ _ _ _ _⟩
        · obtain ⟨p, hp, e⟩ := i1 m hm
          exact ⟨p, by show _ < s1.nextQuery; omega, e⟩
      · simp only [List.flatMap_cons, reportsTo_program, List.cons_append, List.nil_append, List.nodup_cons]
        refine ⟨?_, i2⟩
        intro hm
        obtain ⟨m, hm, hx⟩ := List.mem_flatMap.1 hm
        obtain ⟨p, hp, e⟩ := i1 m hm
        rw [e, List.mem_singleton] at hx
        omega
    | @fee k v h =>
      unfold updateFee at h
      simp only [bind_ok_iff, ensure_ok_iff, pure_ok_iff, exists_const] at h
      obtain ⟨-, -, rfl⟩ := h
      exact ih hq
    | @add p n h =>
      unfold addFees at h
      simp only [bind_ok_iff, pure_ok_iff] at h
      obtain ⟨l, hl, rfl⟩ := h
      exact ih hq
  | env _ he ih =>
    obtain ⟨-, h2, h3⟩ := he
    rw [h2]
    obtain ⟨i1, i2⟩ := ih (by omega)
    exact ⟨fun m hm => (i1 m hm).imp fun q hq => ⟨by omega, hq.2⟩, i2⟩

/-! ### C162 -/

/-- **C162.** At any time every request has a non-zero fee and a non-zero weight: those of the last setting, or
at the start 15·10⁹ for a weight of 20·10⁹ and 64 KiB. -/
theorem C162_fees (c : Cfg) (s : State) (h : Reach c s) (k : XKey) :
    (s.fees k).fee ≠ 0 ∧ (s.fees k).weight ≠ ⟨0, 0⟩ := by
  induction h with
  | init _ h =>
    rw [h]
    exact (by decide : defaultFee.fee ≠ 0 ∧ defaultFee.weight ≠ ⟨0, 0⟩)
  | step _ hs ih =>
    cases hs with
    | @op o notify now q h =>
      obtain ⟨-, -, m, s1, -, rfl, -, -, hf, -⟩ := (C161_request c _ _ o _ _ notify now q (means_calls o)).1 h
      show (s1.fees k).fee ≠ 0 ∧ _
      rw [hf]
      exact ih
    | @fee k' v h =>
      unfold updateFee at h
      simp only [bind_ok_iff, ensure_ok_iff, pure_ok_iff, exists_const] at h
      obtain ⟨h1, h2, rfl⟩ := h
      show (upd _ k' v k).fee ≠ 0 ∧ (upd _ k' v k).weight ≠ _
      by_cases e : k = k'
      · subst e
        rw [upd_same]
        exact ⟨h1, h2⟩
      · rw [upd_of_ne _ _ e]
        exact ih
    | @add p n h =>
      unfold addFees at h
      simp only [bind_ok_iff, pure_ok_iff] at h
      obtain ⟨l, hl, rfl⟩ := h
      exact ih
  | env _ he ih =>
    rw [he.1]
    exact ih

/-- **C162, settings.** A setting is accepted exactly if neither its fee nor its weight is zero; it changes the
entry of that request and nothing else. -/
theorem C162_setting (s s' : State) (k : XKey) (v : WeightFee) :
    updateFee s k v = .ok s' ↔
      v.fee ≠ 0 ∧ (v.weight.time ≠ 0 ∨ v.weight.proof ≠ 0) ∧ s' = { s with fees := upd s.fees k v } := by
  unfold updateFee
  simp only [bind_ok_iff, ensure_ok_iff, pure_ok_iff, exists_const]
  have : v.weight ≠ ⟨0, 0⟩ ↔ v.weight.time ≠ 0 ∨ v.weight.proof ≠ 0 := by
    rcases v with ⟨⟨t, p⟩, f⟩
    simp only [ne_eq, Weight.mk.injEq, not_and]
    tauto
  rw [this]
  constructor
  · rintro ⟨a, b, rfl⟩
    exact ⟨a, b, rfl⟩
  · rintro ⟨a, b, rfl⟩
    exact ⟨a, b, rfl⟩

/-- **C162, start.** Where nothing was set, a request costs 15·10⁹ for 20·10⁹ of time and 64 KiB of proof. -/
theorem C162_default : defaultFee = ⟨⟨20000000000, 65536⟩, 15000000000⟩ := rfl

/-! ### Examples -/

/-- A chain where messages can always be sent. -/
def exCfg : Cfg := ⟨.polkadot, 101, 7, 8, 1000, fun _ _ => true⟩

@[irreducible] def exL : Ledger := Ledger.ofList [(101, 7, 40000000000), (101, 9, 5)]

/-- 40·10⁹ in the helper account, nothing set. -/
def exS : State := ⟨exL, fun _ => defaultFee, 3, fun _ => none, []⟩

theorem exS_reach : Reach exCfg exS := .init rfl rfl

/-- C161: staking is asked for twice; 30·10⁹ are burnt, a third request is refused. -/
def exRun : R (State × Nat) := do
  let (s, _) ← doOp exCfg exS (.bond 1000 .staked 77 5) 1 10
  doOp exCfg s (.unbond 400 5) 2 11

theorem exRun_ok : okAnd exRun (fun p => decide (p.1.ledger.bal 101 7 = 10000000000) &&
    decide (withdrawn p.1.sent = 30000000000) && decide (p.2 = 4) && decide (p.1.sent.flatMap reportsTo = [4, 3]) &&
    errIs (doOp exCfg p.1 (.rebond 1 5) 2 11) .insufficientXcmFees) = true := by
  decide +kernel

/-- C161: the message of the first request, byte for byte. -/
example : okAnd (doOp exCfg exS (.withdrawUnbonded 2 77 5) 1 10) (fun p => decide (p.1.sent =
    [[.withdrawAsset 15000000000, .buyExecution 15000000000,
      .transact ⟨20000000000, 65536⟩ [26, 1, 5, 0, 7, 3, 2, 0, 0, 0],
      .transact ⟨20000000000, 65536⟩ ([26, 1, 5, 0, 5, 4, 0, 77] ++ List.replicate 31 0 ++ [1]),
      .reportError 3, .refundSurplus, .depositAsset 15000000000 8]])) = true := by
  decide +kernel

example : exS.ledger.WF := by
  show exL.WF
  unfold exL
  exact ofList_wf _

/-- C162: settings are accepted and refused. -/
example : okAnd (updateFee exS .bond ⟨⟨1, 0⟩, 9⟩) (fun s => decide ((s.fees .bond).fee = 9)) = true ∧
    errIs (updateFee exS .bond ⟨⟨1, 0⟩, 0⟩) (.other 1) = true ∧
    errIs (updateFee exS .bond ⟨⟨0, 0⟩, 9⟩) (.other 2) = true := by
  decide +kernel

/-- **C161, paying fees in.** Anyone can pay fees in, up to and including everything they have; what leaves the payer
arrives in the helper's account, and nothing else changes. -/
theorem C161_pay_in (c : Cfg) (s : State) (payer amount : Nat) :
    ((∃ s', addFees c s payer amount = .ok s') ↔ amount ≤ s.ledger.bal c.relay payer) ∧
    (∀ s', addFees c s payer amount = .ok s' → s' = { s with ledger := s'.ledger } ∧ s'.ledger.iss = s.ledger.iss ∧
      ∀ a w, s'.ledger.bal a w + (if a = c.relay ∧ w = payer then amount else 0) =
        s.ledger.bal a w + (if a = c.relay ∧ w = c.acc then amount else 0)) := by
  unfold addFees
  refine ⟨⟨?_, ?_⟩, ?_⟩
  · rintro ⟨s', h⟩
    simp only [bind_ok_iff] at h
    obtain ⟨l, hl, _⟩ := h
    exact Ledger.transfer_le hl
  · intro h
    obtain ⟨l, hl⟩ := Ledger.transfer_succeeds (l := s.ledger) (a := c.relay) (s := payer) (d := c.acc) (k := false) h
      (fun e => by cases e)
    rw [hl]
    exact ⟨_, rfl⟩
  · intro s' h
    simp only [bind_ok_iff, pure_ok_iff] at h
    obtain ⟨l, hl, rfl⟩ := h
    exact ⟨rfl, Ledger.transfer_iss hl, fun a w => Ledger.transfer_bal hl a w⟩

end Verif.Helper
