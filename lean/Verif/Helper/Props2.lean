import Verif.Helper.Props

/-!
# C163–C165: what the messages do on the relay chain
-/

namespace Verif.Helper
open Verif

/-! ### C165 -/

/-- **C165.** The bytes sent for a call determine the call: no two different calls have the same bytes, nor are
the bytes of one the beginning of the bytes of another. -/
theorem C165_unambiguous (n : Net) (a b : RCall) (rest : List Nat) (ha : a.Valid) (hb : b.Valid)
    (h : a.enc n ++ rest = b.enc n) : a = b ∧ rest = [] := by
  obtain ⟨e1, e2⟩ := enc_readable n a b rest [] ha hb (by rw [h, List.append_nil])
  exact ⟨e1, e2⟩

/-- **C165, reading.** So a relay chain can read every call back. -/
theorem C165_readable (n : Net) : ∃ dec : List Nat → Option RCall, ∀ k : RCall, k.Valid → dec (k.enc n) = some k := by
  classical
  refine ⟨fun b => if h : ∃ k : RCall, k.Valid ∧ k.enc n = b then some h.choose else none, fun k hk => ?_⟩
  have h : ∃ k' : RCall, k'.Valid ∧ k'.enc n = k.enc n := ⟨k, hk, rfl⟩
  show (if h : ∃ k' : RCall, k'.Valid ∧ k'.enc n = k.enc n then some h.choose else none) = some k
  rw [dif_pos h]
  have hs := h.choose_spec
  have := C165_unambiguous n h.choose k [] hs.1 hk (by rw [List.append_nil]; exact hs.2)
  rw [this.1]

/-- **C165, addresses.** The first two bytes of a call are the numbers of pallet and function in the table of the
network. -/
theorem C165_tag (n : Net) (k : RCall) : (k.enc n).take 2 = [(k.tag n).1, (k.tag n).2] := by
  obtain ⟨t, h⟩ := enc_tag n k
  rw [h]
  rfl

/-- **C165, bytes.** What is sent consists of bytes. -/
theorem C165_bytes (n : Net) (k : RCall) (h : k.Valid) : ∀ x ∈ k.enc n, x < 256 := enc_bytes n k h

theorem op_calls_valid {op : Op} (h : op.Valid) : ∀ k ∈ op.calls, k.Valid := by
  cases op <;> simp only [Op.Valid] at h <;>
    simp only [Op.calls, Op.first, Op.second, Option.toList, List.mem_cons, List.not_mem_nil, or_false,
      forall_eq_or_imp, forall_eq, RCall.Valid] <;> first | exact h | skip
  · exact ⟨h.2, h.1⟩
  · exact ⟨⟨h.2.2, h.2.1⟩, h.2.2, h.1, h.2.1⟩
  · exact ⟨⟨h.2.1, h.1⟩, h.2.2.1, h.2.1, h.1, h.2.2.2⟩
  · exact ⟨⟨h.2.1, h.1⟩, h.2.2, h.1⟩
  · exact ⟨h.2, h.1⟩
  · exact ⟨h.2, h.1⟩
  · exact ⟨⟨h.2.2, h.1⟩, h.2.2, h.2.1⟩
  · exact ⟨h.2, h.1⟩

/-! ### C163 and C164: execution -/

variable {σ : Type}

/-- The end of every message. -/
theorem exec_tail (r : Relay σ) (whole : List Instr) (v : VM σ) (q fee b : Nat) :
    exec r whole v [.reportError q, .refundSurplus, .depositAsset fee b] =
      ⟨r.give v.app b (min fee (v.holding + r.surplus)), v.holding + r.surplus - min fee (v.holding + r.surplus),
        v.error, (q, v.error) :: v.reports⟩ := rfl

/-- The calls, when all can be read and are covered by the weight. -/
theorem exec_calls (r : Relay σ) (n : Net) (hr : Reads r n) (whole rest : List Instr) (w : Weight) (ks : List RCall) :
    ∀ v : VM σ, (∀ k ∈ ks, k.Valid) → (∀ k ∈ ks, Fits r w k) →
      exec r whole v ((ks.map (RCall.enc n)).map (Instr.transact w) ++ rest) =
        exec r whole { v with app := attempts r v.app ks } rest := by
  induction ks with
  | nil =>
    intro v _ _
    rfl
  | cons k ks ih =>
    intro v hv hf
    simp only [List.map_cons, List.cons_append, exec, step, hr k (hv k (by simp))]
    rw [if_pos (show (r.weigh k).time ≤ w.time ∧ (r.weigh k).proof ≤ w.proof from hf k (by simp))]
    dsimp only
    have hi := fun v => ih v (fun k hk => hv k (by simp [hk])) (fun k hk => hf k (by simp [hk]))
    unfold attempts attempt
    cases r.disp v.app k with
    | none => exact hi v
    | some s => exact hi { v with app := s }

/-- The calls, when one cannot be carried within the weight: nothing is reported. -/
theorem exec_calls_stop (r : Relay σ) (n : Net) (hr : Reads r n) (whole rest : List Instr) (w : Weight) (ks : List RCall) :
    ∀ v : VM σ, (∀ k ∈ ks, k.Valid) → (¬ ∀ k ∈ ks, Fits r w k) →
      (exec r whole v ((ks.map (RCall.enc n)).map (Instr.transact w) ++ rest)).reports = v.reports := by
  induction ks with
  | nil =>
    intro v _ h
    exact absurd (by simp) h
  | cons k ks ih =>
    intro v hv hf
    simp only [List.map_cons, List.cons_append, exec, step, hr k (hv k (by simp))]
    by_cases hk : Fits r w k
    · rw [if_pos (show (r.weigh k).time ≤ w.time ∧ (r.weigh k).proof ≤ w.proof from hk)]
      dsimp only
      rw [ih _ (fun k hk => hv k (by simp [hk])) (fun h => hf (by
        intro k' hk'
        rcases List.mem_cons.1 hk' with rfl | hk'
        · exact hk
        · exact h k' hk'))]
      cases r.disp v.app k <;> rfl
    · rw [if_neg (show ¬ ((r.weigh k).time ≤ w.time ∧ (r.weigh k).proof ≤ w.proof) from hk)]

/-- Everything a message can do on the relay chain. -/
theorem receive_program (r : Relay σ) (n : Net) (hr : Reads r n) (s : σ) (fee : Nat) (w : Weight) (ks : List RCall)
    (hk : ∀ k ∈ ks, k.Valid) (q b : Nat) :
    let m := program fee w (ks.map (RCall.enc n)) q b
    (∃ s1, r.take s fee = some s1 ∧ r.cost m ≤ fee ∧ (∀ k ∈ ks, Fits r w k) ∧
      receive r s m = ⟨r.give (attempts r s1 ks) b (min fee (fee - r.cost m + r.surplus)),
        fee - r.cost m + r.surplus - min fee (fee - r.cost m + r.surplus), none, [(q, none)]⟩) ∨
    (¬ (∃ s1, r.take s fee = some s1 ∧ r.cost m ≤ fee ∧ ∀ k ∈ ks, Fits r w k) ∧ (receive r s m).reports = []) := by
  intro m
  have hm : m = .withdrawAsset fee :: .buyExecution fee :: ((ks.map (RCall.enc n)).map (Instr.transact w) ++
      [.reportError q, .refundSurplus, .depositAsset fee b]) := rfl
  unfold receive
  generalize hcm : exec r m = ex
  rw [hm]
  subst hcm
  cases ht : r.take s fee with
  | none =>
    refine Or.inr ⟨?_, ?_⟩
    · rintro ⟨s1, h, -⟩
      cases h
    · simp only [exec, step, ht, Option.map_none]
  | some s1 =>
    simp only [exec, step, ht, Option.map_some]
    by_cases hc : r.cost m ≤ fee
    · rw [if_pos (show r.cost m ≤ min fee (0 + fee) by omega)]
      dsimp only
      by_cases hf : ∀ k ∈ ks, Fits r w k
      · left
        refine ⟨s1, rfl, hc, hf, ?_⟩
        rw [exec_calls r n hr m _ w ks _ hk hf, exec_tail]
        simp only [Nat.zero_add]
        rfl
      · right
        refine ⟨?_, ?_⟩
        · rintro ⟨_, -, -, h⟩
          exact hf h
        · rw [exec_calls_stop r n hr m _ w ks _ hk hf]
    · rw [if_neg (show ¬ r.cost m ≤ min fee (0 + fee) by omega)]
      exact Or.inr ⟨fun ⟨_, _, h, _⟩ => hc h, rfl⟩

/-- **C163.** If the relay chain reports that a request was carried out, the calls of the request succeeded. -/
def C163_statement : Prop :=
  ∀ (σ : Type) (r : Relay σ) (c : Cfg) (s s' : State) (op : Op) (k : XKey) (ks : List RCall) (notify now q : Nat)
    (x x1 : σ) (m : List Instr), Reads r c.net → op.Valid → Means op k ks →
    doOp c s op notify now = .ok (s', q) → s'.sent = m :: s.sent → r.take x (s.fees k).fee = some x1 →
    (q, none) ∈ (receive r x m).reports → allOk r x1 ks

/-- A relay chain on which every call fails. -/
noncomputable def deadRelay (n : Net) : Relay Nat :=
  ⟨(C165_readable n).choose, fun _ => ⟨0, 0⟩, fun _ _ => none, fun s a => if a ≤ s then some (s - a) else none,
   fun s _ a => s + a, fun _ => 0, 0⟩

theorem deadRelay_reads (n : Net) : Reads (deadRelay n) n := (C165_readable n).choose_spec

/-- **C163 is false**: the report is sent by an instruction that only looks at errors of the message itself, and
a call that fails is none. -/
theorem C163_refuted : ¬ C163_statement := by
  intro h
  have hd : doOp exCfg exS (.unbond 400 5) 1 10 =
      .ok ({ posted exCfg exS (.unbond 400 5) 1 10 with sent := [wire exCfg exS (.unbond 400 5)] }, 3) := by
    rw [doOp_eq]
    have hb : (exS.fees (Op.unbond 400 5).key).fee ≤ exS.ledger.bal exCfg.relay exCfg.acc := by decide +kernel
    rw [if_pos hb]
    rfl
  have hv : (Op.unbond 400 5).Valid := by
    simp only [Op.Valid]
    exact ⟨by decide, by decide⟩
  have hr := deadRelay_reads .polkadot
  have hp := receive_program (deadRelay .polkadot) .polkadot hr 15000000000 15000000000 ⟨20000000000, 65536⟩
    (Op.unbond 400 5).calls (op_calls_valid hv) 3 8
  have ht : (deadRelay .polkadot).take 15000000000 15000000000 = some 0 := rfl
  have := h Nat (deadRelay .polkadot) exCfg exS _ (.unbond 400 5) .unbond _ 1 10 3 15000000000 0 _ hr hv (.unbond 400 5) hd rfl
    ht (by
      rcases hp with ⟨s1, -, -, -, e⟩ | ⟨hn, -⟩
      · have e' : receive (deadRelay .polkadot) 15000000000 (wire exCfg exS (.unbond 400 5)) = _ := e
        rw [e']
        simp
      · refine absurd ⟨0, ht, Nat.zero_le _, ?_⟩ hn
        intro k _
        exact ⟨Nat.zero_le _, Nat.zero_le _⟩)
  obtain ⟨_, h, -⟩ := this
  cases h

/-- **C163, what holds.** A report is sent exactly if the fee could be withdrawn and covers the price of the message,
and the weight set covers every call; it is the only report, it always says that all went well, and it goes to the
query of the request. When it is sent, each call was tried once, in order, and the rest of the fee was returned. -/
theorem C163_report_partial (r : Relay σ) (c : Cfg) (s s' : State) (op : Op) (k : XKey) (ks : List RCall)
    (notify now q : Nat) (x : σ) (m : List Instr) (hr : Reads r c.net) (hv : op.Valid) (hm : Means op k ks)
    (h : doOp c s op notify now = .ok (s', q)) (hs : s'.sent = m :: s.sent) :
    (∀ p ∈ (receive r x m).reports, p = (q, none)) ∧ (receive r x m).reports.length ≤ 1 ∧
    ((q, none) ∈ (receive r x m).reports ↔ ∃ x1, r.take x (s.fees k).fee = some x1 ∧ r.cost m ≤ (s.fees k).fee ∧
      ∀ j ∈ ks, Fits r (s.fees k).weight j) ∧
    ∀ x1, (q, none) ∈ (receive r x m).reports → r.take x (s.fees k).fee = some x1 →
      (receive r x m).app = r.give (attempts r x1 ks) c.refund
        (min (s.fees k).fee ((s.fees k).fee - r.cost m + r.surplus)) := by
  obtain ⟨-, rfl, m', s1, -, rfl, rfl, -⟩ := (C161_request c s s' op k ks notify now q hm).1 h
  have e : program (s.fees k).fee (s.fees k).weight (ks.map (RCall.enc c.net)) s.nextQuery c.refund = m :=
    (List.cons.inj hs).1
  subst e
  have hk : ∀ j ∈ ks, j.Valid := by
    rw [(means_unique hm).2]
    exact op_calls_valid hv
  rcases receive_program r c.net hr x (s.fees k).fee (s.fees k).weight ks hk s.nextQuery c.refund with
    ⟨x1, ht, hc, hf, e⟩ | ⟨hn, e⟩
  · rw [e]
    refine ⟨by simp, by simp, ⟨fun _ => ⟨x1, ht, hc, hf⟩, fun _ => by simp⟩, ?_⟩
    intro x2 _ h2
    rw [ht] at h2
    cases h2
    rfl
  · rw [e]
    refine ⟨by simp, by simp, ⟨fun h => by simp at h, fun h => absurd h hn⟩, ?_⟩
    intro x2 h
    simp at h

/-- **C163, failures are never told.** No message ever makes the relay chain report a failure. -/
theorem C163_never_failure (r : Relay σ) (c : Cfg) (s s' : State) (op : Op) (notify now q : Nat) (x : σ)
    (m : List Instr) (hr : Reads r c.net) (hv : op.Valid) (h : doOp c s op notify now = .ok (s', q))
    (hs : s'.sent = m :: s.sent) (p e : Nat) : (p, some e) ∉ (receive r x m).reports := by
  intro hp
  have := (C163_report_partial r c s s' op _ _ notify now q x m hr hv (means_calls op) h hs).1 _ hp
  cases this

/-- **C164.** A request with two calls is carried out entirely or not at all. -/
def C164_statement : Prop :=
  ∀ (σ : Type) (r : Relay σ) (c : Cfg) (s s' : State) (op : Op) (k : XKey) (a b : RCall) (notify now q : Nat)
    (x x1 : σ) (m : List Instr), Reads r c.net → op.Valid → Means op k [a, b] →
    doOp c s op notify now = .ok (s', q) → s'.sent = m :: s.sent → r.take x (s.fees k).fee = some x1 →
    (q, none) ∈ (receive r x m).reports →
    (∃ x2 x3, r.disp x1 a = some x2 ∧ r.disp x2 b = some x3 ∧ ∃ n, (receive r x m).app = r.give x3 c.refund n) ∨
    ∃ n, (receive r x m).app = r.give x1 c.refund n

/-- A relay chain that carries out transfers and nothing else, and counts the calls done. -/
noncomputable def transferRelay (n : Net) : Relay Nat :=
  ⟨(C165_readable n).choose, fun _ => ⟨0, 0⟩,
   fun s k => match k with
    | .transferKeepAlive _ _ => some (s + 1)
    | _ => none,
   fun s _ => some s, fun s _ _ => s, fun _ => 0, 0⟩

theorem transferRelay_reads (n : Net) : Reads (transferRelay n) n := (C165_readable n).choose_spec

/-- **C164 is false**: the two calls are separate instructions. A stake can be transferred and then not be bonded. -/
theorem C164_refuted : ¬ C164_statement := by
  intro h
  have hd : doOp exCfg exS (.bond 1000 .staked 77 5) 1 10 =
      .ok ({ posted exCfg exS (.bond 1000 .staked 77 5) 1 10 with sent := [wire exCfg exS (.bond 1000 .staked 77 5)] }, 3) := by
    rw [doOp_eq]
    have hb : (exS.fees (Op.bond 1000 .staked 77 5).key).fee ≤ exS.ledger.bal exCfg.relay exCfg.acc := by decide +kernel
    rw [if_pos hb]
    rfl
  have hv : (Op.bond 1000 .staked 77 5).Valid := by
    simp only [Op.Valid]
    exact ⟨by decide, by norm_num, by decide, fun a h => by cases h⟩
  have hr := transferRelay_reads .polkadot
  have hp := receive_program (transferRelay .polkadot) .polkadot hr 0 15000000000 ⟨20000000000, 65536⟩
    (Op.bond 1000 .staked 77 5).calls (op_calls_valid hv) 3 8
  have ht : (transferRelay .polkadot).take 0 15000000000 = some 0 := rfl
  rcases hp with ⟨s1, hs1, -, -, e⟩ | ⟨hn, -⟩
  · have e' : receive (transferRelay .polkadot) 0 (wire exCfg exS (.bond 1000 .staked 77 5)) = _ := e
    have hx : s1 = 0 := by
      rw [ht] at hs1
      cases hs1
      rfl
    subst hx
    have := h Nat (transferRelay .polkadot) exCfg exS _ (.bond 1000 .staked 77 5) .bond _ _ 1 10 3 0 0 _ hr hv
      (.bond 1000 .staked 77 5) hd rfl ht (by rw [e']; simp)
    rcases this with ⟨x2, x3, -, h2, -⟩ | ⟨n, h2⟩
    · cases h2
    · rw [e'] at h2
      have : (1 : Nat) = 0 := h2
      omega
  · refine absurd ⟨0, ht, Nat.zero_le _, ?_⟩ hn
    intro k _
    exact ⟨Nat.zero_le _, Nat.zero_le _⟩

/-- **C164, what holds.** If a report comes, both calls were tried; so the outcome is one of four: both, only the
first, only the second, none; and it is both if each call succeeds where it is made. -/
theorem C164_two_calls_partial (r : Relay σ) (c : Cfg) (s s' : State) (op : Op) (k : XKey) (a b : RCall)
    (notify now q : Nat) (x x1 : σ) (m : List Instr) (hr : Reads r c.net) (hv : op.Valid) (hm : Means op k [a, b])
    (h : doOp c s op notify now = .ok (s', q)) (hs : s'.sent = m :: s.sent)
    (ht : r.take x (s.fees k).fee = some x1) (hq : (q, none) ∈ (receive r x m).reports) :
    ∃ y n, (receive r x m).app = r.give y c.refund n ∧
      ((∃ x2, r.disp x1 a = some x2 ∧ r.disp x2 b = some y) ∨
       (r.disp x1 a = some y ∧ r.disp y b = none) ∨
       (r.disp x1 a = none ∧ r.disp x1 b = some y) ∨
       (r.disp x1 a = none ∧ r.disp x1 b = none ∧ y = x1)) := by
  have h4 := (C163_report_partial r c s s' op k [a, b] notify now q x m hr hv hm h hs).2.2.2 x1 hq ht
  refine ⟨_, _, h4, ?_⟩
  simp only [attempts, attempt]
  cases h1 : r.disp x1 a with
  | none =>
    simp only [Option.getD_none]
    cases h2 : r.disp x1 b with
    | none => simp
    | some y => simp
  | some x2 =>
    simp only [Option.getD_some]
    cases h2 : r.disp x2 b with
    | none => simp [h2]
    | some y => simp [h2]

/-- C164: a request with two calls for which a relay chain sends its report. -/
example : ∃ (k : XKey) (a b : RCall), Means (.bondExtra 9 77 5) k [a, b] ∧ (Op.bondExtra 9 77 5).Valid := by
  refine ⟨_, _, _, .bondExtra 9 77 5, ?_⟩
  simp only [Op.Valid]
  exact ⟨by decide, by norm_num, by decide⟩

/-- C165: two long calls and their bytes. -/
example : (RCall.batchAll (.cons (.bondExtra 1073741824) (.cons (.remark [1, 2]) .nil))).enc .kusama =
    [24, 2, 8, 6, 1, 3, 0, 0, 0, 64, 0, 1, 8, 1, 2] := by
  decide +kernel

end Verif.Helper
