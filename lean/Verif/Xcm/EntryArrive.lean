import Verif.Xcm.EntryProps

/-! # Entry of XCM messages: the weight of a message (C184), and transfers that arrive (C199) -/

set_option linter.unusedSimpArgs false
set_option linter.unusedVariables false

namespace Verif.Xcm
open Verif

variable {e : Env}

/-! ## C184: the weight of a message -/

mutual
/-- An instruction with all instructions nested in it (error handlers and appendices). -/
def Instr.all : Instr → List Instr
  | .setHandler is => .setHandler is :: allOf is
  | .setAppendix is => .setAppendix is :: allOf is
  | i => [i]
/-- All instructions of a message, nested ones included. -/
def allOf : List Instr → List Instr
  | [] => []
  | i :: is => i.all ++ allOf is
end

/-- The weight that a `Transact` declares for its call. -/
def declared : Instr → Weight
  | .transact _ l _ _ => l
  | _ => ⟨0, 0⟩

mutual
theorem Instr.count_eq : ∀ i : Instr, i.count = i.all.length
  | .setHandler is => by unfold Instr.count Instr.all; rw [counts_eq is, List.length_cons, Nat.add_comm]
  | .setAppendix is => by unfold Instr.count Instr.all; rw [counts_eq is, List.length_cons, Nat.add_comm]
  | .withdraw _ | .reserveDeposited _ | .teleported _ | .claim _ | .clearOrigin | .descend _ | .buy _ _ | .refundSurplus
  | .depositAsset _ _ _ | .transferAsset _ _ _ | .leave _ _ | .transact _ _ _ _ | .queryResponse _ _ | .subscribe
  | .unsubscribe | .other _ => rfl
theorem counts_eq : ∀ is : List Instr, counts is = (allOf is).length
  | [] => rfl
  | i :: is => by unfold counts allOf; rw [Instr.count_eq i, counts_eq is, List.length_append]
end

mutual
theorem Instr.weight_eq (b : Weight) : ∀ i : Instr,
    (i.weight b).rt = i.all.length * b.rt + (i.all.map (fun j => (declared j).rt)).sum ∧
    (i.weight b).ps = i.all.length * b.ps + (i.all.map (fun j => (declared j).ps)).sum
  | .setHandler is => by
    obtain ⟨h1, h2⟩ := weights_eq b is
    unfold Instr.weight Instr.all Weight.plus
    dsimp only
    rw [h1, h2]
    simp only [List.length_cons, List.map_cons, List.sum_cons, Nat.succ_mul, declared]
    omega
  | .setAppendix is => by
    obtain ⟨h1, h2⟩ := weights_eq b is
    unfold Instr.weight Instr.all Weight.plus
    dsimp only
    rw [h1, h2]
    simp only [List.length_cons, List.map_cons, List.sum_cons, Nat.succ_mul, declared]
    omega
  | .transact _ l _ _ => by
    unfold Instr.weight Instr.all Weight.plus
    simp [declared]
  | .withdraw _ | .reserveDeposited _ | .teleported _ | .claim _ | .clearOrigin | .descend _ | .buy _ _ | .refundSurplus
  | .depositAsset _ _ _ | .transferAsset _ _ _ | .leave _ _ | .queryResponse _ _ | .subscribe
  | .unsubscribe | .other _ => by
    unfold Instr.weight Instr.all
    simp [declared]
theorem weights_eq (b : Weight) : ∀ is : List Instr,
    (weights b is).rt = (allOf is).length * b.rt + ((allOf is).map (fun j => (declared j).rt)).sum ∧
    (weights b is).ps = (allOf is).length * b.ps + ((allOf is).map (fun j => (declared j).ps)).sum
  | [] => by unfold weights allOf; simp
  | i :: is => by
    obtain ⟨h1, h2⟩ := Instr.weight_eq b i
    obtain ⟨h3, h4⟩ := weights_eq b is
    unfold weights allOf Weight.plus
    dsimp only
    rw [h1, h2, h3, h4]
    simp only [List.length_append, List.map_append, List.sum_append, Nat.add_mul]
    omega
end

/-- **C184.** The weight of a message is the base weight for every instruction, nested ones included, and the weights that its
`Transact`s declare; a message of more than the permitted number of instructions, or too heavy for `u64`, is refused. -/
theorem C184_weight_sum (is : List Instr) (w : Weight) : weigh e is = some w ↔
    w.rt = (allOf is).length * e.base.rt + ((allOf is).map (fun j => (declared j).rt)).sum ∧
    w.ps = (allOf is).length * e.base.ps + ((allOf is).map (fun j => (declared j).ps)).sum ∧
    (allOf is).length ≤ e.maxInstrs ∧ w.rt ≤ maxU64 ∧ w.ps ≤ maxU64 := by
  rw [C184_weight, counts_eq]
  obtain ⟨h1, h2⟩ := weights_eq e.base is
  constructor
  · rintro ⟨rfl, h3, h4, h5⟩
    exact ⟨h1, h2, h3, h4, h5⟩
  · rintro ⟨q1, q2, q3, q4, q5⟩
    rw [← h1] at q1
    rw [← h2] at q2
    refine ⟨?_, q3, q1 ▸ q4, q2 ▸ q5⟩
    cases w
    cases hw : weights e.base is
    rw [hw] at q1 q2
    dsimp only at q1 q2
    rw [q1, q2]

/-- Three instructions, one of them with two inside, one of which declares weight (7, 2). -/
example : weigh exEnv [.clearOrigin, .setAppendix [.transact .native ⟨7, 2⟩ ⟨1, 1⟩ 5, .refundSurplus], .other true] =
    some ⟨57, 2⟩ := by decide +kernel

/-! ## C199: transfers arrive -/

/-- The fee for `k` plain instructions at `u` units per second. -/
def feeFor (e : Env) (u k : Nat) : Nat := min (u * (k * e.base.rt)) maxU128 / perSecond

/-- What a message needs that brings `m` units of the asset at location `t`, sets `b` of them aside for the fee and deposits the
rest at `dst`: the asset is registered as `x` with `u` units per second, `dst` is the account `a`, the fee is within `b` and
below `m`, the limits are not in the way. -/
structure Delivery (e : Env) (t dst : Loc) (m b x a u : Nat) (lim : Option Weight) (cap : AssetKey → Nat) : Prop where
  instrs : 4 ≤ e.maxInstrs
  heavy : 0 < e.base.rt
  weight : 4 * e.base.rt ≤ maxU64 ∧ 4 * e.base.ps ≤ maxU64
  limit : ∀ v, lim = some v → 4 * e.base.rt ≤ v.rt ∧ 4 * e.base.ps ≤ v.ps
  room : e.room 0 = true ∧ e.room 1 = true
  asset : e.typeId (canonical e.self t) = some x
  rate : e.fees.supported t = true ∧ e.fees.units t = some u
  dest : locAcct e dst = some a
  fee : feeFor e u 4 ≤ b ∧ feeFor e u 4 < m
  part : b ≤ m
  most : m ≤ maxU128
  all : m ≤ cap (.concrete t)

/-- The message. -/
def delivery (first : Instr) (t dst : Loc) (b : Nat) (lim : Option Weight) (cap : AssetKey → Nat) : List Instr :=
  [first, .clearOrigin, .buy (.concrete t, b) lim, .depositAsset cap dst true]

section
variable {t dst : Loc} {m b x a u : Nat} {lim : Option Weight} {cap : AssetKey → Nat}

/-- The purchase leaves the rest in the holding register and the fee with the trader. -/
theorem buy_delivery (h : Delivery e t dst m b x a u lim cap) (vm : Vm) (hh : vm.holding = [(.concrete t, m)])
    (htr : vm.trader = Trader.new Loc) (w : Weight) (hw : w.rt = 4 * e.base.rt) :
    ∃ tr, buyExecution e vm (.concrete t, b) (some w) =
      ({ vm with holding := [(.concrete t, m - feeFor e u 4)], trader := tr }, .ok ()) ∧
      revenue tr = if feeFor e u 4 = 0 then none else some (t, feeFor e u 4) := by
  have hfee : feeOf u w.rt = feeFor e u 4 := by unfold feeOf feeFor; rw [hw]
  obtain ⟨f1, f2⟩ := h.fee
  have hp := h.part
  have hm := h.most
  have hr := h.room
  generalize hf : feeFor e u 4 = f at *
  have htake : tryTake (.concrete t, b) vm.holding =
      some (if m = b then [] else [(.concrete t, m - b)]) := by
    rw [hh]
    unfold tryTake
    rw [if_pos rfl, if_pos hp]
  unfold buyExecution
  dsimp only
  rw [htake]
  dsimp only
  unfold buy
  dsimp only [toKey]
  rw [if_pos h.rate.1, h.rate.2]
  dsimp only
  rw [hfee]
  have sub1 : ∀ (v : Vm) (q : Nat), v.holding = [] → subsumeAll e v [(.concrete t, q)] =
      ({ v with holding := [(.concrete t, q)] }, .ok ()) := by
    intro v q hv
    unfold subsumeAll subsume
    rw [hv]
    dsimp only [List.length_nil]
    rw [if_pos hr.1]
    unfold subsumeAll addAsset
    rfl
  have sub2 : ∀ (v : Vm) (p q : Nat), v.holding = [(.concrete t, p)] → p + q ≤ maxU128 →
      subsumeAll e v [(.concrete t, q)] = ({ v with holding := [(.concrete t, p + q)] }, .ok ()) := by
    intro v p q hv hpq
    unfold subsumeAll subsume
    rw [hv]
    dsimp only [List.length_cons, List.length_nil]
    rw [if_pos hr.2]
    unfold subsumeAll addAsset
    rw [if_pos rfl]
    dsimp only
    rw [Nat.min_eq_left hpq]
  have hmap : ∀ q : Nat, List.map (fun a : Key Loc × Nat => (ofKey a.1, a.2)) [(Key.concrete t, q)] =
      [(AssetKey.concrete t, q)] := fun _ => rfl
  by_cases h0 : f = 0
  · subst h0
    rw [if_pos rfl]
    refine ⟨Trader.new Loc, ?_, rfl⟩
    dsimp only
    rw [hmap]
    by_cases hb : m = b
    · rw [if_pos hb, sub1 _ _ rfl, ← hb, htr]
      rfl
    · rw [if_neg hb, sub2 _ _ _ rfl (by omega), htr]
      have : m - b + b = m - 0 := by omega
      rw [this]
  · rw [if_neg h0]
    unfold subFirst
    rw [if_pos f1]
    dsimp only
    refine ⟨book (Trader.new Loc) w t f u, ?_, ?_⟩
    · rw [htr]
      by_cases hbf : b = f
      · rw [if_pos hbf]
        rw [List.map_nil]
        unfold subsumeAll
        rw [if_neg (by omega), hbf]
      · rw [if_neg hbf]
        rw [hmap]
        by_cases hb : m = b
        · rw [if_pos hb, sub1 _ _ rfl, ← hb]
        · rw [if_neg hb, sub2 _ _ _ rfl (by omega)]
          have : m - b + (b - f) = m - f := by omega
          rw [this]
    · rw [if_neg h0]
      rfl

theorem weights_delivery {first : Instr} (hf : first.weight e.base = e.base) :
    weights e.base (delivery first t dst b lim cap) = ⟨4 * e.base.rt, 4 * e.base.ps⟩ := by
  unfold delivery
  simp only [weights, hf, Instr.weight, Weight.plus]
  congr 1 <;> omega

/-- The message is let in and buys its weight. -/
theorem enters {first : Instr} (h : Delivery e t dst m b x a u lim cap) (hf : first.weight e.base = e.base)
    (hc : first.count = 1) (hb : BringsAssets first) {o : Loc} :
    weigh e (delivery first t dst b lim cap) = some ⟨4 * e.base.rt, 4 * e.base.ps⟩ ∧
    barrier e o (delivery first t dst b lim cap) ⟨4 * e.base.rt, 4 * e.base.ps⟩ ⟨0, 0⟩ =
      some (delivery first t dst b (some ⟨4 * e.base.rt, 4 * e.base.ps⟩) cap) := by
  constructor
  · rw [C184_weight, weights_delivery hf]
    refine ⟨rfl, ?_, h.weight⟩
    have : counts (delivery first t dst b lim cap) = 4 := by
      unfold delivery
      simp [counts, hc, Instr.count]
    rw [this]
    exact h.instrs
  · have hnc : ¬ Weight.le ⟨4 * e.base.rt, 4 * e.base.ps⟩ ⟨0, 0⟩ := by
      rintro ⟨q, -⟩
      have := h.heavy
      dsimp only at q
      omega
    unfold barrier
    rw [if_neg hnc]
    have hp : paidExecution ⟨4 * e.base.rt, 4 * e.base.ps⟩ (delivery first t dst b lim cap) =
        some (delivery first t dst b (some ⟨4 * e.base.rt, 4 * e.base.ps⟩) cap) := by
      refine (paidExecution_iff _ _ _).2 ⟨first, 1, _, lim, [.depositAsset cap dst true], rfl, hb, by omega, ?_, rfl⟩
      cases lim with
      | none => exact Or.inl rfl
      | some v => exact Or.inr ⟨v, rfl, h.limit v rfl⟩
    cases first <;> first | exact absurd hb (fun q => q) | exact hp

/-- From the moment the assets are in the holding register. -/
theorem delivered {first : Instr} (h : Delivery e t dst m b x a u lim cap) (hf : first.weight e.base = e.base)
    (hc : first.count = 1) (hb : BringsAssets first) {n : Nat} {s : Sys} {o : Loc} {l1 : Ledger} (hn : n ≠ 0)
    (hs : step e (Vm.start s.ledger s.traps o) first =
      ({ Vm.start l1 s.traps o with holding := [(.concrete t, m)] }, .ok ()))
    (hi : l1.iss x + m ≤ maxU128) :
    ∃ s', inbound e n s o (delivery first t dst b lim cap) ⟨0, 0⟩ = .ok s' ∧ s'.traps = s.traps ∧ s'.log = s.log ∧
      (∀ y z, s'.ledger.bal y z + (if t = ⟨1, []⟩ ∧ y = e.native ∧ z = e.gift then
          giftDue e.cfg l1 a x (m - feeFor e u 4) else 0) =
        l1.bal y z + (if y = x ∧ z = a then m - feeFor e u 4 else 0) + (if y = x ∧ z = e.treasury then feeFor e u 4 else 0) +
          (if t = ⟨1, []⟩ ∧ y = e.native ∧ z = a then giftDue e.cfg l1 a x (m - feeFor e u 4) else 0)) ∧
      ∀ y, s'.ledger.iss y = l1.iss y + if y = x then m else 0 := by
  obtain ⟨n, rfl⟩ := Nat.exists_eq_succ_of_ne_zero hn
  obtain ⟨e1, e2⟩ := enters h hf hc hb (o := o)
  obtain ⟨tr, b1, b2⟩ := buy_delivery h { Vm.start l1 s.traps o with holding := [(.concrete t, m)], origin := none } rfl rfl
    ⟨4 * e.base.rt, 4 * e.base.ps⟩ rfl
  have hfm := h.fee.2
  have hall := h.all
  generalize hfe : feeFor e u 4 = f at *
  have htk : taken cap [(.concrete t, m - f)] = [(.concrete t, m - f)] := by
    unfold taken
    rw [List.map_cons, List.map_nil, List.filter_cons_of_pos, List.filter_nil]
    · rw [Nat.min_eq_right (by dsimp only; omega)]
    · dsimp only
      rw [Nat.min_eq_right (by omega), decide_eq_true_eq]
      omega
  have hrm : remaining cap [(.concrete t, m - f)] = [] := by
    unfold remaining
    rw [List.map_cons, List.map_nil, List.filter_cons_of_neg, List.filter_nil]
    dsimp only
    rw [decide_eq_true_eq]
    omega
  have hnm : Names e.cfg (toMulti (.concrete t, m - f)) x (m - f) := ⟨t, rfl, rfl, h.asset⟩
  have hok : (deposit e.cfg l1 (toMulti (.concrete t, m - f)) dst).2 = .ok () :=
    C148_deposit_when.2 ⟨a, x, m - f, h.dest, hnm, by omega⟩
  obtain ⟨d1, d2⟩ := C148_deposit_what hok h.dest hnm
  cases hdep : deposit e.cfg l1 (toMulti (.concrete t, m - f)) dst with
  | mk l2 r =>
  rw [hdep] at hok d1 d2
  dsimp only at hok d1 d2
  subst hok
  have hproc : process e (Vm.start s.ledger s.traps o)
      (delivery first t dst b (some ⟨4 * e.base.rt, 4 * e.base.ps⟩) cap) =
      .ok ({ Vm.start l2 s.traps o with origin := none, trader := tr }, true) := by
    unfold delivery
    rw [process, hs]
    dsimp only
    rw [process, step]
    dsimp only
    rw [process, step, b1]
    dsimp only
    rw [process, step]
    dsimp only
    rw [htk, hrm, depositAll]
    dsimp only
    have hd' : deposit e.cfg (Vm.start l1 s.traps o).ledger (toMulti (.concrete t, m - f)) dst = (l2, .ok ()) := hdep
    rw [hd']
    rfl
  have hdr : ∃ vm, drive e (n + 1) (Vm.start s.ledger s.traps o)
      (delivery first t dst b (some ⟨4 * e.base.rt, 4 * e.base.ps⟩) cap) = .ok vm ∧
      vm = { Vm.start l2 s.traps o with origin := none, trader := tr } := by
    unfold delivery at hproc ⊢
    rw [drive, hproc]
    dsimp only
    have hap : (Vm.start l2 s.traps o).appendix = [] := rfl
    rw [hap]
    refine ⟨{ dropHandler e { Vm.start l2 s.traps o with origin := none, trader := tr } with appendix := [] }, ?_, rfl⟩
    cases n <;> rfl
  obtain ⟨vm, hdr, rfl⟩ := hdr
  have hrs : refundSurplus e { Vm.start l2 s.traps o with origin := none, trader := tr } =
      ({ Vm.start l2 s.traps o with origin := none, trader := tr }, .ok ()) := by
    unfold refundSurplus
    exact if_pos ⟨le_refl _, le_refl _⟩
  unfold inbound
  rw [e1]
  dsimp only
  rw [e2]
  dsimp only
  rw [hdr]
  dsimp only
  unfold finish
  rw [hrs]
  dsimp only
  refine ⟨_, rfl, rfl, List.append_nil _, ?_⟩
  dsimp only
  rw [b2]
  have hrel : (toMulti (AssetKey.concrete t, m - f)).id = relayAsset ↔ t = ⟨1, []⟩ := by
    unfold toMulti relayAsset
    simp
  have hcn : e.cfg.native = e.native := rfl
  have hcg : e.cfg.gift = e.gift := rfl
  have hll : (Vm.start l2 s.traps o).ledger = l2 := rfl
  rw [hll]
  simp only [hrel, hcn, hcg] at d1
  by_cases h0 : f = 0
  · subst h0
    rw [if_pos rfl]
    dsimp only
    refine ⟨fun y z => ?_, fun y => ?_⟩
    · have := d1 y z
      simp only [ite_self, Nat.add_zero] at this ⊢
      exact this
    · rw [d2 y, Nat.sub_zero]
  · rw [if_neg h0]
    dsimp only
    unfold takeRevenue
    dsimp only
    have hx : assetIdOf e.self e.typeId t = some x := h.asset
    rw [hx]
    dsimp only
    rw [if_neg h0]
    have hi2 : l2.iss x + f ≤ maxU128 := by
      rw [d2 x, if_pos rfl]
      omega
    obtain ⟨l3, hl3⟩ := Ledger.mint_succeeds (l := l2) (a := x) (w := e.treasury) (m := f) hi2
    rw [hl3]
    show (∀ y z, l3.bal y z + _ = _) ∧ ∀ y, l3.iss y = _
    refine ⟨fun y z => ?_, fun y => ?_⟩
    · have q1 := d1 y z
      have q2 := Ledger.mint_bal hl3 y z
      omega
    · rw [Ledger.mint_iss hl3 y, d2 y]
      split <;> omega

theorem step_receive {s : Sys} {o : Loc} (hr : isReserve (.concrete t) o = true) (h0 : e.room 0 = true) :
    step e (Vm.start s.ledger s.traps o) (.reserveDeposited [(.concrete t, m)]) =
      ({ Vm.start s.ledger s.traps o with holding := [(.concrete t, m)] }, .ok ()) := by
  rw [step]
  show receiveAll e o (Vm.start s.ledger s.traps o) [(.concrete t, m)] = _
  unfold receiveAll
  rw [if_pos hr]
  unfold subsume
  have hl : (Vm.start s.ledger s.traps o).holding.length = 0 := rfl
  rw [hl, if_pos h0]
  rfl

theorem step_withdraw {s : Sys} {o : Loc} {l1 : Ledger} (hw : withdraw e.cfg s.ledger (toMulti (.concrete t, m)) o = .ok l1)
    (h0 : e.room 0 = true) :
    step e (Vm.start s.ledger s.traps o) (.withdraw [(.concrete t, m)]) =
      ({ Vm.start l1 s.traps o with holding := [(.concrete t, m)] }, .ok ()) := by
  rw [step]
  show withdrawAll e o (Vm.start s.ledger s.traps o) [(.concrete t, m)] = _
  unfold withdrawAll
  have hw' : withdraw e.cfg (Vm.start s.ledger s.traps o).ledger (toMulti (.concrete t, m)) o = .ok l1 := hw
  rw [hw']
  dsimp only
  unfold subsume
  have hl : ({ Vm.start s.ledger s.traps o with ledger := l1 } : Vm).holding.length = 0 := rfl
  rw [hl, if_pos h0]
  rfl

/-- **C199.** A transfer from the reserve of an asset arrives: the beneficiary gets what was sent without the fee, the treasury gets
the fee, the supply grows by what was sent, nothing is trapped; with the relay chain's asset the beneficiary may get a gift in the
native token from the gift account. No other balance changes. -/
theorem C199_arrives (h : Delivery e t dst m b x a u lim cap) {n : Nat} {s : Sys} {o : Loc} (hn : n ≠ 0)
    (hr : isReserve (.concrete t) o = true) (hi : s.ledger.iss x + m ≤ maxU128) :
    ∃ s', inbound e n s o [.reserveDeposited [(.concrete t, m)], .clearOrigin, .buy (.concrete t, b) lim,
        .depositAsset cap dst true] ⟨0, 0⟩ = .ok s' ∧ s'.traps = s.traps ∧ s'.log = s.log ∧
      (∀ y z, s'.ledger.bal y z + (if t = ⟨1, []⟩ ∧ y = e.native ∧ z = e.gift then
          giftDue e.cfg s.ledger a x (m - feeFor e u 4) else 0) =
        s.ledger.bal y z + (if y = x ∧ z = a then m - feeFor e u 4 else 0) +
          (if y = x ∧ z = e.treasury then feeFor e u 4 else 0) +
          (if t = ⟨1, []⟩ ∧ y = e.native ∧ z = a then giftDue e.cfg s.ledger a x (m - feeFor e u 4) else 0)) ∧
      ∀ y, s'.ledger.iss y = s.ledger.iss y + if y = x then m else 0 :=
  delivered (first := .reserveDeposited [(.concrete t, m)]) h rfl rfl trivial hn (step_receive hr h.room.1) hi

/-- **C199.** A transfer of tokens that come back arrives: the sending chain's account on this chain pays what was sent, the
beneficiary gets it without the fee, the treasury gets the fee, the supply stays, nothing is trapped; with the relay chain's asset
there may be a gift. -/
theorem C199_returns (h : Delivery e t dst m b x a u lim cap) {n sv : Nat} {s : Sys} {o : Loc} (hn : n ≠ 0)
    (hs : s.ledger.WF) (hsv : locAcct e o = some sv) (hm : m ≤ s.ledger.bal x sv) (hx : t = ⟨1, []⟩ → x ≠ e.native) :
    ∃ s', inbound e n s o [.withdraw [(.concrete t, m)], .clearOrigin, .buy (.concrete t, b) lim,
        .depositAsset cap dst true] ⟨0, 0⟩ = .ok s' ∧ s'.traps = s.traps ∧ s'.log = s.log ∧
      (∀ y z, s'.ledger.bal y z + (if y = x ∧ z = sv then m else 0) + (if t = ⟨1, []⟩ ∧ y = e.native ∧ z = e.gift then
          giftDue e.cfg s.ledger a x (m - feeFor e u 4) else 0) =
        s.ledger.bal y z + (if y = x ∧ z = a then m - feeFor e u 4 else 0) +
          (if y = x ∧ z = e.treasury then feeFor e u 4 else 0) +
          (if t = ⟨1, []⟩ ∧ y = e.native ∧ z = a then giftDue e.cfg s.ledger a x (m - feeFor e u 4) else 0)) ∧
      ∀ y, s'.ledger.iss y = s.ledger.iss y := by
  have hnm : Names e.cfg (toMulti (.concrete t, m)) x m := ⟨t, rfl, rfl, h.asset⟩
  obtain ⟨l1, hl1⟩ := C148_withdraw_when.2 ⟨sv, x, m, hsv, hnm, hm⟩
  obtain ⟨w1, w2⟩ := C148_withdraw_what hl1 hsv hnm
  have hle : m ≤ s.ledger.iss x := hm.trans (Ledger.bal_le_iss hs x sv)
  have hix := w2 x
  rw [if_pos rfl] at hix
  obtain ⟨s', r1, r2, r3, r4, r5⟩ := delivered (first := .withdraw [(.concrete t, m)]) h rfl rfl trivial hn
    (step_withdraw hl1 h.room.1) (by have := (hs x).2; omega)
  refine ⟨s', r1, r2, r3, fun y z => ?_, fun y => ?_⟩
  · have q1 := r4 y z
    have q2 := w1 y z
    by_cases ht : t = ⟨1, []⟩
    · have hg : giftDue e.cfg l1 a x (m - feeFor e u 4) = giftDue e.cfg s.ledger a x (m - feeFor e u 4) := by
        have hne : e.native ≠ x := fun q => hx ht q.symm
        have e1 := w1 e.native e.gift
        have e2 := w1 e.native a
        rw [if_neg (fun q => hne q.1), Nat.add_zero] at e1 e2
        have hcn : e.cfg.native = e.native := rfl
        have hcg : e.cfg.gift = e.gift := rfl
        unfold giftDue
        rw [hcn, hcg, e1, e2]
      rw [hg] at q1
      omega
    · simp only [ht, false_and, if_false, Nat.add_zero] at q1 ⊢
      omega
  · have q1 := r5 y
    have q2 := w2 y
    by_cases hy : y = x
    · subst hy
      rw [if_pos rfl] at q1
      omega
    · rw [if_neg hy] at q1 q2
      omega

/-- The executor after a purchase that was too expensive. -/
def underpaid (e : Env) (l : Ledger) (traps : List (Loc × Assets)) (o t : Loc) (m b : Nat) : Vm :=
  ⟨l, traps, none, if m = b then [] else [(.concrete t, m - b)], Trader.new Loc, [], [], ⟨e.base.rt, e.base.ps⟩, ⟨0, 0⟩, []⟩

theorem not_delivered {n : Nat} {s : Sys} {o : Loc} {first : Instr} {l1 : Ledger} (hn : n ≠ 0)
    (hf : first.weight e.base = e.base) (hc : first.count = 1) (hb : BringsAssets first)
    (hs : step e (Vm.start s.ledger s.traps o) first =
      ({ Vm.start l1 s.traps o with holding := [(.concrete t, m)] }, .ok ()))
    (hmax : 4 ≤ e.maxInstrs) (hbase : 0 < e.base.rt) (hw : 4 * e.base.rt ≤ maxU64 ∧ 4 * e.base.ps ≤ maxU64)
    (hlim : ∀ v, lim = some v → 4 * e.base.rt ≤ v.rt ∧ 4 * e.base.ps ≤ v.ps)
    (hu : e.fees.units t = some u) (hbm : b ≤ m) (hfee : b < feeFor e u 4) :
    ∃ s', inbound e n s o [first, .clearOrigin, .buy (.concrete t, b) lim, .depositAsset cap dst true] ⟨0, 0⟩ = .ok s' ∧
      s'.ledger = l1 ∧ s'.log = s.log ∧
      s'.traps = if m = b then s.traps else (o, [(.concrete t, m - b)]) :: s.traps := by
  obtain ⟨n, rfl⟩ := Nat.exists_eq_succ_of_ne_zero hn
  have e1 : weigh e (delivery first t dst b lim cap) = some ⟨4 * e.base.rt, 4 * e.base.ps⟩ := by
    rw [C184_weight, weights_delivery hf]
    refine ⟨rfl, ?_, hw⟩
    have : counts (delivery first t dst b lim cap) = 4 := by
      unfold delivery
      simp [counts, hc, Instr.count]
    rw [this]
    exact hmax
  have e2 : barrier e o (delivery first t dst b lim cap) ⟨4 * e.base.rt, 4 * e.base.ps⟩ ⟨0, 0⟩ =
      some (delivery first t dst b (some ⟨4 * e.base.rt, 4 * e.base.ps⟩) cap) := by
    have hnc : ¬ Weight.le ⟨4 * e.base.rt, 4 * e.base.ps⟩ ⟨0, 0⟩ := by
      rintro ⟨q, -⟩
      dsimp only at q
      omega
    unfold barrier
    rw [if_neg hnc]
    have hp : paidExecution ⟨4 * e.base.rt, 4 * e.base.ps⟩ (delivery first t dst b lim cap) =
        some (delivery first t dst b (some ⟨4 * e.base.rt, 4 * e.base.ps⟩) cap) := by
      refine (paidExecution_iff _ _ _).2 ⟨first, 1, _, lim, [.depositAsset cap dst true], rfl, hb, by omega, ?_, rfl⟩
      cases lim with
      | none => exact Or.inl rfl
      | some v => exact Or.inr ⟨v, rfl, hlim v rfl⟩
    cases first <;> first | exact absurd hb (fun q => q) | exact hp
  have hbuy : buyExecution e { Vm.start l1 s.traps o with holding := [(.concrete t, m)], origin := none } (.concrete t, b)
      (some ⟨4 * e.base.rt, 4 * e.base.ps⟩) =
      ({ Vm.start l1 s.traps o with holding := (if m = b then [] else [(.concrete t, m - b)]), origin := none },
        .error (.other 23)) := by
    unfold buyExecution
    dsimp only
    unfold tryTake
    rw [if_pos rfl, if_pos hbm]
    dsimp only
    have hnone : buy e.fees (Trader.new Loc) ⟨4 * e.base.rt, 4 * e.base.ps⟩ [(toKey (.concrete t), b)] = none := by
      cases hq : buy e.fees (Trader.new Loc) ⟨4 * e.base.rt, 4 * e.base.ps⟩ [(toKey (.concrete t), b)] with
      | none => rfl
      | some r =>
        obtain ⟨t', k', rest, u', p1, p2, p3, p4⟩ := (C145_buy_when _ _ _ _).1 ⟨r, hq⟩
        rw [List.cons.injEq, Prod.mk.injEq] at p1
        obtain ⟨⟨p5, p6⟩, -⟩ := p1
        unfold toKey at p5
        dsimp only at p5
        cases p5
        rw [hu] at p3
        cases p3
        unfold feeFor at hfee
        dsimp only at p4
        omega
    have htn : (Vm.start l1 s.traps o).trader = Trader.new Loc := rfl
    rw [htn, hnone]
  have hproc : process e (Vm.start s.ledger s.traps o)
      (delivery first t dst b (some ⟨4 * e.base.rt, 4 * e.base.ps⟩) cap) =
      .ok (underpaid e l1 s.traps o t m b, false) := by
    unfold delivery
    rw [process, hs]
    dsimp only
    rw [process, step]
    dsimp only
    rw [process, step, hbuy]
    dsimp only
    simp only [underpaid, weights, Instr.weight, Weight.plus, Vm.start, Nat.zero_add, Nat.add_zero]
  have hdr : drive e (n + 1) (Vm.start s.ledger s.traps o)
      (delivery first t dst b (some ⟨4 * e.base.rt, 4 * e.base.ps⟩) cap) = .ok
      (underpaid e l1 s.traps o t m b) := by
    unfold delivery at hproc ⊢
    rw [drive, hproc]
    dsimp only
    have hha : (underpaid e l1 s.traps o t m b).handler = [] := rfl
    have hap : (underpaid e l1 s.traps o t m b).appendix = [] := rfl
    rw [hap, if_pos hha]
    cases n <;> rfl
  have hrs : ∃ w, refundSurplus e (underpaid e l1 s.traps o t m b) =
      ({ underpaid e l1 s.traps o t m b with refunded := w }, .ok ()) := by
    unfold refundSurplus
    rw [if_neg]
    · exact ⟨_, rfl⟩
    · rintro ⟨q, -⟩
      have : e.base.rt ≤ 0 := q
      omega
  obtain ⟨w, hrs⟩ := hrs
  show ∃ s', inbound e (n + 1) s o (delivery first t dst b lim cap) ⟨0, 0⟩ = .ok s' ∧ _
  unfold inbound
  rw [e1]
  dsimp only
  rw [e2]
  dsimp only
  rw [hdr]
  dsimp only
  unfold finish
  rw [hrs]
  dsimp only
  refine ⟨_, rfl, rfl, List.append_nil _, ?_⟩
  by_cases hq : m = b
  · rw [if_pos hq]
    exact if_pos (if_pos hq)
  · rw [if_neg hq]
    have hh : (underpaid e l1 s.traps o t m b).holding = [(.concrete t, m - b)] := if_neg hq
    refine (if_neg ?_).trans ?_
    · rw [hh]
      exact List.cons_ne_nil _ _
    · rw [hh]
      rfl

/-- **C199.** With too little set aside for the fee a transfer from the reserve does not arrive: no balance changes, what was set
aside for the fee is lost, and the rest is trapped for the sending chain. -/
theorem C199_underpaid {n : Nat} {s : Sys} {o : Loc} (hn : n ≠ 0) (hr : isReserve (.concrete t) o = true) (h0 : e.room 0 = true)
    (hmax : 4 ≤ e.maxInstrs) (hbase : 0 < e.base.rt) (hw : 4 * e.base.rt ≤ maxU64 ∧ 4 * e.base.ps ≤ maxU64)
    (hlim : ∀ v, lim = some v → 4 * e.base.rt ≤ v.rt ∧ 4 * e.base.ps ≤ v.ps)
    (hu : e.fees.units t = some u) (hbm : b ≤ m) (hfee : b < feeFor e u 4) :
    ∃ s', inbound e n s o [.reserveDeposited [(.concrete t, m)], .clearOrigin, .buy (.concrete t, b) lim,
        .depositAsset cap dst true] ⟨0, 0⟩ = .ok s' ∧ s'.ledger = s.ledger ∧ s'.log = s.log ∧
      s'.traps = if m = b then s.traps else (o, [(.concrete t, m - b)]) :: s.traps :=
  not_delivered hn rfl rfl trivial (step_receive hr h0) hmax hbase hw hlim hu hbm hfee

/-- **C199.** The same for tokens that come back: the sending chain's account has paid `m`, nobody gets anything, `b` units are
lost and the rest is trapped for the sending chain. -/
theorem C199_underpaid_return {n sv : Nat} {s : Sys} {o : Loc} (hn : n ≠ 0) (hsv : locAcct e o = some sv)
    (hx : e.typeId (canonical e.self t) = some x) (hm : m ≤ s.ledger.bal x sv) (h0 : e.room 0 = true)
    (hmax : 4 ≤ e.maxInstrs) (hbase : 0 < e.base.rt) (hw : 4 * e.base.rt ≤ maxU64 ∧ 4 * e.base.ps ≤ maxU64)
    (hlim : ∀ v, lim = some v → 4 * e.base.rt ≤ v.rt ∧ 4 * e.base.ps ≤ v.ps)
    (hu : e.fees.units t = some u) (hbm : b ≤ m) (hfee : b < feeFor e u 4) :
    ∃ s', inbound e n s o [.withdraw [(.concrete t, m)], .clearOrigin, .buy (.concrete t, b) lim,
        .depositAsset cap dst true] ⟨0, 0⟩ = .ok s' ∧ s'.log = s.log ∧
      (∀ y z, s'.ledger.bal y z + (if y = x ∧ z = sv then m else 0) = s.ledger.bal y z) ∧
      (∀ y, s'.ledger.iss y = s.ledger.iss y - if y = x then m else 0) ∧
      s'.traps = if m = b then s.traps else (o, [(.concrete t, m - b)]) :: s.traps := by
  have hnm : Names e.cfg (toMulti (.concrete t, m)) x m := ⟨t, rfl, rfl, hx⟩
  obtain ⟨l1, hl1⟩ := C148_withdraw_when.2 ⟨sv, x, m, hsv, hnm, hm⟩
  obtain ⟨w1, w2⟩ := C148_withdraw_what hl1 hsv hnm
  obtain ⟨s', r1, r2, r3, r4⟩ := not_delivered (dst := dst) (cap := cap) (lim := lim) hn
    (first := .withdraw [(.concrete t, m)]) rfl rfl trivial (step_withdraw hl1 h0) hmax hbase hw hlim hu hbm hfee
  exact ⟨s', r1, r3, fun y z => by rw [r2]; exact w1 y z, fun y => by rw [r2]; exact w2 y, r4⟩

end

/-- 50 units of the relay chain's asset from the relay chain for account 5: the fee of 4 instructions is 40, account 5 gets 10
and the treasury (account 98) 40. -/
theorem exDelivery (b : Nat) (lim : Option Weight) (h1 : 40 ≤ b) (h2 : b ≤ 50)
    (h3 : ∀ v, lim = some v → 40 ≤ v.rt) : Delivery exEnv ⟨1, []⟩ ⟨0, [.other 5]⟩ 50 b 101 5 1000000000000 lim (fun _ => maxU128) where
  instrs := by decide
  heavy := by decide
  weight := by decide +kernel
  limit := fun v hv => ⟨h3 v hv, Nat.zero_le _⟩
  room := by decide
  asset := by decide
  rate := by decide
  dest := by decide
  fee := by
    have : feeFor exEnv 1000000000000 4 = 40 := by decide +kernel
    rw [this]
    exact ⟨h1, by omega⟩
  part := h2
  most := by decide +kernel
  all := by decide +kernel

example : okAnd (inbound exEnv 3 exSys ⟨1, []⟩ [.reserveDeposited [(dot, 50)], .clearOrigin, .buy (dot, 45) (some ⟨60, 0⟩),
      .depositAsset (fun _ => maxU128) ⟨0, [.other 5]⟩ true] ⟨0, 0⟩)
    (fun s => decide (s.ledger.bal 101 5 = 80 ∧ s.ledger.bal 101 98 = 40 ∧ s.traps = [] ∧ s.ledger.iss 101 = 220)) = true ∧
  okAnd (inbound exEnv 3 exSys sib7 [.withdraw [(dot, 50)], .clearOrigin, .buy (dot, 45) none,
      .depositAsset (fun _ => maxU128) ⟨0, [.other 5]⟩ true] ⟨0, 0⟩)
    (fun s => decide (s.ledger.bal 101 2007 = 50 ∧ s.ledger.bal 101 5 = 80 ∧ s.ledger.bal 101 98 = 40)) = true ∧
  okAnd (inbound exEnv 3 exSys sib7 [.withdraw [(dot, 50)], .clearOrigin, .buy (dot, 39) none,
      .depositAsset (fun _ => maxU128) ⟨0, [.other 5]⟩ true] ⟨0, 0⟩)
    (fun s => decide (s.ledger.bal 101 2007 = 50 ∧ s.ledger.bal 101 5 = 70 ∧ s.traps = [(sib7, [(dot, 11)])])) = true := by
  decide +kernel

example : isReserve (.concrete ⟨1, []⟩) ⟨1, []⟩ = true ∧ exSys.ledger.iss 101 + 50 ≤ maxU128 := by decide +kernel

/-! ## C186: origins, and what single instructions do -/

/-- **C186.** Into which origin the location of a message converts, for each kind. -/
theorem C186_convert (o : Loc) (lo : LocalOrigin) :
    (convertOrigin e o .sovereign = some lo ↔ ∃ a, locAcct e o = some a ∧ lo = .signed a) ∧
    (convertOrigin e o .native = some lo ↔ (o = ⟨1, []⟩ ∧ lo = .relay) ∨ (∃ p, o = ⟨1, [.parachain p]⟩ ∧ lo = .sibling p) ∨
      ∃ n a, o = ⟨0, [.other n]⟩ ∧ e.account32 n = some a ∧ lo = .signed a) ∧
    (convertOrigin e o .superuser = some lo ↔ o = ⟨1, []⟩ ∧ lo = .root) ∧
    (convertOrigin e o .xcm = some lo ↔ lo = .xcm o) := by
  refine ⟨?_, ?_, ?_, ?_⟩
  · unfold convertOrigin
    simp only [Option.map_eq_some_iff]
    exact ⟨fun ⟨a, h1, h2⟩ => ⟨a, h1, h2.symm⟩, fun ⟨a, h1, h2⟩ => ⟨a, h1, h2.symm⟩⟩
  · unfold convertOrigin
    dsimp only
    constructor
    · intro h
      split at h
      · cases h; exact Or.inl ⟨rfl, rfl⟩
      · cases h; exact Or.inr (Or.inl ⟨_, rfl, rfl⟩)
      · rw [Option.map_eq_some_iff] at h
        obtain ⟨a, h1, h2⟩ := h
        exact Or.inr (Or.inr ⟨_, a, rfl, h1, h2.symm⟩)
      · cases h
    · rintro (⟨rfl, rfl⟩ | ⟨p, rfl, rfl⟩ | ⟨n, a, rfl, h, rfl⟩)
      · rfl
      · rfl
      · exact Option.map_eq_some_iff.2 ⟨a, h, rfl⟩
  · unfold convertOrigin
    dsimp only
    by_cases h : o = ⟨1, []⟩
    · rw [if_pos h]
      simp only [Option.some.injEq, h, true_and]
      exact ⟨fun q => q.symm, fun q => q.symm⟩
    · rw [if_neg h]
      simp [h]
  · unfold convertOrigin
    simp only [Option.some.injEq]
    exact ⟨fun q => q.symm, fun q => q.symm⟩

/-- **C186.** A `Transact` is carried out exactly if there is an origin, it converts, and the call is not heavier than declared;
then it runs in that origin. -/
theorem C186_transact (vm : Vm) (k : Kind) (l w : Weight) (call : Nat) :
    ((step e vm (.transact k l w call)).2 = .ok () ↔ w.le l ∧ ∃ o lo, vm.origin = some o ∧ convertOrigin e o k = some lo) ∧
    (∀ o lo, (step e vm (.transact k l w call)).2 = .ok () → vm.origin = some o → convertOrigin e o k = some lo →
      (step e vm (.transact k l w call)).1.log = vm.log ++ [(lo, call)]) ∧
    ((step e vm (.transact k l w call)).2 ≠ .ok () → (step e vm (.transact k l w call)).1 = vm) ∧
    (step e vm (.transact k l w call)).1.ledger = vm.ledger := by
  unfold step withOrigin
  cases ho : vm.origin with
  | none => simp
  | some o =>
    dsimp only
    cases hc : convertOrigin e o k with
    | none => simp [hc]
    | some lo =>
      dsimp only
      by_cases hw : w.le l
      · rw [if_pos hw]
        refine ⟨⟨fun _ => ⟨hw, o, lo, rfl, hc⟩, fun _ => rfl⟩, ?_, fun h => absurd rfl h, rfl⟩
        intro o' lo' _ q1 q2
        cases q1
        rw [hc] at q2
        cases q2
        rfl
      · rw [if_neg hw]
        simp [hw]

/-- **C186.** `DescendOrigin` goes inside the origin, as far as eight junctions. -/
theorem C186_descend (vm : Vm) (js : List Junction) :
    ((step e vm (.descend js)).2 = .ok () ↔ ∃ o, vm.origin = some o ∧ o.interior.length + js.length ≤ 8) ∧
    (∀ o, vm.origin = some o → (step e vm (.descend js)).2 = .ok () →
      (step e vm (.descend js)).1 = { vm with origin := some ⟨o.parents, o.interior ++ js⟩ }) ∧
    ((step e vm (.descend js)).2 ≠ .ok () → (step e vm (.descend js)).1 = vm) := by
  unfold step withOrigin
  cases ho : vm.origin with
  | none => simp
  | some o =>
    dsimp only
    by_cases hw : o.interior.length + js.length ≤ 8
    · rw [if_pos hw]
      refine ⟨⟨fun _ => ⟨o, rfl, hw⟩, fun _ => rfl⟩, ?_, fun h => absurd rfl h⟩
      rintro o' q -
      cases q
      rfl
    · rw [if_neg hw]
      simp [hw]

/-- **C188.** This chain accepts no teleported assets. -/
theorem C188_no_teleport (vm : Vm) (as : Assets) :
    ((step e vm (.teleported as)).2 = .ok () ↔ as = [] ∧ vm.origin.isSome = true) ∧ (step e vm (.teleported as)).1 = vm := by
  unfold step withOrigin
  cases ho : vm.origin with
  | none => simp
  | some o =>
    dsimp only
    by_cases h : as = []
    · rw [if_pos h]; simp [h]
    · rw [if_neg h]; simp [h]

/-- **C188.** What leaves for another chain is taken from the holding register, whether or not the message could be sent; only in
the first case the instruction succeeds. -/
theorem C188_leave (vm : Vm) (cap : AssetKey → Nat) (sent : Bool) :
    (step e vm (.leave cap sent)).1 = { vm with holding := remaining cap vm.holding } ∧
    ((step e vm (.leave cap sent)).2 = .ok () ↔ sent = true) := by
  unfold step thenSend
  cases sent <;> simp

/-- **C188.** `DepositReserveAsset` and `TransferReserveAsset` have the effects of `DepositAsset` and `TransferAsset`, and succeed
only if the message to the destination could be sent. -/
theorem C188_sending (vm : Vm) (cap : AssetKey → Nat) (as : Assets) (dst : Loc) (sent : Bool) :
    (step e vm (.depositAsset cap dst sent)).1 = (step e vm (.depositAsset cap dst true)).1 ∧
    ((step e vm (.depositAsset cap dst sent)).2 = .ok () ↔ sent = true ∧ (step e vm (.depositAsset cap dst true)).2 = .ok ()) ∧
    (step e vm (.transferAsset as dst sent)).1 = (step e vm (.transferAsset as dst true)).1 ∧
    ((step e vm (.transferAsset as dst sent)).2 = .ok () ↔ sent = true ∧ (step e vm (.transferAsset as dst true)).2 = .ok ()) := by
  have key : ∀ r : Vm × R Unit, (thenSend sent r).1 = (thenSend true r).1 ∧
      ((thenSend sent r).2 = .ok () ↔ sent = true ∧ (thenSend true r).2 = .ok ()) := by
    rintro ⟨v, q⟩
    unfold thenSend
    cases q with
    | ok u => cases sent <;> simp
    | error x => simp
  have k1 := key (depositAll e dst { vm with holding := remaining cap vm.holding } (taken cap vm.holding))
  refine ⟨k1.1, k1.2, ?_⟩
  unfold step withOrigin
  cases vm.origin with
  | none => simp
  | some o => exact key (transferAll e o dst vm as)

example : (step exEnv (Vm.start exChain [] sib7) (.leave (fun _ => 3) false)).2 ≠ .ok () ∧
    (step exEnv (Vm.start exChain [] ⟨1, []⟩) (.transact .native ⟨5, 5⟩ ⟨5, 5⟩ 8)).1.log = [(.relay, 8)] ∧
    (step exEnv (Vm.start exChain [] ⟨1, []⟩) (.transact .superuser ⟨5, 5⟩ ⟨5, 6⟩ 8)).1.log = [] := by decide +kernel

end Verif.Xcm
