import Verif.Stable.Lemmas

set_option linter.unnecessarySeqFocus false
set_option linter.unusedSimpArgs false

namespace Verif.Stable
open Verif
open Verif.Amm (Pool Pool.new claimOf)

/-! ### Effects on the two key-less accounts -/

theorem liquidityFor_eff {c : Cfg} (hc : c.OK) {l l' : Ledger} {p : Pool} {ib iq liq : Nat}
    (h : liquidityFor c l p ib iq = .ok (l', liq)) (hw : l.WF) :
    l'.WF ∧ (∀ x, l'.bal x c.acct = l.bal x c.acct) ∧ (∀ x w, l.bal x w ≤ l'.bal x w) ∧
    (l.iss p.lp = 0 → c.minLiq ≤ l'.bal p.lp c.lock) := by
  rcases liquidityFor_ok h with ⟨h0, hm, _, _⟩ | ⟨h0, rfl, _⟩
  · refine ⟨Ledger.mint_wf hm hw, fun x => ?_, fun x w => ?_, fun _ => ?_⟩
    · have := Ledger.mint_bal hm x c.acct; simp [hc.accts] at this; exact this
    · have := Ledger.mint_bal hm x w; omega
    · have := Ledger.mint_bal hm p.lp c.lock; simp at this; omega
  · exact ⟨hw, fun _ => rfl, fun _ _ => Nat.le_refl _, fun h => absurd h h0⟩

theorem doAdd_eff {c : Cfg} (hc : c.OK) {s s' : State} {who : Nat} {p p' : Pool} {ib iq b q : Nat}
    (h : doAdd c s who p ib iq b q = .ok (s', p')) (hw : s.ledger.WF)
    (h1 : who ≠ c.acct) (h2 : who ≠ c.lock) :
    s'.ledger.WF ∧
    (∀ x, s'.ledger.bal x c.acct = s.ledger.bal x c.acct + (if x = b then ib else 0)
        + (if x = q then iq else 0)) ∧
    (∀ x, s.ledger.bal x c.lock ≤ s'.ledger.bal x c.lock) ∧
    (s.ledger.iss p.lp = 0 → c.minLiq ≤ s'.ledger.bal p.lp c.lock) := by
  obtain ⟨d0, l0, liq, d1, m, l1, l2, l3, -, e0, -, -, e1, e2, e3, rfl, -⟩ := doAdd_ok h
  obtain ⟨w0, a0, b0, m0⟩ := liquidityFor_eff hc e0 hw
  have hlock : ∀ x, l0.bal x c.lock ≤ l3.bal x c.lock := by
    intro x
    have e1 := Ledger.mint_bal e1 x c.lock
    have e2 := Ledger.transfer_bal e2 x c.lock
    have e3 := Ledger.transfer_bal e3 x c.lock
    have := hc.accts
    simp only [show ¬ c.lock = who from fun e => h2 e.symm, show ¬ c.lock = c.acct from fun e => this e.symm,
      and_false, if_false] at *
    omega
  refine ⟨Ledger.transfer_wf e3 (Ledger.transfer_wf e2 (Ledger.mint_wf e1 w0)), fun x => ?_,
    fun x => (b0 x _).trans (hlock x), fun hz => (m0 hz).trans (hlock _)⟩
  have e1 := Ledger.mint_bal e1 x c.acct
  have e2 := Ledger.transfer_bal e2 x c.acct
  have e3 := Ledger.transfer_bal e3 x c.acct
  have := a0 x
  simp only [show ¬ c.acct = who from fun e => h1 e.symm, and_false, if_false, and_true] at *
  omega

theorem doRemove_eff {c : Cfg} (hc : c.OK) {s s' : State} {who : Nat} {p p' : Pool} {liq b q : Nat}
    (h : doRemove c s who p liq b q = .ok (s', p')) (hw : s.ledger.WF)
    (h1 : who ≠ c.acct) (h2 : who ≠ c.lock) :
    s'.ledger.WF ∧
    (∀ x, s'.ledger.bal x c.acct + (if x = b then p.base - p'.base else 0)
        + (if x = q then p.quote - p'.quote else 0) = s.ledger.bal x c.acct) ∧
    (∀ x, s.ledger.bal x c.lock ≤ s'.ledger.bal x c.lock) ∧
    p'.base ≤ p.base ∧ p'.quote ≤ p.quote := by
  obtain ⟨ob, oq, l1, l2, l3, _, _, _, e1, e2, e3, rfl, hb, hq, eb, eq', _⟩ := doRemove_ok h
  refine ⟨Ledger.transfer_wf e3 (Ledger.transfer_wf e2 (Ledger.burn_wf e1 hw)), fun x => ?_,
    fun x => ?_, by omega, by omega⟩
  · have e1 := Ledger.burn_bal e1 x c.acct
    have e2 := Ledger.transfer_bal e2 x c.acct
    have e3 := Ledger.transfer_bal e3 x c.acct
    have hb' : p.base - p'.base = ob := by omega
    have hq' : p.quote - p'.quote = oq := by omega
    simp only [show ¬ c.acct = who from fun e => h1 e.symm, and_false, if_false, and_true, hb', hq'] at *
    omega
  · have e1 := Ledger.burn_bal e1 x c.lock
    have e2 := Ledger.transfer_bal e2 x c.lock
    have e3 := Ledger.transfer_bal e3 x c.lock
    have := hc.accts
    simp only [show ¬ c.lock = who from fun e => h2 e.symm, show ¬ c.lock = c.acct from fun e => this e.symm,
      and_false, if_false] at *
    omega

/-! ### The invariant -/

structure Inv (c : Cfg) (s : State) : Prop where
  wf : s.ledger.WF
  backed : ∀ x, SumLe (fun k => claimOf x k (s.pools k)) (s.ledger.bal x c.acct)
  pool : ∀ k p, s.pools k = some p →
    c.minLiq ≤ s.ledger.bal p.lp c.lock ∧ k.2 < k.1

theorem Inv.init {c : Cfg} {s : State} (hp : ∀ k, s.pools k = none) (hw : s.ledger.WF) : Inv c s where
  wf := hw
  backed := fun x S => by simp [hp, claimOf]
  pool := fun k p h => by simp [hp] at h

theorem Inv.env {c : Cfg} {s s' : State} (h : Inv c s) (e : Env c s s') : Inv c s' where
  wf := e.wf
  backed := fun x => by
    rw [e.pools]
    exact (h.backed x).mono (fun _ => Nat.le_refl _) (e.acct x)
  pool := fun k p hk => by
    rw [e.pools] at hk
    obtain ⟨h3, h4⟩ := h.pool k p hk
    exact ⟨h3.trans (e.lock _), h4⟩

/-- Replacing one pool and the ledger. -/
theorem Inv.replace {c : Cfg} {s s' : State} (h : Inv c s) (k : Nat × Nat) (p' : Pool)
    (hw : s'.ledger.WF) (hp : s'.pools = upd s.pools k (some p'))
    (hlock : ∀ x, s.ledger.bal x c.lock ≤ s'.ledger.bal x c.lock)
    (hb : ∀ x, claimOf x k (some p') + s.ledger.bal x c.acct ≤
      claimOf x k (s.pools k) + s'.ledger.bal x c.acct)
    (hpos : c.minLiq ≤ s'.ledger.bal p'.lp c.lock ∧ k.2 < k.1) :
    Inv c s' where
  wf := hw
  backed := fun x => by
    refine (h.backed x).update k (fun i hi => ?_) ?_
    · simp [hp, upd_of_ne _ _ hi]
    · simpa [hp] using hb x
  pool := fun k2 p2 hk => by
    rw [hp] at hk
    by_cases e : k2 = k
    · subst e; simp at hk; subst hk; exact hpos
    · rw [upd_of_ne _ _ e] at hk
      obtain ⟨h3, h4⟩ := h.pool k2 p2 hk
      exact ⟨h3.trans (hlock _), h4⟩

theorem Inv.swap {c : Cfg} (hc : c.OK) {s s' : State} {who a b x y : Nat} (h : Inv c s)
    (h1 : who ≠ c.acct) (h2 : who ≠ c.lock) (hs : doSwap c s who a b x = .ok (s', y)) : Inv c s' := by
  obtain ⟨k, p, p', l1, l2, ra, rb, m, hp, rfl, hcase, hlp, _, _, hm, hmx, hrb, hout, hov, hyr, e1, e2⟩ :=
    doSwap_ok hs
  obtain ⟨hl, hk⟩ := h.pool k p hp
  have hlock : ∀ z, s.ledger.bal z c.lock ≤ l2.bal z c.lock := by
    intro z
    have e1 := Ledger.transfer_bal e1 z c.lock
    have e2 := Ledger.transfer_bal e2 z c.lock
    have := hc.accts
    simp only [show ¬ c.lock = who from fun e => h2 e.symm, show ¬ c.lock = c.acct from fun e => this e.symm,
      and_false, if_false] at *
    omega
  refine h.replace k p' (Ledger.transfer_wf e2 (Ledger.transfer_wf e1 h.wf)) rfl hlock ?_ ?_
  · intro z
    have e1 := Ledger.transfer_bal e1 z c.acct
    have e2 := Ledger.transfer_bal e2 z c.acct
    simp only [show ¬ c.acct = who from fun e => h1 e.symm, and_false, if_false, and_true] at e1 e2
    simp only [claimOf, hp]
    rcases hcase with ⟨_, rfl, rfl, rfl, hb', hq'⟩ | ⟨_, rfl, rfl, rfl, hb', hq'⟩ <;>
      simp only [hb', hq', eq_comm (b := z)] at * <;>
      by_cases hza : z = a <;> by_cases hzb : z = b <;> simp only [hza, hzb, if_true, if_false, eq_self] at * <;>
      simp_all <;> omega
  · refine ⟨?_, hk⟩
    rw [hlp]; exact hl.trans (hlock _)

theorem Inv.add {c : Cfg} (hc : c.OK) {s s' : State} {who : Nat} {pair d m : Nat × Nat} (h : Inv c s)
    (h1 : who ≠ c.acct) (h2 : who ≠ c.lock) (hs : addLiquidity c s who pair d m = .ok s') : Inv c s' := by
  obtain ⟨b, q, p, ib, iq, s1, p1, s2, p2, _, _, _, _, hpair, hp, _, _, _, _, _, hfee, hadd, rfl⟩ :=
    addLiquidity_ok hs
  obtain ⟨hl, hk⟩ := h.pool _ p hp
  obtain ⟨f1, f2, f3, f6, _, _⟩ := mintProtocolFee_ok hfee
  obtain ⟨w2, a2, lk2, _⟩ := doAdd_eff hc hadd (mintProtocolFee_wf hfee h.wf) h1 h2
  obtain ⟨_, _, _, _, _, _, _, _, _, _, _, _, _, _, _, hs2, eb, eq', elp, _⟩ := doAdd_ok hadd
  have fb := mintProtocolFee_bal hfee
  refine h.replace (b, q) p2 w2 ?_ (fun x => (fb x _).trans (lk2 x)) ?_ ?_
  · simp [hs2, f6]
  · intro x
    have := fb x c.acct
    have := a2 x
    simp only [claimOf, hp, eb, eq', f1, f2, eq_comm (b := x)]
    split_ifs at * <;> omega
  · refine ⟨?_, hk⟩
    rw [elp, f3]; exact hl.trans ((fb _ _).trans (lk2 _))

theorem Inv.remove {c : Cfg} (hc : c.OK) {s s' : State} {who : Nat} {pair : Nat × Nat} {liq : Nat}
    (h : Inv c s) (h1 : who ≠ c.acct) (h2 : who ≠ c.lock)
    (hs : removeLiquidity c s who pair liq = .ok s') : Inv c s' := by
  obtain ⟨b, q, p, s1, p1, s2, p2, hpair, hp, hfee, hrem, rfl⟩ := removeLiquidity_ok hs
  obtain ⟨hl, hk⟩ := h.pool _ p hp
  obtain ⟨f1, f2, f3, f6, _, _⟩ := mintProtocolFee_ok hfee
  have w1 := mintProtocolFee_wf hfee h.wf
  obtain ⟨w2, a2, lk2, le1, le2⟩ := doRemove_eff hc hrem w1 h1 h2
  obtain ⟨ob, oq, l1, _, _, hz, hob, hoq, hburn, _, _, hs2, _, _, eb, eq', elp, _⟩ := doRemove_ok hrem
  have fb := mintProtocolFee_bal hfee
  refine h.replace (b, q) p2 w2 ?_ (fun x => (fb x _).trans (lk2 x)) ?_ ?_
  · simp [hs2, f6]
  · intro x
    have := fb x c.acct
    have := a2 x
    simp only [claimOf, hp, f1, f2, eq_comm (b := x)] at *
    split_ifs at * <;> omega
  · refine ⟨?_, hk⟩
    rw [elp, f3]; exact hl.trans ((fb _ _).trans (lk2 _))

theorem Inv.create {c : Cfg} (hc : c.OK) {s s' : State} {pair am : Nat × Nat} {rcv lp : Nat}
    (h : Inv c s) (h1 : rcv ≠ c.acct) (h2 : rcv ≠ c.lock)
    (hs : createPool c s pair am rcv lp = .ok s') : Inv c s' := by
  obtain ⟨b, q, ba, qa, s2, p2, hpair, hnone, hiss, hadd, rfl⟩ := createPool_ok hs
  obtain ⟨w2, a2, lk2, hmin⟩ := doAdd_eff hc hadd h.wf h1 h2
  obtain ⟨_, _, _, _, _, _, _, _, _, _, _, _, _, _, _, hs2, eb, eq', elp, _⟩ := doAdd_ok hadd
  refine h.replace (b, q) p2 w2 ?_ lk2 ?_ ?_
  · simp [hs2]
  · intro x
    have := a2 x
    simp only [claimOf, hnone, eb, eq', Pool.new, Nat.zero_add, eq_comm (b := x)]
    split_ifs at * <;> omega
  · have hlp : p2.lp = lp := by rw [elp]; rfl
    refine ⟨?_, ?_⟩
    · rw [hlp]; exact hmin hiss
    · rcases hpair with ⟨hh, rfl, rfl, _⟩ | ⟨hh, rfl, rfl, _⟩ <;> exact hh

theorem Inv.call {c : Cfg} (hc : c.OK) {s s' : State} (h : Inv c s) {k : Call} (hk : k.signerOK c)
    (hs : exec c s k = .ok s') : Inv c s' := by
  cases k with
  | add who pair d m => exact h.add hc hk.1 hk.2 hs
  | remove who pair liq => exact h.remove hc hk.1 hk.2 hs
  | create pair am rcv lp => exact h.create hc hk.1 hk.2 hs
  | swap who a b x =>
    simp only [exec, bind_ok_iff, Prod.exists, pure_ok_iff] at hs
    obtain ⟨s1, y, hsw, rfl⟩ := hs
    exact h.swap hc hk.1 hk.2 hsw

theorem Reach.inv {c : Cfg} (hc : c.OK) {s : State} (h : Reach c s) : Inv c s := by
  induction h with
  | init s hp hw => exact Inv.init hp hw
  | step _ hs ih =>
    cases hs with
    | call k hk h => exact ih.call hc hk h
    | env h => exact ih.env h

/-- The lock account never loses tokens. -/
theorem Step.lock_mono {c : Cfg} (hc : c.OK) {s s' : State} (hw : s.ledger.WF) (h : Step c s s') :
    ∀ x, s.ledger.bal x c.lock ≤ s'.ledger.bal x c.lock := by
  cases h with
  | env h => exact h.lock
  | call k hk hs =>
    cases k with
    | add who pair d m =>
      obtain ⟨b, q, p, ib, iq, s1, p1, s2, p2, _, _, _, _, hpair, hp, _, _, _, _, _, hfee, hadd, rfl⟩ :=
        addLiquidity_ok hs
      obtain ⟨w2, a2, lk2, _⟩ := doAdd_eff hc hadd (mintProtocolFee_wf hfee hw) hk.1 hk.2
      exact fun x => (mintProtocolFee_bal hfee x _).trans (lk2 x)
    | remove who pair liq =>
      obtain ⟨b, q, p, s1, p1, s2, p2, hpair, hp, hfee, hrem, rfl⟩ := removeLiquidity_ok hs
      obtain ⟨w2, a2, lk2, _⟩ := doRemove_eff hc hrem (mintProtocolFee_wf hfee hw) hk.1 hk.2
      exact fun x => (mintProtocolFee_bal hfee x _).trans (lk2 x)
    | create pair am rcv lp =>
      obtain ⟨b, q, ba, qa, s2, p2, hpair, hnone, hiss, hadd, rfl⟩ := createPool_ok hs
      obtain ⟨w2, a2, lk2, _⟩ := doAdd_eff hc hadd hw hk.1 hk.2
      exact lk2
    | swap who a b x =>
      simp only [exec, bind_ok_iff, Prod.exists, pure_ok_iff] at hs
      obtain ⟨s1, y, hsw, rfl⟩ := hs
      obtain ⟨k, p, p', l1, l2, ra, rb, m, hp, rfl, _, _, _, _, _, _, _, _, _, _, e1, e2⟩ := doSwap_ok hsw
      intro z
      have e1 := Ledger.transfer_bal e1 z c.lock
      have e2 := Ledger.transfer_bal e2 z c.lock
      have := hc.accts
      have h2 := hk.2
      simp only [show ¬ c.lock = who from fun e => h2 e.symm, show ¬ c.lock = c.acct from fun e => this e.symm,
        and_false, if_false] at *
      omega

end Verif.Stable
