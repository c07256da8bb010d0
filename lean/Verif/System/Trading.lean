import Verif.System.Feed

/-!
# C203: trading cannot make a borrower liquidatable
-/

namespace Verif.Amm
open Verif

theorem Trades.trans {c : Cfg} {s t u : State} (h : Trades c s t) (g : Trades c t u) : Trades c s u := by
  induction g with
  | refl => exact h
  | tail _ hs ih => exact .tail ih hs

end Verif.Amm

namespace Verif.System
open Verif
variable {c : Cfg} {D : Nat → Prop} {r : Roles} {s s' : State} {F : Feed}

theorem swapAlong_trades {w : Nat} : ∀ (route xs : List Nat) (x y : Amm.State),
    Router.swapAlong c.amm x w route xs = .ok y → Amm.Trades c.amm x y ∧
      ∀ z v, v ≠ w → v ≠ c.amm.acct → y.ledger.bal z v = x.ledger.bal z v
  | [], _, x, y, e => by
    simp only [Router.swapAlong, Except.ok.injEq] at e; subst e; exact ⟨.refl _, fun _ _ _ _ => rfl⟩
  | [_], _, x, y, e => by
    simp only [Router.swapAlong, Except.ok.injEq] at e; subst e; exact ⟨.refl _, fun _ _ _ _ => rfl⟩
  | _ :: _ :: _, [], x, y, e => by
    simp only [Router.swapAlong, Except.ok.injEq] at e; subst e; exact ⟨.refl _, fun _ _ _ _ => rfl⟩
  | a :: b :: rest, m :: xs, x, y, e => by
    simp only [Router.swapAlong, bind_ok_iff, Prod.exists] at e
    obtain ⟨y1, out, h1, h2⟩ := e
    obtain ⟨g1, g2⟩ := swapAlong_trades (b :: rest) xs y1 y h2
    obtain ⟨_, _, _, _, _, _, _, _, g3⟩ := Amm.doSwap_grows h1
    exact ⟨(Amm.Trades.tail (.refl _) h1).trans g1, fun z v hv hv' => (g2 z v hv hv').trans (g3 z v hv hv')⟩

/-- Any number of swaps through the router, by any number of traders, in any pools. -/
inductive Swaps (r : Roles) (c : Cfg) : State → State → Prop
  | refl (s : State) : Swaps r c s s
  | swapIn {s t u : State} (h : Swaps r c s t) (w : Nat) (route : List Nat) (x m : Nat) (hw : ¬ Vaulted c w)
      (hd : dispatch r c t (.signed w) (.swapIn w route x m) = .ok u) : Swaps r c s u
  | swapOut {s t u : State} (h : Swaps r c s t) (w : Nat) (route : List Nat) (x m : Nat) (hw : ¬ Vaulted c w)
      (hd : dispatch r c t (.signed w) (.swapOut w route x m) = .ok u) : Swaps r c s u

theorem Swaps.facts (hc : c.OK D) (h : Swaps r c s s') : Amm.Trades c.amm s.ammV s'.ammV ∧
    (∀ a, s'.ledger.bal a c.lo.acct = s.ledger.bal a c.lo.acct) ∧ s'.lo = s.lo ∧ s'.stk = s.stk ∧ s'.cl = s.cl := by
  have one : ∀ {t u : State} {w : Nat} {route : List Nat} {x m : Nat}, ¬ Vaulted c w →
      (Tx.run r c t (.swapIn w route x m) = .ok u ∨ Tx.run r c t (.swapOut w route x m) = .ok u) →
      Amm.Trades c.amm t.ammV u.ammV ∧ (∀ a, u.ledger.bal a c.lo.acct = t.ledger.bal a c.lo.acct) ∧ u.lo = t.lo ∧
        u.stk = t.stk ∧ u.cl = t.cl := by
    intro t u w route x m hw hd
    have h1 : c.lo.acct ≠ w := (not_vaulted_ne (p := .loans) hw rfl).symm
    have h2 : c.lo.acct ≠ c.amm.acct := by
      intro e
      have := hc.apart .amm .loans c.amm.acct (by simp [spends]) (by rw [← e]; rfl)
      cases this
    have fin : ∀ y, Amm.Trades c.amm t.ammV y ∧ (∀ z v, v ≠ w → v ≠ c.amm.acct → y.ledger.bal z v = t.ammV.ledger.bal z v) →
        Amm.Trades c.amm t.ammV (t.putAmm y).ammV ∧
        (∀ a, (t.putAmm y).ledger.bal a c.lo.acct = t.ledger.bal a c.lo.acct) ∧ (t.putAmm y).lo = t.lo ∧
        (t.putAmm y).stk = t.stk ∧ (t.putAmm y).cl = t.cl :=
      fun y g => ⟨g.1, fun a => g.2 a _ h1 h2, rfl, rfl, rfl⟩
    rcases hd with hd | hd
    · simp only [Tx.run, Router.swapExactIn, bind_ok_iff, pure_ok_iff, ensure_ok_iff, exists_const] at hd
      obtain ⟨y, ⟨_, _, _, _, xs, _, _, e⟩, rfl⟩ := hd
      exact fin y (swapAlong_trades _ _ _ _ e)
    · simp only [Tx.run, Router.swapExactOut, bind_ok_iff, pure_ok_iff, ensure_ok_iff, exists_const] at hd
      obtain ⟨y, ⟨_, _, _, xs, _, _, _, e⟩, rfl⟩ := hd
      exact fin y (swapAlong_trades _ _ _ _ e)
  have comb : ∀ {t u : State}, (Amm.Trades c.amm s.ammV t.ammV ∧
      (∀ a, t.ledger.bal a c.lo.acct = s.ledger.bal a c.lo.acct) ∧ t.lo = s.lo ∧ t.stk = s.stk ∧ t.cl = s.cl) →
      (Amm.Trades c.amm t.ammV u.ammV ∧ (∀ a, u.ledger.bal a c.lo.acct = t.ledger.bal a c.lo.acct) ∧ u.lo = t.lo ∧
        u.stk = t.stk ∧ u.cl = t.cl) → _ := fun {t u} f g =>
    (⟨f.1.trans g.1, fun a => (g.2.1 a).trans (f.2.1 a), g.2.2.1.trans f.2.2.1, g.2.2.2.1.trans f.2.2.2.1,
      g.2.2.2.2.trans f.2.2.2.2⟩ : Amm.Trades c.amm s.ammV u.ammV ∧
      (∀ a, u.ledger.bal a c.lo.acct = s.ledger.bal a c.lo.acct) ∧ u.lo = s.lo ∧ u.stk = s.stk ∧ u.cl = s.cl)
  induction h with
  | refl => exact ⟨.refl _, fun _ => rfl, rfl, rfl, rfl⟩
  | swapIn _ w route x m hw hd ih => exact comb ih (one hw (.inl (dispatch_iff.1 hd).2))
  | swapOut _ w route x m hw hd ih => exact comb ih (one hw (.inr (dispatch_iff.1 hd).2))

/-- What prices are made of after trades. -/
theorem Swaps.grown (hc : c.OK D) (hF : F.OK s.amm.pools) (hF' : F.OK s'.amm.pools) (hr : Reach c D s) (h : Swaps r c s s') :
    Prices.Grown (F.world c s) (F.world c s') := by
  obtain ⟨ht, _, hlo, hstk, hcl⟩ := h.facts hc
  obtain ⟨hiss, hp⟩ := ht.grows
  have ha := (hr.inv hc).amm
  refine ⟨Feed.sameBut (by rw [hlo]) (by rw [hstk]) (by rw [hcl]) (by rw [hcl]), fun a P' hP => ?_, fun a hP => ?_⟩
  · have hP : (F.findLp s'.amm.pools a).bind (fun k =>
      (s'.amm.pools k).map (fun p => ⟨k.1, k.2, p.base, p.quote⟩)) = some P' := hP
    simp only [Option.bind_eq_some_iff, Option.map_eq_some_iff] at hP
    obtain ⟨k, hk, p', hp', rfl⟩ := hP
    obtain ⟨p1, hp1, hlp1⟩ := hF'.lp _ _ hk
    rw [hp'] at hp1
    cases hp1
    obtain ⟨p, hps, hlp, hle⟩ := (hp k).2 p' hp'
    have hfind : F.findLp s.amm.pools a = some k := by
      cases hf : F.findLp s.amm.pools a with
      | none => exact absurd (hlp.symm.trans hlp1) (hF.noLp _ hf k p hps)
      | some k0 =>
        obtain ⟨p0, hp0, hlp0⟩ := hF.lp _ _ hf
        have := Amm.lp_unique_keys hc.amm ha k0 k p0 p hp0 hps (by rw [hlp0, ← hlp, hlp1])
        rw [this]
    refine ⟨⟨k.1, k.2, p.base, p.quote⟩, ?_, rfl, rfl, hle, congrFun hiss a, ?_⟩
    · show (F.findLp s.amm.pools a).bind (fun k =>
        (s.amm.pools k).map (fun p => (⟨k.1, k.2, p.base, p.quote⟩ : Prices.LpPool))) = _
      rw [hfind]
      have : s.amm.pools k = some p := hps
      simp [this]
    · have := Amm.iss_pos hc.amm (ha.inv hc.amm) hps
      rw [← hlp, hlp1] at this
      exact this
  · have hP : (F.findLp s'.amm.pools a).bind (fun k =>
      (s'.amm.pools k).map (fun p => (⟨k.1, k.2, p.base, p.quote⟩ : Prices.LpPool))) = none := hP
    show (F.findLp s.amm.pools a).bind (fun k =>
      (s.amm.pools k).map (fun p => (⟨k.1, k.2, p.base, p.quote⟩ : Prices.LpPool))) = none
    have h' : F.findLp s'.amm.pools a = none := by
      cases hf : F.findLp s'.amm.pools a with
      | none => rfl
      | some k =>
        obtain ⟨p, hp1, _⟩ := hF'.lp _ _ hf
        rw [hf] at hP
        simp [hp1] at hP
    cases hf : F.findLp s.amm.pools a with
    | none => rfl
    | some k =>
      exfalso
      obtain ⟨p, hps, hlp⟩ := hF.lp _ _ hf
      cases hk : s'.amm.pools k with
      | none =>
        have := (hp k).1 hk
        have hps : s.ammV.pools k = some p := hps
        rw [this] at hps
        cases hps
      | some p' =>
        obtain ⟨p0, h0, h1, _⟩ := (hp k).2 p' hk
        have hps : s.ammV.pools k = some p := hps
        rw [hps] at h0
        cases h0
        exact hF'.noLp _ h' k p' hk (h1.trans hlp)

/-- **C203** Trades move no price down: after any number of swaps every asset has its old price or a higher one (or, if the
computation overflows, none, and nothing valued with it can be borrowed against or liquidated); assets that are not LP
tokens have exactly their old price. -/
theorem C203_trades_lower_no_price (hc : c.OK D) (hF : F.OK s.amm.pools) (hF' : F.OK s'.amm.pools) (hr : Reach c D s) (hu : Prices.Unfed (F.ask c s))
    (h : Swaps r c s s') (a : Nat) :
    (∀ v', F.price c s' a = some v' → ∃ v, F.price c s a = some v ∧ v ≤ v') ∧
    (Prices.NoLp (F.ask c s) a → F.price c s' a = F.price c s a) := by
  have hg := h.grown (F := F) hc hF hF' hr
  constructor
  · intro v' hv
    obtain ⟨q', hq, rfl⟩ := Feed.price_iff.1 hv
    obtain ⟨q, h1, h2⟩ := Prices.C203_growth_never_lowers (s := F.ask c s) (s' := F.ask c s') hg rfl rfl hu hq
    exact ⟨q.value, Feed.price_iff.2 ⟨q, h1, rfl⟩, h2⟩
  · intro hn
    have := Prices.C204_only_lp_depends_on_pools (c := F.cfg) (s := F.ask c s) (s' := F.ask c s') hg.toSameBut rfl rfl hn
    unfold Feed.price
    rw [this]

/-- The lending pallet as it runs with the feed's prices. -/
def Feed.loans (F : Feed) (c : Cfg) (s : State) : Loans.State := s.loV.reprice (F.price c s) s.ledger

/-- **C203** No amount of trading, by anybody, makes a borrower liquidatable: if after any number of swaps `br` (whose debts
are in anything but LP tokens) can be liquidated in any asset, for any amount, by anyone, then its debts exceeded its
threshold-weighted collateral before these swaps already. -/
theorem C203_trading (hc : c.OK D) (hF : F.OK s.amm.pools) (hF' : F.OK s'.amm.pools) (hr : Reach c D s) (hu : Prices.Unfed (F.ask c s))
    (h : Swaps r c s s') {br : Nat} (hbr : ∀ a, (s.lo.debts a br).principal ≠ 0 → Prices.NoLp (F.ask c s) a)
    {liq a m k : Nat} {x : Loans.State} (he : Loans.exec c.lo (F.loans c s') (.liquidate liq br a m k) = .ok x) :
    ∃ s1 s2, Loans.accrue c.lo (F.loans c s) a = .ok s1 ∧ Loans.accrue c.lo s1 k = .ok s2 ∧
      Loans.threshSum c.lo s2 br <
        Loans.debtSum s2 br + (Loans.lfThreshSum c.lo s2 br - Loans.lfDebt c.lo s2 br) := by
  obtain ⟨_, hcash, hlo, _, _⟩ := h.facts hc
  have hp := C203_trades_lower_no_price hc hF hF' hr hu h
  have e : F.loans c s' = (F.loans c s).reprice (F.price c s') s'.ledger := by
    unfold Feed.loans State.loV Loans.State.reprice
    rw [hlo]
  rw [e] at he
  refine Loans.C203_prices_not_against ⟨hcash, fun b _ _ => ?_, fun b hb => ?_, fun hb => ?_⟩ he
  · cases hv : F.price c s' b with
    | none => exact .inl rfl
    | some v' =>
      obtain ⟨v, h1, h2⟩ := (hp b).1 v' hv
      refine .inr ?_
      show (F.price c s b).getD 0 ≤ v'
      rw [h1]
      exact h2
  · rw [(hp b).2 (hbr b hb)]
    exact Nat.le_refl _
  · exact (hp _).2 (hbr _ hb)

/-- **C203** The same from the borrower's side: whoever is not underwater stays safe from every liquidation, whatever is
traded in between. -/
theorem C203_safe (hc : c.OK D) (hF : F.OK s.amm.pools) (hF' : F.OK s'.amm.pools) (hr : Reach c D s)
    (hu : Prices.Unfed (F.ask c s)) (h : Swaps r c s s') {br : Nat}
    (hbr : ∀ a, (s.lo.debts a br).principal ≠ 0 → Prices.NoLp (F.ask c s) a) {liq a m k : Nat}
    (hs : ∀ s1 s2, Loans.accrue c.lo (F.loans c s) a = .ok s1 → Loans.accrue c.lo s1 k = .ok s2 →
      Loans.debtSum s2 br + (Loans.lfThreshSum c.lo s2 br - Loans.lfDebt c.lo s2 br) ≤ Loans.threshSum c.lo s2 br) :
    ∃ e, Loans.exec c.lo (F.loans c s') (.liquidate liq br a m k) = .error e := by
  cases he : Loans.exec c.lo (F.loans c s') (.liquidate liq br a m k) with
  | error e => exact ⟨e, rfl⟩
  | ok x =>
    obtain ⟨s1, s2, h1, h2, h3⟩ := C203_trading hc hF hF' hr hu h hbr he
    have := hs s1 s2 h1 h2
    omega

end Verif.System
