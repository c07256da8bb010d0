import Verif.Loans.Views

/-! # Invariants of reachable states -/

set_option linter.unusedSimpArgs false
set_option linter.unusedVariables false

namespace Verif.Loans
open Verif

variable {c : Cfg} {s s' : State}

/-- What holds in every reachable state. -/
structure Inv (c : Cfg) (s : State) : Prop where
  wf : s.ledger.WF
  nodup : s.ids.Nodup
  mem : ∀ a, a ∈ s.ids ↔ s.markets a ≠ none
  wt : ∀ a m, s.markets a = some m → m.wt
  und : ∀ p a, s.underlying p = some a → s.markets a ≠ none
  sums : ∀ a, SumsTo (s.vouchers a) (s.books a).supply
  idx : ∀ a, s.markets a ≠ none → DIV ≤ (s.books a).index
  didx : ∀ a w, (s.debts a w).index ≤ (s.books a).index
  solv : ∀ a, (s.books a).reserves ≤ s.ledger.bal a c.acct + (s.books a).borrows
  books0 : ∀ a, s.markets a = none → s.books a = Book.zero
  deps0 : ∀ a w, s.markets a = none → s.deposits a w = none
  debts0 : ∀ a w, s.markets a = none → s.debts a w = ⟨0, 0⟩

/-- No market appears or changes. -/
theorem Inv.update (h : Inv c s) (hm : s'.markets = s.markets) (hi : s'.ids = s.ids)
    (hu : s'.underlying = s.underlying) (wf : s'.ledger.WF)
    (sums : ∀ x, SumsTo (s'.vouchers x) (s'.books x).supply)
    (hidx : ∀ x, (s.books x).index ≤ (s'.books x).index)
    (hd : ∀ x w, (s'.debts x w).index ≤ (s'.books x).index)
    (hs : ∀ x, (s'.books x).reserves ≤ s'.ledger.bal x c.acct + (s'.books x).borrows)
    (h0 : ∀ x, s.markets x = none → s'.books x = s.books x ∧ s'.deposits x = s.deposits x ∧
      s'.debts x = s.debts x) : Inv c s' where
  wf := wf
  nodup := hi ▸ h.nodup
  mem := by rw [hi, hm]; exact h.mem
  wt := by rw [hm]; exact h.wt
  und := by rw [hu, hm]; exact h.und
  sums := sums
  idx := by rw [hm]; exact fun a ha => (h.idx a ha).trans (hidx a)
  didx := hd
  solv := hs
  books0 := by rw [hm]; exact fun a ha => (h0 a ha).1.trans (h.books0 a ha)
  deps0 := by rw [hm]; exact fun a w ha => by rw [(h0 a ha).2.1]; exact h.deps0 a w ha
  debts0 := by rw [hm]; exact fun a w ha => by rw [(h0 a ha).2.2]; exact h.debts0 a w ha

theorem Inv.rf (h : Inv c s) {a : Nat} {m : Market} (hm : s.markets a = some m) : m.rf ≤ million :=
  (h.wt a m hm).2.2.1

/-- The rate of a market with vouchers is the largest number `r` with `r * supply ≤ net * 10^18`. -/
theorem xrate_mul_le {a : Nat} (h : (s.books a).supply ≠ 0) :
    xrate c s a * (s.books a).supply ≤ net c s a * DIV := by
  simp only [xrate, h, if_false]
  exact Nat.div_mul_le_self _ _

theorem le_xrate {a r : Nat} (h : (s.books a).supply ≠ 0) (hr : r * (s.books a).supply ≤ net c s a * DIV) :
    r ≤ xrate c s a := by
  simp only [xrate, h, if_false]
  exact (Nat.le_div_iff_mul_le (Nat.pos_of_ne_zero h)).2 hr

/-- The exchange rate of every market that keeps vouchers does not fall. -/
def RateUp (c : Cfg) (s s' : State) : Prop :=
  ∀ x, (s.books x).supply ≠ 0 → (s'.books x).supply ≠ 0 → xrate c s x ≤ xrate c s' x

theorem RateUp.refl (c : Cfg) (s : State) : RateUp c s s := fun _ _ _ => Nat.le_refl _

/-- Rates of markets with the same supply and no smaller net value. -/
theorem xrate_mono {x : Nat} (h : (s'.books x).supply = (s.books x).supply) (hn : net c s x ≤ net c s' x) :
    xrate c s x ≤ xrate c s' x := by
  unfold xrate
  rw [h]
  split_ifs
  · exact Nat.le_refl _
  · exact Nat.div_le_div_right (Nat.mul_le_mul_right _ hn)

theorem RateUp.of_net (h : ∀ x, (s'.books x).supply = (s.books x).supply) (hn : ∀ x, net c s x ≤ net c s' x) :
    RateUp c s s' := fun x _ _ => xrate_mono (h x) (hn x)

theorem net_grown {b : Book} {k : Nat} {mk : Market} {b0 : Book} (hg : Grown (some mk) b0 b)
    (hrf : mk.rf ≤ million) : k + b0.borrows - b0.reserves ≤ k + b.borrows - b.reserves := by
  have h1 := hg.res_le mk rfl hrf
  have := hg.borrows
  have := hg.reserves
  omega

theorem solv_grown {b : Book} {k : Nat} {mk : Market} {b0 : Book} (hg : Grown (some mk) b0 b)
    (hrf : mk.rf ≤ million) (hs : b0.reserves ≤ k + b0.borrows) : b.reserves ≤ k + b.borrows := by
  have h1 := hg.res_le mk rfl hrf
  have := hg.borrows
  have := hg.reserves
  omega

/-- Replacing one deposit. -/
theorem vouchers_upd2 (dp : Nat → Nat → Option Deposit) (a w : Nat) (d : Option Deposit) (x y : Nat) :
    ((upd2 dp a w d) x y).getD ⟨0, false⟩ = if x = a ∧ y = w then d.getD ⟨0, false⟩ else
      (dp x y).getD ⟨0, false⟩ := by
  rw [upd2_apply]
  split_ifs <;> rfl

theorem minus_getD (d : Deposit) (v : Nat) : ((d.minus v).getD ⟨0, false⟩).vouchers = d.vouchers - v := by
  unfold Deposit.minus
  split_ifs with h
  · simp [h]
  · rfl

/-! ### One lemma per call -/

theorem Inv.env (h : Inv c s) (he : Env c s s') : Inv c s' := by
  have hs := he.same
  have h1 : s'.markets = s.markets := by rw [hs]
  have h2 : s'.ids = s.ids := by rw [hs]
  have h3 : s'.underlying = s.underlying := by rw [hs]
  have h4 : s'.books = s.books := by rw [hs]
  have h5 : s'.deposits = s.deposits := by rw [hs]
  have h6 : s'.debts = s.debts := by rw [hs]
  apply h.update h1 h2 h3 he.wf
  · intro x
    rw [h4]
    have : s'.vouchers x = s.vouchers x := by funext w; simp [State.vouchers, State.dep, h5]
    rw [this]; exact h.sums x
  · intro x; rw [h4]
  · intro x w; rw [h4, h6]; exact h.didx x w
  · intro x
    rw [h4]
    have := h.solv x
    have := he.cash x
    omega
  · intro x _; rw [h4, h5, h6]; exact ⟨rfl, rfl, rfl⟩

theorem RateUp.env (he : Env c s s') : RateUp c s s' := by
  have h4 : s'.books = s.books := by rw [he.same]
  apply RateUp.of_net
  · intro x; rw [h4]
  · intro x
    have := he.cash x
    unfold net
    rw [h4]
    omega

/-- Ledger and rewards change, nothing is taken from the pallet account. -/
theorem Inv.ledgerOnly (h : Inv c s) (l : Ledger) (x : Rewards) (hw : l.WF)
    (hb : ∀ a, s.ledger.bal a c.acct ≤ l.bal a c.acct) : Inv c { s with
      ledger := l,
      rw := x } ∧ RateUp c s { s with
      ledger := l,
      rw := x } := by
  constructor
  · refine h.update (s' := { s with
      ledger := l,
      rw := x }) rfl rfl rfl hw h.sums (fun _ => Nat.le_refl _) h.didx ?_ ?_
    · intro a
      have := h.solv a
      have := hb a
      dsimp only
      omega
    · exact fun _ _ => ⟨rfl, rfl, rfl⟩
  · apply RateUp.of_net
    · exact fun _ => rfl
    · intro a
      have := hb a
      unfold net
      dsimp only
      omega

theorem upd2_off {β : Type} (f : Nat → Nat → β) {a x : Nat} (w : Nat) (v : β) (h : x ≠ a) :
    upd2 f a w v x = f x := by
  unfold upd2
  exact upd_of_ne _ _ h

/-- Only one existing market changes. -/
theorem Inv.one (h : Inv c s) {a : Nat} (hmk : s.markets a ≠ none) (hm : s'.markets = s.markets)
    (hi : s'.ids = s.ids) (hu : s'.underlying = s.underlying) (wf : s'.ledger.WF)
    (hb : ∀ x, x ≠ a → s'.books x = s.books x) (hd : ∀ x, x ≠ a → s'.deposits x = s.deposits x)
    (hq : ∀ x, x ≠ a → s'.debts x = s.debts x)
    (hc : ∀ x, x ≠ a → s.ledger.bal x c.acct ≤ s'.ledger.bal x c.acct)
    (sums : SumsTo (s'.vouchers a) (s'.books a).supply)
    (hidx : (s.books a).index ≤ (s'.books a).index)
    (hdx : ∀ w, (s'.debts a w).index ≤ (s'.books a).index)
    (hs : (s'.books a).reserves ≤ s'.ledger.bal a c.acct + (s'.books a).borrows)
    (hr : (s.books a).supply ≠ 0 → (s'.books a).supply ≠ 0 → xrate c s a ≤ xrate c s' a) :
    Inv c s' ∧ RateUp c s s' := by
  constructor
  · apply h.update hm hi hu wf
    · intro x
      by_cases hx : x = a
      · subst hx; exact sums
      · rw [hb x hx]
        have : s'.vouchers x = s.vouchers x := by funext w; simp [State.vouchers, State.dep, hd x hx]
        rw [this]; exact h.sums x
    · intro x
      by_cases hx : x = a
      · subst hx; exact hidx
      · rw [hb x hx]
    · intro x w
      by_cases hx : x = a
      · subst hx; exact hdx w
      · rw [hb x hx, hq x hx]; exact h.didx x w
    · intro x
      by_cases hx : x = a
      · subst hx; exact hs
      · rw [hb x hx]
        have := h.solv x
        have := hc x hx
        omega
    · intro x h0
      have hx : x ≠ a := by rintro rfl; exact hmk h0
      exact ⟨hb x hx, hd x hx, hq x hx⟩
  · intro x h1 h2
    by_cases hx : x = a
    · subst hx; exact hr h1 h2
    · apply xrate_mono
      · rw [hb x hx]
      · have := hc x hx
        unfold net
        rw [hb x hx]
        omega

theorem transfer_from_other {l l' : Ledger} {a src dst m : Nat} {k : Bool} {w : Nat}
    (h : l.transfer a src dst m k = .ok l') (hs : src ≠ w) (x : Nat) : l.bal x w ≤ l'.bal x w := by
  have := Ledger.transfer_bal h x w
  have h2 : ¬ (x = a ∧ w = src) := fun e => hs e.2.symm
  rw [if_neg h2] at this
  omega

theorem transfer_other_asset {l l' : Ledger} {a src dst m : Nat} {k : Bool} {w : Nat}
    (h : l.transfer a src dst m k = .ok l') {x : Nat} (hx : x ≠ a) : l.bal x w = l'.bal x w := by
  have := Ledger.transfer_bal h x w
  simpa [hx] using this.symm

/-- The state is fine and no exchange rate fell. -/
abbrev Good (c : Cfg) (s s' : State) : Prop := Inv c s' ∧ RateUp c s s'

/-- Accruing interest. -/
theorem Inv.on_setBook (h : Inv c s) {a : Nat} {b : Book} (hm : s.markets a ≠ none)
    (hg : Grown (s.markets a) (s.books a) b) : Inv c (setBook s a b) ∧ RateUp c s (setBook s a b) ∧
      (∀ x, ((setBook s a b).books x).supply = (s.books x).supply) := by
  obtain ⟨mk, hmk⟩ := Option.ne_none_iff_exists'.1 hm
  have hrf := h.rf hmk
  rw [hmk] at hg
  have hsup : ∀ x, ((setBook s a b).books x).supply = (s.books x).supply := by
    intro x
    by_cases hx : x = a
    · subst hx; simpa [setBook] using hg.supply
    · simp [setBook, upd_of_ne _ _ hx]
  have := h.one (s' := setBook s a b) hm rfl rfl rfl h.wf (fun x hx => upd_of_ne _ _ hx) (fun _ _ => rfl)
    (fun _ _ => rfl) (fun _ _ => Nat.le_refl _) (by rw [hsup]; exact h.sums a)
    (by simpa [setBook] using hg.index)
    (by intro w; simpa [setBook] using (h.didx a w).trans hg.index)
    (by simpa [setBook] using solv_grown hg hrf (h.solv a))
    (by intro _ _
        apply xrate_mono (hsup a)
        simpa [net, setBook] using net_grown hg hrf)
  exact ⟨this.1, this.2, hsup⟩

theorem Inv.on_accrue (h : Inv c s) {a : Nat} (he : accrue c s a = .ok s') (hm : s.markets a ≠ none) :
    Inv c s' ∧ RateUp c s s' ∧ (∀ x, (s'.books x).supply = (s.books x).supply) := by
  obtain ⟨b, rfl, hg⟩ := accrue_ok he
  exact h.on_setBook hm hg

theorem RateUp.trans {s1 : State} (h : RateUp c s s1) (hs : ∀ x, (s1.books x).supply = (s.books x).supply)
    (h' : RateUp c s1 s') : RateUp c s s' := fun x h1 h2 =>
  (h x h1 (by rw [hs]; exact h1)).trans (h' x (by rw [hs]; exact h1) h2)

theorem RateUp.trans' {s1 : State} (h : RateUp c s s1) (hs : ∀ x, (s'.books x).supply = (s1.books x).supply)
    (h' : RateUp c s1 s') : RateUp c s s' := fun x h1 h2 =>
  (h x h1 (by rw [← hs]; exact h2)).trans (h' x (by rw [← hs]; exact h2) h2)

/-- Minting rounds down, so the rate does not fall. -/
theorem rate_mint {r N T m : Nat} (h : r * T ≤ N * DIV) : r * (T + m * DIV / r) ≤ (N + m) * DIV := by
  have := Nat.div_mul_le_self (m * DIV) r
  rw [Nat.mul_comm] at this
  rw [Nat.mul_add, Nat.add_mul]
  omega

/-- Redeeming rounds down, so the rate does not fall. -/
theorem rate_redeem {r N T v : Nat} (h : r * T ≤ N * DIV) (hv : v ≤ T) :
    r * (T - v) ≤ (N - r * v / DIV) * DIV := by
  have := Nat.div_mul_le_self (r * v) DIV
  rw [Nat.mul_sub, Nat.sub_mul]
  have := Nat.mul_le_mul_left r hv
  omega

/-- One deposit changes by the same amount as the supply. -/
theorem sums_dep {w v' t' : Nat} {d : Option Deposit} {a : Nat} (h : Inv c s)
    (hv : (d.getD ⟨0, false⟩).vouchers = v') (ht : v' + (s.books a).supply = s.vouchers a w + t') :
    SumsTo (fun y => ((upd2 s.deposits a w d a y).getD ⟨0, false⟩).vouchers) t' := by
  apply (h.sums a).update w
  · intro z hz
    simp only [vouchers_upd2, hz, and_false, if_false, State.vouchers, State.dep]
  · simp only [vouchers_upd2, and_self, if_true]
    omega

theorem Inv.on_mint (h : Inv c s) {w a m : Nat} (hw : w ≠ c.acct) (he : mint c s w a m = .ok s') :
    Inv c s' ∧ RateUp c s s' := by
  obtain ⟨mk, b, x, e, r, l, hm, hmk, hact, hcap, hacc, hg, hr, hv, hmax, hl, rfl⟩ := mint_view he
  have hne : s.markets a ≠ none := by rw [hmk]; simp
  obtain ⟨h1, hu, hs⟩ := h.on_setBook hne hg
  have hbal : l.bal a c.acct = s.ledger.bal a c.acct + m := by
    have := Ledger.transfer_bal hl a c.acct
    simpa [hw.symm] using this
  have hb : (setBook s a b).books a = b := by simp [setBook]
  have key : Good c (setBook s a b) { s with
        ledger := l,
        books := upd s.books a { b with supply := b.supply + m * DIV / r },
        deposits := upd2 s.deposits a w (some { s.dep a w with vouchers := s.vouchers a w + m * DIV / r }),
        earned := e,
        rw := x } := by
    refine h1.one (a := a) hne rfl rfl rfl (Ledger.transfer_wf hl h.wf) ?_ ?_ ?_ ?_ ?_ ?_ ?_ ?_ ?_ <;> try dsimp only
    · intro y hy; simp [setBook, upd_of_ne _ _ hy]
    · intro y hy; exact upd2_off _ _ _ hy
    · intro y hy; rfl
    · intro y hy; exact Nat.le_of_eq (transfer_other_asset hl hy)
    · refine sums_dep (s := setBook s a b) h1 (v' := s.vouchers a w + m * DIV / r) rfl ?_
      rw [hb, upd_same]
      simp only [State.vouchers, State.dep, setBook]
      omega
    · rw [hb, upd_same]
    · intro y; rw [upd_same]; have := h1.didx a y; rw [hb] at this; exact this
    · have := h1.solv a
      rw [hb] at this
      rw [upd_same, hbal]
      simp only [setBook] at this ⊢
      omega
    · intro h2 h3
      rw [hb] at h2
      have hrr := rateStored_xrate hr
      have hx := xrate_mul_le (c := c) (s := setBook s a b) (a := a) (by rw [hb]; exact h2)
      rw [← hrr, hb] at hx
      rw [← hrr]
      apply le_xrate h3
      dsimp only
      rw [upd_same]
      refine (rate_mint hx).trans (Nat.mul_le_mul_right _ ?_)
      have := h1.solv a
      rw [hb] at this
      simp only [net, upd_same, hbal, hb]
      simp only [setBook] at this ⊢
      omega
  exact ⟨key.1, hu.trans hs key.2⟩

/-- Redeeming. -/
theorem Inv.redeemed (h : Inv c s) {w a v : Nat} (he : Redeemed c s s' w a v) :
    Inv c s' ∧ RateUp c s s' := by
  obtain ⟨mk, b, e, x, r, l, hmk, hact, hacc, hg, hr, _, hv, hvs, hres, hl, rfl⟩ := he.view
  have hne : s.markets a ≠ none := by rw [hmk]; simp
  obtain ⟨h1, hu, hs⟩ := h.on_setBook hne hg
  have hbal : s.ledger.bal a c.acct ≤ l.bal a c.acct + r * v / DIV := by
    have := Ledger.transfer_bal hl a c.acct
    simp only [and_self, if_true, true_and] at this
    omega
  have hb : (setBook s a b).books a = b := by simp [setBook]
  have key : Good c (setBook s a b) { s with
        ledger := l,
        books := upd s.books a { b with supply := b.supply - v },
        deposits := upd2 s.deposits a w ((s.dep a w).minus v),
        earned := e,
        rw := x } := by
    refine h1.one (a := a) hne rfl rfl rfl (Ledger.transfer_wf hl h.wf) ?_ ?_ ?_ ?_ ?_ ?_ ?_ ?_ ?_ <;> try dsimp only
    · intro y hy; simp [setBook, upd_of_ne _ _ hy]
    · intro y hy; exact upd2_off _ _ _ hy
    · intro y hy; rfl
    · intro y hy; exact Nat.le_of_eq (transfer_other_asset hl hy)
    · refine sums_dep (s := setBook s a b) h1 (minus_getD _ _) ?_
      rw [hb, upd_same]
      simp only [State.vouchers, State.dep, setBook] at hv ⊢
      omega
    · rw [hb, upd_same]
    · intro y; rw [upd_same]; have := h1.didx a y; rw [hb] at this; exact this
    · have := h1.solv a
      rw [hb] at this
      rw [upd_same]
      simp only [setBook] at this ⊢
      omega
    · intro h2 h3
      rw [hb] at h2
      have hrr := rateStored_xrate hr
      have hx := xrate_mul_le (c := c) (s := setBook s a b) (a := a) (by rw [hb]; exact h2)
      rw [← hrr, hb] at hx
      rw [← hrr]
      apply le_xrate h3
      dsimp only
      rw [upd_same]
      refine (rate_redeem hx hvs).trans (Nat.mul_le_mul_right _ ?_)
      simp only [net, upd_same, hb]
      simp only [setBook]
      omega
  exact ⟨key.1, hu.trans hs key.2⟩

theorem debts_upd_idx {a w y : Nat} {d : Snapshot} {i : Nat} (h : ∀ z, (s.debts a z).index ≤ i) (hd : d.index ≤ i) :
    (upd2 s.debts a w d a y).index ≤ i := by
  rw [upd2_apply]
  split_ifs
  · exact hd
  · exact h y

theorem Inv.on_borrow (h : Inv c s) {w a m : Nat} (he : borrow c s w a m = .ok s') :
    Inv c s' ∧ RateUp c s s' := by
  obtain ⟨mk, b, x, d, l, hmk, hact, hacc, hg, hba, hd, _, _, hl, rfl⟩ := borrow_view he
  have hne : s.markets a ≠ none := by rw [hmk]; simp
  obtain ⟨h1, hu, hs⟩ := h.on_setBook hne hg
  have hbal : s.ledger.bal a c.acct ≤ l.bal a c.acct + m := by
    have := Ledger.transfer_bal hl a c.acct
    simp only [and_self, if_true, true_and] at this
    omega
  have hb : (setBook s a b).books a = b := by simp [setBook]
  have hsol := h1.solv a
  rw [hb] at hsol
  have key : Good c (setBook s a b) { s with
        ledger := l,
        debts := upd2 s.debts a w ⟨d + m, b.index⟩,
        books := upd s.books a { b with borrows := b.borrows + m },
        rw := x } := by
    refine h1.one (a := a) hne rfl rfl rfl (Ledger.transfer_wf hl h.wf) ?_ ?_ ?_ ?_ ?_ ?_ ?_ ?_ ?_ <;> try dsimp only
    · intro y hy; simp [setBook, upd_of_ne _ _ hy]
    · intro y hy; rfl
    · intro y hy; exact upd2_off _ _ _ hy
    · intro y hy; exact Nat.le_of_eq (transfer_other_asset hl hy)
    · have := h1.sums a
      rw [hb] at this
      rw [upd_same]
      exact this
    · rw [hb, upd_same]
    · intro y; rw [upd_same]
      have := h1.didx a
      rw [hb] at this
      exact debts_upd_idx this (Nat.le_refl _)
    · rw [upd_same]
      simp only [setBook] at hsol ⊢
      omega
    · intro _ _
      apply xrate_mono
      · simp [hb]
      · simp only [net, upd_same, hb]
        simp only [setBook] at hsol ⊢
        omega
  exact ⟨key.1, hu.trans hs key.2⟩

/-- Paying back `m` (by anyone but the pallet account) into a market. -/
theorem Inv.paidBack (h : Inv c s) {w br a m d : Nat} {l : Ledger} {x : Rewards} (hw : w ≠ c.acct)
    (hne : s.markets a ≠ none) (hl : s.ledger.transfer a w c.acct m false = .ok l) :
    let t := { s with
        ledger := l,
        debts := upd2 s.debts a br ⟨d, (s.books a).index⟩,
        books := upd s.books a { s.books a with borrows := (s.books a).borrows - m },
        rw := x }
    Inv c t ∧ RateUp c s t ∧ ∀ y, (t.books y).supply = (s.books y).supply := by
  intro t
  have hbal : l.bal a c.acct = s.ledger.bal a c.acct + m := by
    have := Ledger.transfer_bal hl a c.acct
    simpa [hw.symm] using this
  have hsol := h.solv a
  have key : Inv c t ∧ RateUp c s t := by
    refine h.one (a := a) hne rfl rfl rfl (Ledger.transfer_wf hl h.wf) ?_ ?_ ?_ ?_ ?_ ?_ ?_ ?_ ?_ <;> try dsimp only
    · intro y hy; exact upd_of_ne _ _ hy
    · intro y hy; rfl
    · intro y hy; exact upd2_off _ _ _ hy
    · intro y hy; exact Nat.le_of_eq (transfer_other_asset hl hy)
    · have := h.sums a
      simp only [t, upd_same]
      exact this
    · simp [t]
    · intro y
      simp only [t, upd_same]
      exact debts_upd_idx (h.didx a) (Nat.le_refl _)
    · simp only [t, upd_same, hbal]
      omega
    · intro _ _
      apply xrate_mono
      · simp [t]
      · simp only [net, t, upd_same, hbal]
        omega
  refine ⟨key.1, key.2, ?_⟩
  intro y
  by_cases hy : y = a
  · subst hy; simp [t]
  · simp [t, upd_of_ne _ _ hy]

theorem Inv.on_repay (h : Inv c s) {w a m : Nat} (hw : w ≠ c.acct) (he : repay c s w a m = .ok s') :
    Inv c s' ∧ RateUp c s s' := by
  obtain ⟨mk, b, x, d, l, hmk, hact, hacc, hg, hd, _, hl, rfl⟩ := repay_view he
  have hne : s.markets a ≠ none := by rw [hmk]; simp
  obtain ⟨h1, hu, hs⟩ := h.on_setBook hne hg
  have := h1.paidBack (br := w) (d := d - m) (x := x) hw hne hl
  simp only [setBook, upd_same, upd_upd] at this
  exact ⟨this.1, hu.trans hs this.2.1⟩

theorem Inv.on_repayAll (h : Inv c s) {w a : Nat} (hw : w ≠ c.acct) (he : repayAll c s w a = .ok s') :
    Inv c s' ∧ RateUp c s s' := by
  obtain ⟨mk, b, x, d, l, hmk, hact, hacc, hg, hd, hl, rfl⟩ := repayAll_view he
  have hne : s.markets a ≠ none := by rw [hmk]; simp
  obtain ⟨h1, hu, hs⟩ := h.on_setBook hne hg
  have := h1.paidBack (br := w) (d := 0) (x := x) hw hne hl
  simp only [setBook, upd_same, upd_upd] at this
  exact ⟨this.1, hu.trans hs this.2.1⟩

/-- Only deposits of one market change, their sum does not. -/
theorem Inv.deps (h : Inv c s) {a : Nat} {dp : Nat → Nat → Option Deposit} {x : Rewards}
    (hne : s.markets a ≠ none) (hoff : ∀ y, y ≠ a → dp y = s.deposits y)
    (hsum : SumsTo (fun y => ((dp a y).getD ⟨0, false⟩).vouchers) (s.books a).supply) :
    let t := { s with
      deposits := dp,
      rw := x }
    Inv c t ∧ RateUp c s t := by
  intro t
  exact h.one (s' := t) (a := a) hne rfl rfl rfl h.wf (fun _ _ => rfl) hoff (fun _ _ => rfl)
    (fun _ _ => Nat.le_refl _) hsum (Nat.le_refl _) (h.didx a) (h.solv a) (fun _ _ => Nat.le_refl _)

theorem Inv.on_collateral (h : Inv c s) {w a : Nat} {on : Bool} (he : collateralAsset c s w a on = .ok s') :
    Inv c s' ∧ RateUp c s s' := by
  obtain ⟨hs, _, _, rfl⟩ := collateral_view he
  have hne : s.markets a ≠ none := by
    intro h0
    rw [h.deps0 a w h0] at hs
    cases hs
  refine h.deps (x := s.rw) hne (fun y hy => upd2_off _ _ _ hy) ?_
  exact sums_dep h (v' := s.vouchers a w) rfl (by omega)

theorem Inv.on_addReserves (h : Inv c s) {w a m : Nat} (hw : w ≠ c.acct) (he : addReserves c s w a m = .ok s') :
    Inv c s' ∧ RateUp c s s' := by
  obtain ⟨mk, l, hmk, hact, _, hl, rfl⟩ := addReserves_view he
  have hne : s.markets a ≠ none := by rw [hmk]; simp
  have hbal : l.bal a c.acct = s.ledger.bal a c.acct + m := by
    have := Ledger.transfer_bal hl a c.acct
    simpa [hw.symm] using this
  have hsol := h.solv a
  refine h.one (a := a) hne rfl rfl rfl (Ledger.transfer_wf hl h.wf) ?_ ?_ ?_ ?_ ?_ ?_ ?_ ?_ ?_ <;> try dsimp only
  · intro y hy; exact upd_of_ne _ _ hy
  · intro y hy; rfl
  · intro y hy; rfl
  · intro y hy; exact Nat.le_of_eq (transfer_other_asset hl hy)
  · have := h.sums a
    rw [upd_same]
    exact this
  · simp
  · intro y
    simpa using h.didx a y
  · simp only [upd_same, hbal]
    omega
  · intro _ _
    apply xrate_mono
    · simp
    · simp only [net, upd_same, hbal]
      omega

theorem Inv.on_reduceReserves (h : Inv c s) {w a m : Nat} (he : reduceReserves c s w a m = .ok s') :
    Inv c s' ∧ RateUp c s s' := by
  obtain ⟨mk, l, hmk, hact, hm, hl, rfl⟩ := reduceReserves_view he
  have hne : s.markets a ≠ none := by rw [hmk]; simp
  have hbal : s.ledger.bal a c.acct ≤ l.bal a c.acct + m := by
    have := Ledger.transfer_bal hl a c.acct
    simp only [and_self, if_true, true_and] at this
    omega
  have hsol := h.solv a
  refine h.one (a := a) hne rfl rfl rfl (Ledger.transfer_wf hl h.wf) ?_ ?_ ?_ ?_ ?_ ?_ ?_ ?_ ?_ <;> try dsimp only
  · intro y hy; exact upd_of_ne _ _ hy
  · intro y hy; rfl
  · intro y hy; rfl
  · intro y hy; exact Nat.le_of_eq (transfer_other_asset hl hy)
  · have := h.sums a
    rw [upd_same]
    exact this
  · simp
  · intro y
    simpa using h.didx a y
  · simp only [upd_same]
    omega
  · intro _ _
    apply xrate_mono
    · simp
    · simp only [net, upd_same]
      omega

theorem Inv.on_reduceIncentive (h : Inv c s) (hc : c.incentiveAcct ≠ c.acct) {w a m : Nat}
    (he : reduceIncentive c s w a m = .ok s') : Inv c s' ∧ RateUp c s s' := by
  obtain ⟨mk, x, r, l, l', hm, hmk, hact, hr, hv, hvs, hres, hl, hl', rfl⟩ := reduceIncentive_view he
  have hne : s.markets a ≠ none := by rw [hmk]; simp
  generalize m * DIV / r = v at *
  have hbal : s.ledger.bal a c.acct ≤ l'.bal a c.acct + r * v / DIV := by
    have := Ledger.transfer_bal hl a c.acct
    have h2 := transfer_from_other hl' hc a
    simp only [and_self, if_true, true_and] at this
    omega
  refine h.one (a := a) hne rfl rfl rfl (Ledger.transfer_wf hl' (Ledger.transfer_wf hl h.wf)) ?_ ?_ ?_ ?_ ?_ ?_ ?_ ?_ ?_ <;> try dsimp only
  · intro y hy; exact upd_of_ne _ _ hy
  · intro y hy; exact upd2_off _ _ _ hy
  · intro y hy; rfl
  · intro y hy
    exact Nat.le_of_eq ((transfer_other_asset hl hy).trans (transfer_other_asset hl' hy))
  · refine sums_dep h (minus_getD _ _) ?_
    rw [upd_same]
    simp only [State.vouchers, State.dep] at hv ⊢
    omega
  · simp
  · intro y; simpa using h.didx a y
  · rw [upd_same]
    simp only
    omega
  · intro h2 h3
    have hrr := rateStored_xrate hr
    have hx := xrate_mul_le (c := c) h2
    rw [← hrr] at hx
    rw [← hrr]
    apply le_xrate h3
    dsimp only
    rw [upd_same]
    refine (rate_redeem hx hvs).trans (Nat.mul_le_mul_right _ ?_)
    simp only [net, upd_same]
    omega

/-- Writing deposits one after the other. -/
theorem seize_eq (dp : Nat → Nat → Option Deposit) (k br liq inc v g i : Nat) (hne : br ≠ liq) (y : Nat) :
    ((seize dp k br liq inc v g i k y).getD ⟨0, false⟩).vouchers =
      (if y = br then ((dp k br).getD ⟨0, false⟩).vouchers - v else ((dp k y).getD ⟨0, false⟩).vouchers) +
      (if y = liq then g else 0) + (if y = inc then i else 0) := by
  unfold seize
  dsimp only
  rw [vouchers_upd2]
  by_cases h3 : y = inc
  · subst h3
    simp only [and_self, if_true, Option.getD_some]
    rw [vouchers_upd2]
    by_cases h2 : y = liq
    · subst h2
      simp [vouchers_upd2, hne.symm]
    · by_cases h1 : y = br
      · subst h1; simp [vouchers_upd2, h2]
      · simp [vouchers_upd2, h1, h2]
  · simp only [h3, and_false, if_false, Nat.add_zero]
    rw [vouchers_upd2]
    by_cases h2 : y = liq
    · subst h2
      simp [vouchers_upd2, hne.symm]
    · by_cases h1 : y = br
      · subst h1; simp [vouchers_upd2, h2]
      · simp [vouchers_upd2, h1, h2]

theorem seize_off (dp : Nat → Nat → Option Deposit) (k br liq inc v g i : Nat) {x : Nat} (hx : x ≠ k) :
    seize dp k br liq inc v g i x = dp x := by
  unfold seize
  dsimp only
  rw [upd2_off _ _ _ hx, upd2_off _ _ _ hx, upd2_off _ _ _ hx]

/-- Seizing moves vouchers without creating or losing any. -/
theorem seize_sums {f f' : Nat → Nat} {t br liq inc v i : Nat} (h : SumsTo f t) (hv : v ≤ f br) (hi : i ≤ v)
    (hf : ∀ y, f' y = (if y = br then f br - v else f y) + (if y = liq then v - i else 0) +
      (if y = inc then i else 0)) : SumsTo f' t := by
  have h1 : SumsTo (fun y => if y = br then f br - v else f y) (t - v) := by
    apply h.update br
    · intro y hy; simp [hy]
    · have := h.apply br
      simp; omega
  have h2 : SumsTo (fun y => (if y = br then f br - v else f y) + (if y = liq then v - i else 0))
      (t - i) := by
    apply h1.update liq
    · intro y hy; simp [hy]
    · have := h.apply br
      simp; omega
  apply h2.update inc
  · intro y hy; rw [hf y]; simp [hy]
  · have := h.apply br
    rw [hf inc]; simp; omega

theorem Inv.on_liquidate (h : Inv c s) {liq br a m k : Nat} (hw : liq ≠ c.acct)
    (he : liquidate c s liq br a m k = .ok s') : Inv c s' ∧ RateUp c s s' := by
  obtain ⟨s1, s2, hk1, hk2, ha1, ha2, h3⟩ := liquidate_view he
  obtain ⟨mk, mk', r, p, hmk, hmk', hne, _, _, _, _, _, rv, _, _, h4⟩ := doLiquidate_view h3
  obtain ⟨x, d, r', l, hd, _, _, hl, _, hvb, _, hi, rfl⟩ := liquidatedTransfer_view h4
  obtain ⟨bs, rfl, _⟩ := accrue2_ok ha1 ha2
  have hna : s.markets a ≠ none := by
    have : s.markets a = some mk := hmk
    rw [this]; simp
  have hnk : s.markets k ≠ none := by
    have : s.markets k = some mk' := hmk'
    rw [this]; simp
  obtain ⟨i1, u1, e1⟩ := h.on_accrue ha1 hna
  have hnk1 : s1.markets k ≠ none := by rw [(accrue_again ha1).2.1]; exact hnk
  obtain ⟨i2, u2, e2⟩ := i1.on_accrue ha2 hnk1
  obtain ⟨i3, u3, e3⟩ := i2.paidBack (br := br) (d := d - m) (x := x) hw hna hl
  generalize rv * mk.incentive / DIV * DIV / p * DIV / r' = v at hvb hi ⊢
  generalize pmulFloor mk.irf (v * DIV / mk.incentive) = ii at hi ⊢
  have i4 := i3.deps (a := k) (dp := seize s.deposits k br liq c.incentiveAcct v (v - ii) ii) (x := x) hnk
    (fun y hy => seize_off _ _ _ _ _ _ _ _ hy) (by
      refine seize_sums (br := br) (liq := liq) (inc := c.incentiveAcct) (i3.sums k) hvb hi (fun y => ?_)
      rw [seize_eq _ _ _ _ _ _ _ _ hne]
      rfl)
  refine ⟨i4.1, ?_⟩
  have u12 := u1.trans e1 u2
  have e12 : ∀ y, (bs y).supply = (s.books y).supply := fun y => (e2 y).trans (e1 y)
  have u123 := u12.trans e12 u3
  exact u123.trans (fun y => (e3 y).trans (e12 y)) i4.2

theorem Inv.on_transferP (h : Inv c s) {p src dst m : Nat} (he : transferP c s p src dst m = .ok s') :
    Inv c s' ∧ RateUp c s s' := by
  obtain ⟨a, x, hu, _, hm, rfl⟩ := transferP_view he
  refine h.deps (h.und p a hu) (fun y hy => by rw [upd2_off _ _ _ hy, upd2_off _ _ _ hy]) ?_
  have key := h.sums a
  apply key.move src dst m hm
  intro y
  rw [vouchers_upd2]
  by_cases h2 : y = dst
  · subst h2
    simp only [and_self, if_true, Option.getD_some, setDep, State.vouchers, State.dep]
    rw [vouchers_upd2]
    by_cases h1 : y = src
    · subst h1
      simp only [and_self, if_true, minus_getD]
      simp only [State.vouchers, State.dep] at hm
      omega
    · simp [h1]
  · simp only [h2, and_false, if_false, Nat.add_zero]
    rw [vouchers_upd2]
    by_cases h1 : y = src
    · subst h1
      simp only [and_self, if_true, minus_getD]
      simp only [State.vouchers, State.dep] at hm ⊢
      omega
    · simp [h1, State.vouchers, State.dep]

theorem Inv.on_addMarket (h : Inv c s) {a : Nat} {m : Market} (hw : m.wt) (he : addMarket s a m = .ok s') :
    Inv c s' ∧ RateUp c s s' := by
  obtain ⟨h1, h2, h3, h4, h5, h6, h7, h8, h9, h10, rfl⟩ := addMarket_view he
  have hb0 := h.books0 a h1
  constructor
  · refine ⟨h.wf, ?_, ?_, ?_, ?_, ?_, ?_, ?_, ?_, ?_, ?_, ?_⟩
    · rw [List.nodup_append]
      refine ⟨h.nodup, by simp, ?_⟩
      intro x hx y hy e
      simp only [List.mem_singleton] at hy
      subst hy e
      exact (h.mem x).1 hx h1
    · intro x
      by_cases hx : x = a
      · subst hx; simp
      · simp [upd_of_ne _ _ hx, hx, h.mem x]
    · intro x mk hx
      by_cases hxa : x = a
      · subst hxa; simp at hx; subst hx; exact hw
      · simp only [upd_of_ne _ _ hxa] at hx; exact h.wt x mk hx
    · intro p x hx
      by_cases hxa : x = a
      · subst hxa; simp
      · simp only [upd_of_ne _ _ hxa]
        by_cases hp : p = m.ptoken
        · subst hp; simp at hx; exact absurd hx.symm hxa
        · simp only [upd_of_ne _ _ hp] at hx; exact h.und p x hx
    · intro x
      have := h.sums x
      by_cases hxa : x = a
      · subst hxa; dsimp only; rw [upd_same]; exact this
      · dsimp only; rw [upd_of_ne _ _ hxa]; exact this
    · intro x hx
      by_cases hxa : x = a
      · subst hxa; simp
      · simp only [upd_of_ne _ _ hxa] at hx ⊢; exact h.idx x hx
    · intro x w
      by_cases hxa : x = a
      · subst hxa; simp [h.debts0 x w h1]
      · simpa [upd_of_ne _ _ hxa] using h.didx x w
    · intro x
      by_cases hxa : x = a
      · subst hxa; simpa using h.solv x
      · simpa [upd_of_ne _ _ hxa] using h.solv x
    · intro x hx
      by_cases hxa : x = a
      · subst hxa; simp at hx
      · simp only [upd_of_ne _ _ hxa] at hx ⊢; exact h.books0 x hx
    · intro x w hx
      by_cases hxa : x = a
      · subst hxa; simp at hx
      · simp only [upd_of_ne _ _ hxa] at hx; exact h.deps0 x w hx
    · intro x w hx
      by_cases hxa : x = a
      · subst hxa; simp at hx
      · simp only [upd_of_ne _ _ hxa] at hx; exact h.debts0 x w hx
  · intro x hx1 hx2
    by_cases hxa : x = a
    · subst hxa; rw [hb0] at hx1; exact absurd rfl hx1
    · apply xrate_mono
      · simp [upd_of_ne _ _ hxa]
      · simp [net, upd_of_ne _ _ hxa]

/-- A market is reconfigured. -/
theorem Inv.mutate (h : Inv c s) {a : Nat} {m0 m : Market} {us : Nat → Option Nat} (hm0 : s.markets a = some m0)
    (hw : m.wt) (hu : ∀ p x, us p = some x → x = a ∨ s.underlying p = some x) :
    Inv c { s with
      underlying := us,
      markets := upd s.markets a (some m) } ∧ RateUp c s { s with
      underlying := us,
      markets := upd s.markets a (some m) } := by
  have hn : ∀ x, upd s.markets a (some m) x = none ↔ s.markets x = none := by
    intro x
    by_cases hxa : x = a
    · subst hxa; simp [hm0]
    · simp [upd_of_ne _ _ hxa]
  constructor
  · refine ⟨h.wf, h.nodup, ?_, ?_, ?_, h.sums, ?_, h.didx, h.solv, ?_, ?_, ?_⟩
    · intro x; rw [h.mem x]; exact (not_congr (hn x)).symm
    · intro x mk hx
      by_cases hxa : x = a
      · subst hxa; simp at hx; subst hx; exact hw
      · simp only [upd_of_ne _ _ hxa] at hx; exact h.wt x mk hx
    · intro p x hx
      rcases hu p x hx with rfl | h1
      · simp
      · exact (not_congr (hn x)).2 (h.und p x h1)
    · intro x hx; exact h.idx x ((not_congr (hn x)).1 hx)
    · intro x hx; exact h.books0 x ((hn x).1 hx)
    · intro x w hx; exact h.deps0 x w ((hn x).1 hx)
    · intro x w hx; exact h.debts0 x w ((hn x).1 hx)
  · exact fun _ _ _ => Nat.le_refl _

theorem Patch.apply_wt {p : Patch} {m : Market} (hp : p.wt) (hm : m.wt) : (p.apply m).wt := by
  obtain ⟨h1, h2, h3, h4, h5⟩ := hp
  obtain ⟨g1, g2, g3, g4, g5⟩ := hm
  refine ⟨?_, ?_, ?_, ?_, ?_⟩
  · cases hq : p.cf <;> simp_all [Patch.apply]
  · cases hq : p.lt <;> simp_all [Patch.apply]
  · cases hq : p.rf <;> simp_all [Patch.apply]
  · cases hq : p.close <;> simp_all [Patch.apply]
  · cases hq : p.irf <;> simp_all [Patch.apply]

/-- Every call keeps the invariants and lowers no exchange rate. -/
theorem Inv.on_exec (hc : c.Ok) (h : Inv c s) (k : Call) (hw : k.wt) (hk : c.acct ∉ k.signers)
    (he : exec c s k = .ok s') : Inv c s' ∧ RateUp c s s' := by
  cases k with
  | addMarket a m => exact h.on_addMarket hw he
  | activate a =>
    obtain ⟨m, hm, rfl⟩ := mutateMarket_view he
    exact h.mutate hm (h.wt a m hm) (fun _ _ h => .inr h)
  | updateModel a rm =>
    simp only [Loans.exec, updateModel, bind_ok_iff, ensure_ok_iff, exists_const] at he
    obtain ⟨_, he⟩ := he
    obtain ⟨m, hm, rfl⟩ := mutateMarket_view he
    exact h.mutate hm (h.wt a m hm) (fun _ _ h => .inr h)
  | updateMarket a p =>
    obtain ⟨m, hm, _, _, _, _, _, rfl⟩ := updateMarket_view he
    exact h.mutate hm (Patch.apply_wt hw (h.wt a m hm)) (fun _ _ h => .inr h)
  | forceUpdate a m =>
    obtain ⟨m0, hm, _, _, rfl⟩ := forceUpdate_view he
    refine h.mutate hm hw (fun p x hx => ?_)
    by_cases hp : p = m.ptoken
    · subst hp; simp at hx; exact .inl hx.symm
    · simp only [upd_of_ne _ _ hp] at hx; exact .inr hx
  | addReward w m =>
    obtain ⟨l, hl, rfl⟩ := addReward_view he
    simp only [Call.signers, List.mem_singleton] at hk
    exact h.ledgerOnly l s.rw (Ledger.transfer_wf hl h.wf) (transfer_from_other hl (Ne.symm hk))
  | withdrawReward w m =>
    obtain ⟨l, hl, rfl⟩ := withdrawReward_view he
    exact h.ledgerOnly l s.rw (Ledger.transfer_wf hl h.wf) (transfer_from_other hl hc.rew)
  | updateSpeed a x y =>
    obtain ⟨z, rfl⟩ := updateSpeed_rw he
    exact h.ledgerOnly s.ledger z h.wf (fun _ => Nat.le_refl _)
  | claim w =>
    obtain ⟨m, l, x, hl, rfl⟩ := claim_view he
    exact h.ledgerOnly l x (Ledger.transfer_wf hl h.wf) (transfer_from_other hl hc.rew)
  | claimFor w a =>
    obtain ⟨m, l, x, hl, rfl⟩ := claimFor_view he
    exact h.ledgerOnly l x (Ledger.transfer_wf hl h.wf) (transfer_from_other hl hc.rew)
  | mint w a m =>
    simp only [Call.signers, List.mem_singleton] at hk
    exact h.on_mint (Ne.symm hk) he
  | redeem w a m =>
    obtain ⟨b, r, _, _, hr⟩ := redeem_redeemed he
    exact h.redeemed hr
  | redeemAll w a => exact h.redeemed (redeemAll_redeemed he)
  | borrow w a m => exact h.on_borrow he
  | repay w a m =>
    simp only [Call.signers, List.mem_singleton] at hk
    exact h.on_repay (Ne.symm hk) he
  | repayAll w a =>
    simp only [Call.signers, List.mem_singleton] at hk
    exact h.on_repayAll (Ne.symm hk) he
  | collateral w a on => exact h.on_collateral he
  | liquidate liq br a m k =>
    simp only [Call.signers, List.mem_singleton] at hk
    exact h.on_liquidate (Ne.symm hk) he
  | addReserves w a m =>
    simp only [Call.signers, List.mem_singleton] at hk
    exact h.on_addReserves (Ne.symm hk) he
  | reduceReserves w a m => exact h.on_reduceReserves he
  | reduceIncentive w a m => exact h.on_reduceIncentive hc.inc he
  | updateLfc as =>
    cases he
    refine ⟨⟨h.wf, h.nodup, h.mem, h.wt, h.und, h.sums, h.idx, h.didx, h.solv, h.books0, h.deps0, h.debts0⟩, ?_⟩
    exact fun _ _ _ => Nat.le_refl _
  | transferP p x y m => exact h.on_transferP he

theorem inv_fresh {l : Ledger} {pr : Nat → Option Nat} {t b : Nat} (hw : l.WF) :
    Inv c (State.fresh l pr t b) where
  wf := hw
  nodup := by simp [State.fresh]
  mem := by simp [State.fresh]
  wt := by simp [State.fresh]
  und := by simp [State.fresh]
  sums := fun a => SumsTo.zero
  idx := by simp [State.fresh]
  didx := by simp [State.fresh]
  solv := by simp [State.fresh, Book.zero]
  books0 := by simp [State.fresh]
  deps0 := by simp [State.fresh]
  debts0 := by simp [State.fresh]

theorem inv_reach (hc : c.Ok) {ok : Call → Prop} (h : ReachBy c ok s) : Inv c s := by
  induction h with
  | init l pr t b hw => exact inv_fresh hw
  | step h hs ih =>
    cases hs with
    | call k hw hk hok he => exact (ih.on_exec hc k hw hk he).1
    | env he => exact ih.env he

end Verif.Loans
