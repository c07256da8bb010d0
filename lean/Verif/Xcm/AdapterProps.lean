import Verif.Xcm.AdapterSpec

/-! # XCM asset adapter: property theorems (C148 – C151) -/

namespace Verif.Xcm
open Verif

variable {c : Cfg} {l l' : Ledger} {a : MultiAsset} {w : Loc}

/-! Fixture: parachain 2012, native asset 0, DOT (asset 101, decimals 10) at the relay chain's location, the
native asset itself registered at its absolute location; accounts are the numbers in `Junction.other`. -/
def exCfg : Cfg :=
  { self := 2012
    typeId := fun l => if l = ⟨1, []⟩ then some 101 else if l = ⟨1, [.parachain 2012, .other 0]⟩ then some 0 else none
    acct := fun l => match l.interior with
      | [.other n] => some n
      | _ => none
    native := 0
    gift := 99
    giftOf := fun b x => match giftParallel 10 b x with
      | .ok g => g
      | .error _ => 0 }
@[irreducible] def exL : Ledger := Ledger.ofList [(0, 99, 2000000000000), (101, 7, 100)]
def exDot (n : Nat) : MultiAsset := ⟨.concrete ⟨1, []⟩, some n⟩
def exAt (n : Nat) : Loc := ⟨0, [.other n]⟩

/-! ## Lemmas -/

theorem names_iff {cur amount : Nat} :
    Names c a cur amount ↔ currencyOf c a = some cur ∧ matchesFungible c a = some amount := by
  unfold Names currencyOf matchesFungible assetIdOf
  cases h : a.id with
  | abstract n =>
    constructor
    · rintro ⟨l, hl, -⟩; cases hl
    · rintro ⟨hl, -⟩; cases hl
  | concrete l =>
    dsimp only
    constructor
    · rintro ⟨l', hl, ha, ht⟩
      cases hl
      refine ⟨ht, ?_⟩
      rw [ht]; exact ha
    · rintro ⟨ht, hm⟩
      rw [ht] at hm
      exact ⟨l, rfl, hm, ht⟩

theorem giveGift_eq (who cur amount : Nat) :
    giveGift c l who cur amount = commit l (l.transfer c.native c.gift who (giftDue c l who cur amount) false) := by
  have e1 : l.reducible c.native who true = l.bal c.native who - 1 := rfl
  have e2 : l.reducible c.native c.gift false = l.bal c.native c.gift := rfl
  unfold giveGift giftDue
  rw [e1, e2]
  by_cases h1 : c.giftOf amount cur ≤ l.bal c.native c.gift
  · rw [if_pos h1]
    by_cases h2 : c.giftOf amount cur ≠ 0 ∧ l.bal c.native who - 1 < c.giftOf amount cur
    · rw [if_pos ⟨h2.1, h1, h2.2⟩]
    · have hz : c.giftOf amount cur - (l.bal c.native who - 1) = 0 := by
        by_contra hne
        exact h2 ⟨by omega, by omega⟩
      rw [if_neg (fun h => h2 ⟨h.1, h.2.2⟩), hz]
      rfl
  · rw [if_neg h1, if_neg (fun h => h1 h.2.1)]
    rfl

theorem giftDue_le (who cur amount : Nat) : giftDue c l who cur amount ≤ l.bal c.native c.gift := by
  unfold giftDue; split <;> omega

theorem giveGift_ok (who cur amount : Nat) :
    l.transfer c.native c.gift who (giftDue c l who cur amount) false = .ok (giveGift c l who cur amount) := by
  obtain ⟨l', hl'⟩ := Ledger.transfer_succeeds (l := l) (a := c.native) (s := c.gift) (d := who) (k := false)
    (giftDue_le who cur amount) (fun h => by cases h)
  rw [giveGift_eq, hl']; rfl

theorem giveGift_bal (who cur amount x y : Nat) :
    (giveGift c l who cur amount).bal x y + (if x = c.native ∧ y = c.gift then giftDue c l who cur amount else 0) =
      l.bal x y + if x = c.native ∧ y = who then giftDue c l who cur amount else 0 :=
  Ledger.transfer_bal (giveGift_ok who cur amount) x y

theorem giveGift_iss (who cur amount : Nat) : (giveGift c l who cur amount).iss = l.iss :=
  Ledger.transfer_iss (giveGift_ok who cur amount)

/-- The ledger on which `deposit` mints. -/
def giftLedger (c : Cfg) (l : Ledger) (a : MultiAsset) (who cur amount : Nat) : Ledger :=
  if a.id = relayAsset then giveGift c l who cur amount else l

theorem giftLedger_iss (a : MultiAsset) (who cur amount : Nat) : (giftLedger c l a who cur amount).iss = l.iss := by
  unfold giftLedger; split
  · exact giveGift_iss _ _ _
  · rfl

theorem giftLedger_bal (a : MultiAsset) (who cur amount x y : Nat) :
    (giftLedger c l a who cur amount).bal x y +
      (if a.id = relayAsset ∧ x = c.native ∧ y = c.gift then giftDue c l who cur amount else 0) =
      l.bal x y + if a.id = relayAsset ∧ x = c.native ∧ y = who then giftDue c l who cur amount else 0 := by
  unfold giftLedger
  by_cases h : a.id = relayAsset
  · rw [if_pos h]
    simp only [h, true_and]
    exact giveGift_bal who cur amount x y
  · rw [if_neg h]
    simp only [h, false_and, if_false]

theorem deposit_named {who cur amount : Nat} (hw : c.acct w = some who) (hn : Names c a cur amount) :
    deposit c l a w = match (giftLedger c l a who cur amount).mint cur who amount with
      | .ok l' => (l', .ok ())
      | .error e => (giftLedger c l a who cur amount, .error e) := by
  obtain ⟨h1, h2⟩ := names_iff.1 hn
  unfold deposit
  rw [hw, h1, h2]
  rfl

theorem deposit_unnamed (h : ¬ ∃ who cur amount, c.acct w = some who ∧ Names c a cur amount) :
    deposit c l a w = (l, .error .assetDoesNotExist) := by
  unfold deposit
  split
  · rename_i who cur amount h1 h2 h3
    exact absurd ⟨who, cur, amount, h1, names_iff.2 ⟨h2, h3⟩⟩ h
  · rfl

/-! ## C148 -/

/-- C148: a deposit is carried out exactly if the place is an account, the asset is a registered fungible one
and its issuance stays within the `u128` range. -/
theorem C148_deposit_when : (deposit c l a w).2 = .ok () ↔
    ∃ who cur amount, c.acct w = some who ∧ Names c a cur amount ∧ l.iss cur + amount ≤ maxU128 := by
  by_cases h : ∃ who cur amount, c.acct w = some who ∧ Names c a cur amount
  · obtain ⟨who, cur, amount, hw, hn⟩ := h
    rw [deposit_named hw hn]
    constructor
    · intro h
      refine ⟨who, cur, amount, hw, hn, ?_⟩
      rw [← giftLedger_iss (c := c) (l := l) a who cur amount]
      cases hm : (giftLedger c l a who cur amount).mint cur who amount with
      | ok l' => exact Ledger.mint_le hm
      | error e => rw [hm] at h; cases h
    · rintro ⟨who', cur', amount', hw', hn', hm⟩
      rw [hw] at hw'; cases hw'
      obtain ⟨e1, e2⟩ := names_iff.1 hn
      obtain ⟨e3, e4⟩ := names_iff.1 hn'
      rw [e1] at e3; cases e3
      rw [e2] at e4; cases e4
      rw [← giftLedger_iss (c := c) (l := l) a who cur amount] at hm
      obtain ⟨l', hl'⟩ := Ledger.mint_succeeds (w := who) hm
      rw [hl']
  · rw [deposit_unnamed h]
    constructor
    · intro h; cases h
    · rintro ⟨who, cur, amount, h1, h2, -⟩; exact absurd ⟨who, cur, amount, h1, h2⟩ h

/-- C148: a successful deposit gives the account exactly the amount; for the relay chain's asset it also
moves the gift due from the gift account to it; no other balance changes, and the asset's issuance rises by
exactly the amount. -/
theorem C148_deposit_what {who cur amount : Nat} (h : (deposit c l a w).2 = .ok ()) (hw : c.acct w = some who)
    (hn : Names c a cur amount) :
    (∀ x y, (deposit c l a w).1.bal x y +
        (if a.id = relayAsset ∧ x = c.native ∧ y = c.gift then giftDue c l who cur amount else 0) =
      l.bal x y + (if x = cur ∧ y = who then amount else 0) +
        if a.id = relayAsset ∧ x = c.native ∧ y = who then giftDue c l who cur amount else 0) ∧
    ∀ x, (deposit c l a w).1.iss x = l.iss x + if x = cur then amount else 0 := by
  rw [deposit_named hw hn] at h ⊢
  cases hm : (giftLedger c l a who cur amount).mint cur who amount with
  | error e => rw [hm] at h; cases h
  | ok l' =>
    refine ⟨fun x y => ?_, fun x => ?_⟩
    · have h1 := Ledger.mint_bal hm x y
      have h2 := giftLedger_bal (c := c) (l := l) a who cur amount x y
      dsimp only
      omega
    · have h1 := Ledger.mint_iss hm x
      rw [giftLedger_iss] at h1
      exact h1

/-- C148: a failed deposit creates nothing: the issuances stay; balances stay too unless the relay chain's
asset was to be deposited (then the gift may already have moved). -/
theorem C148_deposit_failed (h : (deposit c l a w).2 ≠ .ok ()) :
    (deposit c l a w).1.iss = l.iss ∧ (a.id ≠ relayAsset → (deposit c l a w).1 = l) := by
  by_cases hn : ∃ who cur amount, c.acct w = some who ∧ Names c a cur amount
  · obtain ⟨who, cur, amount, hw, hn⟩ := hn
    rw [deposit_named hw hn] at h ⊢
    cases hm : (giftLedger c l a who cur amount).mint cur who amount with
    | ok l' => rw [hm] at h; exact absurd rfl h
    | error e =>
      refine ⟨giftLedger_iss a who cur amount, fun hr => ?_⟩
      exact if_neg hr
  · rw [deposit_unnamed hn]; exact ⟨rfl, fun _ => rfl⟩

/-- C148: a withdrawal is carried out exactly if the account has the amount of the registered asset, and
destroys exactly it. -/
theorem C148_withdraw_when : (∃ l', withdraw c l a w = .ok l') ↔
    ∃ who cur amount, c.acct w = some who ∧ Names c a cur amount ∧ amount ≤ l.bal cur who := by
  simp only [withdraw, bind_ok_iff, okOr_ok_iff]
  constructor
  · rintro ⟨l', amount, h1, who, h2, cur, h3, h4⟩
    exact ⟨who, cur, amount, h2, names_iff.2 ⟨h3, h1⟩, Ledger.burn_le h4⟩
  · rintro ⟨who, cur, amount, h1, h2, h3⟩
    obtain ⟨e1, e2⟩ := names_iff.1 h2
    obtain ⟨l', hl'⟩ := Ledger.burn_succeeds h3
    exact ⟨l', amount, e2, who, h1, cur, e1, hl'⟩

theorem C148_withdraw_what {who cur amount : Nat} (h : withdraw c l a w = .ok l') (hw : c.acct w = some who)
    (hn : Names c a cur amount) :
    (∀ x y, l'.bal x y + (if x = cur ∧ y = who then amount else 0) = l.bal x y) ∧
    ∀ x, l'.iss x = l.iss x - if x = cur then amount else 0 := by
  obtain ⟨e1, e2⟩ := names_iff.1 hn
  simp only [withdraw, bind_ok_iff, okOr_ok_iff] at h
  obtain ⟨amount', h1, who', h2, cur', h3, h4⟩ := h
  rw [e2] at h1; cases h1
  rw [hw] at h2; cases h2
  rw [e1] at h3; cases h3
  exact ⟨fun x y => Ledger.burn_bal h4 x y, fun x => Ledger.burn_iss h4 x⟩

/-- C148: a transfer is carried out if the source keeps something, and moves exactly the amount. -/
theorem C148_transfer_when {src dst : Loc} {s d cur amount : Nat} (hs : c.acct src = some s) (hd : c.acct dst = some d)
    (hn : Names c a cur amount) :
    (∃ l', transferAsset c l a src dst = .ok l') ↔ amount = 0 ∨ amount < l.bal cur s := by
  obtain ⟨e1, e2⟩ := names_iff.1 hn
  simp only [transferAsset, bind_ok_iff, okOr_ok_iff]
  constructor
  · rintro ⟨l', s', h1, d', h2, cur', h3, amount', h4, h5⟩
    rw [hs] at h1; cases h1
    rw [hd] at h2; cases h2
    rw [e1] at h3; cases h3
    rw [e2] at h4; cases h4
    by_cases h0 : amount = 0
    · exact .inl h0
    · exact .inr (Ledger.transfer_keep h5 h0)
  · intro h
    have : ∃ l', l.transfer cur s d amount true = .ok l' := by
      rcases h with h | h
      · subst h; exact ⟨l, rfl⟩
      · exact Ledger.transfer_succeeds (by omega) (fun _ => h)
    obtain ⟨l', hl'⟩ := this
    exact ⟨l', s, hs, d, hd, cur, e1, amount, e2, hl'⟩

theorem C148_transfer_what {src dst : Loc} {s d cur amount : Nat} (h : transferAsset c l a src dst = .ok l')
    (hs : c.acct src = some s) (hd : c.acct dst = some d) (hn : Names c a cur amount) :
    (∀ x y, l'.bal x y + (if x = cur ∧ y = s then amount else 0) = l.bal x y + if x = cur ∧ y = d then amount else 0) ∧
    l'.iss = l.iss := by
  obtain ⟨e1, e2⟩ := names_iff.1 hn
  simp only [transferAsset, bind_ok_iff, okOr_ok_iff] at h
  obtain ⟨s', h1, d', h2, cur', h3, amount', h4, h5⟩ := h
  rw [hs] at h1; cases h1
  rw [hd] at h2; cases h2
  rw [e1] at h3; cases h3
  rw [e2] at h4; cases h4
  exact ⟨fun x y => Ledger.transfer_bal h5 x y, Ledger.transfer_iss h5⟩

theorem exNames (n : Nat) : Names exCfg (exDot n) 101 n := ⟨⟨1, []⟩, rfl, rfl, by decide +kernel⟩
example : exCfg.acct (exAt 5) = some 5 ∧ (deposit exCfg exL (exDot 50000000000) (exAt 5)).2 = .ok () ∧
    (deposit exCfg exL (exDot 50000000000) (exAt 5)).1.bal 101 5 = 50000000000 ∧
    (deposit exCfg exL (exDot 50000000000) (exAt 5)).1.bal 0 5 = 650000000000 ∧
    okAnd (withdraw exCfg exL (exDot 40) (exAt 7)) (fun l => l.bal 101 7 == 60) = true ∧
    okAnd (transferAsset exCfg exL (exDot 40) (exAt 7) (exAt 8)) (fun l => l.bal 101 8 == 40) = true := by
  decide +kernel

/-! ## C149 -/

/-- The property as one would like it: an account that once received the gift does not receive it again.
`moved` is what happens to the ledger in between (transfers between accounts). -/
def C149_statement : Prop := ∀ (l : Ledger) (n who dst m : Nat) (l1 : Ledger), l.WF →
  who ≠ exCfg.gift → giftDue exCfg l who 101 n ≠ 0 →
  (deposit exCfg l (exDot n) (exAt who)).1.transfer 0 who dst m false = .ok l1 → giftDue exCfg l1 who 101 n = 0

/-- C149 is false: send the gift on and deposit again. -/
theorem C149_refuted : ¬ C149_statement := by
  intro h
  have hw : exL.WF := by unfold exL; exact Ledger.ofList_wf _
  have hd : (deposit exCfg exL (exDot 50000000000) (exAt 5)).1.bal 0 5 = 650000000000 := by decide +kernel
  obtain ⟨l1, hl1⟩ := Ledger.transfer_succeeds (l := (deposit exCfg exL (exDot 50000000000) (exAt 5)).1)
    (a := 0) (s := 5) (d := 6) (m := 650000000000) (k := false) (le_of_eq hd.symm) (fun h => by cases h)
  have h1 := h exL 50000000000 5 6 650000000000 l1 hw (by decide +kernel) (by decide +kernel) hl1
  have hb5 := Ledger.transfer_bal hl1 0 5
  have hb99 := Ledger.transfer_bal hl1 0 99
  have hg : (deposit exCfg exL (exDot 50000000000) (exAt 5)).1.bal 0 99 = 1350000000000 := by decide +kernel
  rw [hd] at hb5
  rw [hg] at hb99
  simp only [true_and, Nat.reduceEqDiff, if_true, if_false] at hb5 hb99
  have e5 : l1.bal 0 5 = 0 := by omega
  have e99 : l1.bal 0 99 = 1350000000000 := by omega
  have hgo : exCfg.giftOf 50000000000 101 = 650000000000 := by decide +kernel
  unfold giftDue at h1
  change (if exCfg.giftOf 50000000000 101 ≤ l1.bal 0 99 then exCfg.giftOf 50000000000 101 - (l1.bal 0 5 - 1) else 0) = 0 at h1
  rw [hgo, e99, e5] at h1
  exact absurd h1 (by decide)

/-- C149, what holds: the gift only tops up. Nothing is due to an account that can spend the gift amount;
right after a deposit nothing more is due for another deposit of the same size; the gift account never pays
more than it has. -/
theorem C149_top_up_partial {who cur amount : Nat} :
    (c.giftOf amount cur ≤ l.bal c.native who - 1 → giftDue c l who cur amount = 0) ∧
    giftDue c l who cur amount ≤ l.bal c.native c.gift ∧
    l.bal c.native who + giftDue c l who cur amount ≤ max (l.bal c.native who) (c.giftOf amount cur + 1) := by
  refine ⟨fun h => ?_, giftDue_le who cur amount, ?_⟩
  · unfold giftDue; split <;> omega
  · unfold giftDue; split <;> omega

/-- C149: on the parallel chain the gift of 0.65 PARA (650000000000 units) comes with at least
`5 * (10^10 - 96000000)` units of DOT — 4.952 DOT — and with nothing less; on heiko with at least
`10^11 - 96000000` units of KSM. -/
theorem C149_threshold (b : Nat) :
    giftParallel 10 b 101 = .ok (if 49520000000 ≤ b then 650000000000 else 0) ∧
    giftHeiko 12 b 100 = .ok (if 99904000000 ≤ b then 650000000000 else 0) := by
  constructor
  · have h1 : pow10 10 = .ok 10000000000 := by decide +kernel
    have h2 : cmul .panic 5 (10000000000 - 96000000) = .ok 49520000000 := by decide +kernel
    unfold giftParallel
    rw [if_neg (by decide), if_pos rfl, h1, ok_bind, h2, ok_bind]
    rfl
  · have h1 : pow10 (12 - 1) = .ok 100000000000 := by decide +kernel
    unfold giftHeiko
    rw [if_neg (by decide), if_pos rfl, h1, ok_bind]
    have : 100000000000 - 96000000 = 99904000000 := by decide
    rw [this]
    rfl

/-- C149: the function panics for the gift assets when their decimals are 39 or more. -/
theorem C149_decimals_panic {d b : Nat} (hd : 39 ≤ d) : giftParallel d b 101 = .error .panic := by
  have h1 : pow10 d = .error .panic := by
    refine if_neg ?_
    have : 10 ^ 39 ≤ 10 ^ d := Nat.pow_le_pow_right (by decide) hd
    have h39 : maxU128 < 10 ^ 39 := by decide +kernel
    omega
  unfold giftParallel
  rw [if_neg (by omega), if_pos rfl, h1]
  rfl

example : giftDue exCfg exL 5 101 50000000000 = 650000000000 ∧ giftDue exCfg exL 5 101 49519999999 = 0 := by
  decide +kernel

/-! ## C150 -/

theorem runOp_iss (hl : l.WF) (o : AOp) (cur : Nat) :
    (runOp c l o).WF ∧ (runOp c l o).iss cur + outflow c l cur o = l.iss cur + inflow c l cur o := by
  cases o with
  | deposit a w =>
    show (deposit c l a w).1.WF ∧ (deposit c l a w).1.iss cur + 0 = _ + if _ then _ else _
    by_cases hn : ∃ who cur amount, c.acct w = some who ∧ Names c a cur amount
    · obtain ⟨who, k, amount, hw, hn⟩ := hn
      have hgw : (giftLedger c l a who k amount).WF := by
        unfold giftLedger; split
        · exact Ledger.transfer_wf (giveGift_ok who k amount) hl
        · exact hl
      have hk := (names_iff.1 hn).1
      rw [deposit_named hw hn]
      obtain ⟨loc, hid, ham, -⟩ := hn
      cases hm : (giftLedger c l a who k amount).mint k who amount with
      | error e =>
        dsimp only
        refine ⟨hgw, ?_⟩
        rw [giftLedger_iss, if_neg (fun h => by cases h.1)]
      | ok l' =>
        dsimp only
        refine ⟨Ledger.mint_wf hm hgw, ?_⟩
        rw [Ledger.mint_iss hm, giftLedger_iss, hk, ham]
        by_cases hc : cur = k
        · subst hc; rw [if_pos rfl, if_pos ⟨rfl, rfl⟩]; rfl
        · rw [if_neg hc, if_neg (fun h => hc (Option.some.inj h.2).symm)]
    · rw [deposit_unnamed hn]
      dsimp only
      exact ⟨hl, by rw [if_neg (fun h => by cases h.1)]⟩
  | withdraw a w =>
    show (commit l (withdraw c l a w)).WF ∧ (commit l (withdraw c l a w)).iss cur + (if _ then _ else _) = _ + 0
    cases hwd : withdraw c l a w with
    | error e =>
      refine ⟨hl, ?_⟩
      rw [if_neg (fun h => by cases h.1)]; rfl
    | ok l' =>
      obtain ⟨who, k, amount, hw, hn, hle⟩ := C148_withdraw_when.1 ⟨l', hwd⟩
      have hk := (names_iff.1 hn).1
      have hwd' := hwd
      simp only [withdraw, bind_ok_iff, okOr_ok_iff] at hwd'
      obtain ⟨amount', -, who', -, cur', -, h4⟩ := hwd'
      refine ⟨Ledger.burn_wf h4 hl, ?_⟩
      show l'.iss cur + _ = _
      rw [(C148_withdraw_what hwd hw hn).2 cur, hk]
      obtain ⟨loc, hid, ham, -⟩ := hn
      have hb : l.bal k who ≤ l.iss k := Ledger.bal_le_iss hl k who
      by_cases hc : cur = k
      · subst hc; rw [if_pos rfl, if_pos ⟨rfl, rfl⟩, ham]
        show _ - amount + amount = _
        omega
      · rw [if_neg hc, if_neg (fun h => hc (Option.some.inj h.2).symm)]
        omega
  | move a s d =>
    show (commit l (transferAsset c l a s d)).WF ∧ (commit l (transferAsset c l a s d)).iss cur + 0 = _ + 0
    cases hwd : transferAsset c l a s d with
    | error e => exact ⟨hl, rfl⟩
    | ok l' =>
      simp only [transferAsset, bind_ok_iff, okOr_ok_iff] at hwd
      obtain ⟨s', -, d', -, cur', -, amount', -, h5⟩ := hwd
      refine ⟨Ledger.transfer_wf h5 hl, ?_⟩
      show l'.iss cur + 0 = _
      rw [Ledger.transfer_iss h5]

/-- C150: over any sequence of deposits, withdrawals and transfers by the XCM executor — whatever succeeds or
fails — the issuance of every asset is what it was plus what was deposited minus what was withdrawn, and the
balances of every asset still add up to its issuance. -/
theorem C150_supply (c : Cfg) (cur : Nat) : ∀ (ops : List AOp) (l : Ledger), l.WF →
    (runOps c cur l ops).1.WF ∧
    (runOps c cur l ops).1.iss cur + (runOps c cur l ops).2.2 = l.iss cur + (runOps c cur l ops).2.1 := by
  intro ops
  induction ops with
  | nil => intro l hl; exact ⟨hl, rfl⟩
  | cons o os ih =>
    intro l hl
    obtain ⟨h1, h2⟩ := runOp_iss (c := c) hl o cur
    obtain ⟨h3, h4⟩ := ih (runOp c l o) h1
    refine ⟨h3, ?_⟩
    show (runOps c cur (runOp c l o) os).1.iss cur + (outflow c l cur o + (runOps c cur (runOp c l o) os).2.2) =
      l.iss cur + (inflow c l cur o + (runOps c cur (runOp c l o) os).2.1)
    omega

/-- C150: an account loses units of an asset only if it is the source of a withdrawal or transfer of that
asset, or the gift account (native asset, deposit of the relay chain's asset). -/
theorem C150_who_loses (o : AOp) {x y : Nat} (h : (runOp c l o).bal x y < l.bal x y) :
    (∃ a w, o = .withdraw a w ∧ c.acct w = some y ∧ currencyOf c a = some x) ∨
    (∃ a s d, o = .move a s d ∧ c.acct s = some y ∧ currencyOf c a = some x) ∨
    (∃ a w, o = .deposit a w ∧ a.id = relayAsset ∧ x = c.native ∧ y = c.gift) := by
  cases o with
  | deposit a w =>
    right; right
    refine ⟨a, w, rfl, ?_⟩
    change (deposit c l a w).1.bal x y < _ at h
    by_cases hn : ∃ who cur amount, c.acct w = some who ∧ Names c a cur amount
    · obtain ⟨who, k, amount, hw, hn⟩ := hn
      have hg := giftLedger_bal (c := c) (l := l) a who k amount x y
      rw [deposit_named hw hn] at h
      by_contra hc
      rw [if_neg hc] at hg
      cases hm : (giftLedger c l a who k amount).mint k who amount with
      | error e => rw [hm] at h; dsimp only at h; omega
      | ok l' =>
        rw [hm] at h; dsimp only at h
        have := Ledger.mint_bal hm x y
        omega
    · rw [deposit_unnamed hn] at h; exact absurd h (lt_irrefl _)
  | withdraw a w =>
    left
    refine ⟨a, w, rfl, ?_⟩
    change (commit l (withdraw c l a w)).bal x y < _ at h
    cases hwd : withdraw c l a w with
    | error e => rw [hwd] at h; exact absurd h (lt_irrefl _)
    | ok l' =>
      rw [hwd] at h
      change l'.bal x y < _ at h
      obtain ⟨who, k, amount, hw, hn, hle⟩ := C148_withdraw_when.1 ⟨l', hwd⟩
      have h1 := (C148_withdraw_what hwd hw hn).1 x y
      by_cases hc : x = k ∧ y = who
      · obtain ⟨rfl, rfl⟩ := hc
        exact ⟨hw, (names_iff.1 hn).1⟩
      · rw [if_neg hc] at h1; omega
  | move a s d =>
    right; left
    refine ⟨a, s, d, rfl, ?_⟩
    change (commit l (transferAsset c l a s d)).bal x y < _ at h
    cases hwd : transferAsset c l a s d with
    | error e => rw [hwd] at h; exact absurd h (lt_irrefl _)
    | ok l' =>
      rw [hwd] at h
      change l'.bal x y < _ at h
      simp only [transferAsset, bind_ok_iff, okOr_ok_iff] at hwd
      obtain ⟨s', h1, d', -, cur', h3, amount', -, h5⟩ := hwd
      have h6 := Ledger.transfer_bal h5 x y
      by_cases hc : x = cur' ∧ y = s'
      · obtain ⟨rfl, rfl⟩ := hc
        exact ⟨h1, h3⟩
      · rw [if_neg hc] at h6; omega

example : (runOps exCfg 101 exL [.deposit (exDot 500) (exAt 5), .withdraw (exDot 30) (exAt 7),
    .withdraw (exDot 30000) (exAt 7), .move (exDot 20) (exAt 5) (exAt 7)]).2 = (500, 30) := by decide +kernel

/-! ## C151 -/

/-- C151: an asset of this chain resolves to the same asset id by its local and by its absolute location. -/
theorem C151_local_absolute (self : Nat) (typeId : Loc → Option Nat) {js : List Junction} (h : js.length < 8) :
    assetIdOf self typeId ⟨0, js⟩ = assetIdOf self typeId ⟨1, .parachain self :: js⟩ := by
  unfold assetIdOf canonical
  rw [if_neg (by simp), if_pos h, if_pos (by simp)]

/-- C151: a location outside this chain resolves to the asset registered for exactly it. -/
theorem C151_foreign (self : Nat) (typeId : Loc → Option Nat) {l : Loc} (h : l.parents ≠ 0) :
    assetIdOf self typeId l = typeId l := by
  unfold assetIdOf canonical
  rw [if_pos h]

/-- C151: an asset registered under a local location is never found, by no location at all (assets must be
registered under absolute locations). -/
theorem C151_local_registration_dead (self : Nat) (typeId : Loc → Option Nat) {js : List Junction} {id : Nat}
    (hjs : js.length < 8) (huniq : ∀ l, typeId l = some id → l = ⟨0, js⟩) (l : Loc) :
    assetIdOf self typeId l ≠ some id := by
  intro h
  have h1 := huniq _ h
  unfold canonical at h1
  split at h1
  · rename_i hp; rw [h1] at hp; exact hp rfl
  · split at h1
    · injection h1 with h2 _; exact absurd h2 (by decide)
    · rename_i hp hlen; rw [h1] at hlen; exact hlen hjs

/-- C151: two different locations resolve to the same asset only if the registry links both absolute forms to
it; with a registry in which every id has one location (`C142_inverse_partial`) they are the local and the
absolute form of one place. -/
theorem C151_injective (self : Nat) (typeId : Loc → Option Nat) (hinj : ∀ x y i, typeId x = some i → typeId y = some i → x = y)
    {l m : Loc} {i : Nat} (h1 : assetIdOf self typeId l = some i) (h2 : assetIdOf self typeId m = some i) :
    canonical self l = canonical self m := hinj _ _ i h1 h2

example : assetIdOf 2012 exCfg.typeId ⟨0, [.other 0]⟩ = some 0 ∧
    assetIdOf 2012 exCfg.typeId ⟨1, [.parachain 2012, .other 0]⟩ = some 0 := by decide +kernel
example : ∃ l, (fun l : Loc => if l = ⟨0, [.other 3]⟩ then some 5 else none) l = some 5 :=
  ⟨⟨0, [.other 3]⟩, by decide +kernel⟩

/-! ## C149: the gift amounts -/

theorem pow10_ok {d : Nat} (hd : d ≤ 30) : pow10 d = .ok (10 ^ d) ∧ 300 * 10 ^ d ≤ maxU128 := by
  have hp : 10 ^ d ≤ 10 ^ 30 := Nat.pow_le_pow_right (by omega) hd
  have hm : 300 * 10 ^ 30 ≤ maxU128 := by decide +kernel
  have : 300 * 10 ^ d ≤ maxU128 := (Nat.mul_le_mul_left _ hp).trans hm
  refine ⟨?_, this⟩
  unfold pow10
  rw [if_pos (by omega)]

/-- C149: the gift of the parallel runtime, for assets with up to 30 decimals: 0.65 PARA with at least `5 (10^d - 96000000)` units
of DOT or 300 whole units (`10^d`) of EUSDT or EUSDC, and nothing otherwise; nothing for assets of unknown decimals. -/
theorem C149_gift_parallel {d : Nat} (hd : d ≤ 30) (b x : Nat) : ∃ g, giftParallel d b x = .ok g ∧
    (g = 650000000000 ∨ g = 0) ∧
    (g = 650000000000 ↔ d ≠ 0 ∧ ((x = 101 ∧ 5 * (10 ^ d - 96000000) ≤ b) ∨ ((x = 201 ∨ x = 202) ∧ 300 * 10 ^ d ≤ b))) := by
  obtain ⟨hp, hm⟩ := pow10_ok hd
  generalize 10 ^ d = P at *
  unfold giftParallel
  by_cases h0 : d = 0
  · rw [if_pos h0]
    exact ⟨0, rfl, Or.inr rfl, by simp [h0]⟩
  · rw [if_neg h0]
    by_cases h1 : x = 101
    · have hc : cmul .panic 5 (P - 96000000) = .ok (5 * (P - 96000000)) := cmul_ok_iff.2 ⟨by omega, rfl⟩
      rw [if_pos h1, hp, ok_bind, hc, ok_bind]
      subst h1
      by_cases hb : 5 * (P - 96000000) ≤ b
      · rw [if_pos hb]
        exact ⟨_, rfl, Or.inl rfl, fun _ => ⟨h0, Or.inl ⟨rfl, hb⟩⟩, fun _ => rfl⟩
      · rw [if_neg hb]
        refine ⟨_, rfl, Or.inr rfl, fun h => by (cases h), ?_⟩
        rintro ⟨-, ⟨-, h⟩ | ⟨h | h, -⟩⟩
        · exact absurd h hb
        · cases h
        · cases h
    · rw [if_neg h1]
      by_cases h2 : x = 201 ∨ x = 202
      · have hc : cmul .panic 300 P = .ok (300 * P) := cmul_ok_iff.2 ⟨hm, rfl⟩
        rw [if_pos h2, hp, ok_bind, hc, ok_bind]
        by_cases hb : 300 * P ≤ b
        · rw [if_pos hb]
          exact ⟨_, rfl, Or.inl rfl, fun _ => ⟨h0, Or.inr ⟨h2, hb⟩⟩, fun _ => rfl⟩
        · rw [if_neg hb]
          refine ⟨_, rfl, Or.inr rfl, fun h => by (cases h), ?_⟩
          rintro ⟨-, ⟨h, -⟩ | ⟨-, h⟩⟩
          · exact absurd h h1
          · exact absurd h hb
      · rw [if_neg h2]
        refine ⟨_, rfl, Or.inr rfl, fun h => by (cases h), ?_⟩
        rintro ⟨-, ⟨h, -⟩ | ⟨h, -⟩⟩
        · exact absurd h h1
        · exact absurd h h2

/-- C149: the gift of the heiko runtime: the same for EUSDT and EUSDC, and with at least `10^(d-1) - 96000000` units of KSM. -/
theorem C149_gift_heiko {d : Nat} (hd : d ≤ 30) (b x : Nat) : ∃ g, giftHeiko d b x = .ok g ∧
    (g = 650000000000 ∨ g = 0) ∧
    (g = 650000000000 ↔ d ≠ 0 ∧ ((x = 100 ∧ 10 ^ (d - 1) - 96000000 ≤ b) ∨ ((x = 201 ∨ x = 202) ∧ 300 * 10 ^ d ≤ b))) := by
  obtain ⟨hp, hm⟩ := pow10_ok hd
  obtain ⟨hp', -⟩ := pow10_ok (d := d - 1) (by omega)
  generalize 10 ^ (d - 1) = Q at *
  generalize 10 ^ d = P at *
  unfold giftHeiko
  by_cases h0 : d = 0
  · rw [if_pos h0]
    exact ⟨0, rfl, Or.inr rfl, by simp [h0]⟩
  · rw [if_neg h0]
    by_cases h1 : x = 100
    · rw [if_pos h1, hp', ok_bind]
      subst h1
      by_cases hb : Q - 96000000 ≤ b
      · rw [if_pos hb]
        exact ⟨_, rfl, Or.inl rfl, fun _ => ⟨h0, Or.inl ⟨rfl, hb⟩⟩, fun _ => rfl⟩
      · rw [if_neg hb]
        refine ⟨_, rfl, Or.inr rfl, fun h => by (cases h), ?_⟩
        rintro ⟨-, ⟨-, h⟩ | ⟨h | h, -⟩⟩
        · exact absurd h hb
        · cases h
        · cases h
    · rw [if_neg h1]
      by_cases h2 : x = 201 ∨ x = 202
      · have hc : cmul .panic 300 P = .ok (300 * P) := cmul_ok_iff.2 ⟨hm, rfl⟩
        rw [if_pos h2, hp, ok_bind, hc, ok_bind]
        by_cases hb : 300 * P ≤ b
        · rw [if_pos hb]
          exact ⟨_, rfl, Or.inl rfl, fun _ => ⟨h0, Or.inr ⟨h2, hb⟩⟩, fun _ => rfl⟩
        · rw [if_neg hb]
          refine ⟨_, rfl, Or.inr rfl, fun h => by (cases h), ?_⟩
          rintro ⟨-, ⟨h, -⟩ | ⟨-, h⟩⟩
          · exact absurd h h1
          · exact absurd h hb
      · rw [if_neg h2]
        refine ⟨_, rfl, Or.inr rfl, fun h => by (cases h), ?_⟩
        rintro ⟨-, ⟨h, -⟩ | ⟨h, -⟩⟩
        · exact absurd h h1
        · exact absurd h h2

/-- DOT has 10 decimals: 4.952 DOT earn the gift; with 40 decimals the conversion panics. -/
example : giftParallel 10 49520000000 101 = .ok 650000000000 ∧ giftParallel 10 49519999999 101 = .ok 0 ∧
    giftParallel 6 300000000 202 = .ok 650000000000 ∧ giftParallel 40 5 201 = .error .panic ∧
    giftHeiko 12 99904000000 100 = .ok 650000000000 := by decide +kernel

end Verif.Xcm
