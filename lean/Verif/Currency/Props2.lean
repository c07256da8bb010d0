import Verif.Currency.Props

/-!
# C168–C170: the simple ledger, conservation, and the balance that can be spent
-/

namespace Verif.Currency
open Verif

/-! ### C169 -/

/-- **C169, transfers.** A transfer between two accounts takes the amount from one and gives it to the other; the
issuance and all other currencies and accounts stay. If the sender would keep less than the minimum balance, its account
is emptied: the remainder goes to the treasury (native currency) or to the receiver (assets). -/
theorem C169_transfer (c : Cfg) (s s' : State) (a src dst amt : Nat) (keep : Bool) (h0 : amt ≠ 0) (hne : src ≠ dst)
    (h : transfer c s a src dst amt keep = .ok s') :
    (∃ dust, (∀ v, balance c s' a v + (if v = src then amt + dust else 0) = balance c s a v +
        (if v = dst then amt else 0) + (if v = (if a = c.native then c.treasury else dst) then dust else 0)) ∧
      amt + dust ≤ balance c s a src ∧
      ((dust = 0 ∧ (amt = balance c s a src ∨ amt + minimum c s a ≤ balance c s a src)) ∨
        (0 < dust ∧ dust < minimum c s a ∧ amt + dust = balance c s a src ∧ keep = false))) ∧
    (keep = true → amt + minimum c s a ≤ balance c s a src) ∧
    issuance c s' a = issuance c s a ∧
    ∀ b, b ≠ a → balance c s' b = balance c s b ∧ issuance c s' b = issuance c s b :=
  transfer_effect h0 hne h

/-- **C169, mints.** -/
theorem C169_mint (c : Cfg) (s s' : State) (a w amt : Nat) (h : mint c s a w amt = .ok s') :
    (∀ v, balance c s' a v = balance c s a v + if v = w then amt else 0) ∧ issuance c s' a = issuance c s a + amt ∧
    ∀ b, b ≠ a → balance c s' b = balance c s b ∧ issuance c s' b = issuance c s b := by
  obtain ⟨h1, h2, -, h3⟩ := mint_effect h
  exact ⟨h1, h2, h3⟩

/-- **C169, burns.** A burn takes what it reports to have burnt from the account and from the issuance. That is the
amount asked for, or the whole balance where less than the minimum would have been left. -/
theorem C169_burn (c : Cfg) (s s' : State) (a w amt d : Nat) (hs : Sound c s) (h : burn c s a w amt = .ok (s', d)) :
    (∀ v, balance c s' a v + (if v = w then d else 0) = balance c s a v) ∧
    issuance c s' a + d = issuance c s a ∧
    (d = amt ∨ (amt < d ∧ d < amt + minimum c s a ∧ d = balance c s a w)) ∧
    ∀ b, b ≠ a → balance c s' b = balance c s b ∧ issuance c s' b = issuance c s b := by
  obtain ⟨h1, h2, h3, h4⟩ := burn_effect h
  refine ⟨h1, ?_, ?_, h4⟩
  · have e := h1 w
    rw [if_pos rfl] at e
    have := (hs a).1.apply w
    omega
  · rcases h3 with h3 | h3
    · exact Or.inl h3.1
    · exact Or.inr h3.2

theorem updateLocks_sound {c : Cfg} {s : State} (h : Sound c s) (w : Nat) (ls : List (Nat × Nat)) :
    Sound c (updateLocks c s w ls) := h

theorem setLock_sound {c : Cfg} {s : State} (h : Sound c s) (id w amt : Nat) : Sound c (setLock c s id w amt) := by
  unfold setLock
  split
  · exact h
  · exact updateLocks_sound h _ _

theorem step_sound {c : Cfg} {s s' : State} (hs : Sound c s) (h : Step c s s') : Sound c s' := by
  cases h with
  | transfer a src dst amt keep h =>
    by_cases h0 : amt = 0 ∨ src = dst
    · rw [transfer_nothing h0 h]
      exact hs
    · rw [not_or] at h0
      obtain ⟨⟨dust, h1, h2, -⟩, -, h3, h4⟩ := transfer_effect h0.1 h0.2 h
      intro b
      by_cases hb : b = a
      · subst hb
        rw [h3]
        refine ⟨?_, (hs b).2⟩
        have m1 : SumsTo (fun v => balance c s b v + (if v = dst then amt else 0) - (if v = src then amt else 0)) (issuance c s b) := by
          refine (hs b).1.move src dst amt (by omega) ?_
          intro v
          by_cases e1 : v = src
          · subst e1
            rw [if_pos rfl, if_neg h0.2]
            omega
          · rw [if_neg e1]
            omega
        refine m1.move src (collector c b dst) dust ?_ ?_
        · show dust ≤ _ + _ - _
          rw [if_pos rfl, if_neg h0.2]
          omega
        · intro v
          have := h1 v
          show balance c s' b v + _ = balance c s b v + _ - _ + _
          by_cases e : v = src
          · subst e
            rw [if_pos rfl, if_neg h0.2] at this
            rw [if_pos rfl, if_pos rfl, if_neg h0.2]
            omega
          · rw [if_neg e] at this
            rw [if_neg e, if_neg e]
            omega
      · obtain ⟨e1, e2⟩ := h4 b hb
        rw [e1, e2]
        exact hs b
  | mint a w amt h =>
    obtain ⟨h1, h2, h3, h4⟩ := mint_effect h
    intro b
    by_cases hb : b = a
    · subst hb
      have hsb := hs b
      rw [h2]
      refine ⟨hsb.1.update w (fun i hi => by rw [h1, if_neg hi]; rfl) (by rw [h1, if_pos rfl]; omega), ?_⟩
      by_cases h0 : amt = 0
      · have := hsb.2
        omega
      · exact h3 h0
    · obtain ⟨e1, e2⟩ := h4 b hb
      rw [e1, e2]
      exact hs b
  | burn a w amt d h =>
    obtain ⟨h1, h2, h3, h4⟩ := C169_burn c s s' a w amt d hs h
    intro b
    by_cases hb : b = a
    · subst hb
      have hsb := hs b
      refine ⟨hsb.1.update w (fun i hi => ?_) ?_, by omega⟩
      · have := h1 i
        rw [if_neg hi] at this
        omega
      · have := h1 w
        rw [if_pos rfl] at this
        omega
    · obtain ⟨e1, e2⟩ := h4 b hb
      rw [e1, e2]
      exact hs b
  | setLock a w amt h =>
    unfold forceSetLock at h
    simp only [bind_ok_iff, ensure_ok_iff, pure_ok_iff, exists_const] at h
    obtain ⟨-, rfl⟩ := h
    exact setLock_sound hs _ _ _
  | removeLock a w h =>
    unfold forceRemoveLock at h
    simp only [bind_ok_iff, ensure_ok_iff, pure_ok_iff, exists_const] at h
    obtain ⟨-, rfl⟩ := h
    exact updateLocks_sound hs _ _
  | otherLock id w amt _ => exact setLock_sound hs _ _ _
  | otherUnlock id w _ => exact updateLocks_sound hs _ _
  | @freeze x a st iced hx =>
    intro b
    by_cases hb : b = a
    · subst hb
      have hsb := hs b
      by_cases hn : b = c.native
      · subst hn
        have e1 : balance c { s with assets := upd s.assets c.native (some { x with status := st, iced := iced }) } c.native =
            balance c s c.native := by
          funext w
          rw [balance_native, balance_native]
          rfl
        have e2 : issuance c { s with assets := upd s.assets c.native (some { x with status := st, iced := iced }) } c.native =
            issuance c s c.native := by
          rw [issuance_native, issuance_native]
        rw [e1, e2]
        exact hsb
      · have e1 : balance c { s with assets := upd s.assets b (some { x with status := st, iced := iced }) } b = balance c s b := by
          funext w
          rw [balance_asset hn hx, balance_asset hn (upd_same _ _ _)]
        have e2 : issuance c { s with assets := upd s.assets b (some { x with status := st, iced := iced }) } b = issuance c s b := by
          rw [issuance_asset hn hx, issuance_asset hn (upd_same _ _ _)]
        rw [e1, e2]
        exact hsb
    · obtain ⟨e1, e2⟩ := same_others (c := c) (s := s) (v := some { x with status := st, iced := iced }) hb
      rw [e1, e2]
      exact hs b

/-- **C169.** Through any history the balances of every currency add up to its issuance. -/
theorem C169_history (c : Cfg) (s s' : State) (hs : Sound c s) (h : Steps c s s') : Sound c s' := by
  induction h with
  | refl => exact hs
  | step _ h ih => exact step_sound ih h

/-! ### C168 -/

theorem ledger_setBal_bal (l : Ledger) (a w v x y : Nat) :
    (l.setBal a w v).bal x y = if x = a ∧ y = w then v else l.bal x y := Ledger.setBal_bal l a w v x y

theorem ledger_ext {l l' : Ledger} (hb : ∀ a w, l.bal a w = l'.bal a w) (hi : ∀ a, l.iss a = l'.iss a) : l = l' := by
  rcases l with ⟨b, i⟩
  rcases l' with ⟨b', i'⟩
  have e1 : b = b' := by
    funext a w
    exact hb a w
  have e2 : i = i' := funext hi
  rw [e1, e2]

/-- **C168, transfers.** Every transfer between two accounts that leaves no dust is, seen through balances and issuance,
the transfer of the simple ledger. -/
theorem C168_transfer (c : Cfg) (s s' : State) (a src dst amt : Nat) (keep : Bool) (hm : 0 < minimum c s a)
    (hne : src ≠ dst) (hd : NoDust c s a src amt) (h : transfer c s a src dst amt keep = .ok s') :
    (ledger c s).transfer a src dst amt keep = .ok (ledger c s') := by
  unfold Ledger.transfer
  by_cases h0 : amt = 0
  · rw [if_pos h0, transfer_nothing (Or.inl h0) h]
  · rw [if_neg h0]
    obtain ⟨⟨dust, h1, h2, h3⟩, hk, h4, h5⟩ := transfer_effect h0 hne h
    have hz : dust = 0 := by
      unfold NoDust at hd
      rcases h3 with h3 | ⟨g1, g2, g3, -⟩
      · exact h3.1
      · rcases hd with hd | hd
        · omega
        · omega
    subst hz
    have e1 : (ledger c s).bal a src = balance c s a src := rfl
    rw [if_neg (by rw [e1]; omega)]
    rw [if_neg (by
      rintro ⟨k, e⟩
      have := hk k
      rw [e1] at e
      omega)]
    have hb1 := h1 src
    have hb2 := h1 dst
    rw [if_pos rfl, if_neg hne, ite_self] at hb1
    rw [if_pos rfl, if_neg (fun e => hne e.symm), ite_self] at hb2
    refine congrArg Except.ok (ledger_ext ?_ ?_)
    · intro x y
      rw [ledger_setBal_bal, ledger_setBal_bal, ledger_setBal_bal]
      show _ = balance c s' x y
      by_cases hx : x = a
      · subst hx
        by_cases hy : y = dst
        · subst hy
          rw [if_pos ⟨rfl, rfl⟩, if_neg (fun e => hne e.2.symm)]
          show balance c s x y + amt = _
          omega
        · rw [if_neg (fun e => hy e.2)]
          by_cases hy2 : y = src
          · subst hy2
            rw [if_pos ⟨rfl, rfl⟩, e1]
            omega
          · rw [if_neg (fun e => hy2 e.2)]
            have := h1 y
            rw [if_neg hy2, if_neg hy, ite_self] at this
            show balance c s x y = _
            omega
      · rw [if_neg (fun e => hx e.1), if_neg (fun e => hx e.1), (h5 x hx).1]
        rfl
    · intro x
      show issuance c s x = issuance c s' x
      by_cases hx : x = a
      · rw [hx, h4]
      · rw [(h5 x hx).2]

/-- **C168, mints.** -/
theorem C168_mint (c : Cfg) (s s' : State) (a w amt : Nat) (hs : Sound c s) (h : mint c s a w amt = .ok s') :
    (ledger c s).mint a w amt = .ok (ledger c s') := by
  obtain ⟨h1, h2, h3, h4⟩ := mint_effect h
  unfold Ledger.mint
  have hle : (ledger c s).iss a + amt ≤ maxU128 := by
    show issuance c s a + amt ≤ _
    by_cases h0 : amt = 0
    · have := (hs a).2
      omega
    · exact h3 h0
  rw [if_pos hle]
  refine congrArg Except.ok (ledger_ext ?_ ?_)
  · intro x y
    show ((ledger c s).setBal a w _).bal x y = balance c s' x y
    rw [ledger_setBal_bal]
    by_cases hx : x = a
    · subst hx
      rw [h1]
      by_cases hy : y = w
      · rw [if_pos ⟨rfl, hy⟩, if_pos hy, hy]
        rfl
      · rw [if_neg (fun e => hy e.2), if_neg hy]
        rfl
    · rw [if_neg (fun e => hx e.1), (h4 x hx).1]
      rfl
  · intro x
    show upd (issuance c s) a (issuance c s a + amt) x = issuance c s' x
    by_cases hx : x = a
    · rw [hx, upd_same, h2]
    · rw [upd_of_ne _ _ hx, (h4 x hx).2]

/-- **C168, burns.** -/
theorem C168_burn (c : Cfg) (s s' : State) (a w amt d : Nat) (hd : amt = 0 ∨ NoDust c s a w amt)
    (h : burn c s a w amt = .ok (s', d)) : d = amt ∧ (ledger c s).burn a w amt = .ok (ledger c s') := by
  obtain ⟨h1, h2, h3, h4⟩ := burn_effect h
  have hda : d = amt := by
    unfold NoDust at hd
    rcases h3 with h3 | ⟨g0, g1, g2, g3⟩
    · exact h3.1
    · rcases hd with hd | hd | hd
      · exact absurd hd g0
      · omega
      · omega
  subst hda
  refine ⟨rfl, ?_⟩
  have hw := h1 w
  rw [if_pos rfl] at hw
  unfold Ledger.burn
  have e1 : (ledger c s).bal a w = balance c s a w := rfl
  rw [if_pos (by rw [e1]; omega)]
  refine congrArg Except.ok (ledger_ext ?_ ?_)
  · intro x y
    show ((ledger c s).setBal a w _).bal x y = balance c s' x y
    rw [ledger_setBal_bal]
    by_cases hx : x = a
    · subst hx
      by_cases hy : y = w
      · rw [if_pos ⟨rfl, hy⟩, hy, e1]
        omega
      · rw [if_neg (fun e => hy e.2)]
        have := h1 y
        rw [if_neg hy] at this
        show balance c s x y = _
        omega
    · rw [if_neg (fun e => hx e.1), (h4 x hx).1]
      rfl
  · intro x
    show upd (issuance c s) a (issuance c s a - d) x = issuance c s' x
    by_cases hx : x = a
    · rw [hx, upd_same, h2]
    · rw [upd_of_ne _ _ hx, (h4 x hx).2]

/-- **C168, well-formedness.** The ledger seen is well-formed. -/
theorem C168_wf (c : Cfg) (s : State) (hs : Sound c s) : (ledger c s).WF := hs

/-! ### C170 -/

/-- An account can receive an amount of a currency. -/
def CanTake (c : Cfg) (s : State) (a dst d : Nat) : Prop :=
  if a = c.native then s.free dst + d ≤ maxU128 ∧ c.ed ≤ s.total dst + d
  else balance c s a dst + d ≤ maxU128 ∧ (balance c s a dst ≠ 0 ∨ minimum c s a ≤ d)

theorem natReducible_iff (c : Cfg) (s : State) (w amt : Nat) (keep : Bool) (h0 : amt ≠ 0) :
    amt ≤ natReducible c s w keep ↔ amt ≤ s.free w ∧ s.frozen w ≤ s.free w - amt ∧
      ((keep = false ∧ s.pinned w = false) ∨ c.ed ≤ s.free w - amt + s.resv w) := by
  unfold natReducible State.total
  dsimp only
  by_cases h : s.pinned w = false ∧ keep = false
  · rw [if_pos h]
    constructor
    · intro h1
      exact ⟨by omega, by omega, Or.inl ⟨h.2, h.1⟩⟩
    · rintro ⟨h1, h2, -⟩
      omega
  · rw [if_neg h]
    constructor
    · intro h1
      exact ⟨by omega, by omega, Or.inr (by omega)⟩
    · rintro ⟨h1, h2, h3 | h3⟩
      · exact absurd ⟨h3.2, h3.1⟩ h
      · omega

/-- **C170.** The balance shown as spendable is exactly what can be spent: a transfer between two accounts succeeds
exactly if the amount does not exceed it and the receiver can take what is sent. -/
theorem C170_spendable (c : Cfg) (s : State) (a src dst amt : Nat) (keep : Bool) (h0 : amt ≠ 0) (hne : src ≠ dst) :
    (∃ s', transfer c s a src dst amt keep = .ok s') ↔
      amt ≤ reducible c s a src keep ∧
      CanTake c s a dst (if a ≠ c.native ∧ balance c s a src - amt < minimum c s a then balance c s a src else amt) := by
  unfold CanTake
  by_cases ha : a = c.native
  · subst ha
    rw [if_pos rfl, if_neg (fun h => h.1 rfl), transfer_native, show reducible c s c.native src keep = natReducible c s src keep from if_pos rfl,
      natReducible_iff c s src amt keep h0]
    constructor
    · rintro ⟨s', h⟩
      rw [natTransfer_ok h0 hne] at h
      obtain ⟨⟨h1, h2, h3, h4, h5⟩, -⟩ := h
      exact ⟨⟨h1, h4, h5⟩, h2, by unfold State.total; omega⟩
    · rintro ⟨⟨h1, h4, h5⟩, h2, h3⟩
      exact ⟨_, (natTransfer_ok h0 hne).2 ⟨⟨h1, h2, by unfold State.total at h3; omega, h4, h5⟩, rfl⟩⟩
  · rw [if_neg ha]
    unfold transfer reducible
    rw [if_neg ha]
    simp only [if_neg h0, if_neg ha]
    cases hx : s.assets a with
    | none =>
      constructor
      · rintro ⟨s', h⟩
        cases h
      · rintro ⟨h, -⟩
        exact absurd h (by show ¬ amt ≤ 0; omega)
    | some x =>
      rw [balance_asset ha hx, balance_asset ha hx, minimum_asset ha hx]
      simp only [bind_ok_iff, okOr_ok_iff, pure_ok_iff, Option.some.injEq, exists_eq_left', Option.map_some, Option.getD_some]
      have hred : amt ≤ x.reducible src keep ↔ x.status = .live ∧ x.iced src = false ∧
          amt ≤ (if keep then x.bal src - x.minBal else x.bal src) := by
        unfold Asset.reducible
        constructor
        · intro h
          split at h
          · rename_i hl
            exact ⟨hl.1, hl.2, h⟩
          · omega
        · rintro ⟨h1, h2, h3⟩
          rw [if_pos ⟨h1, h2⟩]
          exact h3
      rw [hred]
      constructor
      · rintro ⟨s', x', h, -⟩
        rw [assetTransfer_ok h0] at h
        obtain ⟨d, h1, h2, -⟩ := h
        rw [prepDebit_ok] at h1
        rw [canIncrease_ok] at h2
        obtain ⟨⟨p1, p2, p3, p4⟩, rfl⟩ := h1
        refine ⟨⟨p1, p2, p4⟩, ?_⟩
        by_cases hz : x.bal src - amt < x.minBal
        · rw [if_pos ⟨ha, hz⟩]
          rw [if_pos hz] at h2
          exact h2.2
        · rw [if_neg (fun h => hz h.2)]
          rw [if_neg hz] at h2
          exact h2.2
      · rintro ⟨⟨p1, p2, p4⟩, h2⟩
        have p3 : x.bal src ≠ 0 := by
          split at p4 <;> omega
        refine ⟨_, _, (assetTransfer_ok h0).2 ⟨_, prepDebit_ok.2 ⟨⟨p1, p2, p3, p4⟩, rfl⟩, ?_, rfl⟩, rfl⟩
        rw [canIncrease_ok]
        refine ⟨by rw [p1]; decide, ?_⟩
        by_cases hz : x.bal src - amt < x.minBal
        · rw [if_pos ⟨ha, hz⟩] at h2
          rw [if_pos hz]
          exact h2
        · rw [if_neg (fun h => hz h.2)] at h2
          rw [if_neg hz]
          exact h2

/-! ### C168, the other direction -/

/-- An account whose money of a currency is free: not locked, reserved or used as a deposit, not frozen. -/
def Free (c : Cfg) (s : State) (a w : Nat) : Prop :=
  if a = c.native then s.resv w = 0 ∧ s.frozen w = 0 ∧ s.pinned w = false
  else ∃ x, s.assets a = some x ∧ x.status = .live ∧ x.iced w = false

/-- **C168, completeness.** Conversely a transfer that the simple ledger allows succeeds if the sender's money is free,
no dust arises and the receiver reaches the minimum balance. -/
theorem C168_complete (c : Cfg) (s : State) (l' : Ledger) (a src dst amt : Nat) (keep : Bool) (hs : Sound c s)
    (hm : 0 < minimum c s a) (hne : src ≠ dst) (hf : Free c s a src) (hd : NoDust c s a src amt)
    (hk : keep = true → minimum c s a + amt ≤ balance c s a src)
    (ht : amt = 0 ∨ minimum c s a ≤ balance c s a dst + amt)
    (hb : minimum c s a ≤ balance c s a dst ∨ balance c s a dst = 0)
    (h : (ledger c s).transfer a src dst amt keep = .ok l') :
    ∃ s', transfer c s a src dst amt keep = .ok s' ∧ ledger c s' = l' := by
  have hex : ∃ s', transfer c s a src dst amt keep = .ok s' := by
    by_cases h0 : amt = 0
    · subst h0
      unfold transfer natTransfer
      by_cases ha : a = c.native
      · rw [if_pos ha, if_pos (Or.inl rfl)]
        exact ⟨_, rfl⟩
      · rw [if_neg ha, if_pos rfl]
        exact ⟨_, rfl⟩
    · rw [C170_spendable c s a src dst amt keep h0 hne]
      have hle : amt ≤ balance c s a src := Ledger.transfer_le h
      have hsum : balance c s a src + balance c s a dst ≤ maxU128 := by
        have h1 := (hs a).1.le {src, dst}
        rw [Finset.sum_pair hne] at h1
        have := (hs a).2
        omega
      have ht' : minimum c s a ≤ balance c s a dst + amt := by
        rcases ht with ht | ht
        · exact absurd ht h0
        · exact ht
      unfold NoDust at hd
      unfold Free at hf
      by_cases ha : a = c.native
      · subst ha
        rw [if_pos rfl] at hf
        obtain ⟨f1, f2, f3⟩ := hf
        rw [if_neg (fun h => h.1 rfl)]
        unfold CanTake
        rw [if_pos rfl, show reducible c s c.native src keep = natReducible c s src keep from if_pos rfl,
          natReducible_iff c s src amt keep h0]
        simp only [balance_native, minimum_native] at hle hsum hd ht' hk
        have e1 : s.total src = s.free src + s.resv src := rfl
        have e2 : s.total dst = s.free dst + s.resv dst := rfl
        refine ⟨⟨by omega, by omega, ?_⟩, by omega, ht'⟩
        cases keep with
        | false => exact Or.inl ⟨rfl, f3⟩
        | true =>
          right
          have := hk rfl
          omega
      · rw [if_neg ha] at hf
        obtain ⟨x, hx, f1, f2⟩ := hf
        unfold CanTake
        rw [if_neg ha]
        have hr : reducible c s a src keep = x.reducible src keep := by
          unfold reducible
          rw [if_neg ha, hx]
          rfl
        rw [hr]
        unfold Asset.reducible
        rw [if_pos ⟨f1, f2⟩]
        have eb := fun w => balance_asset (c := c) (w := w) ha hx
        have em := minimum_asset (c := c) ha hx
        simp only [eb, em] at hle hsum hd ht' hk hb hm ⊢
        refine ⟨?_, ?_⟩
        · cases keep with
          | false => exact hle
          | true =>
            have := hk rfl
            rw [if_pos rfl]
            omega
        · split
          · exact ⟨by omega, by omega⟩
          · exact ⟨by omega, by omega⟩
  obtain ⟨s', hs'⟩ := hex
  refine ⟨s', hs', ?_⟩
  have := C168_transfer c s s' a src dst amt keep hm hne hd hs'
  rw [h] at this
  cases this
  rfl

/-! ### Concrete cases -/

/-- The hypotheses are met: a native transfer that empties account 1 sends its 4 of dust to the treasury, a transfer of
58 of asset 7 moves all 60, and an exact one moves 55. -/
example : (transfer exCfg exS 0 1 2 496 false).toOption.map (fun s => (balance exCfg s 0 1, balance exCfg s 0 2, balance exCfg s 0 99)) =
    some (0, 496, 1004) := by decide +kernel

example : (transfer exCfg exS 7 3 4 58 false).toOption.map (fun s => (balance exCfg s 7 3, balance exCfg s 7 4)) =
    some (0, 60) := by decide +kernel

example : (transfer exCfg exS 7 3 4 55 true).toOption.map (fun s => (balance exCfg s 7 3, balance exCfg s 7 4)) =
    some (5, 55) ∧ 0 < minimum exCfg exS 7 ∧ NoDust exCfg exS 7 3 55 := by
  refine ⟨by decide +kernel, by decide +kernel, ?_⟩
  exact Or.inr (by decide +kernel)

/-- A burn of 57 of asset 7 burns 60. -/
example : (burn exCfg exS 7 3 57).toOption.map (fun r => (balance exCfg r.1 7 3, issuance exCfg r.1 7, r.2)) =
    some (0, 0, 60) := by decide +kernel

/-- A burn of 50 is exact, as is one of native currency. -/
example : (burn exCfg exS 7 3 50).toOption.map (fun r => (balance exCfg r.1 7 3, issuance exCfg r.1 7, r.2)) =
    some (10, 10, 50) ∧ NoDust exCfg exS 7 3 50 ∧
    (burn exCfg exS 0 1 400).toOption.map (fun r => (balance exCfg r.1 0 1, issuance exCfg r.1 0, r.2)) =
      some (100, 1100, 400) := by
  exact ⟨by decide +kernel, Or.inr (by decide +kernel), by decide +kernel⟩

example : (mint exCfg exS 7 5 20).toOption.map (fun s => (balance exCfg s 7 5, issuance exCfg s 7)) = some (20, 80) := by
  decide +kernel

/-- Account 3 can spend 60 of asset 7, or 55 if it is to be kept alive; with a lock of 100, account 1 can spend 400, and a
transfer of 401 fails. -/
example : reducible exCfg exS 7 3 false = 60 ∧ reducible exCfg exS 7 3 true = 55 ∧
    reducible exCfg (setLock exCfg exS adapterId 1 100) 0 1 false = 400 ∧
    okAnd (transfer exCfg (setLock exCfg exS adapterId 1 100) 0 1 2 400 false) (fun _ => True) ∧
    errIs (transfer exCfg (setLock exCfg exS adapterId 1 100) 0 1 2 401 false) .tokenError := by
  decide +kernel

/-- Account 3 is free in asset 7, account 1 in the native currency. -/
example : Free exCfg exS 7 3 ∧ Free exCfg exS 0 1 := by
  refine ⟨?_, ?_⟩
  · unfold Free
    rw [if_neg (by decide)]
    exact ⟨_, rfl, rfl, rfl⟩
  · unfold Free
    rw [if_pos (by decide)]
    exact ⟨rfl, rfl, rfl⟩

/-- Account 1 exists and has no lock: a lock of 100 is in force, and lock administration is exact. -/
example : minimum exCfg exS exCfg.native ≤ balance exCfg exS exCfg.native 1 ∧ exS.locks 1 = [] ∧
    forceSetLock exCfg exS exCfg.native 1 100 = .ok (setLock exCfg exS adapterId 1 100) ∧
    (setLock exCfg exS adapterId 1 100).frozen 1 = 100 ∧
    (removeLock exCfg (setLock exCfg exS adapterId 1 100) adapterId 1).frozen 1 = 0 := by
  refine ⟨by decide +kernel, rfl, rfl, by decide +kernel, by decide +kernel⟩

/-! ## Exact acceptance of a mint of an asset, and what there is to know of absent assets -/

/-- **C169, acceptance of mints.** An asset other than the native one can be minted exactly if it exists, is live (neither
frozen nor being destroyed), neither supply nor balance overflows, and a new holder gets at least the minimum. -/
theorem C169_mint_when (c : Cfg) (s : State) (a w amt : Nat) (hn : a ≠ c.native) (h0 : amt ≠ 0) :
    (∃ s', mint c s a w amt = .ok s') ↔ ∃ x, s.assets a = some x ∧ x.status = .live ∧
      issuance c s a + amt ≤ maxU128 ∧ balance c s a w + amt ≤ maxU128 ∧
      (balance c s a w ≠ 0 ∨ minimum c s a ≤ amt) := by
  unfold mint issuance balance minimum
  rw [if_neg hn, if_neg hn, if_neg hn, if_neg hn, if_neg h0]
  cases hx : s.assets a with
  | none =>
    constructor
    · rintro ⟨s', h⟩
      simp only [bind_ok_iff, okOr_ok_iff] at h
      obtain ⟨x, h, _⟩ := h
      cases h
    · rintro ⟨x, h, _⟩; cases h
  | some x =>
    simp only [Asset.mint, canIncrease, bind_ok_iff, okOr_ok_iff, if_neg h0, ensure_ok_iff, exists_const, pure_ok_iff,
      Option.map_some, Option.getD_some, Option.some.injEq, exists_eq_left']
    constructor
    · rintro ⟨s', x', ⟨h1, ⟨_, h2, h3⟩, h4, _⟩, _⟩
      exact ⟨h4, h1, h2, h3⟩
    · rintro ⟨h4, h1, h2, h3⟩
      exact ⟨_, _, ⟨h1, ⟨by rw [h4]; decide, h2, h3⟩, h4, rfl⟩, rfl⟩

/-- **C170, absent assets.** A currency that does not exist has no minimum, no issuance and no balances, and nothing of it
can be spent. -/
theorem C170_absent (c : Cfg) (s : State) (a w : Nat) (keep : Bool) (hn : a ≠ c.native) (ha : s.assets a = none) :
    minimum c s a = 0 ∧ issuance c s a = 0 ∧ balance c s a w = 0 ∧ reducible c s a w keep = 0 := by
  unfold minimum issuance balance reducible
  rw [if_neg hn, if_neg hn, if_neg hn, if_neg hn, ha]
  exact ⟨rfl, rfl, rfl, rfl⟩

/-- **C167, no trace.** When the last lock of an account is removed, it is kept from being closed only by other users of the
account, as if it had never been locked. -/
theorem C167_no_trace (c : Cfg) (s s' : State) (a w : Nat) (h : forceRemoveLock c s a w = .ok s')
    (he : s'.locks w = []) : s'.pinned w = s.others w := by
  unfold forceRemoveLock at h
  simp only [bind_ok_iff, ensure_ok_iff, pure_ok_iff, exists_const] at h
  obtain ⟨_, rfl⟩ := h
  unfold State.pinned removeLock updateLocks at *
  dsimp only at he ⊢
  rw [upd_same] at he
  rw [if_pos he, upd_same]
  rfl

/-- Account 1 is locked and unlocked again. -/
example : okAnd (forceSetLock exCfg exS exCfg.native 1 100) (fun s => s.pinned 1 &&
    okAnd (forceRemoveLock exCfg s exCfg.native 1) fun s => decide (s.locks 1 = []) && !s.pinned 1) = true := by
  decide +kernel

end Verif.Currency
