import Verif.Currency.Spec

/-!
# Effects of the operations
-/

namespace Verif.Currency
open Verif

/-- A successful native transfer. -/
theorem natTransfer_ok {c : Cfg} {s s' : State} {src dst amt : Nat} {keep : Bool} (h0 : amt ≠ 0) (hne : src ≠ dst) :
    natTransfer c s src dst amt keep = .ok s' ↔
      (amt ≤ s.free src ∧ s.free dst + amt ≤ maxU128 ∧ c.ed ≤ s.free dst + amt + s.resv dst ∧
        s.frozen src ≤ s.free src - amt ∧
        ((keep = false ∧ s.pinned src = false) ∨ c.ed ≤ s.free src - amt + s.resv src)) ∧
      s' = (if s.free src - amt + s.resv src < c.ed then
        reap c { s with free := upd (upd s.free src (s.free src - amt)) dst (s.free dst + amt) } src
        else { s with free := upd (upd s.free src (s.free src - amt)) dst (s.free dst + amt) }) := by
  unfold natTransfer
  rw [if_neg (by tauto)]
  simp only [bind_ok_iff, ensure_ok_iff, exists_const]
  constructor
  · rintro ⟨h1, h2, h3, h4, h5, h6⟩
    refine ⟨⟨h1, h2, h3, h4, h5⟩, ?_⟩
    split at h6 <;> rename_i hd
    · rw [if_pos hd]
      cases h6
      rfl
    · rw [if_neg hd]
      cases h6
      rfl
  · rintro ⟨⟨h1, h2, h3, h4, h5⟩, rfl⟩
    refine ⟨h1, h2, h3, h4, h5, ?_⟩
    split <;> rfl

theorem natMint_ok {c : Cfg} {s s' : State} {w amt : Nat} (h0 : amt ≠ 0) :
    natMint c s w amt = .ok s' ↔
      (s.niss + amt ≤ maxU128 ∧ s.total w + amt ≤ maxU128 ∧ c.ed ≤ s.total w + amt) ∧
      s' = { s with free := upd s.free w (s.free w + amt), niss := s.niss + amt } := by
  unfold natMint
  rw [if_neg h0]
  simp only [bind_ok_iff, ensure_ok_iff, pure_ok_iff, exists_const]
  constructor
  · rintro ⟨h1, h2, h3, rfl⟩
    exact ⟨⟨h1, h2, h3⟩, rfl⟩
  · rintro ⟨⟨h1, h2, h3⟩, rfl⟩
    exact ⟨h1, h2, h3, rfl⟩

/-- A successful native burn. -/
theorem natBurn_ok {c : Cfg} {s s' : State} {w amt d : Nat} (h0 : amt ≠ 0) :
    natBurn c s w amt = .ok (s', d) ↔
      (amt ≤ s.niss ∧ amt ≤ s.free w ∧ s.frozen w ≤ s.free w - amt ∧
        (c.ed ≤ s.total w - amt ∨ s.pinned w = false)) ∧
      ((c.ed ≤ s.total w - amt ∧ d = amt ∧
          s' = { s with free := upd s.free w (s.free w - amt), niss := s.niss - amt }) ∨
       (s.total w - amt < c.ed ∧ s.resv w = 0 ∧ d = s.free w ∧
          s' = { s with free := upd s.free w 0, frozen := upd s.frozen w 0, niss := s.niss - s.free w })) := by
  unfold natBurn
  rw [if_neg h0]
  simp only [bind_ok_iff, ensure_ok_iff, exists_const]
  constructor
  · rintro ⟨h1, h2, h3, h4, h5, h6⟩
    refine ⟨⟨h1, h4, h5, h3⟩, ?_⟩
    split at h6
    · rename_i hd
      simp only [bind_ok_iff, ensure_ok_iff, exists_const, pure_ok_iff, Prod.mk.injEq] at h6
      obtain ⟨h7, rfl, rfl⟩ := h6
      have hr : s.resv w = 0 := by
        unfold State.total at h7
        omega
      have ht : s.total w = s.free w := by
        unfold State.total
        omega
      exact Or.inr ⟨hd, hr, ht, by rw [ht]⟩
    · rename_i hd
      simp only [pure_ok_iff, Prod.mk.injEq] at h6
      obtain ⟨rfl, rfl⟩ := h6
      exact Or.inl ⟨by omega, rfl, rfl⟩
  · rintro ⟨⟨h1, h4, h5, h3⟩, h6⟩
    refine ⟨h1, by unfold State.total; omega, h3, h4, h5, ?_⟩
    rcases h6 with ⟨hd, rfl, rfl⟩ | ⟨hd, hr, rfl, rfl⟩
    · rw [if_neg (by omega)]
      rfl
    · have ht : s.total w = s.free w := by
        unfold State.total
        omega
      rw [if_pos hd, ht]
      simp only [bind_ok_iff, ensure_ok_iff, exists_const, pure_ok_iff, and_self, le_refl]

theorem reap_total (c : Cfg) (s : State) (w v : Nat) :
    (reap c s w).total v = (if v = w then 0 else s.total v) + (if v = c.treasury then s.total w else 0) := by
  unfold reap State.total
  dsimp only
  by_cases h1 : v = c.treasury
  · subst h1
    rw [upd_same]
    by_cases h2 : c.treasury = w
    · rw [h2, upd_same, upd_same]
      simp
    · rw [upd_of_ne _ _ h2, upd_of_ne _ _ h2, if_neg h2, if_pos rfl]
      omega
  · rw [upd_of_ne _ _ h1, if_neg h1]
    by_cases h2 : v = w
    · subst h2
      rw [upd_same, upd_same, if_pos rfl]
    · rw [upd_of_ne _ _ h2, upd_of_ne _ _ h2, if_neg h2]
      rfl

/-- What leaves an account of an asset. -/
theorem prepDebit_ok {x : Asset} {w amt d : Nat} {keep : Bool} :
    prepDebit x w amt keep = .ok d ↔
      (x.status = .live ∧ x.iced w = false ∧ x.bal w ≠ 0 ∧ amt ≤ (if keep then x.bal w - x.minBal else x.bal w)) ∧
      d = (if x.bal w - amt < x.minBal then x.bal w else amt) := by
  unfold prepDebit
  simp only [bind_ok_iff, ensure_ok_iff, pure_ok_iff, exists_const]
  constructor
  · rintro ⟨h1, h2, h3, h4, rfl⟩
    refine ⟨⟨h1, h3, h2, ?_⟩, rfl⟩
    unfold Asset.reducible at h4
    rw [if_pos ⟨h1, h3⟩] at h4
    exact h4
  · rintro ⟨⟨h1, h3, h2, h4⟩, rfl⟩
    refine ⟨h1, h2, h3, ?_, rfl⟩
    unfold Asset.reducible
    rw [if_pos ⟨h1, h3⟩]
    exact h4

theorem canIncrease_ok {x : Asset} {w amt : Nat} {u : Unit} :
    canIncrease x w amt = .ok u ↔
      x.status ≠ .destroying ∧ x.bal w + amt ≤ maxU128 ∧ (x.bal w ≠ 0 ∨ x.minBal ≤ amt) := by
  unfold canIncrease
  simp only [bind_ok_iff, ensure_ok_iff, exists_const]

theorem assetTransfer_ok {x x' : Asset} {src dst amt : Nat} {keep : Bool} (h0 : amt ≠ 0) :
    x.transfer src dst amt keep = .ok x' ↔ ∃ d, prepDebit x src amt keep = .ok d ∧ canIncrease x dst d = .ok () ∧
      x' = (if src = dst then x else { x with bal := upd (upd x.bal src (x.bal src - d)) dst (x.bal dst + d) }) := by
  unfold Asset.transfer
  rw [if_neg h0]
  simp only [bind_ok_iff]
  constructor
  · rintro ⟨d, h1, _, h2, h3⟩
    refine ⟨d, h1, h2, ?_⟩
    split at h3 <;> rename_i he
    · rw [if_pos he]
      cases h3
      rfl
    · rw [if_neg he]
      cases h3
      rfl
  · rintro ⟨d, h1, h2, rfl⟩
    refine ⟨d, h1, (), h2, ?_⟩
    split <;> rfl

/-! ### Reading the state -/

theorem balance_native {c : Cfg} {s : State} {w : Nat} : balance c s c.native w = s.total w := if_pos rfl

theorem issuance_native {c : Cfg} {s : State} : issuance c s c.native = s.niss := if_pos rfl

theorem minimum_native {c : Cfg} {s : State} : minimum c s c.native = c.ed := if_pos rfl

theorem balance_asset {c : Cfg} {s : State} {a w : Nat} {x : Asset} (h : a ≠ c.native) (hx : s.assets a = some x) :
    balance c s a w = x.bal w := by
  unfold balance
  rw [if_neg h, hx]
  rfl

theorem issuance_asset {c : Cfg} {s : State} {a : Nat} {x : Asset} (h : a ≠ c.native) (hx : s.assets a = some x) :
    issuance c s a = x.supply := by
  unfold issuance
  rw [if_neg h, hx]
  rfl

theorem minimum_asset {c : Cfg} {s : State} {a : Nat} {x : Asset} (h : a ≠ c.native) (hx : s.assets a = some x) :
    minimum c s a = x.minBal := by
  unfold minimum
  rw [if_neg h, hx]
  rfl

/-- Only native data differ. -/
theorem same_assets {c : Cfg} {s s' : State} (h : s'.assets = s.assets) {b : Nat} (hb : b ≠ c.native) :
    balance c s' b = balance c s b ∧ issuance c s' b = issuance c s b := by
  unfold balance issuance
  constructor
  · funext w
    rw [if_neg hb, if_neg hb, h]
  · rw [if_neg hb, if_neg hb, h]

/-- Only one asset differs. -/
theorem same_others {c : Cfg} {s : State} {a : Nat} {v : Option Asset} {b : Nat} (hb : b ≠ a) :
    balance c { s with assets := upd s.assets a v } b = balance c s b ∧
      issuance c { s with assets := upd s.assets a v } b = issuance c s b := by
  unfold balance issuance
  constructor
  · funext w
    by_cases h : b = c.native
    · rw [if_pos h, if_pos h]
      rfl
    · rw [if_neg h, if_neg h]
      dsimp only
      rw [upd_of_ne _ _ hb]
  · by_cases h : b = c.native
    · rw [if_pos h, if_pos h]
    · rw [if_neg h, if_neg h]
      dsimp only
      rw [upd_of_ne _ _ hb]

theorem reap_rest (c : Cfg) (s : State) (w : Nat) : (reap c s w).assets = s.assets ∧ (reap c s w).niss = s.niss := ⟨rfl, rfl⟩

/-- Totals after moving free balance. -/
theorem move_total (s : State) {src dst amt : Nat} (h : amt ≤ s.free src) (hne : src ≠ dst) (v : Nat) :
    State.total { s with free := upd (upd s.free src (s.free src - amt)) dst (s.free dst + amt) } v +
      (if v = src then amt else 0) = s.total v + (if v = dst then amt else 0) := by
  unfold State.total
  dsimp only
  by_cases h1 : v = dst
  · subst h1
    rw [upd_same, if_pos rfl, if_neg (fun e => hne e.symm)]
    omega
  · rw [upd_of_ne _ _ h1, if_neg h1]
    by_cases h2 : v = src
    · subst h2
      rw [upd_same, if_pos rfl]
      omega
    · rw [upd_of_ne _ _ h2, if_neg h2]

/-- Where the remainder of an account goes. -/
def collector (c : Cfg) (a dst : Nat) : Nat := if a = c.native then c.treasury else dst

/-- What a transfer between two accounts does. -/
theorem transfer_effect {c : Cfg} {s s' : State} {a src dst amt : Nat} {keep : Bool} (h0 : amt ≠ 0) (hne : src ≠ dst)
    (h : transfer c s a src dst amt keep = .ok s') :
    (∃ dust, (∀ v, balance c s' a v + (if v = src then amt + dust else 0) =
        balance c s a v + (if v = dst then amt else 0) + (if v = collector c a dst then dust else 0)) ∧
      amt + dust ≤ balance c s a src ∧
      ((dust = 0 ∧ (amt = balance c s a src ∨ amt + minimum c s a ≤ balance c s a src)) ∨
        (0 < dust ∧ dust < minimum c s a ∧ amt + dust = balance c s a src ∧ keep = false))) ∧
    (keep = true → amt + minimum c s a ≤ balance c s a src) ∧
    issuance c s' a = issuance c s a ∧
    ∀ b, b ≠ a → balance c s' b = balance c s b ∧ issuance c s' b = issuance c s b := by
  unfold transfer at h
  split at h
  · rename_i ha
    subst ha
    rw [natTransfer_ok h0 hne] at h
    obtain ⟨⟨h1, h2, h3, h4, h5⟩, rfl⟩ := h
    have hm := move_total s h1 hne
    have ht : s.total src = s.free src + s.resv src := rfl
    have hc : collector c c.native dst = c.treasury := if_pos rfl
    have hms := hm src
    rw [if_pos rfl, if_neg hne] at hms
    split
    · rename_i hd
      have hr := reap_rest c { s with free := upd (upd s.free src (s.free src - amt)) dst (s.free dst + amt) } src
      have hk : keep = false := by
        rcases h5 with h5 | h5
        · exact h5.1
        · omega
      refine ⟨⟨s.total src - amt, ?_, ?_, ?_⟩, ?_, ?_, ?_⟩
      · intro v
        rw [balance_native, balance_native, reap_total, hc]
        have hv := hm v
        by_cases e1 : v = src
        · subst e1
          rw [if_pos rfl, if_pos rfl]
          rw [if_neg hne]
          by_cases e3 : v = c.treasury
          · rw [if_pos e3, if_pos e3]
            omega
          · rw [if_neg e3, if_neg e3]
            omega
        · rw [if_neg e1, if_neg e1]
          rw [if_neg e1] at hv
          by_cases e3 : v = c.treasury
          · rw [if_pos e3, if_pos e3]
            omega
          · rw [if_neg e3, if_neg e3]
            omega
      · rw [balance_native]
        omega
      · rw [balance_native, minimum_native]
        by_cases hz : s.total src - amt = 0
        · exact Or.inl ⟨hz, Or.inl (by omega)⟩
        · exact Or.inr ⟨by omega, by omega, by omega, hk⟩
      · intro hk'
        rw [hk] at hk'
        cases hk'
      · rw [issuance_native, issuance_native]
        rfl
      · intro b hb
        exact same_assets (by rfl) hb
    · rename_i hd
      refine ⟨⟨0, ?_, ?_, ?_⟩, ?_, ?_, ?_⟩
      · intro v
        rw [balance_native, balance_native]
        have hv := hm v
        simpa using hv
      · rw [balance_native]
        omega
      · rw [balance_native, minimum_native]
        exact Or.inl ⟨rfl, Or.inr (by omega)⟩
      · intro _
        rw [balance_native, minimum_native]
        omega
      · rw [issuance_native, issuance_native]
      · intro b hb
        exact same_assets (by rfl) hb
  · rename_i ha
    simp only [bind_ok_iff, okOr_ok_iff, pure_ok_iff] at h
    obtain ⟨x, hx, x', hx', rfl⟩ := h
    rw [assetTransfer_ok h0] at hx'
    obtain ⟨d, h1, h2, rfl⟩ := hx'
    rw [if_neg hne]
    rw [prepDebit_ok] at h1
    obtain ⟨⟨p1, p2, p3, p4⟩, pd⟩ := h1
    have hc : collector c a dst = dst := if_neg ha
    have hb := fun w => balance_asset (w := w) ha hx
    have hb' := fun w => balance_asset (c := c) (w := w) ha
      (show ({ s with assets := upd s.assets a (some { x with bal := upd (upd x.bal src (x.bal src - d)) dst (x.bal dst + d) }) } : State).assets a = some _ from upd_same _ _ _)
    have hmin := minimum_asset ha hx
    have p4' : amt ≤ x.bal src := by
      split at p4 <;> omega
    have hd2 : d ≤ x.bal src := by
      split at pd <;> omega
    refine ⟨⟨d - amt, ?_, ?_, ?_⟩, ?_, ?_, ?_⟩
    · intro v
      rw [hb, hb', hc]
      dsimp only
      have hda : amt ≤ d := by
        split at pd <;> omega
      by_cases e1 : v = dst
      · subst e1
        rw [upd_same, if_pos rfl, if_pos rfl, if_neg (fun e => hne e.symm)]
        omega
      · rw [upd_of_ne _ _ e1, if_neg e1, if_neg e1]
        by_cases e2 : v = src
        · subst e2
          rw [upd_same, if_pos rfl]
          omega
        · rw [upd_of_ne _ _ e2, if_neg e2]
    · rw [hb]
      split at pd <;> omega
    · rw [hb, hmin]
      by_cases hz : x.bal src - amt < x.minBal
      · rw [if_pos hz] at pd
        subst pd
        by_cases hz2 : x.bal src = amt
        · exact Or.inl ⟨by omega, Or.inl hz2.symm⟩
        · refine Or.inr ⟨by omega, by omega, by omega, ?_⟩
          cases keep with
          | false => rfl
          | true =>
            rw [if_pos rfl] at p4
            omega
      · rw [if_neg hz] at pd
        subst pd
        exact Or.inl ⟨by omega, Or.inr (by omega)⟩
    · intro hk
      subst hk
      rw [if_pos rfl] at p4
      rw [hb, hmin]
      omega
    · rw [issuance_asset ha hx, issuance_asset ha (show ({ s with assets := upd s.assets a (some { x with bal := upd (upd x.bal src (x.bal src - d)) dst (x.bal dst + d) }) } : State).assets a = some _ from upd_same _ _ _)]
    · intro b hb
      exact same_others hb

/-- A transfer to oneself or of nothing changes no balance. -/
theorem transfer_nothing {c : Cfg} {s s' : State} {a src dst amt : Nat} {keep : Bool} (h0 : amt = 0 ∨ src = dst)
    (h : transfer c s a src dst amt keep = .ok s') : s' = s := by
  unfold transfer at h
  split at h
  · unfold natTransfer at h
    rw [if_pos h0] at h
    cases h
    rfl
  · split at h
    · cases h
      rfl
    · rename_i hz
      simp only [bind_ok_iff, okOr_ok_iff, pure_ok_iff] at h
      obtain ⟨x, hx, x', hx', rfl⟩ := h
      rw [assetTransfer_ok hz] at hx'
      obtain ⟨d, -, -, rfl⟩ := hx'
      rw [if_pos (by tauto), ← hx, upd_eq_self]

/-- What minting does. -/
theorem mint_effect {c : Cfg} {s s' : State} {a w amt : Nat} (h : mint c s a w amt = .ok s') :
    (∀ v, balance c s' a v = balance c s a v + if v = w then amt else 0) ∧
    issuance c s' a = issuance c s a + amt ∧ (amt ≠ 0 → issuance c s a + amt ≤ maxU128) ∧
    ∀ b, b ≠ a → balance c s' b = balance c s b ∧ issuance c s' b = issuance c s b := by
  by_cases h0 : amt = 0
  · subst h0
    have : s' = s := by
      unfold mint natMint at h
      rw [if_pos rfl, if_pos rfl, ite_self] at h
      cases h
      rfl
    subst this
    exact ⟨fun v => by split <;> rfl, rfl, fun h => absurd rfl h, fun _ _ => ⟨rfl, rfl⟩⟩
  · unfold mint at h
    split at h
    · rename_i ha
      subst ha
      rw [natMint_ok h0] at h
      obtain ⟨⟨h1, h2, h3⟩, rfl⟩ := h
      refine ⟨?_, ?_, ?_, ?_⟩
      · intro v
        rw [balance_native, balance_native]
        unfold State.total
        dsimp only
        by_cases e : v = w
        · subst e
          rw [upd_same, if_pos rfl]
          omega
        · rw [upd_of_ne _ _ e, if_neg e]
          omega
      · rw [issuance_native, issuance_native]
      · rw [issuance_native]
        exact fun _ => h1
      · intro b hb
        exact same_assets (by rfl) hb
    · rename_i ha
      simp only [bind_ok_iff, okOr_ok_iff, pure_ok_iff] at h
      obtain ⟨x, hx, x', hx', rfl⟩ := h
      unfold Asset.mint at hx'
      rw [if_neg h0] at hx'
      simp only [bind_ok_iff, ensure_ok_iff, pure_ok_iff, exists_const] at hx'
      obtain ⟨h1, -, h2, h3, rfl⟩ := hx'
      refine ⟨?_, ?_, ?_, ?_⟩
      · intro v
        rw [balance_asset ha hx, balance_asset ha (upd_same _ _ _)]
        dsimp only
        by_cases e : v = w
        · subst e
          rw [upd_same, if_pos rfl]
        · rw [upd_of_ne _ _ e, if_neg e]
          rfl
      · rw [issuance_asset ha hx, issuance_asset ha (upd_same _ _ _)]
      · rw [issuance_asset ha hx]
        exact fun _ => h1
      · intro b hb
        exact same_others hb

/-- What burning does: at least the amount asked for, and a remainder below the minimum balance with it. -/
theorem burn_effect {c : Cfg} {s s' : State} {a w amt d : Nat} (h : burn c s a w amt = .ok (s', d)) :
    (∀ v, balance c s' a v + (if v = w then d else 0) = balance c s a v) ∧
    (issuance c s' a = issuance c s a - d) ∧
    (d = amt ∧ (amt = 0 ∨ amt = balance c s a w ∨ amt + minimum c s a ≤ balance c s a w) ∨
      amt ≠ 0 ∧ amt < d ∧ d < amt + minimum c s a ∧ d = balance c s a w) ∧
    ∀ b, b ≠ a → balance c s' b = balance c s b ∧ issuance c s' b = issuance c s b := by
  unfold burn at h
  split at h
  · rename_i ha
    subst ha
    by_cases h0 : amt = 0
    · subst h0
      unfold natBurn at h
      rw [if_pos rfl] at h
      cases h
      exact ⟨fun v => by split <;> rfl, rfl, Or.inl ⟨rfl, Or.inl rfl⟩, fun _ _ => ⟨rfl, rfl⟩⟩
    · rw [natBurn_ok h0] at h
      obtain ⟨⟨h1, h2, h3, h4⟩, ⟨h5, rfl, rfl⟩ | ⟨h5, h6, rfl, rfl⟩⟩ := h
      · have ht : s.total w = s.free w + s.resv w := rfl
        refine ⟨?_, ?_, ?_, ?_⟩
        · intro v
          rw [balance_native, balance_native]
          unfold State.total
          dsimp only
          by_cases e : v = w
          · subst e
            rw [upd_same, if_pos rfl]
            omega
          · rw [upd_of_ne _ _ e, if_neg e]
            omega
        · rw [issuance_native, issuance_native]
        · rw [balance_native, minimum_native]
          exact Or.inl ⟨rfl, Or.inr (Or.inr (by omega))⟩
        · intro b hb
          exact same_assets (by rfl) hb
      · have ht : s.total w = s.free w := by
          show s.free w + s.resv w = _
          omega
        refine ⟨?_, ?_, ?_, ?_⟩
        · intro v
          rw [balance_native, balance_native]
          unfold State.total
          dsimp only
          by_cases e : v = w
          · subst e
            rw [upd_same, if_pos rfl]
            omega
          · rw [upd_of_ne _ _ e, if_neg e]
            omega
        · rw [issuance_native, issuance_native]
        · rw [balance_native, minimum_native]
          by_cases hz : s.free w = amt
          · exact Or.inl ⟨hz, Or.inr (Or.inl (by omega))⟩
          · exact Or.inr ⟨h0, by omega, by omega, by omega⟩
        · intro b hb
          exact same_assets (by rfl) hb
  · rename_i ha
    simp only [bind_ok_iff, okOr_ok_iff, pure_ok_iff, Prod.exists, Prod.mk.injEq] at h
    obtain ⟨x, hx, x', d', hx', rfl, rfl⟩ := h
    unfold Asset.burn at hx'
    simp only [bind_ok_iff, ensure_ok_iff, exists_const] at hx'
    obtain ⟨-, hx'⟩ := hx'
    split at hx'
    · rename_i h0
      subst h0
      simp only [pure_ok_iff, Prod.mk.injEq] at hx'
      obtain ⟨rfl, rfl⟩ := hx'
      rw [← hx, upd_eq_self]
      exact ⟨fun v => by split <;> rfl, rfl, Or.inl ⟨rfl, Or.inl rfl⟩, fun _ _ => ⟨rfl, rfl⟩⟩
    · rename_i h0
      simp only [bind_ok_iff, pure_ok_iff, Prod.mk.injEq] at hx'
      obtain ⟨e, h1, rfl, rfl⟩ := hx'
      rw [prepDebit_ok] at h1
      obtain ⟨⟨p1, p2, p3, p4⟩, pd⟩ := h1
      have p4' : amt ≤ x.bal w := p4
      have hd2 : e ≤ x.bal w := by
        split at pd <;> omega
      refine ⟨?_, ?_, ?_, ?_⟩
      · intro v
        rw [balance_asset ha hx, balance_asset ha (upd_same _ _ _)]
        dsimp only
        by_cases e : v = w
        · subst e
          rw [upd_same, if_pos rfl]
          omega
        · rw [upd_of_ne _ _ e, if_neg e]
          rfl
      · rw [issuance_asset ha hx, issuance_asset ha (upd_same _ _ _)]
      · rw [balance_asset ha hx, minimum_asset ha hx]
        split at pd
        · by_cases hz : x.bal w = amt
          · exact Or.inl ⟨by omega, Or.inr (Or.inl (by omega))⟩
          · exact Or.inr ⟨h0, by omega, by omega, by omega⟩
        · exact Or.inl ⟨pd, Or.inr (Or.inr (by omega))⟩
      · intro b hb
        exact same_others hb

end Verif.Currency
